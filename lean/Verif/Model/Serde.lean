import Verif.Model.Tree
/-
Model of the JSON form of syntax trees: the code `serde` derives from the attributes on the types in `src/tree`
(`#[derive(Serialize, Deserialize)]`, `rename_all`, `rename`, `tag`, `content`, `untagged`, `flatten`).

The JSON values here are what `serde_json` reads from and writes to text, and what `serde_wasm_bindgen` turns into
objects (src/wasm/macros.rs:21-34); texts of JSON are not modelled.  Simplifications: numbers are natural numbers
without a bound (the fields are `u32`, `usize` and `u8` and hold nothing else); a structure is read from an object only
(`serde` would also take an array of its fields in order); the text of a date is up to the `time` crate and given by a
`DateCodec`.
-/
namespace Ftml.Serde

/-- JSON values. -/
inductive Json where
  | null
  | bool (b : Bool)
  | num (n : Nat)
  | str (s : Str)
  | arr (l : List Json)
  | obj (l : List (Str × Json))

/-- How the `time` crate writes and reads the values of src/tree/date.rs:26-31 (an untagged enum: the text alone tells
which variant it is). -/
structure DateCodec where
  write : DateVal → Str
  read : Str → Option DateVal

/-- `rename_all = "kebab-case"` for a variant: `RenameRule::apply_to_variant` of `serde_derive`. -/
def variantName : Str → Str
  | [] => []
  | c :: s => lowerC c :: s.flatMap fun c => if isUpperA c then ['-', lowerC c] else [c]

/-- `rename_all = "kebab-case"` for a field: `RenameRule::apply_to_field` of `serde_derive`. -/
def fieldName (s : Str) : Str := s.map fun c => if c = '_' then '-' else c

/-! ### Reading objects -/

/-- A field that must be there; one that is there twice is an error. -/
def field (l : List (Str × Json)) (k : Str) : Option Json :=
  match l.filter fun p => p.1 == k with
  | [p] => some p.2
  | _ => none

/-- A field of type `Option`, which may be missing. -/
def optField (l : List (Str × Json)) (k : Str) : Option Json :=
  match l.filter fun p => p.1 == k with
  | [] => some .null
  | [p] => some p.2
  | _ => none

/-- An object. -/
def asObj : Json → Option (List (Str × Json))
  | .obj l => some l
  | _ => none
/-- An array. -/
def asArr : Json → Option (List Json)
  | .arr l => some l
  | _ => none
/-- A text. -/
def asStr : Json → Option Str
  | .str s => some s
  | _ => none
/-- A truth value. -/
def asBool : Json → Option Bool
  | .bool b => some b
  | _ => none
/-- A number. -/
def asNat : Json → Option Nat
  | .num n => some n
  | _ => none
/-- A number of type `NonZeroU32`. -/
def asPos : Json → Option Nat
  | .num n => if n = 0 then none else some n
  | _ => none
/-- A value of type `Option`. -/
def asOpt {α : Type} (f : Json → Option α) : Json → Option (Option α)
  | .null => some none
  | j => (f j).map some
/-- A unit. -/
def asUnit : Json → Option Unit
  | .null => some ()
  | _ => none

/-- All of a list. -/
def readAll {α β : Type} (f : α → Option β) : List α → Option (List β)
  | [] => some []
  | a :: l => do
    let b ← f a
    let bs ← readAll f l
    pure (b :: bs)

/-- An enum with `tag` and `content` (adjacently tagged): the name of the variant, and the contents, if there are some. -/
def readTagged (tag content : Str) (j : Json) : Option (Str × Option Json) := do
  let fs ← asObj j
  let name ← asStr (← field fs tag)
  match fs.filter fun p => p.1 == content with
  | [] => pure (name, none)
  | [p] => pure (name, some p.2)
  | _ => none

/-- An enum without such attributes (externally tagged): the name of the variant alone, or an object with it as the
only key. -/
def readExternal : Json → Option (Str × Option Json)
  | .str s => some (s, none)
  | .obj [(k, j)] => some (k, some j)
  | _ => none

/-- The contents of a variant without any. -/
def noContents : Option Json → Option Unit
  | none => some ()
  | some j => asUnit j

/-- One of the variants with the given names. -/
def ofName {α : Type} (all : List α) (name : α → Str) (s : Str) : Option α := all.find? fun v => name v == s

/-! ### Types without elements -/

/-- `Option<Cow<str>>`. -/
def writeOpt (o : Option Str) : Json :=
  match o with
  | none => .null
  | some s => .str s

/-- `Option` of something else. -/
def writeOption {α : Type} (f : α → Json) : Option α → Json
  | none => .null
  | some a => f a

/-- `AttributeMap`, src/tree/attribute/mod.rs:38-42: the only field is flattened. -/
def writeAttrs (m : AttrMap) : Json := .obj (m.map fun p => (p.1, .str p.2))
/-- `AttributeMap`, src/tree/attribute/mod.rs:38-42, a `BTreeMap`. -/
def readAttrs (j : Json) : Option AttrMap := do
  let fs ← asObj j
  let l ← readAll (fun (p : Str × Json) => (asStr p.2).map fun v => (p.1, v)) fs
  pure (l.foldl (fun m p => btInsert p.1 p.2 m) [])

/-- `VariableMap`, src/tree/variables.rs:25, a `HashMap` (here: its pairs in the order it yields them). -/
def writeVars (m : List (Str × Str)) : Json := .obj (m.map fun p => (p.1, .str p.2))
/-- Insertion into a `HashMap`. -/
def hashInsert (k v : Str) : List (Str × Str) → List (Str × Str)
  | [] => [(k, v)]
  | (k', v') :: m => if k' = k then (k', v) :: m else (k', v') :: hashInsert k v m
/-- `VariableMap`, src/tree/variables.rs:25. -/
def readVars (j : Json) : Option (List (Str × Str)) := do
  let fs ← asObj j
  let l ← readAll (fun (p : Str × Json) => (asStr p.2).map fun v => (p.1, v)) fs
  pure (l.foldl (fun m p => hashInsert p.1 p.2 m) [])

/-- The variants of `Alignment`, src/tree/align.rs:24-31. -/
def alignName : Alignment → Str
  | .left => variantName c!"Left"
  | .right => variantName c!"Right"
  | .center => variantName c!"Center"
  | .justify => variantName c!"Justify"
/-- Reading an `Alignment`. -/
def readAlign (j : Json) : Option Alignment := do
  let (name, c) ← readExternal j
  noContents c
  ofName [.left, .right, .center, .justify] alignName name

/-- `FloatAlignment`, src/tree/align.rs:67-72. -/
def writeFloat (f : FloatAlign) : Json := .obj [(fieldName c!"align", .str (alignName f.align)), (fieldName c!"float", .bool f.float)]
/-- Reading a `FloatAlignment`. -/
def readFloat (j : Json) : Option FloatAlign := do
  let fs ← asObj j
  let a ← readAlign (← field fs (fieldName c!"align"))
  let f ← asBool (← field fs (fieldName c!"float"))
  pure ⟨a, f⟩

/-- The variants of `AnchorTarget`, src/tree/anchor.rs:23-45. -/
def targetName : AnchorTarget → Str
  | .newTab => variantName c!"NewTab"
  | .parent => variantName c!"Parent"
  | .top => variantName c!"Top"
  | .same => variantName c!"Same"
/-- Reading an `AnchorTarget`. -/
def readTarget (j : Json) : Option AnchorTarget := do
  let (name, c) ← readExternal j
  noContents c
  ofName [.newTab, .parent, .top, .same] targetName name

/-- The variants of `ClearFloat`, src/tree/clear_float.rs:21-27. -/
def clearName : ClearFloat → Str
  | .left => variantName c!"Left"
  | .right => variantName c!"Right"
  | .both => variantName c!"Both"
/-- Reading a `ClearFloat`. -/
def readClear (j : Json) : Option ClearFloat := do
  let (name, c) ← readExternal j
  noContents c
  ofName [.left, .right, .both] clearName name

/-- The variants of `ListType`, src/tree/list.rs:67-89. -/
def listName : ListType → Str
  | .bullet => variantName c!"Bullet"
  | .numbered => variantName c!"Numbered"
  | .generic => variantName c!"Generic"
/-- Reading a `ListType`. -/
def readListType (j : Json) : Option ListType := do
  let (name, c) ← readExternal j
  noContents c
  ofName [.bullet, .numbered, .generic] listName name

/-- The variants of `LinkType`, src/tree/link.rs:240-262. -/
def linkName : LinkType → Str
  | .direct => variantName c!"Direct"
  | .page => variantName c!"Page"
  | .interwiki => variantName c!"Interwiki"
  | .anchor => variantName c!"Anchor"
  | .toc => variantName c!"TableOfContents"
/-- Reading a `LinkType`. -/
def readLinkType (j : Json) : Option LinkType := do
  let (name, c) ← readExternal j
  noContents c
  ofName [.direct, .page, .interwiki, .anchor, .toc] linkName name

/-- `PageRef`, src/data/page_ref.rs:35-40. -/
def writePage (r : PageRef) : Json := .obj [(fieldName c!"site", writeOpt r.site), (fieldName c!"page", .str r.page)]
/-- Reading a `PageRef`. -/
def readPage (j : Json) : Option PageRef := do
  let fs ← asObj j
  let site ← asOpt asStr (← optField fs (fieldName c!"site"))
  let page ← asStr (← field fs (fieldName c!"page"))
  pure ⟨site, page⟩

/-- `LinkLocation`, src/tree/link.rs:28-36, untagged. -/
def writeLoc : LinkLoc → Json
  | .page r => writePage r
  | .url u => .str u
/-- Reading a `LinkLocation`: the first variant that fits. -/
def readLoc (j : Json) : Option LinkLoc :=
  match readPage j with
  | some r => some (.page r)
  | none => (asStr j).map .url

/-- `LinkLabel`, src/tree/link.rs:210-228. -/
def writeLabel : LinkLabel → Json
  | .text s => .obj [(variantName c!"Text", .str s)]
  | .url u => .obj [(variantName c!"Url", writeOpt u)]
  | .page => .str (variantName c!"Page")
/-- Reading a `LinkLabel`. -/
def readLabel (j : Json) : Option LinkLabel := do
  let (name, c) ← readExternal j
  if name = variantName c!"Text" then (asStr (← c)).map .text
  else if name = variantName c!"Url" then (asOpt asStr (← c)).map .url
  else if name = variantName c!"Page" then do
    noContents c
    pure .page
  else none

/-- `ImageSource`, src/tree/image.rs:26-47. -/
def writeSource : ImageSource → Json
  | .url u => .obj [(c!"type", .str (variantName c!"Url")), (c!"data", .str u)]
  | .file1 f => .obj [(c!"type", .str (variantName c!"File1")), (c!"data", .obj [(c!"file", .str f)])]
  | .file2 p f => .obj [(c!"type", .str (variantName c!"File2")), (c!"data", .obj [(c!"page", .str p), (c!"file", .str f)])]
  | .file3 s p f => .obj [(c!"type", .str (variantName c!"File3")),
      (c!"data", .obj [(c!"site", .str s), (c!"page", .str p), (c!"file", .str f)])]
/-- Reading an `ImageSource`. -/
def readSource (j : Json) : Option ImageSource := do
  let (name, c) ← readTagged c!"type" c!"data" j
  let c ← c
  if name = variantName c!"Url" then (asStr c).map .url
  else do
    let fs ← asObj c
    let f ← asStr (← field fs c!"file")
    if name = variantName c!"File1" then pure (.file1 f)
    else do
      let p ← asStr (← field fs c!"page")
      if name = variantName c!"File2" then pure (.file2 p f)
      else if name = variantName c!"File3" then do
        let s ← asStr (← field fs c!"site")
        pure (.file3 s p f)
      else none

/-- `Embed`, src/tree/embed.rs:24-40. -/
def writeEmbed : Embed → Json
  | .youtube v => .obj [(c!"embed", .str (variantName c!"Youtube")), (c!"data", .obj [(fieldName c!"video_id", .str v)])]
  | .vimeo v => .obj [(c!"embed", .str (variantName c!"Vimeo")), (c!"data", .obj [(fieldName c!"video_id", .str v)])]
  | .githubGist u h => .obj [(c!"embed", .str (variantName c!"GithubGist")), (c!"data", .obj [(c!"username", .str u), (c!"hash", .str h)])]
  | .gitlabSnippet i => .obj [(c!"embed", .str (variantName c!"GitlabSnippet")), (c!"data", .obj [(fieldName c!"snippet_id", .str i)])]
/-- Reading an `Embed`. -/
def readEmbed (j : Json) : Option Embed := do
  let (name, c) ← readTagged c!"embed" c!"data" j
  let fs ← asObj (← c)
  if name = variantName c!"Youtube" then (asStr (← field fs (fieldName c!"video_id"))).map .youtube
  else if name = variantName c!"Vimeo" then (asStr (← field fs (fieldName c!"video_id"))).map .vimeo
  else if name = variantName c!"GithubGist" then do
    let u ← asStr (← field fs c!"username")
    let h ← asStr (← field fs c!"hash")
    pure (.githubGist u h)
  else if name = variantName c!"GitlabSnippet" then (asStr (← field fs (fieldName c!"snippet_id"))).map .gitlabSnippet
  else none

/-- `Module`, src/tree/module.rs:29-61. -/
def writeModule : Module → Json
  | .backlinks p => .obj [(c!"module", .str (variantName c!"Backlinks")), (c!"data", .obj [(c!"page", writeOpt p)])]
  | .categories h => .obj [(c!"module", .str (variantName c!"Categories")), (c!"data", .obj [(fieldName c!"include_hidden", .bool h)])]
  | .join b a => .obj [(c!"module", .str (variantName c!"Join")),
      (c!"data", .obj [(fieldName c!"button_text", writeOpt b), (fieldName c!"attributes", writeAttrs a)])]
  | .pageTree r s d => .obj [(c!"module", .str (variantName c!"PageTree")),
      (c!"data", .obj [(fieldName c!"root", writeOpt r), (fieldName c!"show_root", .bool s), (fieldName c!"depth", writeOption .num d)])]
  | .rate => .obj [(c!"module", .str (variantName c!"Rate"))]
/-- Reading a `Module`. -/
def readModule (j : Json) : Option Module := do
  let (name, c) ← readTagged c!"module" c!"data" j
  if name = variantName c!"Rate" then do
    noContents c
    pure .rate
  else do
    let fs ← asObj (← c)
    if name = variantName c!"Backlinks" then (asOpt asStr (← optField fs c!"page")).map .backlinks
    else if name = variantName c!"Categories" then (asBool (← field fs (fieldName c!"include_hidden"))).map .categories
    else if name = variantName c!"Join" then do
      let b ← asOpt asStr (← optField fs (fieldName c!"button_text"))
      let a ← readAttrs (← field fs (fieldName c!"attributes"))
      pure (.join b a)
    else if name = variantName c!"PageTree" then do
      let r ← asOpt asStr (← optField fs (fieldName c!"root"))
      let s ← asBool (← field fs (fieldName c!"show_root"))
      let d ← asOpt asPos (← optField fs (fieldName c!"depth"))
      pure (.pageTree r s d)
    else none

/-- `Heading`, src/tree/heading.rs:25-31, and `HeadingLevel`, 77-86 (written as its number). -/
def writeHeading (h : Heading) : Json := .obj [(fieldName c!"level", .num h.level), (fieldName c!"has_toc", .bool h.hasToc)]
/-- Reading a `Heading`. -/
def readHeading (j : Json) : Option Heading := do
  let fs ← asObj j
  let l ← asNat (← field fs (fieldName c!"level"))
  let t ← asBool (← field fs (fieldName c!"has_toc"))
  if 1 ≤ l ∧ l ≤ 6 then pure ⟨l, t⟩ else none

/-- The names of the variants of `ContainerType`, src/tree/container.rs:89-115. -/
def containerName : CType → Str
  | .bold => variantName c!"Bold"
  | .italics => variantName c!"Italics"
  | .underline => variantName c!"Underline"
  | .superscript => variantName c!"Superscript"
  | .subscript => variantName c!"Subscript"
  | .strikethrough => variantName c!"Strikethrough"
  | .monospace => variantName c!"Monospace"
  | .span => variantName c!"Span"
  | .div => variantName c!"Div"
  | .mark => variantName c!"Mark"
  | .blockquote => variantName c!"Blockquote"
  | .insertion => variantName c!"Insertion"
  | .deletion => variantName c!"Deletion"
  | .hidden => variantName c!"Hidden"
  | .invisible => variantName c!"Invisible"
  | .size => variantName c!"Size"
  | .ruby => variantName c!"Ruby"
  | .rubyText => variantName c!"RubyText"
  | .paragraph => variantName c!"Paragraph"
  | .align _ => variantName c!"Align"
  | .header _ => variantName c!"Header"

/-- `ContainerType`, src/tree/container.rs:89-115. -/
def writeCType : CType → Json
  | .align a => .obj [(containerName (.align a), .str (alignName a))]
  | .header h => .obj [(containerName (.header h), writeHeading h)]
  | c => .str (containerName c)
/-- Reading a `ContainerType`. -/
def readCType (j : Json) : Option CType := do
  let (name, c) ← readExternal j
  if name = variantName c!"Align" then (readAlign (← c)).map .align
  else if name = variantName c!"Header" then (readHeading (← c)).map .header
  else do
    noContents c
    ofName [.bold, .italics, .underline, .superscript, .subscript, .strikethrough, .monospace, .span, .div, .mark, .blockquote,
      .insertion, .deletion, .hidden, .invisible, .size, .ruby, .rubyText, .paragraph] containerName name

/-- The names of the variants of `PartialElement`, src/tree/partial.rs:28-47 (not renamed). -/
def partName : PartKind → Str
  | .listItem => c!"ListItem"
  | .tableRow => c!"TableRow"
  | .tableCell => c!"TableCell"
  | .tab => c!"Tab"
  | .rubyText => c!"RubyText"

/-! ### Elements -/

/-- The variants of `Element`, src/tree/element/object.rs:33-300. -/
inductive Variant where
  | container | module | text | raw | variable | email | table | tabView | anchor | anchorName | link | image | list
  | definitionList | radioButton | checkBox | collapsible | tableOfContents | footnote | footnoteBlock
  | bibliographyCite | bibliographyBlock | user | date | color | code | math | mathInline | equationReference | embed
  | html | iframe | include | style | lineBreak | lineBreaks | clearFloat | horizontalRule | part
deriving DecidableEq

/-- Their names. -/
def Variant.name : Variant → Str
  | .container => variantName c!"Container"
  | .module => variantName c!"Module"
  | .text => variantName c!"Text"
  | .raw => variantName c!"Raw"
  | .variable => variantName c!"Variable"
  | .email => variantName c!"Email"
  | .table => variantName c!"Table"
  | .tabView => variantName c!"TabView"
  | .anchor => variantName c!"Anchor"
  | .anchorName => variantName c!"AnchorName"
  | .link => variantName c!"Link"
  | .image => variantName c!"Image"
  | .list => variantName c!"List"
  | .definitionList => variantName c!"DefinitionList"
  | .radioButton => variantName c!"RadioButton"
  | .checkBox => variantName c!"CheckBox"
  | .collapsible => variantName c!"Collapsible"
  | .tableOfContents => variantName c!"TableOfContents"
  | .footnote => variantName c!"Footnote"
  | .footnoteBlock => variantName c!"FootnoteBlock"
  | .bibliographyCite => variantName c!"BibliographyCite"
  | .bibliographyBlock => variantName c!"BibliographyBlock"
  | .user => variantName c!"User"
  | .date => variantName c!"Date"
  | .color => variantName c!"Color"
  | .code => variantName c!"Code"
  | .math => variantName c!"Math"
  | .mathInline => variantName c!"MathInline"
  | .equationReference => variantName c!"EquationReference"
  | .embed => variantName c!"Embed"
  | .html => variantName c!"Html"
  | .iframe => variantName c!"Iframe"
  | .include => variantName c!"Include"
  | .style => variantName c!"Style"
  | .lineBreak => variantName c!"LineBreak"
  | .lineBreaks => variantName c!"LineBreaks"
  | .clearFloat => variantName c!"ClearFloat"
  | .horizontalRule => variantName c!"HorizontalRule"
  | .part => variantName c!"Partial"

/-- All of them. -/
def Variant.all : List Variant :=
  [.container, .module, .text, .raw, .variable, .email, .table, .tabView, .anchor, .anchorName, .link, .image, .list,
   .definitionList, .radioButton, .checkBox, .collapsible, .tableOfContents, .footnote, .footnoteBlock,
   .bibliographyCite, .bibliographyBlock, .user, .date, .color, .code, .math, .mathInline, .equationReference, .embed,
   .html, .iframe, .include, .style, .lineBreak, .lineBreaks, .clearFloat, .horizontalRule, .part]

/-- An element with contents. -/
def tagged (v : Variant) (data : Json) : Json := .obj [(c!"element", .str v.name), (c!"data", data)]
/-- An element without. -/
def unit (v : Variant) : Json := .obj [(c!"element", .str v.name)]

/-- `Serialize for Element`, src/tree/element/object.rs:33-300, and for the types it is made of: `Container`
(src/tree/container.rs:28-36), `Table`, `TableRow`, `TableCell` (src/tree/table.rs:25-74), `Tab` (src/tree/tab.rs:24-28),
`ListItem` (src/tree/list.rs:26-45), `DefinitionListItem` (src/tree/definition_list.rs:27-36), `RubyText`
(src/tree/ruby.rs:24-28), `PartialElement` (src/tree/partial.rs:28-47). -/
def writeElem (dates : DateCodec) : Elem → Json
  | .mk k ks =>
    match k with
    | .container c a => tagged .container (.obj [(c!"type", writeCType c), (fieldName c!"attributes", writeAttrs a),
        (fieldName c!"elements", .arr (go ks))])
    | .module m => tagged .module (writeModule m)
    | .text s => tagged .text (.str s)
    | .raw s => tagged .raw (.str s)
    | .variable s => tagged .variable (.str s)
    | .email s => tagged .email (.str s)
    | .table a => tagged .table (.obj [(fieldName c!"attributes", writeAttrs a), (fieldName c!"rows", .arr (go ks))])
    | .tabView => tagged .tabView (.arr (go ks))
    | .anchor t a => tagged .anchor (.obj [(c!"target", writeOption (fun t => .str (targetName t)) t), (c!"attributes", writeAttrs a),
        (c!"elements", .arr (go ks))])
    | .anchorName s => tagged .anchorName (.str s)
    | .link t l e lb tg => tagged .link (.obj [(c!"type", .str (linkName t)), (c!"link", writeLoc l), (c!"extra", writeOpt e),
        (c!"label", writeLabel lb), (c!"target", writeOption (fun t => .str (targetName t)) tg)])
    | .image s l al a => tagged .image (.obj [(c!"source", writeSource s), (c!"link", writeOption writeLoc l),
        (c!"alignment", writeOption writeFloat al), (c!"attributes", writeAttrs a)])
    | .list t a => tagged .list (.obj [(c!"type", .str (listName t)), (c!"attributes", writeAttrs a), (c!"items", .arr (go ks))])
    | .definitionList => tagged .definitionList (.arr (go ks))
    | .radioButton n c a => tagged .radioButton (.obj [(c!"name", .str n), (c!"checked", .bool c), (c!"attributes", writeAttrs a)])
    | .checkBox c a => tagged .checkBox (.obj [(c!"checked", .bool c), (c!"attributes", writeAttrs a)])
    | .collapsible a so st ht tp bt => tagged .collapsible (.obj [(fieldName c!"elements", .arr (go ks)),
        (fieldName c!"attributes", writeAttrs a), (fieldName c!"start_open", .bool so), (fieldName c!"show_text", writeOpt st),
        (fieldName c!"hide_text", writeOpt ht), (fieldName c!"show_top", .bool tp), (fieldName c!"show_bottom", .bool bt)])
    | .toc a al => tagged .tableOfContents (.obj [(c!"attributes", writeAttrs a), (c!"align", writeOption (fun a => .str (alignName a)) al)])
    | .footnote => unit .footnote
    | .footnoteBlock t h => tagged .footnoteBlock (.obj [(c!"title", writeOpt t), (c!"hide", .bool h)])
    | .bibCite l b => tagged .bibliographyCite (.obj [(c!"label", .str l), (c!"brackets", .bool b)])
    | .bibBlock i t h => tagged .bibliographyBlock (.obj [(c!"index", .num i), (c!"title", writeOpt t), (c!"hide", .bool h)])
    | .user n s => tagged .user (.obj [(fieldName c!"name", .str n), (fieldName c!"show_avatar", .bool s)])
    | .date v f h => tagged .date (.obj [(c!"value", .str (dates.write v)), (c!"format", writeOpt f), (c!"hover", .bool h)])
    | .color c => tagged .color (.obj [(c!"color", .str c), (c!"elements", .arr (go ks))])
    | .code c l => tagged .code (.obj [(c!"contents", .str c), (c!"language", writeOpt l)])
    | .math n l => tagged .math (.obj [(fieldName c!"name", writeOpt n), (fieldName c!"latex_source", .str l)])
    | .mathInline l => tagged .mathInline (.obj [(fieldName c!"latex_source", .str l)])
    | .equationRef n => tagged .equationReference (.str n)
    | .embed e => tagged .embed (writeEmbed e)
    | .html c => tagged .html (.obj [(c!"contents", .str c)])
    | .iframe a u => tagged .iframe (.obj [(c!"attributes", writeAttrs a), (c!"url", .str u)])
    | .include p v l => tagged .include (.obj [(fieldName c!"paragraph_safe", .bool p), (fieldName c!"variables", writeVars v),
        (fieldName c!"location", writePage l), (fieldName c!"elements", .arr (go ks))])
    | .style c => tagged .style (.str c)
    | .lineBreak => unit .lineBreak
    | .lineBreaks n => tagged .lineBreaks (.num n)
    | .clearFloat c => tagged .clearFloat (.str (clearName c))
    | .horizontalRule => unit .horizontalRule
    | .part p => tagged .part (match go ks with
      | [j] => .obj [(partName p, j)]
      | _ => .null)
    | .row a => .obj [(fieldName c!"attributes", writeAttrs a), (fieldName c!"cells", .arr (go ks))]
    | .cell h n al a => .obj [(fieldName c!"header", .bool h), (fieldName c!"column_span", .num n),
        (fieldName c!"align", writeOption (fun a => .str (alignName a)) al), (fieldName c!"attributes", writeAttrs a),
        (fieldName c!"elements", .arr (go ks))]
    | .tab l => .obj [(c!"label", .str l), (c!"elements", .arr (go ks))]
    | .item a => .obj [(c!"item-type", .str (variantName c!"Elements")), (c!"attributes", writeAttrs a), (c!"elements", .arr (go ks))]
    | .subList => match go ks with
      | [.obj fs] => .obj ((c!"item-type", .str (variantName c!"SubList")) :: fs)
      | _ => .null
    | .defItem key => match go ks with
      | [a, b] => .obj [(c!"key_string", .str key), (c!"key", a), (c!"value", b)]
      | _ => .null
    | .defKey | .defValue => .arr (go ks)
    | .rubyText a => .obj [(c!"attributes", writeAttrs a), (c!"elements", .arr (go ks))]
where
  /-- all of a list -/
  go : List Elem → List Json
    | [] => []
    | e :: es => writeElem dates e :: go es

/-- What is to be read: an element, or one of the types elements are made of. -/
inductive Shape where
  | elem | row | cell | tab | item | defItem | defKey | defValue | rubyText
deriving DecidableEq

/-- The contents of an element, as `readElem` reads them; `kids` reads an array. -/
def readData (dates : DateCodec) (kids : Shape → Json → Option (List Elem)) (one : Shape → Json → Option Elem) (v : Variant)
    (c : Option Json) : Option Elem :=
  let leaf (k : Kind) : Elem := .mk k []
  match v with
  | .footnote => (noContents c).map fun _ => leaf .footnote
  | .lineBreak => (noContents c).map fun _ => leaf .lineBreak
  | .horizontalRule => (noContents c).map fun _ => leaf .horizontalRule
  | .container => do
    let fs ← asObj (← c)
    let t ← readCType (← field fs c!"type")
    let a ← readAttrs (← field fs (fieldName c!"attributes"))
    let es ← kids .elem (← field fs (fieldName c!"elements"))
    pure (.mk (.container t a) es)
  | .module => do (readModule (← c)).map fun m => leaf (.module m)
  | .text => do (asStr (← c)).map fun s => leaf (.text s)
  | .raw => do (asStr (← c)).map fun s => leaf (.raw s)
  | .variable => do (asStr (← c)).map fun s => leaf (.variable s)
  | .email => do (asStr (← c)).map fun s => leaf (.email s)
  | .table => do
    let fs ← asObj (← c)
    let a ← readAttrs (← field fs (fieldName c!"attributes"))
    let es ← kids .row (← field fs (fieldName c!"rows"))
    pure (.mk (.table a) es)
  | .tabView => do (kids .tab (← c)).map fun es => .mk .tabView es
  | .anchor => do
    let fs ← asObj (← c)
    let t ← asOpt readTarget (← optField fs c!"target")
    let a ← readAttrs (← field fs c!"attributes")
    let es ← kids .elem (← field fs c!"elements")
    pure (.mk (.anchor t a) es)
  | .anchorName => do (asStr (← c)).map fun s => leaf (.anchorName s)
  | .link => do
    let fs ← asObj (← c)
    let t ← readLinkType (← field fs c!"type")
    let l ← readLoc (← field fs c!"link")
    let e ← asOpt asStr (← optField fs c!"extra")
    let lb ← readLabel (← field fs c!"label")
    let tg ← asOpt readTarget (← optField fs c!"target")
    pure (leaf (.link t l e lb tg))
  | .image => do
    let fs ← asObj (← c)
    let s ← readSource (← field fs c!"source")
    let l ← asOpt readLoc (← optField fs c!"link")
    let al ← asOpt readFloat (← optField fs c!"alignment")
    let a ← readAttrs (← field fs c!"attributes")
    pure (leaf (.image s l al a))
  | .list => do
    let fs ← asObj (← c)
    let t ← readListType (← field fs c!"type")
    let a ← readAttrs (← field fs c!"attributes")
    let es ← kids .item (← field fs c!"items")
    pure (.mk (.list t a) es)
  | .definitionList => do (kids .defItem (← c)).map fun es => .mk .definitionList es
  | .radioButton => do
    let fs ← asObj (← c)
    let n ← asStr (← field fs c!"name")
    let ch ← asBool (← field fs c!"checked")
    let a ← readAttrs (← field fs c!"attributes")
    pure (leaf (.radioButton n ch a))
  | .checkBox => do
    let fs ← asObj (← c)
    let ch ← asBool (← field fs c!"checked")
    let a ← readAttrs (← field fs c!"attributes")
    pure (leaf (.checkBox ch a))
  | .collapsible => do
    let fs ← asObj (← c)
    let es ← kids .elem (← field fs (fieldName c!"elements"))
    let a ← readAttrs (← field fs (fieldName c!"attributes"))
    let so ← asBool (← field fs (fieldName c!"start_open"))
    let st ← asOpt asStr (← optField fs (fieldName c!"show_text"))
    let ht ← asOpt asStr (← optField fs (fieldName c!"hide_text"))
    let tp ← asBool (← field fs (fieldName c!"show_top"))
    let bt ← asBool (← field fs (fieldName c!"show_bottom"))
    pure (.mk (.collapsible a so st ht tp bt) es)
  | .tableOfContents => do
    let fs ← asObj (← c)
    let a ← readAttrs (← field fs c!"attributes")
    let al ← asOpt readAlign (← optField fs c!"align")
    pure (leaf (.toc a al))
  | .footnoteBlock => do
    let fs ← asObj (← c)
    let t ← asOpt asStr (← optField fs c!"title")
    let h ← asBool (← field fs c!"hide")
    pure (leaf (.footnoteBlock t h))
  | .bibliographyCite => do
    let fs ← asObj (← c)
    let l ← asStr (← field fs c!"label")
    let b ← asBool (← field fs c!"brackets")
    pure (leaf (.bibCite l b))
  | .bibliographyBlock => do
    let fs ← asObj (← c)
    let i ← asNat (← field fs c!"index")
    let t ← asOpt asStr (← optField fs c!"title")
    let h ← asBool (← field fs c!"hide")
    pure (leaf (.bibBlock i t h))
  | .user => do
    let fs ← asObj (← c)
    let n ← asStr (← field fs (fieldName c!"name"))
    let s ← asBool (← field fs (fieldName c!"show_avatar"))
    pure (leaf (.user n s))
  | .date => do
    let fs ← asObj (← c)
    let d ← dates.read (← asStr (← field fs c!"value"))
    let f ← asOpt asStr (← optField fs c!"format")
    let h ← asBool (← field fs c!"hover")
    pure (leaf (.date d f h))
  | .color => do
    let fs ← asObj (← c)
    let cl ← asStr (← field fs c!"color")
    let es ← kids .elem (← field fs c!"elements")
    pure (.mk (.color cl) es)
  | .code => do
    let fs ← asObj (← c)
    let s ← asStr (← field fs c!"contents")
    let l ← asOpt asStr (← optField fs c!"language")
    pure (leaf (.code s l))
  | .math => do
    let fs ← asObj (← c)
    let n ← asOpt asStr (← optField fs (fieldName c!"name"))
    let l ← asStr (← field fs (fieldName c!"latex_source"))
    pure (leaf (.math n l))
  | .mathInline => do
    let fs ← asObj (← c)
    (asStr (← field fs (fieldName c!"latex_source"))).map fun l => leaf (.mathInline l)
  | .equationReference => do (asStr (← c)).map fun s => leaf (.equationRef s)
  | .embed => do (readEmbed (← c)).map fun e => leaf (.embed e)
  | .html => do
    let fs ← asObj (← c)
    (asStr (← field fs c!"contents")).map fun s => leaf (.html s)
  | .iframe => do
    let fs ← asObj (← c)
    let a ← readAttrs (← field fs c!"attributes")
    let u ← asStr (← field fs c!"url")
    pure (leaf (.iframe a u))
  | .include => do
    let fs ← asObj (← c)
    let p ← asBool (← field fs (fieldName c!"paragraph_safe"))
    let vs ← readVars (← field fs (fieldName c!"variables"))
    let l ← readPage (← field fs (fieldName c!"location"))
    let es ← kids .elem (← field fs (fieldName c!"elements"))
    pure (.mk (.include p vs l) es)
  | .style => do (asStr (← c)).map fun s => leaf (.style s)
  | .lineBreaks => do (asPos (← c)).map fun n => leaf (.lineBreaks n)
  | .clearFloat => do (readClear (← c)).map fun f => leaf (.clearFloat f)
  | .part => do
    let (name, j) ← readExternal (← c)
    let j ← j
    let p ← ofName [.listItem, .tableRow, .tableCell, .tab, .rubyText] partName name
    let sh : Shape := match p with
      | .listItem => .item
      | .tableRow => .row
      | .tableCell => .cell
      | .tab => .tab
      | .rubyText => .rubyText
    (one sh j).map fun e => .mk (.part p) [e]

/-- `Deserialize for Element`, src/tree/element/object.rs:33-300, and for the types it is made of (see `writeElem`).
The first argument bounds how deep the elements may be nested. -/
def readElem (dates : DateCodec) : Nat → Shape → Json → Option Elem
  | 0, _, _ => none
  | n + 1, sh, j =>
    let kids (sh : Shape) (j : Json) : Option (List Elem) := do readAll (readElem dates n sh) (← asArr j)
    match sh with
    | .elem => do
      let (name, c) ← readTagged c!"element" c!"data" j
      let v ← ofName Variant.all Variant.name name
      readData dates kids (readElem dates n) v c
    | .row => do
      let fs ← asObj j
      let a ← readAttrs (← field fs (fieldName c!"attributes"))
      let es ← kids .cell (← field fs (fieldName c!"cells"))
      pure (.mk (.row a) es)
    | .cell => do
      let fs ← asObj j
      let h ← asBool (← field fs (fieldName c!"header"))
      let s ← asPos (← field fs (fieldName c!"column_span"))
      let al ← asOpt readAlign (← optField fs (fieldName c!"align"))
      let a ← readAttrs (← field fs (fieldName c!"attributes"))
      let es ← kids .elem (← field fs (fieldName c!"elements"))
      pure (.mk (.cell h s al a) es)
    | .tab => do
      let fs ← asObj j
      let l ← asStr (← field fs c!"label")
      let es ← kids .elem (← field fs c!"elements")
      pure (.mk (.tab l) es)
    | .item => do
      let fs ← asObj j
      let t ← asStr (← field fs c!"item-type")
      if t = variantName c!"Elements" then do
        let a ← readAttrs (← field fs c!"attributes")
        let es ← kids .elem (← field fs c!"elements")
        pure (.mk (.item a) es)
      else if t = variantName c!"SubList" then do
        let e ← readElem dates n .elem (.obj (fs.filter fun p => !(p.1 == c!"item-type")))
        pure (.mk .subList [e])
      else none
    | .defItem => do
      let fs ← asObj j
      let key ← asStr (← field fs c!"key_string")
      let a ← readElem dates n .defKey (← field fs c!"key")
      let b ← readElem dates n .defValue (← field fs c!"value")
      pure (.mk (.defItem key) [a, b])
    | .defKey => (kids .elem j).map fun es => .mk .defKey es
    | .defValue => (kids .elem j).map fun es => .mk .defValue es
    | .rubyText => do
      let fs ← asObj j
      let a ← readAttrs (← field fs c!"attributes")
      let es ← kids .elem (← field fs c!"elements")
      pure (.mk (.rubyText a) es)

/-! ### Trees -/

/-- `CodeBlock`, src/tree/code.rs:26-30. -/
def writeCode (b : CodeBlock) : Json := .obj [(c!"contents", .str b.contents), (c!"name", writeOpt b.name)]
/-- Reading a `CodeBlock`. -/
def readCode (j : Json) : Option CodeBlock := do
  let fs ← asObj j
  let c ← asStr (← field fs c!"contents")
  let n ← asOpt asStr (← optField fs c!"name")
  pure ⟨c, n⟩

/-- An entry of a `Bibliography`, src/tree/bibliography.rs:27: a pair. -/
def writeEntry (dates : DateCodec) (e : Str × List Elem) : Json := .arr [.str e.1, .arr (writeElem.go dates e.2)]
/-- Reading an entry. -/
def readEntry (dates : DateCodec) (n : Nat) (j : Json) : Option (Str × List Elem) := do
  match ← asArr j with
  | [l, es] => do
    let l ← asStr l
    let es ← readAll (readElem dates n .elem) (← asArr es)
    pure (l, es)
  | _ => none

/-- `Serialize for SyntaxTree`, src/tree/mod.rs:73-106. -/
def writeTree (dates : DateCodec) (t : Tree) : Json :=
  .obj [(fieldName c!"elements", .arr (writeElem.go dates t.elements)),
    (fieldName c!"table_of_contents", .arr (writeElem.go dates t.toc)),
    (fieldName c!"html_blocks", .arr (t.htmlBlocks.map .str)),
    (fieldName c!"code_blocks", .arr (t.codeBlocks.map writeCode)),
    (fieldName c!"footnotes", .arr (t.footnotes.map fun es => .arr (writeElem.go dates es))),
    (fieldName c!"bibliographies", .arr (t.bibliographies.map fun b => .arr (b.entries.map (writeEntry dates)))),
    (fieldName c!"wikitext_len", .num t.wikitextLen)]

/-- `Deserialize for SyntaxTree`, src/tree/mod.rs:73-106; the length of the text may be missing (line 104). -/
def readTree (dates : DateCodec) (n : Nat) (j : Json) : Option Tree := do
  let fs ← asObj j
  let list (j : Json) : Option (List Elem) := do readAll (readElem dates n .elem) (← asArr j)
  let elements ← list (← field fs (fieldName c!"elements"))
  let toc ← list (← field fs (fieldName c!"table_of_contents"))
  let htmls ← readAll asStr (← asArr (← field fs (fieldName c!"html_blocks")))
  let codes ← readAll readCode (← asArr (← field fs (fieldName c!"code_blocks")))
  let notes ← readAll list (← asArr (← field fs (fieldName c!"footnotes")))
  let bibs ← readAll (fun j => do
    let l ← readAll (readEntry dates n) (← asArr j)
    pure (Bibl.mk l)) (← asArr (← field fs (fieldName c!"bibliographies")))
  let len ← match fs.filter fun p => p.1 == fieldName c!"wikitext_len" with
    | [] => some 0
    | [p] => asNat p.2
    | _ => none
  pure ⟨elements, toc, htmls, codes, notes, bibs, len⟩

end Ftml.Serde
