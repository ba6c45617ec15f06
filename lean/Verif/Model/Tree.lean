import Verif.Model.Data
import Verif.Model.Lexer
/-
Model of the syntax tree: `src/tree/{element/object,element/collection,container,module,embed,list,
table,tab,ruby,definition_list,partial,date,code,mod}.rs`.

Simplification: the mutually recursive Rust types are one rose tree.  `Kind` carries every
non-recursive field of the Rust value and `kids` its children in source order; the auxiliary Rust
types (`TableRow`, `TableCell`, `Tab`, `ListItem`, `DefinitionListItem`, `RubyText`) are the structural
kinds `row … rubyText`, which only occur below the element that owns them (`allowedKid`, `NodeOk`; C61
proves it of every parse result).
-/
namespace Ftml

/-- `ContainerType`, src/tree/container.rs:93-115. -/
inductive CType where
  | bold | italics | underline | superscript | subscript | strikethrough | monospace | span | div
  | mark | blockquote | insertion | deletion | hidden | invisible | size | ruby | rubyText | paragraph
  | align (a : Alignment)
  | header (h : Heading)
deriving DecidableEq, Repr

/-- `ContainerType::paragraph_safe`, src/tree/container.rs:156-180. -/
def CType.paragraphSafe : CType → Bool
  | .div | .blockquote | .paragraph | .align _ | .header _ => false
  | _ => true

/-- `Module`, src/tree/module.rs:31-61. -/
inductive Module where
  | backlinks (page : Option Str)
  | categories (includeHidden : Bool)
  | join (buttonText : Option Str) (attrs : AttrMap)
  | pageTree (root : Option Str) (showRoot : Bool) (depth : Option Nat)
  | rate
deriving DecidableEq, Repr

/-- `Embed`, src/tree/embed.rs:26-40. -/
inductive Embed where
  | youtube (id : Str)
  | vimeo (id : Str)
  | githubGist (user hash : Str)
  | gitlabSnippet (id : Str)
deriving DecidableEq, Repr

/-- `ListType`, src/tree/list.rs:72-89. -/
inductive ListType where
  | bullet | numbered | generic
deriving DecidableEq, Repr

/-- `DateItem`, src/tree/date.rs:27-31, as local seconds since the epoch and UTC offset.
Simplification: `Date` and `DateTime` (no offset) are merged, `Date` being its midnight. -/
structure DateVal where
  localSecs : Int
  offset : Option Int
deriving DecidableEq, Repr

/-- `PartialElement`, src/tree/partial.rs:30-47 (the payload is the single kid). -/
inductive PartKind where
  | listItem | tableRow | tableCell | tab | rubyText
deriving DecidableEq, Repr

/-- `AcceptsPartial`, src/tree/partial.rs:93-101. -/
inductive Accepts where
  | none | listItem | tableRow | tableCell | tab | ruby
deriving DecidableEq, Repr

/-- `AcceptsPartial::matches`, src/tree/partial.rs:104-113. -/
def Accepts.matches : Accepts → PartKind → Bool
  | .listItem, .listItem | .tableRow, .tableRow | .tableCell, .tableCell | .tab, .tab
  | .ruby, .rubyText => true
  | _, _ => false

/-- The variants of `Element` (src/tree/element/object.rs:35-300) without their children, followed
by the structural nodes. -/
inductive Kind where
  | container (c : CType) (attrs : AttrMap)
  | module (m : Module)
  | text (s : Str)
  | raw (s : Str)
  | variable (s : Str)
  | email (s : Str)
  | table (attrs : AttrMap)
  | tabView
  | anchor (target : Option AnchorTarget) (attrs : AttrMap)
  | anchorName (s : Str)
  | link (ltype : LinkType) (loc : LinkLoc) (extra : Option Str) (label : LinkLabel)
      (target : Option AnchorTarget)
  | image (source : ImageSource) (link : Option LinkLoc) (align : Option FloatAlign) (attrs : AttrMap)
  | list (ltype : ListType) (attrs : AttrMap)
  | definitionList
  | radioButton (name : Str) (checked : Bool) (attrs : AttrMap)
  | checkBox (checked : Bool) (attrs : AttrMap)
  | collapsible (attrs : AttrMap) (startOpen : Bool) (showText hideText : Option Str)
      (showTop showBottom : Bool)
  | toc (attrs : AttrMap) (align : Option Alignment)
  | footnote
  | footnoteBlock (title : Option Str) (hide : Bool)
  | bibCite (label : Str) (brackets : Bool)
  | bibBlock (index : Nat) (title : Option Str) (hide : Bool)
  | user (name : Str) (showAvatar : Bool)
  | date (value : DateVal) (format : Option Str) (hover : Bool)
  | color (c : Str)
  | code (contents : Str) (language : Option Str)
  | math (name : Option Str) (latex : Str)
  | mathInline (latex : Str)
  | equationRef (name : Str)
  | embed (e : Embed)
  | html (contents : Str)
  | iframe (attrs : AttrMap) (url : Str)
  | include (psafe : Bool) (vars : List (Str × Str)) (loc : PageRef)
  | style (css : Str)
  | lineBreak
  | lineBreaks (n : Nat)
  | clearFloat (c : ClearFloat)
  | horizontalRule
  | part (p : PartKind)
  -- structural nodes
  | row (attrs : AttrMap)
  | cell (header : Bool) (span : Nat) (align : Option Alignment) (attrs : AttrMap)
  | tab (label : Str)
  | item (attrs : AttrMap)
  | subList
  | defItem (key : Str)
  | defKey
  | defValue
  | rubyText (attrs : AttrMap)
deriving DecidableEq, Repr

/-- `Element`, src/tree/element/object.rs:35-300. -/
inductive Elem where
  | mk (k : Kind) (kids : List Elem)
deriving Repr

instance : Inhabited Elem := ⟨.mk .lineBreak []⟩

namespace Elem
/-- The node's variant and non-recursive fields. -/
def kind : Elem → Kind | .mk k _ => k
/-- The node's children. -/
def kids : Elem → List Elem | .mk _ ks => ks

/-- Structural equality as a computable test. -/
def beq : Elem → Elem → Bool
  | .mk k ks, .mk k' ks' => k == k' && go ks ks'
where
  /-- equality of child lists -/
  go : List Elem → List Elem → Bool
    | [], [] => true
    | e :: es, e' :: es' => beq e e' && go es es'
    | _, _ => false
instance : BEq Elem := ⟨beq⟩

end Elem

/-- `text!(..)`, src/macros.rs. -/
abbrev eText (s : Str) : Elem := .mk (.text s) []
/-- `Element::LineBreak`. -/
abbrev eLineBreak : Elem := .mk .lineBreak []
/-- `Element::Container(Container::new(ctype, elements, attributes))`. -/
abbrev eContainer (c : CType) (es : List Elem) (attrs : AttrMap := []) : Elem := .mk (.container c attrs) es

/-- Whether the element is `Element::Partial(_)`. -/
def Elem.isPartial : Elem → Bool
  | .mk (.part _) _ => true
  | _ => false

/-- `Element::paragraph_safe`, src/tree/element/object.rs:373-414, with the panic on partials and the
structural nodes (which are not elements) as `none`. -/
def Kind.paragraphSafe? : Kind → Option Bool
  | .container c _ => some c.paragraphSafe
  | .text _ | .raw _ | .variable _ | .email _ => some true
  | .anchor _ _ | .anchorName _ | .link .. => some true
  | .image .. => some true
  | .radioButton .. | .checkBox .. => some true
  | .footnote => some true
  | .bibCite .. => some true
  | .user .. | .date .. | .color _ => some true
  | .mathInline _ | .equationRef _ => some true
  | .include ps _ _ => some ps
  | .lineBreak | .lineBreaks _ => some true
  | .part _ => none
  | .row _ | .cell .. | .tab _ | .item _ | .subList | .defItem _ | .defKey | .defValue | .rubyText _ => none
  | _ => some false

/-- `Elements::paragraph_safe`, src/tree/element/collection.rs:59-67 (`Iterator::all` stops at the
first unsafe element); `none` = panic. -/
def elementsParagraphSafe? : List Elem → Option Bool
  | [] => some true
  | e :: es =>
    match e.kind.paragraphSafe? with
    | none => none
    | some false => some false
    | some true => elementsParagraphSafe? es

/-- `Element::is_whitespace`, src/tree/element/object.rs:311-317. -/
def Elem.isWhitespace : Elem → Bool
  | .mk .lineBreak _ => true
  | .mk (.text s) _ => s.all isWS
  | _ => false

/-- `Element::LineBreak | Element::LineBreaks(_)`, src/parsing/strip.rs:26. -/
def Elem.isNewline : Elem → Bool
  | .mk .lineBreak _ => true
  | .mk (.lineBreaks _) _ => true
  | _ => false

/-- Drop matching elements at both ends. -/
def stripBoth (p : Elem → Bool) (es : List Elem) : List Elem :=
  ((es.dropWhile p).reverse.dropWhile p).reverse

/-- `strip_newlines`, src/parsing/strip.rs:23-41. -/
def stripNewlines (es : List Elem) : List Elem := stripBoth Elem.isNewline es
/-- `strip_whitespace`, src/parsing/strip.rs:43-61. -/
def stripWhitespace (es : List Elem) : List Elem := stripBoth Elem.isWhitespace es

/-- `CodeBlock`, src/tree/code.rs:27-30. -/
structure CodeBlock where
  contents : Str
  name : Option Str
deriving DecidableEq, Repr

/-- `SyntaxTree`, src/tree/mod.rs (fields of the same names). -/
structure Tree where
  elements : List Elem
  toc : List Elem
  htmlBlocks : List Str
  codeBlocks : List CodeBlock
  footnotes : List (List Elem)
  bibliographies : List (Bibl Elem)
  wikitextLen : Nat

/-! ### src/settings, src/data/page_info.rs -/

/-- `WikitextMode`, src/settings/mod.rs:164-179. -/
inductive Mode where
  | page | draft | forumPost | directMessage | list
deriving DecidableEq, Repr

/-- `Layout`, src/layout.rs. -/
inductive Layout where
  | wikidot | wikijump
deriving DecidableEq, Repr

/-- `WikitextSettings`, src/settings/mod.rs:32-100. -/
structure Settings where
  mode : Mode
  layout : Layout
  enablePageSyntax : Bool
  useIncludeCompatibility : Bool
  useTrueIds : Bool
  isolateUserIds : Bool
  minifyCss : Bool
  allowLocalPaths : Bool
  interwiki : Interwiki

/-- `WikitextSettings::from_mode`, src/settings/mod.rs:104-153. -/
def Settings.fromMode (mode : Mode) (layout : Layout) : Settings :=
  match mode with
  | .page => ⟨mode, layout, true, false, true, false, true, true, defaultInterwiki⟩
  | .draft | .list => ⟨mode, layout, true, false, false, false, true, true, defaultInterwiki⟩
  | .forumPost | .directMessage => ⟨mode, layout, false, false, false, false, true, false, defaultInterwiki⟩

/-- `PageInfo`, src/data/page_info.rs:27-62 (the score is only used by the wasm interface and by
`ifrating`-like code that does not exist here, so it is left out). -/
structure PageInfo where
  page : Str
  category : Option Str
  site : Str
  title : Str
  altTitle : Option Str
  tags : List Str
  language : Str

/-- Behaviour of the remaining external code called by the parser and the text renderer; theorems
quantify over it. -/
structure World extends Ext where
  /-- the RFC 3339 / `%Y-%m-%d…` parsers of the `time` crate and the timestamp parser, as called in
  src/parsing/rule/impls/block/blocks/date.rs (`parse_date`) -/
  parseDate : Str → Option DateVal
  /-- `DateItem::format`, src/tree/date.rs:64-77 -/
  formatDate : DateVal → Option Str
  /-- the table `ENTITIES` of the `entities` crate, keyed by the name between `&` and `;`
  (src/parsing/rule/impls/block/blocks/char.rs:28-39) -/
  entity : Str → Option Str

end Ftml
