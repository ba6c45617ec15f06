import Verif.Props.Url
import Verif.Spec.Doc
import Verif.Model.Html
/-
An independent, strict reader of HTML.  It follows the tokenizer of the HTML standard on the texts it
accepts and rejects the rest (single-quoted and unquoted attribute values, unknown character references,
upper-case tag names, comments, NUL characters, an end of input inside a tag).  What it reads is a list of
events; `Nested` says that a list of events is a sequence of properly nested elements.
Nothing here refers to how the renderer works.
-/
namespace Ftml.HtmlSpec

/-- What an HTML text consists of. -/
inductive Ev where
  /-- a start tag with its attributes, character references decoded -/
  | start (tag : Str) (attrs : List (Str × Str))
  /-- an end tag -/
  | stop (tag : Str)
  /-- a character of text, character references decoded -/
  | char (c : Char)
deriving DecidableEq, Repr

/-- Elements without end tag (the standard's void elements). -/
def voidTags : List Str :=
  [c!"area", c!"base", c!"br", c!"col", c!"embed", c!"hr", c!"img", c!"input", c!"link", c!"meta",
   c!"param", c!"source", c!"track", c!"wbr"]

/-- Elements whose contents the tokenizer does not read as markup. -/
def rawTags : List Str :=
  [c!"style", c!"script", c!"iframe", c!"textarea", c!"title", c!"xmp", c!"noembed", c!"noframes",
   c!"noscript", c!"plaintext"]

/-- The character references the reader knows. -/
def charRef (name : Str) : Option Char :=
  if name = c!"amp" then some '&'
  else if name = c!"lt" then some '<'
  else if name = c!"gt" then some '>'
  else if name = c!"quot" then some '"'
  else if name = c!"#39" then some '\''
  else none

/-- State of the reader: what it is in the middle of. -/
inductive Rd where
  | data
  | ref (acc : Str)
  | lt
  | startName (n : Str)
  | stopName (n : Str)
  | attrs (n : Str) (as : List (Str × Str))
  | attrName (n : Str) (as : List (Str × Str)) (k : Str)
  | eq (n : Str) (as : List (Str × Str)) (k : Str)
  | value (n : Str) (as : List (Str × Str)) (k v : Str)
  | valueRef (n : Str) (as : List (Str × Str)) (k v acc : Str)
  | afterValue (n : Str) (as : List (Str × Str))
  | slash (n : Str) (as : List (Str × Str))
  | raw (n buf : Str)
  | rawStop (n : Str)
deriving DecidableEq, Repr

/-- Characters of a tag name. -/
def isTagChar (c : Char) : Bool := ('a' ≤ c && c ≤ 'z') || ('0' ≤ c && c ≤ '9') || c == '-'

/-- White space inside a tag. -/
def isTagSpace (c : Char) : Bool := c == ' ' || c == '\n' || c == '\t' || c == '\r' || c.toNat == 12

/-- Characters of an attribute name. -/
def isAttrChar (c : Char) : Bool :=
  !(isTagSpace c || c == '"' || c == '\'' || c == '<' || c == '>' || c == '/' || c == '=' || c.toNat == 0)

/-- The end of a start tag. -/
def finish (n : Str) (as : List (Str × Str)) : Rd × List Ev :=
  (if n ∈ rawTags then .raw n [] else .data, [.start n as])

/-- One character. -/
def step : Rd → Char → Option (Rd × List Ev)
  | .data, c =>
    if c = '<' then some (.lt, []) else if c = '&' then some (.ref [], [])
    else if c.toNat = 0 then none else some (.data, [.char c])
  | .ref acc, c => if c = ';' then (charRef acc).map fun x => (.data, [.char x]) else some (.ref (acc ++ [c]), [])
  | .lt, c => if c = '/' then some (.stopName [], []) else if 'a' ≤ c ∧ c ≤ 'z' then some (.startName [c], []) else none
  | .startName n, c =>
    if isTagChar c then some (.startName (n ++ [c]), []) else if isTagSpace c then some (.attrs n [], [])
    else if c = '>' then some (finish n []) else if c = '/' then some (.slash n [], []) else none
  | .stopName n, c =>
    if isTagChar c then some (.stopName (n ++ [c]), []) else if c = '>' then some (.data, [.stop n]) else none
  | .attrs n as, c =>
    if isAttrChar c then some (.attrName n as [c], []) else if isTagSpace c then some (.attrs n as, [])
    else if c = '>' then some (finish n as) else if c = '/' then some (.slash n as, []) else none
  | .attrName n as k, c =>
    if isAttrChar c then some (.attrName n as (k ++ [c]), [])
    else if isTagSpace c then some (.attrs n (as ++ [(k, [])]), [])
    else if c = '=' then some (.eq n as k, [])
    else if c = '>' then some (finish n (as ++ [(k, [])]))
    else if c = '/' then some (.slash n (as ++ [(k, [])]), []) else none
  | .eq n as k, c => if c = '"' then some (.value n as k [], []) else none
  | .value n as k v, c =>
    if c = '"' then some (.afterValue n (as ++ [(k, v)]), [])
    else if c = '&' then some (.valueRef n as k v [], [])
    else if c.toNat = 0 then none else some (.value n as k (v ++ [c]), [])
  | .valueRef n as k v acc, c =>
    if c = ';' then (charRef acc).map fun x => (.value n as k (v ++ [x]), [])
    else some (.valueRef n as k v (acc ++ [c]), [])
  | .afterValue n as, c =>
    if isTagSpace c then some (.attrs n as, []) else if c = '>' then some (finish n as)
    else if c = '/' then some (.slash n as, []) else none
  | .slash n as, c => if c = '>' then some (finish n as) else none
  | .raw n buf, c =>
    let buf := buf ++ [c]
    if (c!"</" ++ n) <:+ lowerA buf then
      some (.rawStop n, (buf.take (buf.length - (n.length + 2))).map .char)
    else some (.raw n buf, [])
  | .rawStop n, c => if c = '>' then some (.data, [.stop n]) else none

/-- Read a text from a given state. -/
def read : Rd → Str → Option (Rd × List Ev)
  | r, [] => some (r, [])
  | r, c :: s =>
    match step r c with
    | none => none
    | some (r', es) =>
      match read r' s with
      | none => none
      | some (r'', es') => some (r'', es ++ es')

/-- Read a whole text. -/
def readHtml (s : Str) : Option (List Ev) :=
  match read .data s with
  | some (.data, es) => some es
  | _ => none

/-- A sequence of properly nested elements and characters. -/
inductive Nested : List Ev → Prop where
  | nil : Nested []
  | char {c evs} : Nested evs → Nested (.char c :: evs)
  | void {t as evs} : t ∈ voidTags → Nested evs → Nested (.start t as :: evs)
  | elem {t as inner rest} : t ∉ voidTags → Nested inner → Nested rest →
      Nested (.start t as :: (inner ++ .stop t :: rest))

/-- The characters of text among the events. -/
def chars : List Ev → Str
  | [] => []
  | .char c :: es => c :: chars es
  | _ :: es => chars es

/-- NUL characters, which HTML cannot carry, as spaces. -/
def noNul (s : Str) : Str := s.map fun c => if c.toNat = 0 then ' ' else c

/-- An attribute name made of ASCII letters, digits, `-`, `_`, `:` or `.`. -/
def PlainName (k : Str) : Prop :=
  k ≠ [] ∧ ∀ c ∈ k, (c.isAlphanum ∨ c = '-' ∨ c = '_' ∨ c = ':' ∨ c = '.')

/-! ### What a rendered page may contain -/

/-- The elements the renderer uses. -/
def outputTags : List Str :=
  [c!"wj-body", c!"div", c!"span", c!"p", c!"a", c!"br", c!"hr", c!"img", c!"input", c!"pre", c!"code",
   c!"strong", c!"em", c!"u", c!"sup", c!"sub", c!"s", c!"mark", c!"blockquote", c!"ins", c!"del", c!"ruby",
   c!"rt", c!"rp", c!"h1", c!"h2", c!"h3", c!"h4", c!"h5", c!"h6", c!"table", c!"tbody", c!"tr", c!"th",
   c!"td", c!"ul", c!"ol", c!"li", c!"dl", c!"dt", c!"dd", c!"details", c!"summary", c!"svg", c!"use",
   c!"iframe", c!"script", c!"style", c!"wj-code", c!"wj-code-copy", c!"wj-math-ml",
   c!"wj-equation-ref-marker", c!"wj-footnote-ref-marker", c!"wj-footnote-list-item-marker",
   c!"wj-bibliography-ref-marker", c!"wj-bibliography-item-marker", c!"wj-tabs", c!"wj-tabs-button",
   c!"wj-collapsible-button-bottom"]

/-- The attribute names the renderer itself writes. -/
def outputAttrs : List Str :=
  [c!"class", c!"id", c!"href", c!"src", c!"target", c!"type", c!"title", c!"style", c!"name", c!"role",
   c!"checked", c!"open", c!"hidden", c!"colspan", c!"tabindex", c!"viewBox", c!"crossorigin",
   c!"frameborder", c!"allow", c!"allowfullscreen", c!"onclick", c!"aria-hidden", c!"aria-label",
   c!"aria-selected", c!"aria-controls", c!"aria-labelledby", c!"data-id", c!"data-name", c!"data-karma",
   c!"data-timestamp", c!"data-delta", c!"data-link-type", c!"data-show-top", c!"data-show-bottom"]

/-- MathML elements. -/
def mathTags : List Str :=
  [c!"math", c!"mi", c!"mn", c!"mo", c!"ms", c!"mtext", c!"mspace", c!"mrow", c!"mfrac", c!"msqrt",
   c!"mroot", c!"mstyle", c!"merror", c!"mpadded", c!"mphantom", c!"mfenced", c!"menclose", c!"msub",
   c!"msup", c!"msubsup", c!"munder", c!"mover", c!"munderover", c!"mmultiscripts", c!"mtable", c!"mtr",
   c!"mtd"]

/-- What a tree supplies to tags: attributes of its nodes, extra parts of its `javascript:;` links, the
addresses of its frames, the targets of its links with their extra parts, the names of its link targets, and the
addresses of its images. -/
structure Source where
  attr : Str → Str → Prop
  extra : Str → Prop
  frame : Str → Prop
  link : LinkLoc → Option Str → Prop
  name : Str → Prop
  picture : Str → Prop

/-- The ids the renderer makes up: those of headings (if ids are to be true ones), of tabs and of headings (if they
are to be random), of the table of contents (if ids are to be true ones), and of the entries of bibliographies, which
have two. -/
def OwnId (ids : Bool) (g : Str) : Prop :=
  (ids = true ∧ ∃ n, g = c!"toc" ++ natToStr n) ∨ (∃ r, (∀ c ∈ r, c.isAlphanum = true) ∧ g = c!"wj-id-" ++ r) ∨
  (ids = true ∧ g ∈ [c!"wj-toc", c!"wj-toc-action-bar", c!"wj-toc-list"]) ∨
  ∃ i j, g = c!"wj-bibliography-item-" ++ (natToStr i ++ '-' :: natToStr j) ++
    c!" bibitem-" ++ (natToStr i ++ '-' :: natToStr j)

/-- The address of an image: as it is given, or, where local paths are allowed, that of a file on this page, on
another page of the site, or on another site. -/
inductive PictureAt (info : PageInfo) (settings : Settings) : ImageSource → Str → Prop where
  | web {u} : PictureAt info settings (.url u) u
  | here {f} : settings.allowLocalPaths = true →
      PictureAt info settings (.file1 f) (c!"https://" ++ info.site ++ c!".wjfiles.com/local--files/" ++ info.page ++ c!"/" ++ f)
  | page {p f} : settings.allowLocalPaths = true →
      PictureAt info settings (.file2 p f) (c!"https://" ++ info.site ++ c!".wjfiles.com/local--files/" ++ p ++ c!"/" ++ f)
  | site {s p f} : settings.allowLocalPaths = true →
      PictureAt info settings (.file3 s p f) (c!"https://" ++ s ++ c!".wjfiles.com/local--files/" ++ p ++ c!"/" ++ f)

/-- A start tag as the renderer may write it with what `A` supplies: a known element; no attribute twice;
every attribute is one of the renderer's or one of the tree's; links, event handlers, scripts and frames only
lead where they should. -/
structure TagOk (A : Source) (ids : Bool) (t : Str) (as : List (Str × Str)) : Prop where
  tag : t ∈ outputTags
  once : (as.map (·.1)).Nodup
  attr : ∀ k v, (k, v) ∈ as → k ∈ outputAttrs ∨ ∃ v', A.attr k v' ∧ v = noNul v'
  href : ∀ v, (c!"href", v) ∈ as → SafeHref v ∨ (∃ x, A.extra x ∧ v = c!"javascript:;" ++ noNul x) ∨
    ∃ v', A.attr c!"href" v' ∧ v = noNul v'
  onclick : ∀ v, (c!"onclick", v) ∈ as →
    v = c!"WIKIJUMP.page.listeners.foldToc(event)" ∨ ∃ v', A.attr c!"onclick" v' ∧ v = noNul v'
  script : t = c!"script" → ∀ v, (c!"src", v) ∈ as →
    c!"https://gist.github.com/" <+: v ∨ c!"https://gitlab.com/-/snippets/" <+: v
  frame : t = c!"iframe" → ∀ v, (c!"src", v) ∈ as →
    c!"https://www.youtube.com/embed/" <+: v ∨ c!"https://player.vimeo.com/video/" <+: v ∨
    v = c!"https://example.com/" ∨ ∃ u, A.frame u ∧ noNul u <+: v
  id : ∀ v, (c!"id", v) ∈ as → (∃ v', A.attr c!"id" v' ∧ v = noNul v') ∨
    ∃ g, (OwnId ids g ∨ A.name g) ∧ (v = noNul g ∨ ∃ v', A.attr c!"id" v' ∧ v = noNul (g ++ c!" " ++ v'))
  image : t = c!"img" → ∀ v, (c!"src", v) ∈ as → v = dummyAvatar ∨
    (∃ u, A.picture u ∧ (v = noNul u ∨ ∃ v', A.attr c!"src" v' ∧ v = noNul (u ++ c!" " ++ v')))

/-- What the theorems assume of the CSS printer, of the MathML converter and of the random generator: a style sheet
does not contain its own end tag, MathML is a sequence of properly nested MathML elements, and random ids are made of
ASCII letters and digits. -/
structure WorldOk (w : HWorld) : Prop where
  random : ∀ n, ∀ c ∈ w.randomId n, c.isAlphanum = true
  css : ∀ minify s c, w.css minify s = .code c → ¬ c!"</style" <:+: lowerA c
  math : ∀ block s m, w.mathml block s = .ok m → ∃ evs, readHtml m = some evs ∧ Nested evs ∧
    ∀ t as, Ev.start t as ∈ evs → t ∈ mathTags

/-- What the theorems assume of a tree: attribute names are plain and occur once, as in a map. -/
def PlainAttrs (m : AttrMap) : Prop := (∀ p ∈ m, PlainName p.1) ∧ (m.map (·.1)).Nodup

/-- The same for a whole tree. -/
def PlainTree (t : Tree) : Prop := ∀ es k ks, t.Forest es → Occurs k ks es → PlainAttrs k.attrs

/-- What a tree supplies. -/
def Source.of (info : PageInfo) (settings : Settings) (t : Tree) : Source where
  attr k v := ∃ es n ks, t.Forest es ∧ Occurs n ks es ∧ (k, v) ∈ n.attrs
  extra x := ∃ es lt loc label target ks, t.Forest es ∧ Occurs (.link lt loc (some x) label target) ks es ∧
    (loc = .url c!"javascript:;" ∨ loc = .page ⟨none, c!"javascript:;"⟩)
  frame u := ∃ es attrs ks, t.Forest es ∧ Occurs (.iframe attrs u) ks es
  link loc x := ∃ es lt label target ks, t.Forest es ∧ Occurs (.link lt loc x label target) ks es
  name g := ∃ es ks, t.Forest es ∧ Occurs (.anchorName g) ks es
  picture u := ∃ es src link align attrs ks, t.Forest es ∧ Occurs (.image src link align attrs) ks es ∧
    PictureAt info settings src u

/-- Numbers of the footnote references of a page, in order. -/
def footnoteRefs : List Ev → List Str
  | [] => []
  | .start t as :: es =>
    if t = c!"wj-footnote-ref-marker" then
      (match as.lookup c!"data-id" with | some v => [v] | none => []) ++ footnoteRefs es
    else footnoteRefs es
  | _ :: es => footnoteRefs es

/-- The tag of a link element: `a` of the class `wj-link`. -/
def isLinkTag (t : Str) (as : List (Str × Str)) : Bool :=
  t == c!"a" && (match as.lookup c!"class" with | some v => (c!"wj-link ").isPrefixOf v | none => false)

/-- The addresses of the links of a page, in order. -/
def linkHrefs : List Ev → List Str
  | [] => []
  | .start t as :: es => if isLinkTag t as then (as.lookup c!"href").getD [] :: linkHrefs es else linkHrefs es
  | _ :: es => linkHrefs es

/-- What an address names, without a leading slash. -/
def unslashed : Str → Str
  | '/' :: u => u
  | u => u

/-- A link to a page of the wiki: one given by a page name, or by an address that is not a web address; but
not the empty link `javascript:;`. -/
def wikiTarget : LinkLoc → Option PageRef
  | .page r => some r
  | .url u => if u ≠ c!"javascript:;" ∧ isUrl (unslashed u) = false then some ⟨none, unslashed u⟩ else none

/-- A link to a web address. -/
def webTarget : LinkLoc → Option Str
  | .page _ => none
  | .url u => if isUrl (unslashed u) = true then some (unslashed u) else none

/-! ### What rendering reaches -/

/-- A node that rendering the forest reaches: not below an element without contents, and below a tab view
only in its tabs. -/
inductive Placed (k : Kind) (ks : List Elem) : List Elem → Prop where
  | here {es} : Elem.mk k ks ∈ es → Placed k ks es
  | inside {es k' ks' e} : Elem.mk k' ks' ∈ es → k'.isLeaf = false → e ∈ ks' →
      (k' = .tabView → ∃ l xs, e = .mk (.tab l) xs) → Placed k ks [e] → Placed k ks es

/-- The entry a citation of the label finds: the first with that label, in the first bibliography that has
one. -/
def Cited (bs : List (Bibl Elem)) (label : Str) (es : List Elem) : Prop :=
  ∃ pre b post p q, bs = pre ++ b :: post ∧ b.entries = p ++ (label, es) :: q ∧
    (∀ b' ∈ pre, ∀ x, (label, x) ∉ b'.entries) ∧ ∀ x, (label, x) ∉ p

/-- Rendering the one forest renders the other within it: a citation renders the entry, a bibliography its
entries, a list of footnotes the footnotes, a table of contents itself. -/
inductive RendersIn (t : Tree) (es : List Elem) : List Elem → Prop where
  | cite {label br ks es'} : Placed (.bibCite label br) ks es → Cited t.bibliographies label es' → RendersIn t es es'
  | bibliography {i title ks b p} : Placed (.bibBlock i title false) ks es → t.bibliographies[i]? = some b →
      p ∈ b.entries → RendersIn t es p.2
  | footnoteBlock {title ks f} : Placed (.footnoteBlock title false) ks es → f ∈ t.footnotes → RendersIn t es f
  | toc {attrs align ks} : Placed (.toc attrs align) ks es → RendersIn t es t.toc

/-- The same, or a reference to a footnote, which renders one of the footnotes. -/
inductive MayRenderIn (t : Tree) (es : List Elem) : List Elem → Prop where
  | sure {es'} : RendersIn t es es' → MayRenderIn t es es'
  | footnote {ks f} : Placed .footnote ks es → f ∈ t.footnotes → MayRenderIn t es f

/-- One forest renders the other, within others perhaps, or is it. -/
inductive Reaches (t : Tree) : List Elem → List Elem → Prop where
  | refl {es} : Reaches t es es
  | step {a b c} : RendersIn t a b → Reaches t b c → Reaches t a c

/-- Forests rendered within each other nest at most `n` deep. -/
def Shallow (t : Tree) : Nat → List Elem → Prop
  | 0, es => ∀ es', ¬ MayRenderIn t es es'
  | n+1, es => ∀ es', MayRenderIn t es es' → Shallow t n es'

/-! ### What makes rendering panic -/

/-- Nodes whose rendering panics: left-over parts, links to addresses labelled with the title of the page,
style sheets on which the CSS parser fails, bibliographies that do not exist. -/
inductive HtmlPanics (w : HWorld) (settings : Settings) (t : Tree) : Kind → Prop where
  | part {p} : HtmlPanics w settings t (.part p)
  | rubyText {a} : HtmlPanics w settings t (.rubyText a)
  | label {lt u x tg} : HtmlPanics w settings t (.link lt (.url u) x .page tg)
  | style {s} : w.css settings.minifyCss s = .panic → HtmlPanics w settings t (.style s)
  | bibliography {i title} : t.bibliographies.length ≤ i → HtmlPanics w settings t (.bibBlock i title false)

/-- A tree without such nodes, of sound structure, with footnote references only in its body. -/
structure SoundTree (w : HWorld) (settings : Settings) (t : Tree) : Prop where
  node : ∀ es k ks, t.Forest es → Occurs k ks es → ¬ HtmlPanics w settings t k
  leaf : ∀ es k ks, t.Forest es → Occurs k ks es → k.isLeaf = true → ks = []
  tabs : ∀ es ks, t.Forest es → Occurs .tabView ks es → ∀ e ∈ ks, ∃ label, e.kind = .tab label
  toc : ∀ ks, ¬ Occurs .footnote ks t.toc
  footnotes : ∀ f ∈ t.footnotes, ∀ ks, ¬ Occurs .footnote ks f
  bibliographies : ∀ b ∈ t.bibliographies, ∀ key es, (key, es) ∈ b.entries → ∀ ks, ¬ Occurs .footnote ks es

/-- Heading elements. -/
def headTags : List Str := [c!"h1", c!"h2", c!"h3", c!"h4", c!"h5", c!"h6"]

/-- Ids of the headings of a page, in order. -/
def headingIds : List Ev → List Str
  | [] => []
  | .start t as :: es =>
    if t ∈ headTags then
      (match as.lookup c!"id" with | some v => [v] | none => []) ++ headingIds es
    else headingIds es
  | _ :: es => headingIds es

/-! ### Texts -/

/-- The events without the characters of text: the tags. -/
def tagsOf (evs : List Ev) : List Ev := evs.filter fun e => match e with
  | .char _ => false
  | _ => true

/-- A node with its free texts emptied: text, raw text, source code, link labels, titles, button texts. -/
def blankKind : Kind → Kind
  | .text _ => .text []
  | .raw _ => .raw []
  | .email _ => .email []
  | .code _ l => .code [] l
  | .link lt loc x (.text _) tg => .link lt loc x (.text []) tg
  | .link lt loc x (.url (some _)) tg => .link lt loc x (.text []) tg
  | .collapsible a o _ _ t b => .collapsible a o none none t b
  | .footnoteBlock _ h => .footnoteBlock none h
  | .bibBlock i _ h => .bibBlock i none h
  | .html _ => .html []
  | k => k

/-- An element with its free texts emptied. -/
def blankElem : Elem → Elem
  | .mk k ks => .mk (blankKind k) (go ks)
where
  /-- those of a forest -/
  go : List Elem → List Elem
    | [] => []
    | e :: es => blankElem e :: go es

/-- A tree with its free texts emptied. -/
def blankTree (t : Tree) : Tree :=
  { t with
    elements := blankElem.go t.elements
    toc := blankElem.go t.toc
    footnotes := t.footnotes.map blankElem.go
    bibliographies := t.bibliographies.map fun b => ⟨b.entries.map fun p => (p.1, blankElem.go p.2)⟩ }

/-- Two trees that differ in their free texts only, as far as rendering is concerned. -/
def SameMarkup (t t' : Tree) : Prop :=
  (blankTree t).elements = (blankTree t').elements ∧ (blankTree t).toc = (blankTree t').toc ∧
  (blankTree t).footnotes = (blankTree t').footnotes ∧ (blankTree t).bibliographies = (blankTree t').bibliographies

/-- The text a node shows to the reader, if it consists of text: text, raw text, source code, link labels. -/
def shownText : Kind → Option Str
  | .text s | .raw s | .email s | .code s _ => some s
  | .link _ _ _ (.text s) _ | .link _ _ _ (.url (some s)) _ => some s
  | _ => none

/-- Outcomes that differ in the text of the body only: both end the same way, and the bodies are read as the
same tags in the same order with the same attributes. -/
inductive AlikeButText : HtmlRes → HtmlRes → Prop where
  | hang : AlikeButText .hang .hang
  | panic {p} : AlikeButText (.panic p) (.panic p)
  | ok {o o' evs evs'} : readHtml o.body = some evs → readHtml o'.body = some evs' → tagsOf evs = tagsOf evs' →
      o.links = o'.links → o.metas = o'.metas → AlikeButText (.ok o) (.ok o')

end Ftml.HtmlSpec
