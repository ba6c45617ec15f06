import Verif.Model.Parse
import Verif.Props.Data
import Verif.Spec.Lexemes
/-
Specification vocabulary for parse results: where a node occurs in a document, what it means for a text
to open a block, which children a node may have, which attribute maps are safe.  Nothing here refers to
how the parser works.
-/
namespace Ftml

/-- The node `k` with children `ks` occurs somewhere in the forest `es`. -/
inductive Occurs (k : Kind) (ks : List Elem) : List Elem → Prop where
  | here {es} : Elem.mk k ks ∈ es → Occurs k ks es
  | inside {es k' ks'} : Elem.mk k' ks' ∈ es → Occurs k ks ks' → Occurs k ks es

/-- The forests of a syntax tree: its elements, its table of contents, the contents of its footnotes and of its bibliography
entries. -/
inductive Tree.Forest (t : Tree) : List Elem → Prop where
  | body : Forest t t.elements
  | toc : Forest t t.toc
  | footnote {f} : f ∈ t.footnotes → Forest t f
  | bibliography {b key es} : b ∈ t.bibliographies → (key, es) ∈ b.entries → Forest t es

/-- The text contains `[[name` or `[[*name`, in any case, perhaps with spaces before the name. -/
def OpensBlock (text name : Str) : Prop :=
  ∃ pre star ws nm post, text = pre ++ c!"[[" ++ star ++ ws ++ nm ++ post ∧ (star = [] ∨ star = ['*']) ∧
    (∀ c ∈ ws, isWS c = true) ∧ lowerA nm = lowerA name

/-- The text opens one of the blocks of the list. -/
def OpensOne (text : Str) (names : List Str) : Prop := ∃ n ∈ names, OpensBlock text n

/-- The text contains a triple-bracket link with a blank label, `[[[target|  ]]]`. -/
def HasBlankLabel (text : Str) : Prop :=
  ∃ pre target ws post, text = pre ++ c!"[[[" ++ target ++ c!"|" ++ ws ++ c!"]]]" ++ post ∧
    ∀ c ∈ ws, isWS c = true

/-- A piece of one line of the text. -/
def OnLine (text t : Str) : Prop := t <:+: text ∧ '\n' ∉ t

/-- Where the parts of a link come from, unless it is an entry of the table of contents.  The label, if the link has one,
stands on one line of the text, and so does an address `a` that says where the link leads: a place on the page, a web
address or a path, or whatever a link in three brackets means by `a`. -/
def LinkFrom (w : World) (st : Settings) (text : Str) (ty : LinkType) (loc : LinkLoc) (extra : Option Str)
    (label : LinkLabel) : Prop :=
  ty = .toc ∨
    (∀ t, label = .text t ∨ label = .url (some t) → OnLine text t) ∧
    ∃ a, OnLine text a ∧
      ((ty = .anchor ∧ extra = none ∧ loc = .url (if a = [] then c!"javascript:;" else c!"#" ++ w.normalize a)) ∨
        (ty = .direct ∧ loc = .url a ∧ (c!"/" <+: a ∨ isUrl a = true)) ∨
        (LinkLoc.parseInterwiki st.interwiki a = some (some (loc, ty)) ∧ extra = LinkLoc.parseExtra a))

/-- The blocks that stand for a part of a list, table, tab view or ruby annotation. -/
def partBlocks : PartKind → List Str
  | .listItem => [c!"li"]
  | .tableRow => [c!"row"]
  | .tableCell => [c!"cell", c!"hcell"]
  | .tab => [c!"tab"]
  | .rubyText => [c!"rt", c!"rubytext"]

/-- All of them. -/
def allPartBlocks : List Str := [c!"li", c!"row", c!"cell", c!"hcell", c!"tab", c!"rt", c!"rubytext"]

/-- What a character block with the argument `a` stands for: without blanks around it, one `&` before and one `;` after it,
the argument is the name of a character (or two), or its number, after `#x` in base sixteen or after `#` in base ten. -/
def CharNamed (w : World) (a t : Str) : Prop :=
  ∃ ws1 amp name semi ws2, a = ws1 ++ (amp ++ name ++ semi) ++ ws2 ∧ (∀ c ∈ ws1 ++ ws2, isWS c = true) ∧
    (∀ c, (amp ++ name ++ semi).head? = some c ∨ (amp ++ name ++ semi).getLast? = some c → isWS c = false) ∧
    (amp = c!"&" ∨ amp = [] ∧ (name ++ semi).head? ≠ some '&') ∧ (semi = c!";" ∨ semi = [] ∧ name.getLast? ≠ some ';') ∧
    (w.entity name = some t ∨ w.entity name = none ∧
      ∃ c : Char, t = [c] ∧
        ((∃ ds, name = c!"#x" ++ ds ∧ parseU32 16 ds = some c.toNat) ∨ ∃ ds, name = c!"#" ++ ds ∧ parseU32 10 ds = some c.toNat))

/-- Where the text of a text element comes from: it is a piece of the text; a dash or an angle quote for the
characters that stand for it; what a `[[char]]` block names; or the fixed text of a `[[later]]` block or of an
included page. -/
def TextFrom (w : World) (text t : Str) : Prop :=
  t <:+: text ∨ (t = ['\u2014'] ∧ c!"--" <:+: text) ∨ (t = ['\u00ab'] ∧ c!"<<" <:+: text) ∨
  (t = ['\u00bb'] ∧ c!">>" <:+: text) ∨
  (OpensOne text [c!"char", c!"character"] ∧ ∃ a, OnLine text a ∧ CharNamed w a t) ∨
  (t = c!"later." ∧ OpensOne text [c!"later"]) ∨
  (t = c!"<INCLUDED PAGE (ELEMENTS)>" ∧ OpensOne text [c!"include-elements"])

/-- Every word of the string carries the user-id prefix. -/
def IdsIsolated (s : Str) : Prop := ∀ w ∈ splitWS s, c!"u-" <+: w

/-- The name of an attribute that is not on the list of safe ones: it stands in the text, up to case, and
begins with `aria-` or `data-`. -/
def CustomName (text k : Str) : Prop :=
  ∃ x, x <:+: text ∧ lowerA x = k ∧ (c!"aria-" <+: x ∨ c!"data-" <+: x)

/-- The argument named `x` with the value `body`, as it stands in the text: the name, on one line, an equals sign
with blanks around it or not, and the value between double quotes, the first of which not escaped ends it. -/
def ArgWritten (text x body : Str) : Prop :=
  '\n' ∉ x ∧ ∃ s1 s2, (∀ c ∈ s1 ++ s2, c = ' ' ∨ c = '\t') ∧
    x ++ s1 ++ c!"=" ++ s2 ++ c!"\"" ++ body ++ c!"\"" <:+: text ∧ StringBody body

/-- The argument `k` (in any case) is given the value `v` somewhere in the text: it stands between quotes, with
escapes. -/
def ArgGiven (text k v : Str) : Prop :=
  ∃ x body, ArgWritten text x body ∧ lowerA x = lowerA k ∧ v = parseString (c!"\"" ++ body ++ c!"\"")

/-- The source of an image as it stands in the text: a web address, or the names of a file, of a page and a file, or
of a site, a page and a file, with slashes between them; all on one line. -/
def ImageFrom (text : Str) : ImageSource → Prop
  | .url u => OnLine text u ∧ isUrl u = true
  | .file1 f => OnLine text f ∧ '/' ∉ f
  | .file2 p f => OnLine text (p ++ c!"/" ++ f) ∧ '/' ∉ p ++ f
  | .file3 s p f => OnLine text (s ++ c!"/" ++ p ++ c!"/" ++ f) ∧ '/' ∉ s ++ p ++ f

/-- What the value `x` given to the attribute `k` becomes: nothing if the attribute is a flag that is switched
on, a checked address, or prefixed ids, and `x` itself otherwise. -/
def ValueOf (s : Settings) (k x v : Str) : Prop :=
  (k ∈ booleanAttributes ∧ parseBoolean x = some true ∧ v = []) ∨
  (k ∈ urlAttributes ∧ ∃ e : Ext, v = normalizeHref e x) ∨
  (k = c!"id" ∧ s.isolateUserIds = true ∧ v = isolateIds x) ∨
  (k ∉ urlAttributes ∧ (k = c!"id" → s.isolateUserIds = false) ∧ (k ∈ booleanAttributes → parseBoolean x = none) ∧ v = x)

/-- Where an attribute comes from: the parser turns sizes into styles and marks tables; any other is an argument
written in the text. -/
def AttrFrom (s : Settings) (text k v : Str) : Prop :=
  (k = c!"style" ∧ ∃ x, x <:+: text ∧ v = c!"font-size: " ++ x ++ c!";") ∨ (k = c!"class" ∧ v = c!"wj-table") ∨
  ∃ x body, ArgWritten text x body ∧ lowerA x = k ∧ ValueOf s k (parseString (c!"\"" ++ body ++ c!"\"")) v

/-- A safe attribute map: sorted by name, no name twice; whitelisted names, from the list or written in the text; `href` and
`src` without dangerous scheme; if user ids are isolated, so is `id`; and every attribute comes from somewhere. -/
def AttrOk (s : Settings) (text : Str) (m : AttrMap) : Prop :=
  SortedKeys m ∧
  ∀ k v, (k, v) ∈ m → Whitelisted k ∧ (k ∈ safeAttributes ∨ CustomName text k) ∧
    (k = c!"href" ∨ k = c!"src" → SafeHref v) ∧ (s.isolateUserIds = true → k = c!"id" → IdsIsolated v) ∧
    AttrFrom s text k v

theorem SortedKeys.nodup {m : AttrMap} (h : SortedKeys m) : (m.map (·.1)).Nodup := by
  refine List.pairwise_map.2 (h.imp ?_)
  intro a b h e
  rw [e, strLt_irrefl] at h
  cases h

/-- The attribute map stored in a node (empty if the node has none). -/
def Kind.attrs : Kind → AttrMap
  | .container _ a | .table a | .anchor _ a | .image _ _ _ a | .list _ a | .radioButton _ _ a
  | .checkBox _ a | .collapsible a _ _ _ _ _ | .toc a _ | .iframe a _ | .row a | .cell _ _ _ a | .item a
  | .rubyText a | .module (.join _ a) => a
  | _ => []

/-- Nodes that are not elements of their own but parts of another. -/
def Kind.isStruct : Kind → Bool
  | .row _ | .cell .. | .tab _ | .item _ | .subList | .defItem _ | .defKey | .defValue | .rubyText _ => true
  | _ => false

/-- Nodes without children. -/
def Kind.isLeaf : Kind → Bool
  | .module _ | .text _ | .raw _ | .variable _ | .email _ | .anchorName _ | .link .. | .image ..
  | .radioButton .. | .checkBox .. | .toc .. | .footnote | .footnoteBlock .. | .bibCite .. | .bibBlock ..
  | .user .. | .date .. | .code .. | .math .. | .mathInline _ | .equationRef _ | .embed _ | .html _
  | .iframe .. | .style _ | .lineBreak | .lineBreaks _ | .clearFloat _ | .horizontalRule => true
  | _ => false

/-- Which kinds of children a node may have. -/
def allowedKid : Kind → Kind → Bool
  | .table _, .row _ => true
  | .row _, .cell .. => true
  | .tabView, .tab _ => true
  | .list .., .item _ => true
  | .list .., .subList => true
  | .subList, .list .. => true
  | .definitionList, .defItem _ => true
  | .defItem _, .defKey => true
  | .defItem _, .defValue => true
  | .part .listItem, .item _ => true
  | .part .tableRow, .row _ => true
  | .part .tableCell, .cell .. => true
  | .part .tab, .tab _ => true
  | .part .rubyText, .rubyText _ => true
  | .table _, _ | .row _, _ | .tabView, _ | .list .., _ | .subList, _ | .definitionList, _ | .defItem _, _
  | .part _, _ => false
  | _, k => !k.isStruct

/-- Elements that only the full page syntax produces. -/
def Kind.pageOnly : Kind → Bool
  | .module _ | .toc .. | .include .. | .style _ => true
  | _ => false

/-- Elements produced by one block only, and the names of that block. -/
def Kind.blocks : Kind → Option (List Str)
  | .module _ | .style _ => some [c!"module", c!"module654"]
  | .tabView => some [c!"tabview", c!"tabs"]
  | .anchor .. => some [c!"a", c!"anchor"]
  | .image .. => some [c!"image", c!"=image", c!"<image", c!">image", c!"f<image", c!"f>image"]
  | .radioButton .. => some [c!"radio", c!"radio-button"]
  | .checkBox .. => some [c!"checkbox"]
  | .collapsible .. => some [c!"collapsible"]
  | .toc .. => some [c!"toc", c!"f<toc", c!"f>toc"]
  | .footnote => some [c!"footnote"]
  | .footnoteBlock .. => some [c!"footnoteblock"]
  | .bibBlock .. => some [c!"bibliography"]
  | .user .. => some [c!"user"]
  | .date .. => some [c!"date"]
  | .code .. => some [c!"code"]
  | .math .. => some [c!"math"]
  | .equationRef _ => some [c!"equation", c!"eref", c!"eqref"]
  | .embed _ => some [c!"embed"]
  | .html _ => some [c!"html"]
  | .iframe .. => some [c!"iframe"]
  | .include .. => some [c!"include-elements"]
  | .lineBreaks _ => some [c!"lines", c!"newlines"]
  | .part p => some (partBlocks p)
  | .tab _ => some [c!"tab"]
  | _ => none

/-- An element that may stand in a paragraph: not one of the unsafe ones. -/
def Elem.inParagraph (e : Elem) : Prop := e.kind.paragraphSafe? ≠ some false

/-- What is counted of a document: footnote references, and headings with a table-of-contents entry. -/
inductive Meas where
  | footnotes | headings
deriving DecidableEq

/-- Whether a node counts. -/
def Meas.ofKind : Meas → Kind → Nat
  | .footnotes, .footnote => 1
  | .headings, .container (.header h) _ => if h.hasToc then 1 else 0
  | _, _ => 0

/-- Number of counted nodes in an element. -/
def Elem.count (m : Meas) : Elem → Nat
  | .mk k ks => m.ofKind k + go ks
where
  /-- number of counted nodes in a forest -/
  go : List Elem → Nat
    | [] => 0
    | e :: es => Elem.count m e + go es

/-- Number of counted nodes in a forest. -/
abbrev countIn (m : Meas) (es : List Elem) : Nat := Elem.count.go m es

/-- A path down a forest: each element is in the forest or among the children of the one before it. -/
inductive Path : List Elem → List Elem → Prop where
  | last {es e} : e ∈ es → Path es [e]
  | cons {es e p} : e ∈ es → Path e.kids p → Path es (e :: p)

/-- The nodes whose contents may hold a left-over partial element of each kind. -/
def PartKind.host : PartKind → Kind → Bool
  | .listItem, .item _ => true
  | .tableCell, .cell .. => true
  | .tab, .tab _ => true
  | .rubyText, .container .ruby _ => true
  | _, _ => false

/-- The entries of a table of contents, read from its elements: depth, link target, text.  Anything of
another shape has no reading. -/
def readToc (depth : Nat) : Elem → Option (List (Nat × Str × Str))
  | .mk (.list .bullet []) ks => go depth ks
  | .mk (.item []) [.mk (.link .toc (.url u) none (.text name) none) []] => some [(depth, u, name)]
  | .mk .subList [.mk (.list .bullet []) ks] => go (depth + 1) ks
  | _ => none
where
  /-- the entries of a list of nodes -/
  go (depth : Nat) : List Elem → Option (List (Nat × Str × Str))
    | [] => some []
    | e :: es =>
      match readToc depth e, go depth es with
      | some a, some b => some (a ++ b)
      | _, _ => none

end Ftml
