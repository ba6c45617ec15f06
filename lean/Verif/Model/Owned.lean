import Verif.Model.Tree
import Verif.Model.Includes
/-!
The small parts of the library around the tree: `to_owned` of every tree type, the collection `Elements` and its
two iterators, karma levels, and the two includers that come with the library.

Simplifications: `Cow`s and lifetimes are forgotten, so `string_to_owned` (src/tree/clone.rs:46-48) is the identity on
strings; what remains of `to_owned` is which field goes where.  `ScoreValue::to_f64` (src/data/score.rs) is a
floating-point conversion and not modelled.
-/

namespace Ftml

/-! ### `to_owned` -/

/-- `string_to_owned`, src/tree/clone.rs:46-48: a copy of the characters. -/
def strOwned (s : Str) : Str := s.map fun c => c
/-- `option_string_to_owned`, src/tree/clone.rs:39-44. -/
def optOwned (s : Option Str) : Option Str := s.map strOwned
/-- `string_map_to_owned`, src/tree/clone.rs:70-82. -/
def mapOwned (m : List (Str × Str)) : List (Str × Str) := m.map fun kv => (strOwned kv.1, strOwned kv.2)
/-- `AttributeMap::to_owned`, src/tree/attribute/mod.rs:114-125: every entry is inserted into a new `BTreeMap`. -/
def attrOwned (m : AttrMap) : AttrMap := m.foldl (fun m' kv => btInsert (strOwned kv.1) (strOwned kv.2) m') []
/-- `PageRef::to_owned`, src/data/page_ref.rs:124-135. -/
def PageRef.owned (r : PageRef) : PageRef := { site := optOwned r.site, page := strOwned r.page }
/-- `LinkLocation::to_owned`, src/tree/link.rs:114-119. -/
def LinkLoc.owned : LinkLoc → LinkLoc
  | .page r => .page r.owned
  | .url u => .url (strOwned u)
/-- `LinkLabel::to_owned`, src/tree/link.rs:231-237. -/
def LinkLabel.owned : LinkLabel → LinkLabel
  | .text s => .text (strOwned s)
  | .url u => .url (optOwned u)
  | .page => .page
/-- `ImageSource::to_owned`, src/tree/image.rs:86-102. -/
def ImageSource.owned : ImageSource → ImageSource
  | .url u => .url (strOwned u)
  | .file1 file => .file1 (strOwned file)
  | .file2 page file => .file2 (strOwned page) (strOwned file)
  | .file3 site page file => .file3 (strOwned site) (strOwned page) (strOwned file)
/-- `Embed::to_owned`, src/tree/embed.rs:65-84. -/
def Embed.owned : Embed → Embed
  | .youtube v => .youtube (strOwned v)
  | .vimeo v => .vimeo (strOwned v)
  | .githubGist user hash => .githubGist (strOwned user) (strOwned hash)
  | .gitlabSnippet v => .gitlabSnippet (strOwned v)
/-- `Module::to_owned`, src/tree/module.rs:69-95. -/
def Module.owned : Module → Module
  | .backlinks page => .backlinks (optOwned page)
  | .categories hidden => .categories hidden
  | .join button attrs => .join (optOwned button) (attrOwned attrs)
  | .pageTree root showRoot depth => .pageTree (optOwned root) showRoot depth
  | .rate => .rate

/-- The fields of a node other than its children: `Element::to_owned`, src/tree/element/object.rs:421-589;
`Container`, src/tree/container.rs:71-77; `PartialElement`, src/tree/partial.rs:71-85; `Table`, `TableRow`, `TableCell`,
src/tree/table.rs:33-76; `Tab`, src/tree/tab.rs:32-37; `ListItem`, src/tree/list.rs:48-65; `DefinitionListItem`,
src/tree/definition_list.rs:39-45; `RubyText`, src/tree/ruby.rs:32-37. -/
def Kind.owned : Kind → Kind
  | .container c attrs => .container c (attrOwned attrs)
  | .module m => .module m.owned
  | .text s => .text (strOwned s)
  | .raw s => .raw (strOwned s)
  | .variable s => .variable (strOwned s)
  | .email s => .email (strOwned s)
  | .table attrs => .table (attrOwned attrs)
  | .tabView => .tabView
  | .anchor target attrs => .anchor target (attrOwned attrs)
  | .anchorName s => .anchorName (strOwned s)
  | .link ltype loc extra label target => .link ltype loc.owned (optOwned extra) label.owned target
  | .image source to align attrs => .image source.owned (to.map LinkLoc.owned) align (attrOwned attrs)
  | .list ltype attrs => .list ltype (attrOwned attrs)
  | .definitionList => .definitionList
  | .radioButton name checked attrs => .radioButton (strOwned name) checked (attrOwned attrs)
  | .checkBox checked attrs => .checkBox checked (attrOwned attrs)
  | .collapsible attrs startOpen showText hideText showTop showBottom =>
    .collapsible (attrOwned attrs) startOpen (optOwned showText) (optOwned hideText) showTop showBottom
  | .toc attrs align => .toc (attrOwned attrs) align
  | .footnote => .footnote
  | .footnoteBlock title hide => .footnoteBlock (optOwned title) hide
  | .bibCite label brackets => .bibCite (strOwned label) brackets
  | .bibBlock index title hide => .bibBlock index (optOwned title) hide
  | .user name avatar => .user (strOwned name) avatar
  | .date value format hover => .date value (optOwned format) hover
  | .color c => .color (strOwned c)
  | .code contents language => .code (strOwned contents) (optOwned language)
  | .math name latex => .math (optOwned name) (strOwned latex)
  | .mathInline latex => .mathInline (strOwned latex)
  | .equationRef name => .equationRef (strOwned name)
  | .embed e => .embed e.owned
  | .html contents => .html (strOwned contents)
  | .iframe attrs url => .iframe (attrOwned attrs) (strOwned url)
  | .include psafe vars loc => .include psafe (mapOwned vars) loc.owned
  | .style css => .style (strOwned css)
  | .lineBreak => .lineBreak
  | .lineBreaks n => .lineBreaks n
  | .clearFloat c => .clearFloat c
  | .horizontalRule => .horizontalRule
  | .part p => .part p
  | .row attrs => .row (attrOwned attrs)
  | .cell header span align attrs => .cell header span align (attrOwned attrs)
  | .tab label => .tab (strOwned label)
  | .item attrs => .item (attrOwned attrs)
  | .subList => .subList
  | .defItem key => .defItem (strOwned key)
  | .defKey => .defKey
  | .defValue => .defValue
  | .rubyText attrs => .rubyText (attrOwned attrs)

/-- `Element::to_owned`, src/tree/element/object.rs:421-589, with `elements_to_owned` (src/tree/clone.rs:50-52) on the
children. -/
def Elem.owned : Elem → Elem
  | .mk k ks => .mk k.owned (go ks)
where
  /-- `elements_to_owned`, src/tree/clone.rs:50-52. -/
  go : List Elem → List Elem
    | [] => []
    | e :: es => e.owned :: go es

/-- `CodeBlock::to_owned`, src/tree/code.rs:33-38. -/
def CodeBlock.owned (c : CodeBlock) : CodeBlock := { contents := strOwned c.contents, name := optOwned c.name }
/-- `Bibliography::to_owned`, src/tree/bibliography.rs:77-86. -/
def Bibl.owned (b : Bibl Elem) : Bibl Elem := ⟨b.entries.map fun x => (strOwned x.1, Elem.owned.go x.2)⟩
/-- `SyntaxTree::to_owned`, src/tree/mod.rs:130-148. -/
def Tree.owned (t : Tree) : Tree :=
  { elements := Elem.owned.go t.elements
    toc := Elem.owned.go t.toc
    htmlBlocks := t.htmlBlocks.map strOwned
    codeBlocks := t.codeBlocks.map CodeBlock.owned
    footnotes := t.footnotes.map Elem.owned.go
    bibliographies := t.bibliographies.map Bibl.owned
    wikitextLen := t.wikitextLen }

/-! ### `Elements` -/

/-- `Elements`, src/tree/element/collection.rs:34-38. -/
inductive ElementList where
  | multiple (es : List Elem)
  | single (e : Elem)
  | none

namespace ElementList
/-- `is_empty`, collection.rs:42-48. -/
def isEmpty : ElementList → Bool
  | .multiple es => es.isEmpty
  | .single _ => false
  | .none => true
/-- `len`, collection.rs:51-57. -/
def len : ElementList → Nat
  | .multiple es => es.length
  | .single _ => 1
  | .none => 0
/-- `as_ref`, collection.rs:70-78. -/
def asRef : ElementList → List Elem
  | .multiple es => es
  | .single e => [e]
  | .none => []
/-- `From<Element>`, collection.rs:80-85. -/
def ofElem (e : Elem) : ElementList := .single e
/-- `From<Option<Element>>`, collection.rs:87-95. -/
def ofOption : Option Elem → ElementList
  | some e => .single e
  | Option.none => .none
/-- `From<Vec<Element>>`, collection.rs:97-102. -/
def ofList (es : List Elem) : ElementList := .multiple es
end ElementList

/-- `BorrowedElementsIterator`, src/tree/element/iter_ref.rs:41-45. -/
inductive BorrowedIter where
  | none
  | single (e : Option Elem)
  | multiple (es : List Elem) (index : Nat)

/-- `IntoIterator for &Elements`, iter_ref.rs:23-36. -/
def ElementList.iter : ElementList → BorrowedIter
  | .none => .none
  | .single e => .single (some e)
  | .multiple es => .multiple es 0
/-- `next`, iter_ref.rs:50-61. -/
def BorrowedIter.next : BorrowedIter → Option Elem × BorrowedIter
  | .none => (Option.none, .none)
  | .single e => (e, .single Option.none)
  | .multiple es i => (es[i]?, .multiple es (i + 1))

/-- `OwnedElementsIterator`, src/tree/element/iter_owned.rs:51-53; the list is the vector, its last element first to go. -/
structure OwnedIter where
  elements : List Elem
/-- `IntoIterator for Elements`, iter_owned.rs:23-46. -/
def ElementList.intoIter : ElementList → OwnedIter
  | .none => ⟨[]⟩
  | .single e => ⟨[e]⟩
  | .multiple es => ⟨es.reverse⟩
/-- `next`, iter_owned.rs:59-61 (`Vec::pop`). -/
def OwnedIter.next (it : OwnedIter) : Option Elem × OwnedIter := (it.elements.getLast?, ⟨it.elements.dropLast⟩)

/-! ### `KarmaLevel` -/

/-- `KarmaLevel`, src/data/karma.rs:27-34. -/
inductive KarmaLevel where
  | zero | one | two | three | four | five
deriving DecidableEq
/-- `From<KarmaLevel> for u8`, karma.rs:48-60 (and `value`, 42-45). -/
def KarmaLevel.value : KarmaLevel → Nat
  | .zero => 0 | .one => 1 | .two => 2 | .three => 3 | .four => 4 | .five => 5
/-- `TryFrom<u8> for KarmaLevel`, karma.rs:62-76 (and `new`, 37-40). -/
def KarmaLevel.new : Nat → Option KarmaLevel
  | 0 => some .zero | 1 => some .one | 2 => some .two | 3 => some .three | 4 => some .four | 5 => some .five
  | _ => none

/-! ### The built-in includers -/

namespace Includes

/-- `NullIncluder`, src/includes/includer/null.rs:26-46; its error type is `Infallible`, `E` here is that of `include`. -/
def nullIncluder (E : Type) : Includer Unit E where
  includePages st _ := (.ok [], st)
  noSuchInclude st _ := (.ok [], st)

/-- Insert into a list sorted by key (behind equal keys, as the stable sort does). -/
def insertByKey (x : Str × Str) : List (Str × Str) → List (Str × Str)
  | [] => [x]
  | y :: ys => if strLt x.1 y.1 then x :: y :: ys else y :: insertByKey x ys
/-- `entries.sort_by`, src/includes/includer/debug.rs:94. -/
def sortByKey (m : List (Str × Str)) : List (Str × Str) := m.foldl (fun l x => insertByKey x l) []

/-- `MapWrap::fmt`, debug.rs:90-112; `quote` is `{:?}` of a string. -/
def mapWrap (quote : Str → Str) (m : List (Str × Str)) : Str :=
  c!"{" ++ (c!", ").intercalate ((sortByKey m).map fun kv => quote kv.1 ++ c!" => " ++ quote kv.2) ++ c!"}"

/-- The pages `DebugIncluder::include_pages` returns, debug.rs:39-72; `first` says that the next one is the first of
several. -/
def debugPages (quote : Str → Str) (first : Bool) : List IncludeRef → List Fetched
  | [] => []
  | i :: is =>
    { pageRef := i.pageRef
      content := if first then none
        else some (c!"<INCLUDED-PAGE " ++ i.pageRef.display ++ c!" " ++ mapWrap quote i.variables ++ c!">") } ::
      debugPages quote false is

/-- `DebugIncluder`, src/includes/includer/debug.rs:33-81. -/
def debugIncluder (quote : Str → Str) (E : Type) : Includer Unit E where
  includePages st is := (.ok (debugPages quote (is.length > 1) is), st)
  noSuchInclude st r := (.ok (c!"<MISSING-PAGE " ++ r.display ++ c!">"), st)

end Includes
end Ftml
