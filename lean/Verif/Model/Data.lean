import Verif.Model.Url
/-
Models of the small data types of the tree and parser: `src/non_empty_vec.rs`, `src/parsing/depth.rs`,
`src/data/page_ref.rs`, `src/settings/interwiki.rs`, `src/tree/{variables,attribute,bibliography,
link,image,anchor,align,heading}.rs`, `src/parsing/{boolean,string}.rs`.
-/
namespace Ftml

/-! ### src/non_empty_vec.rs -/

/-- `NonEmptyVec`, src/non_empty_vec.rs:24-27. -/
structure NEVec (α : Type) where
  first : α
  others : List α

namespace NEVec
variable {α : Type}
/-- `new`, lines 30-36 (`with_capacity`, 38-44, builds the same value). -/
def new (a : α) : NEVec α := ⟨a, []⟩
/-- `last`, lines 52-55. -/
def last (v : NEVec α) : α := v.others.getLast?.getD v.first
/-- `len`, lines 63-66. -/
def len (v : NEVec α) : Nat := v.others.length + 1
/-- `is_single`, lines 71-74. -/
def isSingle (v : NEVec α) : Bool := v.others.isEmpty
/-- `push`, lines 93-96. -/
def push (v : NEVec α) (a : α) : NEVec α := { v with others := v.others ++ [a] }
/-- `pop`, lines 98-101. -/
def pop (v : NEVec α) : Option α × NEVec α :=
  match v.others.getLast? with
  | none => (none, v)
  | some a => (some a, { v with others := v.others.dropLast })
/-- Mutation through `last_mut`, lines 82-85. -/
def modifyLast (v : NEVec α) (f : α → α) : NEVec α :=
  match v.others.getLast? with
  | none => { v with first := f v.first }
  | some a => { v with others := v.others.dropLast ++ [f a] }
/-- `From<NonEmptyVec<T>> for Vec<T>`, lines 113-121. -/
def toList (v : NEVec α) : List α := v.first :: v.others
end NEVec

/-! ### src/parsing/depth.rs -/

/-- `DepthItem`, src/parsing/depth.rs:26-30 (`DepthList` is a `List`). -/
inductive DItem (L T : Type) where
  | item (t : T)
  | list (l : L) (items : List (DItem L T))

/-- `DepthStack`, src/parsing/depth.rs:32-36. -/
structure DStack (L T : Type) where
  finished : List (L × List (DItem L T))
  stack : NEVec (L × List (DItem L T))

namespace DStack
variable {L T : Type}
/-- `new`, lines 42-48. -/
def new (top : L) : DStack L T := ⟨[], NEVec.new (top, [])⟩
/-- `increase_depth`, lines 50-52. -/
def increaseDepth (s : DStack L T) (l : L) : DStack L T := { s with stack := s.stack.push (l, []) }
/-- `push`, lines 73-75. -/
def push (s : DStack L T) (i : DItem L T) : DStack L T :=
  { s with stack := s.stack.modifyLast fun (l, xs) => (l, xs ++ [i]) }
/-- `decrease_depth`, lines 54-57; `none` is the `expect` panic. -/
def decreaseDepth (s : DStack L T) : Option (DStack L T) :=
  match s.stack.pop with
  | (none, _) => none
  | (some (l, xs), st) => some (push { s with stack := st } (.list l xs))
/-- `n` iterations of a loop whose body may panic. -/
def iterM {σ : Type} (f : σ → Option σ) : Nat → σ → Option σ
  | 0, s => some s
  | n+1, s => (f s).bind (iterM f n)
/-- `finish_depth_list`, lines 87-114.  The `debug_assert!` is not modelled as a panic; that it holds
is part of the proofs (`stack` is single after the loop). -/
def finishDepthList (s : DStack L T) (newL : Option L) : Option (DStack L T) :=
  (iterM decreaseDepth (s.stack.len - 1) s).map fun s =>
    let (l, xs) := s.stack.first
    let s := { s with stack := { s.stack with first := (newL.getD l, []) } }
    if xs.isEmpty then s else { s with finished := s.finished ++ [(l, xs)] }
/-- `new_list`, lines 59-71. -/
def newList (s : DStack L T) (l : L) : Option (DStack L T) :=
  if s.stack.isSingle then finishDepthList s (some l)
  else (decreaseDepth s).map (increaseDepth · l)
/-- `last_type`, lines 82-85. -/
def lastType (s : DStack L T) : L := s.stack.last.1
/-- `into_trees`, lines 116-119. -/
def intoTrees (s : DStack L T) : Option (List (L × List (DItem L T))) :=
  (finishDepthList s none).map (·.finished)
end DStack

/-- Loop body of `process_depths`, lines 133-167: state is the stack and `previous`. -/
def depthStep {L T : Type} [DecidableEq L] (st : DStack L T × Nat) (x : Nat × L × T) :
    Option (DStack L T × Nat) :=
  let (s, previous) := st
  let (depth, l, t) := x
  (DStack.iterM (fun s => some (s.increaseDepth l)) (depth - previous) s).bind fun s =>
  (DStack.iterM DStack.decreaseDepth (previous - depth) s).bind fun s =>
  (if s.lastType ≠ l then s.newList l else some s).bind fun s =>
  some (s.push (.item t), depth)

/-- The `for` loop of `process_depths`. -/
def depthLoop {L T : Type} [DecidableEq L] : List (Nat × L × T) → DStack L T × Nat →
    Option (DStack L T × Nat)
  | [], st => some st
  | x :: xs, st => (depthStep st x).bind (depthLoop xs)

/-- `process_depths`, src/parsing/depth.rs:122-170; `none` = panic. -/
def processDepths {L T : Type} [DecidableEq L] (top : L) (items : List (Nat × L × T)) :
    Option (List (L × List (DItem L T))) :=
  (depthLoop items (DStack.new top, 0)).bind fun st => st.1.intoTrees

/-! ### src/data/page_ref.rs -/

/-- `PageRef`, src/data/page_ref.rs:36-41. -/
structure PageRef where
  site : Option Str
  page : Str
deriving DecidableEq, Repr

/-- `PageRef::parse`, src/data/page_ref.rs:88-122.  The slices `s[1..]`, `s[1..idx]`, `s[idx+1..]`
are at ASCII colons, so they cannot panic: `find`+slice is `splitOnce`. -/
def PageRef.parse (s : Str) : Option PageRef :=
  let s := trim s
  if s.isEmpty then none
  else match splitOnce ':' s with
    | some ([], rest) =>
      match splitOnce ':' rest with
      | none => none
      | some ([], _) => none
      | some (site, page) => some ⟨some (trim site), trim page⟩
    | _ => some ⟨none, s⟩

/-- `Display for PageRef`, lines 138-146. -/
def PageRef.display (r : PageRef) : Str :=
  match r.site with
  | some site => c!":" ++ site ++ c!":" ++ r.page
  | none => r.page

/-- `fields_or`, lines 84-86. -/
def PageRef.fieldsOr (r : PageRef) (cur : Str) : Str × Str := (r.site.getD cur, r.page)

/-! ### src/settings/interwiki.rs -/

/-- Lookup in a key-value table (a Rust `HashMap`: at most one entry per key, so the first hit is
the entry). -/
def assocGet (m : List (Str × Str)) (k : Str) : Option Str := (m.find? fun p => p.1 == k).map (·.2)

/-- `InterwikiSettings`, lines 57-63. -/
structure Interwiki where
  prefixes : List (Str × Str)

/-- `DEFAULT_INTERWIKI`, lines 42-53. -/
def defaultInterwiki : Interwiki := ⟨[
  (c!"wikipedia", c!"https://wikipedia.org/wiki/$$"), (c!"wp", c!"https://wikipedia.org/wiki/$$"),
  (c!"commons", c!"https://commons.wikimedia.org/wiki/$$"),
  (c!"google", c!"https://google.com/search?q=$$"),
  (c!"duckduckgo", c!"https://duckduckgo.com/?q=$$"), (c!"ddg", c!"https://duckduckgo.com/?q=$$"),
  (c!"dictionary", c!"https://dictionary.com/browse/$$"),
  (c!"thesaurus", c!"https://thesaurus.com/browse/$$")]⟩

/-- `str::replace("$$", to)`: left to right, non overlapping. -/
def replaceDollars (to : Str) : Str → Str
  | [] => []
  | [c] => [c]
  | c :: d :: rest =>
    if c = '$' ∧ d = '$' then to ++ replaceDollars to rest else c :: replaceDollars to (d :: rest)

/-- One turn of the loop of lines 106-108: the first space becomes `%20`; `none` if no space. -/
def replaceFirstSpace : Str → Option Str
  | [] => none
  | c :: s => if c = ' ' then some (c!"%20" ++ s) else (replaceFirstSpace s).map (c :: ·)

/-- The `while let` loop of lines 106-108 with fuel; `none` = the fuel ran out. -/
def replaceSpaces : Nat → Str → Option Str
  | 0, _ => none
  | n+1, s => match replaceFirstSpace s with
    | none => some s
    | some s' => replaceSpaces n s'

/-- `InterwikiSettings::build`, lines 84-115.  Outer `Option`: `none` = the loop did not end within
one turn more than there are characters. -/
def Interwiki.build (iw : Interwiki) (link : Str) : Option (Option Str) :=
  match splitOnce ':' link with
  | none => some none
  | some ([], _) => some none
  | some (prefx, path) =>
    if path.isEmpty then some none
    else match assocGet iw.prefixes prefx with
      | none => some none
      | some template =>
        let url := replaceDollars path template
        (replaceSpaces (url.length + 1) url).map some

/-! ### src/tree/variables.rs -/

/-- `VariableScopes`, src/tree/variables.rs:26-30; last scope is the innermost. -/
structure Scopes where
  scopes : List (List (Str × Str))

/-- `get`, lines 38-46: scan from the innermost scope. -/
def Scopes.get (s : Scopes) (name : Str) : Option Str := s.scopes.reverse.findSome? fun m => assocGet m name
/-- `push_scope`, lines 48-53. -/
def Scopes.push (s : Scopes) (m : List (Str × Str)) : Scopes := ⟨s.scopes ++ [m]⟩
/-- `pop_scope`, lines 55-57; `none` = the `expect` panic. -/
def Scopes.pop (s : Scopes) : Option Scopes :=
  if s.scopes.isEmpty then none else some ⟨s.scopes.dropLast⟩

/-! ### src/parsing/boolean.rs -/

/-- The `NAMES` table, src/parsing/boolean.rs:23-32. -/
def booleanNames : List (Str × Bool) :=
  [(c!"true", true), (c!"false", false), (c!"t", true), (c!"f", false), (c!"1", true),
   (c!"0", false), (c!"yes", true), (c!"no", false)]

/-- `parse_boolean`, src/parsing/boolean.rs:22-42 (`none` is `Err(NonBooleanValue)`). -/
def parseBoolean (s : Str) : Option Bool :=
  (booleanNames.find? fun p => eqIgnoreCase p.1 (trim s)).map (·.2)

/-! ### src/parsing/string.rs -/

/-- `escape_char`, src/parsing/string.rs:114-126. -/
def escapeChar (c : Char) : Option Char :=
  if c = '\\' then some '\\' else if c = '"' then some '"' else if c = '\'' then some '\''
  else if c = 'r' then some '\r' else if c = 'n' then some '\n' else if c = 't' then some '\t' else none

/-- `slice_middle`, src/parsing/string.rs:96-111; the slice is at ASCII quotes, no panic. -/
def sliceMiddle (s : Str) : Option Str :=
  match s with
  | '"' :: rest =>
    match rest.reverse with
    | '"' :: mid => some mid.reverse
    | _ => none
  | _ => none

/-- The unescaping loop, src/parsing/string.rs:63-86; the flag is `wants_escape`.  A trailing
backslash is dropped. -/
def unescapeLoop : Bool → Str → Str
  | _, [] => []
  | true, c :: s =>
    match escapeChar c with
    | some r => r :: unescapeLoop false s
    | none => '\\' :: c :: unescapeLoop false s
  | false, c :: s => if c = '\\' then unescapeLoop true s else c :: unescapeLoop false s

/-- `parse_string`, src/parsing/string.rs:38-89. -/
def parseString (s : Str) : Str :=
  match sliceMiddle s with
  | none => s
  | some m => if m.contains '\\' then unescapeLoop false m else m

/-! ### src/tree/attribute -/

/-- Byte order of strings (`Ord for str`); equal to code point order for UTF-8. -/
def strLt : Str → Str → Bool
  | [], [] => false
  | [], _ :: _ => true
  | _ :: _, [] => false
  | a :: s, b :: t => if a.toNat < b.toNat then true else if a = b then strLt s t else false

/-- `AttributeMap`, src/tree/attribute/mod.rs:38-42: a `BTreeMap`, kept as a list sorted by key. -/
abbrev AttrMap := List (Str × Str)

/-- `BTreeMap::insert`. -/
def btInsert (k v : Str) : AttrMap → AttrMap
  | [] => [(k, v)]
  | (k', v') :: m =>
    if k = k' then (k, v) :: m
    else if strLt k k' then (k, v) :: (k', v') :: m
    else (k', v') :: btInsert k v m

/-- `BTreeMap::remove`. -/
def btRemove (k : Str) (m : AttrMap) : Option Str × AttrMap :=
  (assocGet m k, m.filter fun p => p.1 != k)

/-- `SAFE_ATTRIBUTES`, src/tree/attribute/safe.rs:43-131. -/
def safeAttributes : List Str := [
  c!"accept", c!"align", c!"alt", c!"autocapitalize", c!"autoplay", c!"background", c!"bgcolor",
  c!"border", c!"buffered", c!"checked", c!"cite", c!"class", c!"cols", c!"colspan",
  c!"contenteditable", c!"controls", c!"coords", c!"datetime", c!"decoding", c!"default", c!"dir",
  c!"dirname", c!"disabled", c!"download", c!"draggable", c!"for", c!"form", c!"headers",
  c!"height", c!"hidden", c!"high", c!"href", c!"hreflang", c!"id", c!"inputmode", c!"ismap",
  c!"itemprop", c!"kind", c!"label", c!"lang", c!"list", c!"loop", c!"low", c!"max", c!"maxlength",
  c!"min", c!"minlength", c!"multiple", c!"muted", c!"name", c!"optimum", c!"pattern",
  c!"placeholder", c!"poster", c!"preload", c!"readonly", c!"required", c!"reversed", c!"role",
  c!"rows", c!"rowspan", c!"scope", c!"selected", c!"shape", c!"size", c!"sizes", c!"span",
  c!"spellcheck", c!"src", c!"srclang", c!"srcset", c!"start", c!"step", c!"style", c!"tabindex",
  c!"target", c!"title", c!"translate", c!"type", c!"usemap", c!"value", c!"width", c!"wrap"]

/-- `BOOLEAN_ATTRIBUTES`, src/tree/attribute/safe.rs:144-172. -/
def booleanAttributes : List Str := [
  c!"allowfullscreen", c!"allowpaymentrequest", c!"async", c!"autofocus", c!"autoplay",
  c!"checked", c!"controls", c!"default", c!"disabled", c!"formnovalidate", c!"hidden", c!"ismap",
  c!"itemscope", c!"loop", c!"multiple", c!"muted", c!"nomodule", c!"novalidate", c!"open",
  c!"playsinline", c!"readonly", c!"required", c!"reversed", c!"selected", c!"truespeed"]

/-- `URL_ATTRIBUTES`, src/tree/attribute/safe.rs:181-182. -/
def urlAttributes : List Str := [c!"href", c!"src"]

/-- `HashSet<UniCase<&str>>::contains` with `UniCase::ascii` keys: ASCII case-insensitive. -/
def containsCI (l : List Str) (k : Str) : Bool := l.any fun x => eqIgnoreCase x k

/-- `[a-zA-z0-9\-]` of `ATTRIBUTE_SUFFIX_SAFE`, src/tree/attribute/safe.rs:184-185 (`A-z` as in the
source). -/
def isSuffixSafeChar (c : Char) : Bool :=
  isLowerA c || (65 ≤ c.toNat && c.toNat ≤ 122) || isDigitA c || c == '-'

/-- `is_safe_attribute`, src/tree/attribute/safe.rs:189-201.  The suffix regex is unanchored: it
matches as soon as one character of the whole name is in the class. -/
def isSafeAttribute (k : Str) : Bool :=
  containsCI safeAttributes k ||
  [c!"aria-", c!"data-"].any fun p => startsWith k p && k.any isSuffixSafeChar

/-- The value transformation of `AttributeMap::from_arguments` for one argument,
src/tree/attribute/mod.rs:53-80; `none` = filtered out. -/
def attrOfArg (e : Ext) (k v : Str) : Option (Str × Str) :=
  if isSafeAttribute k then
    let v? := if containsCI booleanAttributes k then
        match parseBoolean v with
        | some true => some []
        | some false => none
        | none => some v
      else some v
    v?.map fun v => (lowerA k, if containsCI urlAttributes k then normalizeHref e v else v)
  else none

/-- `AttributeMap::from_arguments`, src/tree/attribute/mod.rs:50-84; `collect` inserts in iteration
order of the (unordered) argument map. -/
def attrFromArgs (e : Ext) (args : List (Str × Str)) : AttrMap :=
  (args.filterMap fun (k, v) => attrOfArg e k v).foldl (fun m (k, v) => btInsert k v m) []

/-- `AttributeMap::insert`, lines 86-93. -/
def attrInsert (m : AttrMap) (k v : Str) : Bool × AttrMap :=
  if isSafeAttribute k then (true, btInsert k v m) else (false, m)

/-- `AttributeMap::isolate_id`, lines 105-112 (`flag` is `settings.isolate_user_ids`). -/
def attrIsolateId (flag : Bool) (m : AttrMap) : AttrMap :=
  if flag then m.map fun (k, v) => if k == c!"id" then (k, isolateIds v) else (k, v) else m

/-! ### src/tree/bibliography.rs -/

/-- `Bibliography`, src/tree/bibliography.rs:28-29 (element lists are abstract here). -/
structure Bibl (E : Type) where
  entries : List (Str × List E)

/-- `get`, lines 54-70. -/
def Bibl.getFrom {E : Type} (label : Str) : Nat → List (Str × List E) → Option (Nat × List E)
  | _, [] => none
  | i, (l, es) :: rest => if label = l then some (i + 1, es) else Bibl.getFrom label (i + 1) rest
/-- `get`, lines 54-70. -/
def Bibl.get {E : Type} (b : Bibl E) (label : Str) : Option (Nat × List E) := Bibl.getFrom label 0 b.entries
/-- `add`, lines 41-52. -/
def Bibl.add {E : Type} (b : Bibl E) (label : Str) (es : List E) : Bibl E :=
  if (b.get label).isSome then b else ⟨b.entries ++ [(label, es)]⟩
/-- `BibliographyList::get_reference`, lines 110-120. -/
def biblReference {E : Type} (bs : List (Bibl E)) (label : Str) : Option (Nat × List E) :=
  bs.findSome? (·.get label)

/-! ### src/tree/link.rs -/

/-- `LinkLocation`, src/tree/link.rs:29-36. -/
inductive LinkLoc where
  | page (r : PageRef)
  | url (u : Str)
deriving DecidableEq, Repr

/-- `LinkType`, src/tree/link.rs:240-262. -/
inductive LinkType where
  | direct | page | interwiki | anchor | toc
deriving DecidableEq, Repr

/-- `LinkLocation::parse`, src/tree/link.rs:60-88. -/
def LinkLoc.parse (link : Str) : LinkLoc :=
  if isUrl link || startsWith link c!"#" || startsWith link c!"/" then .url link
  else
    let s := (splitOn '#' link).headD []
    let s := (splitOn '/' s).headD []
    match PageRef.parse s with
    | none => .url s
    | some r => .page r

/-- `LinkLocation::parse_extra`, src/tree/link.rs:90-112. -/
def LinkLoc.parseExtra (link : Str) : Option Str :=
  if isUrl link || startsWith link c!"#" || startsWith link c!"/" then none
  else
    let (a, anchor) := match splitOnce '#' link with
      | some (a, b) => (a, some b)
      | none => (link, none)
    let path := match splitOnce '/' a with
      | some (_, p) => c!"/" ++ p
      | none => []
    let path := match anchor with
      | some b => path ++ c!"#" ++ b
      | none => path
    if path.isEmpty then none else some path

/-- `LinkLocation::link_type`, lines 121-126. -/
def LinkLoc.linkType : LinkLoc → LinkType
  | .page _ => .page
  | .url _ => .direct

/-- `LinkLocation::parse_interwiki`, lines 39-58; outer `Option`: `none` = non-termination of
`build`. -/
def LinkLoc.parseInterwiki (iw : Interwiki) (link : Str) : Option (Option (LinkLoc × LinkType)) :=
  match stripPfx c!"!" link with
  | none => some (some (LinkLoc.parse link, (LinkLoc.parse link).linkType))
  | some l => (iw.build l).map fun r => r.map fun u => (.url u, .interwiki)

/-- `LinkLabel`, src/tree/link.rs:210-228. -/
inductive LinkLabel where
  | text (s : Str)
  | url (u : Option Str)
  | page
deriving DecidableEq, Repr

/-! ### src/tree/image.rs -/

/-- `ImageSource`, src/tree/image.rs:27-47. -/
inductive ImageSource where
  | url (u : Str)
  | file1 (file : Str)
  | file2 (page file : Str)
  | file3 (site page file : Str)
deriving DecidableEq, Repr

/-- `ImageSource::parse`, src/tree/image.rs:50-79. -/
def ImageSource.parse (source : Str) : Option ImageSource :=
  if isUrl source then some (.url source)
  else
    let source := (stripPfx c!"/" source).getD source
    match splitOn '/' source with
    | [f] => some (.file1 f)
    | [p, f] => some (.file2 p f)
    | [s, p, f] => some (.file3 s p f)
    | _ => none

/-! ### src/tree/anchor.rs, align.rs, heading.rs, clear_float.rs -/

/-- `AnchorTarget`, src/tree/anchor.rs:28-45. -/
inductive AnchorTarget where
  | newTab | parent | top | same
deriving DecidableEq, Repr

/-- `html_attr`, src/tree/anchor.rs:53-61. -/
def AnchorTarget.htmlAttr : AnchorTarget → Str
  | .newTab => c!"_blank"
  | .parent => c!"_parent"
  | .top => c!"_top"
  | .same => c!"_same"

/-- `TryFrom<&str> for AnchorTarget`, src/tree/anchor.rs:64-83. -/
def AnchorTarget.ofStr (v : Str) : Option AnchorTarget :=
  let tbl : List (Str × Str × AnchorTarget) :=
    [(c!"blank", c!"_blank", .newTab), (c!"parent", c!"_parent", .parent), (c!"top", c!"_top", .top),
     (c!"self", c!"_self", .same)]
  (tbl.find? fun x => eqIgnoreCase v x.1 || eqIgnoreCase v x.2.1).map (·.2.2)

/-- `Alignment`, src/tree/align.rs:24-31. -/
inductive Alignment where
  | left | right | center | justify
deriving DecidableEq, Repr

/-- `Alignment::html_class`, src/tree/align.rs:43-50. -/
def Alignment.htmlClass : Alignment → Str
  | .left => c!"wj-align-left"
  | .right => c!"wj-align-right"
  | .center => c!"wj-align-center"
  | .justify => c!"wj-align-justify"

/-- `TryFrom<&str> for Alignment`, src/tree/align.rs:53-65. -/
def Alignment.ofStr (v : Str) : Option Alignment :=
  if v = c!"<" then some .left else if v = c!">" then some .right
  else if v = c!"=" then some .center else if v = c!"==" then some .justify else none

/-- `FloatAlignment`, src/tree/align.rs:67-72. -/
structure FloatAlign where
  align : Alignment
  float : Bool
deriving DecidableEq, Repr

/-- `FloatAlignment::parse`, src/tree/align.rs:74-84, with the `TryFrom` of 97-112 inlined: the regex
`^[fF]?([<=>])` finds one of the nine prefixes, of which `f=`/`F=` are then rejected. -/
def FloatAlign.parse (name : Str) : Option FloatAlign :=
  match name with
  | '=' :: _ => some ⟨.center, false⟩
  | '<' :: _ => some ⟨.left, false⟩
  | '>' :: _ => some ⟨.right, false⟩
  | 'f' :: '<' :: _ | 'F' :: '<' :: _ => some ⟨.left, true⟩
  | 'f' :: '>' :: _ | 'F' :: '>' :: _ => some ⟨.right, true⟩
  | _ => none

/-- `FloatAlignment::html_class`, src/tree/align.rs:86-94. -/
def FloatAlign.htmlClass (f : FloatAlign) : Str :=
  if f.float then
    match f.align with
    | .left => c!"wj-float-left"
    | .center => c!"wj-float-center"
    | .right => c!"wj-float-right"
    | .justify => c!"wj-float-justify"
  else f.align.htmlClass

/-- `ClearFloat`, src/tree/clear_float.rs:21-27. -/
inductive ClearFloat where
  | left | right | both
deriving DecidableEq, Repr

/-- `ClearFloat::html_class`, src/tree/clear_float.rs:29-37. -/
def ClearFloat.htmlClass : ClearFloat → Str
  | .left => c!"wj-clear-float-left"
  | .right => c!"wj-clear-float-right"
  | .both => c!"wj-clear-float-both"

/-- `Heading`, src/tree/heading.rs:27-31; `level` is 1..6 (`HeadingLevel`, 77-86). -/
structure Heading where
  level : Nat
  hasToc : Bool
deriving DecidableEq, Repr

/-- `TryFrom<&str> for Heading`, src/tree/heading.rs:53-75, with `HeadingLevel::try_from`, 145-159. -/
def Heading.ofStr (v : Str) : Option Heading :=
  match v.getLast? with
  | none => none
  | some c =>
    let r := if c = '+' then some (true, byteLen v) else if c = '*' then some (false, byteLen v - 1) else none
    r.bind fun (hasToc, len) => if 1 ≤ len ∧ len ≤ 6 then some ⟨len, hasToc⟩ else none

end Ftml
