import Verif.Model.BlockCore
/-
Model of the blocks of `src/parsing/rule/impls/block/blocks/*.rs` (file names below are relative to
that directory), the modules of `module/`, and `src/parsing/element_condition.rs`.

Not modelled: `assert_block_name` and `assert_module_name` (mod.rs:27-52), which are empty in release
builds; `ruby.rs:99-107`, which is compiled in debug builds only.
-/
namespace Ftml
open M

/-- The arguments of `BlockParseFn`, src/parsing/rule/impls/block/mod.rs:133-139. -/
structure BCall where
  name : Str
  star : Bool
  score : Bool
  inHead : Bool

/-- `BlockRule` with its `parse_fn`, src/parsing/rule/impls/block/mod.rs:45-89; `parse_fn` gets
`consume`. -/
structure BlockRule where
  info : BlockInfo
  parse : M (PS Elements) → BCall → M (PS Elements)

/-- `assert!(!flag_star, ..)`. -/
def noStar (c : BCall) (file : Str) (line : Nat) : M Unit := assertM (!c.star) file line
/-- `assert!(!flag_score, ..)`. -/
def noScore (c : BCall) (file : Str) (line : Nat) : M Unit := assertM (!c.score) file line

/-- `Option::ok_or(make_err(kind))?`. -/
def orFail {α : Type} (k : EKind) : Option α → M α
  | some a => pure a
  | none => fail k

/-- The conversion `Some(value) => Ok(value.trim()), None => Err(BlockMissingArguments)` of several
blocks. -/
def trimmedArg : Option Str → M Str
  | some v => pure (trim v)
  | none => fail .blockMissingArguments

/-! ### Containers -/

/-- The blocks that wrap their body, taken without paragraphs, in a container: bold.rs:32-57,
del.rs:32-58, hidden.rs:32-57, ins.rs:32-58, invisible.rs:32-57, italics.rs:32-57, mark.rs:32-58,
monospace.rs:32-57, strikethrough.rs:32-58, subscript.rs:32-57, superscript.rs:32-57,
underline.rs:32-57. -/
def blkContainer (b : BlockInfo) (ct : CType) (cons : M (PS Elements)) (c : BCall) : M (PS Elements) := do
  noStar c b.name 40
  noScore c b.name 41
  let args ← getHeadMap b c.inHead
  let r ← getBody cons b false
  let attrs ← toAttrs args
  okP r.psafe [eContainer ct r.item attrs] r.errors

/-- `parse_alignment_block`, align.rs:58-90. -/
def blkAlign (b : BlockInfo) (a : Alignment) (cons : M (PS Elements)) (c : BCall) : M (PS Elements) := do
  noStar c c!"align.rs" 73
  noScore c c!"align.rs" 74
  getHeadNone b c.inHead
  let r ← getBody cons b true
  okE [eContainer (.align a) r.item] r.errors

/-- anchor.rs:34-73. -/
def blkAnchor (b : BlockInfo) (cons : M (PS Elements)) (c : BCall) : M (PS Elements) := do
  let args ← getHeadMap b c.inHead
  let attrs ← toAttrs args
  let r ← getBody cons b false
  let es := if c.score then stripNewlines r.item else r.item
  okP r.psafe [.mk (.anchor (if c.star then some .newTab else none) attrs) es] r.errors

/-- blockquote.rs:32-57. -/
def blkBlockquote (b : BlockInfo) (cons : M (PS Elements)) (c : BCall) : M (PS Elements) := do
  noStar c c!"blockquote.rs" 40
  noScore c c!"blockquote.rs" 41
  let args ← getHeadMap b c.inHead
  let r ← getBody cons b true
  let attrs ← toAttrs args
  okE [eContainer .blockquote r.item attrs] r.errors

/-- div.rs:32-63. -/
def blkDiv (b : BlockInfo) (cons : M (PS Elements)) (c : BCall) : M (PS Elements) := do
  noStar c c!"div.rs" 40
  let args ← getHeadMap b c.inHead
  let r ← getBody cons b (!c.score)
  let attrs ← toAttrs args
  okE [eContainer .div r.item attrs] r.errors

/-- span.rs:33-65. -/
def blkSpan (b : BlockInfo) (cons : M (PS Elements)) (c : BCall) : M (PS Elements) := do
  noStar c c!"span.rs" 41
  let args ← getHeadMap b c.inHead
  let r ← getBody cons b false
  let es := if c.score then stripNewlines r.item else r.item
  let attrs ← toAttrs args
  okP r.psafe [eContainer .span es attrs] r.errors

/-- size.rs:34-66. -/
def blkSize (b : BlockInfo) (cons : M (PS Elements)) (c : BCall) : M (PS Elements) := do
  noStar c c!"size.rs" 42
  noScore c c!"size.rs" 43
  let size ← getHeadValue b c.inHead (orFail .blockMissingArguments)
  let r ← getBody cons b false
  okP r.psafe [eContainer .size r.item
    (attrInsert [] c!"style" (c!"font-size: " ++ size ++ c!";")).2] r.errors

/-- Line 52-58 of paragraph.rs: the attributes of a top-level paragraph are replaced. -/
def setParagraphAttrs (attrs : AttrMap) : Elem → Elem
  | .mk (.container .paragraph _) es => .mk (.container .paragraph attrs) es
  | e => e

/-- paragraph.rs:33-62. -/
def blkParagraph (b : BlockInfo) (cons : M (PS Elements)) (c : BCall) : M (PS Elements) := do
  noStar c c!"paragraph.rs" 41
  noScore c c!"paragraph.rs" 42
  let args ← getHeadMap b c.inHead
  let attrs ← toAttrs args
  let r ← getBody cons b true
  okE (r.item.map (setParagraphAttrs attrs)) r.errors

/-! ### Bibliographies -/

/-- bibcite.rs:32-62. -/
def blkBibcite (b : BlockInfo) (_ : M (PS Elements)) (c : BCall) : M (PS Elements) := do
  noStar c c!"bibcite.rs" 42
  let label ← getHeadValue b c.inHead trimmedArg
  okE [.mk (.bibCite label (!c.score)) []]

/-- The item loop, bibliography.rs:69-76. -/
def addBibItems : List Elem → Bibl Elem → Bibl Elem
  | [], bib => bib
  | .mk (.defItem key) kids :: rest, bib => addBibItems rest (bib.add key ((kids[1]?.map Elem.kids).getD []))
  | _ :: rest, bib => addBibItems rest bib

/-- The element loop, bibliography.rs:65-93; `none` = an element that is not allowed. -/
def addBibElements : List Elem → Bibl Elem → Option (Bibl Elem)
  | [], bib => some bib
  | .mk .definitionList items :: rest, bib => addBibElements rest (addBibItems items bib)
  | e :: rest, bib => if e.isWhitespace then addBibElements rest bib else none

/-- bibliography.rs:33-99. -/
def blkBibliography (b : BlockInfo) (cons : M (PS Elements)) (c : BCall) : M (PS Elements) := do
  noStar c c!"bibliography.rs" 41
  noScore c c!"bibliography.rs" 42
  let args ← getHeadMap b c.inHead
  let (title, args) := argGet args c!"title"
  let (hide, _) ← argBool args c!"hide"
  let r ← getBody cons b false
  match addBibElements r.item ⟨[]⟩ with
  | none => fail .bibliographyContainsNonDefinitionList
  | some bib => do
    let i ← pushBibliography bib
    okE [.mk (.bibBlock i title (hide.getD false)) []] r.errors

/-! ### Single elements -/

/-- `strip_entity`, char.rs:126-138. -/
def stripEntity (s : Str) : Str :=
  let s := trim s
  let s := (stripPfx c!"&" s).getD s
  (stripSfx c!";" s).getD s

/-- `get_char`, char.rs:114-122. -/
def getCharText (v : Str) (radix : Nat) : Option Str :=
  match parseU32 radix v with
  | some n => if n < 0xD800 ∨ (0xDFFF < n ∧ n < 0x110000) then some [Char.ofNat n] else none
  | none => none

/-- `find_entity`, char.rs:84-106. -/
def findEntity (w : World) (entity : Str) : Option Str :=
  match w.entity entity with
  | some s => some s
  | none =>
    match (stripPfx c!"#x" entity).bind (getCharText · 16) with
    | some s => some s
    | none => (stripPfx c!"#" entity).bind (getCharText · 10)

/-- char.rs:50-81. -/
def blkChar (b : BlockInfo) (_ : M (PS Elements)) (c : BCall) : M (PS Elements) := do
  noStar c c!"char.rs" 58
  noScore c c!"char.rs" 59
  let s ← getHeadValue b c.inHead (fun arg => do
    let e ← env
    let arg ← orFail .blockMissingArguments arg
    orFail .blockMalformedArguments (findEntity e.world (stripEntity arg)))
  okE [eText s]

/-- checkbox.rs:32-52. -/
def blkCheckbox (b : BlockInfo) (_ : M (PS Elements)) (c : BCall) : M (PS Elements) := do
  noScore c c!"checkbox.rs" 40
  let args ← getHeadMap b c.inHead
  getOptionalSpace
  let attrs ← toAttrs args
  okE [.mk (.checkBox c.star attrs) []]

/-- radio.rs:32-55. -/
def blkRadio (b : BlockInfo) (_ : M (PS Elements)) (c : BCall) : M (PS Elements) := do
  noScore c c!"radio.rs" 42
  let (name, args) ← getHeadNameMap b c.inHead
  getOptionalSpace
  let attrs ← toAttrs args
  okE [.mk (.radioButton name c.star attrs) []]

/-- code.rs:34-72. -/
def blkCode (b : BlockInfo) (_ : M (PS Elements)) (c : BCall) : M (PS Elements) := do
  noStar c c!"code.rs" 42
  noScore c c!"code.rs" 43
  let args ← getHeadMap b c.inHead
  let (language, args) := argGet args c!"type"
  let (name, _) := argGet args c!"name"
  let e ← env
  let code ← getBodyText b
  let added ← pushCodeBlock ⟨code, name.map e.world.normalize⟩
  if added then okE [.mk (.code code (language.map lowerA)) []]
  else fail .codeNonUniqueName

/-- `parse_hide_location`, collapsible.rs:79-97. -/
def parseHideLocation (s : Str) : Option (Bool × Bool) :=
  if eqIgnoreCase c!"top" (trim s) then some (true, false)
  else if eqIgnoreCase c!"bottom" (trim s) then some (false, true)
  else if eqIgnoreCase c!"both" (trim s) then some (true, true)
  else if eqIgnoreCase c!"neither" (trim s) then some (false, false)
  else if eqIgnoreCase c!"none" (trim s) then some (false, false)
  else none

/-- collapsible.rs:33-77. -/
def blkCollapsible (b : BlockInfo) (cons : M (PS Elements)) (c : BCall) : M (PS Elements) := do
  noStar c c!"collapsible.rs" 41
  noScore c c!"collapsible.rs" 42
  let args ← getHeadMap b c.inHead
  let (showText, args) := argGet args c!"show"
  let (hideText, args) := argGet args c!"hide"
  let (folded, args) ← argBool args c!"folded"
  let (location, args) := argGet args c!"hideLocation"
  let (top, bottom) ← (match location with
    | some v => orFail .blockMalformedArguments (parseHideLocation v)
    | none => pure (true, false))
  let r ← getBody cons b true
  let attrs ← toAttrs args
  okE [.mk (.collapsible attrs (!folded.getD true) showText hideText top bottom) r.item] r.errors

/-- The captures of `^(\+|-)?([0-9]{1,2}):?([0-9]{2})?$`, date.rs:151, without the sign: hour and
minute digits. -/
def timezoneFields (s : Str) : Option (Str × Str) :=
  match s with
  | [a] => if isDigitA a then some ([a], []) else none
  | [a, b] =>
    if isDigitA a && isDigitA b then some ([a, b], [])
    else if isDigitA a && b == ':' then some ([a], []) else none
  | [a, b, d] =>
    if isDigitA a && isDigitA b && d == ':' then some ([a, b], [])
    else if isDigitA a && isDigitA b && isDigitA d then some ([a], [b, d]) else none
  | [a, b, d, e] =>
    if isDigitA a && isDigitA b && isDigitA d && isDigitA e then some ([a, b], [d, e])
    else if isDigitA a && b == ':' && isDigitA d && isDigitA e then some ([a], [d, e]) else none
  | [a, b, d, e, f] =>
    if isDigitA a && isDigitA b && d == ':' && isDigitA e && isDigitA f then some ([a, b], [e, f]) else none
  | _ => none

/-- `str::parse::<i32>`. -/
def parseI32 (s : Str) : Option Int :=
  let (neg, d) := match s with
    | '-' :: rest => (true, rest)
    | '+' :: rest => (false, rest)
    | _ => (false, s)
  if d.isEmpty then none
  else match digitsVal 10 0 d with
    | some n =>
      if neg then (if n ≤ 2 ^ 31 then some (-(n : Int)) else none)
      else (if n < 2 ^ 31 then some (n : Int) else none)
    | none => none

/-- `UtcOffset::from_whole_seconds` of the `time` crate, date.rs:213-215: at most 25:59:59 either way. -/
def getOffset (s : Int) : Option Int := if -93599 ≤ s ∧ s ≤ 93599 then some s else none

/-- `parse_timezone`, date.rs:149-202. -/
def parseTimezone (s : Str) : Option Int :=
  let (sign, body) : Int × Str := match s with
    | '+' :: rest => (1, rest)
    | '-' :: rest => (-1, rest)
    | _ => (1, s)
  match timezoneFields body with
  | some (h, m) =>
    getOffset (sign * ((((digitsVal 10 0 h).getD 0) * 3600 + ((digitsVal 10 0 m).getD 0) * 60 : Nat) : Int))
  | none => (parseI32 s).bind getOffset

/-- date.rs:40-94; `DateItem::add_timezone` is src/tree/date.rs:34-42. -/
def blkDate (b : BlockInfo) (_ : M (PS Elements)) (c : BCall) : M (PS Elements) := do
  noStar c c!"date.rs" 48
  noScore c c!"date.rs" 49
  let e ← env
  let (value, args) ← getHeadNameMap b c.inHead
  let (format, args) := argGet args c!"format"
  let (tz, args) := argGet args c!"tz"
  let (hover, _) ← argBool args c!"hover"
  let date ← orFail .blockMalformedArguments (e.world.parseDate value)
  let date ← (match tz with
    | none => pure date
    | some arg => do
      let offset ← orFail .blockMalformedArguments (parseTimezone arg)
      match date.offset with
      | none => pure { date with offset := some offset }
      | some _ => fail .blockMalformedArguments)
  okE [.mk (.date date format (hover.getD true)) []]

/-- embed.rs:38-98. -/
def blkEmbed (b : BlockInfo) (_ : M (PS Elements)) (c : BCall) : M (PS Elements) := do
  noStar c c!"embed.rs" 46
  noScore c c!"embed.rs" 47
  let (name, args) ← getHeadNameMap b c.inHead
  if eqIgnoreCase c!"youtube" name then do
    let v ← orFail .blockMissingArguments (argGet args c!"video").1
    okE [.mk (.embed (.youtube v)) []]
  else if eqIgnoreCase c!"vimeo" name then do
    let v ← orFail .blockMissingArguments (argGet args c!"video").1
    okE [.mk (.embed (.vimeo v)) []]
  else fail .noSuchEmbed

/-- equation_ref.rs:32-55. -/
def blkEquationRef (b : BlockInfo) (_ : M (PS Elements)) (c : BCall) : M (PS Elements) := do
  noStar c c!"equation_ref.rs" 40
  noScore c c!"equation_ref.rs" 41
  let name ← getHeadValue b c.inHead trimmedArg
  okE [.mk (.equationRef name) []]

/-- html.rs:32-52. -/
def blkHtml (b : BlockInfo) (_ : M (PS Elements)) (c : BCall) : M (PS Elements) := do
  noStar c c!"html.rs" 40
  noScore c c!"html.rs" 41
  getHeadNone b c.inHead
  let html ← getBodyText b
  pushHtmlBlock html
  okE [.mk (.html html) []]

/-- iframe.rs:33-57. -/
def blkIframe (b : BlockInfo) (_ : M (PS Elements)) (c : BCall) : M (PS Elements) := do
  noStar c c!"iframe.rs" 41
  noScore c c!"iframe.rs" 42
  let (url, args) ← getHeadNameMap b c.inHead
  if !isUrl url then fail .blockMalformedArguments
  else do
    let attrs ← toAttrs args
    okE [.mk (.iframe attrs url) []]

/-- image.rs:33-64. -/
def blkImage (b : BlockInfo) (_ : M (PS Elements)) (c : BCall) : M (PS Elements) := do
  noStar c c!"image.rs" 41
  noScore c c!"image.rs" 42
  let (source, args) ← getHeadNameMap b c.inHead
  let (link, args) := argGet args c!"link"
  let source ← orFail .blockMalformedArguments (ImageSource.parse source)
  let attrs ← toAttrs args
  okE [.mk (.image source (link.map LinkLoc.parse) (FloatAlign.parse c.name) attrs) []]

/-- include_elements.rs:40-128: the included page is a fixed placeholder (lines 105-128), so nothing is
appended to the shared lists. -/
def blkIncludeElements (b : BlockInfo) (_ : M (PS Elements)) (c : BCall) : M (PS Elements) := do
  checkPageSyntax
  noStar c c!"include_elements.rs" 49
  noScore c c!"include_elements.rs" 50
  let (page, vars) ← getHeadNameMap b c.inHead
  let ref ← orFail .blockMalformedArguments (PageRef.parse page)
  okE [.mk (.include false vars ref) [eText c!"<INCLUDED PAGE (ELEMENTS)>"]]

/-- include_wikidot.rs:41-57. -/
def blkInclude (_ : BlockInfo) (_ : M (PS Elements)) (c : BCall) : M (PS Elements) := do
  checkPageSyntax
  noStar c c!"include_wikidot.rs" 50
  noScore c c!"include_wikidot.rs" 51
  fail .invalidInclude

/-- later.rs:41-52. -/
def blkLater (b : BlockInfo) (_ : M (PS Elements)) (c : BCall) : M (PS Elements) := do
  getHeadNone b c.inHead
  okE [eText c!"later."]

/-- lines.rs:33-69. -/
def blkLines (b : BlockInfo) (_ : M (PS Elements)) (c : BCall) : M (PS Elements) := do
  noStar c c!"lines.rs" 41
  noScore c c!"lines.rs" 42
  let n ← getHeadValue b c.inHead (fun arg => do
    let arg ← orFail .blockMissingArguments arg
    let n ← orFail .blockMalformedArguments (parseNonZeroU32 (trim arg))
    if n > 100 then fail .blockMalformedArguments else pure n)
  okE [.mk (.lineBreaks n) []]

/-- math.rs:32-59. -/
def blkMath (b : BlockInfo) (_ : M (PS Elements)) (c : BCall) : M (PS Elements) := do
  noStar c c!"math.rs" 40
  noScore c c!"math.rs" 41
  let name ← getHeadValue b c.inHead (fun v => pure (v.map trim))
  let src ← getBodyText b
  if (trim src).isEmpty then fail .ruleFailed
  else okE [.mk (.math name (trim src)) []]

/-- target.rs:34-65. -/
def blkTarget (b : BlockInfo) (_ : M (PS Elements)) (c : BCall) : M (PS Elements) := do
  noStar c c!"target.rs" 42
  noScore c c!"target.rs" 43
  let name ← getHeadValue b c.inHead trimmedArg
  if name.isEmpty || name.contains ' ' then fail .blockMissingArguments
  else do
    let e ← env
    okE [.mk (.anchorName (if e.settings.isolateUserIds then isolateIds name else name)) []]

/-- toc.rs:33-51. -/
def blkToc (b : BlockInfo) (_ : M (PS Elements)) (c : BCall) : M (PS Elements) := do
  checkPageSyntax
  noStar c c!"toc.rs" 42
  noScore c c!"toc.rs" 43
  let args ← getHeadMap b c.inHead
  let attrs ← toAttrs args
  okP false [.mk (.toc attrs ((FloatAlign.parse c.name).map (·.align))) []]

/-- user.rs:32-55. -/
def blkUser (b : BlockInfo) (_ : M (PS Elements)) (c : BCall) : M (PS Elements) := do
  noScore c c!"user.rs" 40
  let name ← getHeadValue b c.inHead trimmedArg
  okE [.mk (.user name c.star) []]

/-! ### Footnotes -/

/-- Lines 76-89 of footnote.rs: a single paragraph is unwrapped. -/
def unwrapParagraph : List Elem → List Elem
  | [.mk (.container .paragraph _) es] => es
  | es => es

/-- Set the footnote flag, `set_footnote_flag`, src/parsing/parser.rs. -/
def setInFootnote (v : Bool) : M Unit := modP fun p => { p with inFootnote := v }

/-- The body of `parse_footnote_ref` under its `ParserWrap`, footnote.rs:60-94; the wrapper's `drop`
(161-165) clears the flag on every exit. -/
def withFootnote {α : Type} (m : M α) : M α := do
  setInFootnote true
  match ← attempt m with
  | .ok r => do
    setInFootnote false
    pure r
  | .error e => do
    setInFootnote false
    throw e

/-- footnote.rs:42-95. -/
def blkFootnote (b : BlockInfo) (cons : M (PS Elements)) (c : BCall) : M (PS Elements) := do
  if (← getP).inFootnote then fail .footnotesNested
  else withFootnote do
    noStar c c!"footnote.rs" 63
    noScore c c!"footnote.rs" 64
    getHeadNone b c.inHead
    let r ← getBody cons b true
    pushFootnote (unwrapParagraph r.item)
    okE [.mk .footnote []] r.errors

/-- footnote.rs:97-125. -/
def blkFootnoteBlock (b : BlockInfo) (_ : M (PS Elements)) (c : BCall) : M (PS Elements) := do
  noStar c c!"footnote.rs" 105
  noScore c c!"footnote.rs" 106
  let args ← getHeadMap b c.inHead
  let (title, args) := argGet args c!"title"
  let (hide, args) ← argBool args c!"hide"
  if !args.isEmpty then fail .blockMalformedArguments
  else do
    modP fun p => { p with hasFootnoteBlock := true }
    okE [.mk (.footnoteBlock title (hide.getD false)) []]

/-! ### Conditions (src/parsing/element_condition.rs) -/

/-- `ElementConditionType`, src/parsing/element_condition.rs:113-117. -/
inductive CondType where
  | required | prohibited | present
deriving DecidableEq, Repr

/-- `ElementCondition::parse`, src/parsing/element_condition.rs:40-66. -/
def parseConditions (spec : Str) : List (CondType × Str) :=
  ((splitOn ' ' spec).filter fun s => !s.isEmpty).map fun s =>
    match s with
    | '+' :: v => (.required, v)
    | '-' :: v => (.prohibited, v)
    | v => (.present, v)

/-- `ElementCondition::check`, src/parsing/element_condition.rs:75-106. -/
def checkConditions (cs : List (CondType × Str)) (values : List Str) : Bool :=
  let st := cs.foldl (fun (st : Bool × Bool × Bool × Bool) c =>
    let has := values.contains c.2
    match c.1 with
    | .required => (st.1 && has, st.2.1, st.2.2.1, st.2.2.2)
    | .prohibited => (st.1, st.2.1 && !has, st.2.2.1, st.2.2.2)
    | .present => (st.1, st.2.1, st.2.2.1 || has, true)) (true, true, false, false)
  st.1 && st.2.1 && (if !st.2.2.2 then true else st.2.2.1)

/-- Lines 53-63 of ifcategory.rs. -/
def requiredToPresent (c : CondType × Str) : CondType × Str :=
  if c.1 = .required then (.present, c.2) else c

/-- ifcategory.rs:34-101. -/
def blkIfCategory (b : BlockInfo) (cons : M (PS Elements)) (c : BCall) : M (PS Elements) := do
  noStar c c!"ifcategory.rs" 42
  noScore c c!"ifcategory.rs" 43
  let cs ← getHeadValue b c.inHead (fun spec => do
    let spec ← orFail .blockMissingArguments spec
    pure ((parseConditions spec).map requiredToPresent))
  let r ← getBody cons b false
  let e ← env
  okP r.psafe (if checkConditions cs [e.info.category.getD c!"_default"] then r.item else []) r.errors

/-- iftags.rs:34-80. -/
def blkIfTags (b : BlockInfo) (cons : M (PS Elements)) (c : BCall) : M (PS Elements) := do
  noStar c c!"iftags.rs" 42
  noScore c c!"iftags.rs" 43
  let cs ← getHeadValue b c.inHead (fun spec => do
    let spec ← orFail .blockMissingArguments spec
    pure (parseConditions spec))
  let r ← getBody cons b false
  let e ← env
  okP r.psafe (if checkConditions cs e.info.tags then r.item else []) r.errors

/-! ### Lists, tables, tabs, ruby -/

/-- The item loop, list.rs:137-165; `none` = an element that is not allowed. -/
def listItems : List Elem → Option (List Elem)
  | [] => some []
  | .mk (.part .listItem) kids :: rest => (listItems rest).map (kids ++ ·)
  | .mk (.list l a) kids :: rest => (listItems rest).map (.mk .subList [.mk (.list l a) kids] :: ·)
  | e :: rest => if e.isWhitespace then listItems rest else none

/-- `parse_list_block`, list.rs:90-177. -/
def blkList (b : BlockInfo) (lt : ListType) (cons : M (PS Elements)) (c : BCall) : M (PS Elements) :=
  withAccepts .listItem do
    noStar c c!"list.rs" 109
    let args ← getHeadMap b c.inHead
    let attrs ← toAttrs args
    let r ← getBody cons b false
    let es := if c.score then stripNewlines r.item else r.item
    if es.isEmpty then fail .listEmpty
    else do
      let items ← orFail .listContainsNonItem (listItems es)
      okP false [.mk (.list lt attrs) items] r.errors

/-- `parse_list_item`, list.rs:181-217. -/
def blkListItem (b : BlockInfo) (cons : M (PS Elements)) (c : BCall) : M (PS Elements) := do
  noStar c c!"list.rs" 192
  let args ← getHeadMap b c.inHead
  let attrs ← toAttrs args
  let r ← getBody cons b false
  let es := if c.score then stripNewlines r.item else r.item
  okP false [.mk (.part .listItem) [.mk (.item attrs) es]] r.errors

/-- `extract_table_items!`, table.rs:111-132, and the tab loop, tabs.rs:64-75. -/
def partItems (k : PartKind) : List Elem → Option (List Elem)
  | [] => some []
  | .mk (.part k') kids :: rest => if k' = k then (partItems k rest).map (kids ++ ·) else none
  | e :: rest => if e.isWhitespace then partItems k rest else none

/-- `parse_block`, table.rs:73-109. -/
def tableBlock (b : BlockInfo) (cons : M (PS Elements)) (c : BCall) : M (PS (List Elem) × AttrMap) := do
  noStar c c!"table.rs" 86
  noScore c c!"table.rs" 90
  let args ← getHeadMap b c.inHead
  let attrs ← toAttrs args
  let r ← getBody cons b false
  pure (r, attrs)

/-- `parse_table`, table.rs:136-165. -/
def blkTable (b : BlockInfo) (cons : M (PS Elements)) (c : BCall) : M (PS Elements) :=
  withAccepts .tableRow do
    let (r, attrs) ← tableBlock b cons c
    let rows ← orFail .tableContainsNonRow (partItems .tableRow r.item)
    okP false [.mk (.table attrs) rows] r.errors

/-- `parse_row`, table.rs:169-200. -/
def blkTableRow (b : BlockInfo) (cons : M (PS Elements)) (c : BCall) : M (PS Elements) :=
  withAccepts .tableCell do
    let (r, attrs) ← tableBlock b cons c
    let cells ← orFail .tableRowContainsNonCell (partItems .tableCell r.item)
    okP false [.mk (.part .tableRow) [.mk (.row attrs) cells]] r.errors

/-- `parse_cell`, table.rs:254-279. -/
def parseCell (r : PS (List Elem)) (attrs : AttrMap) (header : Bool) : M (PS Elements) := do
  let (v, attrs) := btRemove c!"colspan" attrs
  okP false [.mk (.part .tableCell)
    [.mk (.cell header ((v.bind parseNonZeroU32).getD 1) none attrs) (stripWhitespace r.item)]] r.errors

/-- `parse_cell_regular`, table.rs:204-226. -/
def blkCellRegular (b : BlockInfo) (cons : M (PS Elements)) (c : BCall) : M (PS Elements) := do
  let (r, attrs) ← tableBlock b cons c
  parseCell r attrs false

/-- `parse_cell_header`, table.rs:228-252. -/
def blkCellHeader (b : BlockInfo) (cons : M (PS Elements)) (c : BCall) : M (PS Elements) :=
  withAccepts .tableCell do
    let (r, attrs) ← tableBlock b cons c
    parseCell r attrs true

/-- `parse_tabview`, tabs.rs:43-83. -/
def blkTabView (b : BlockInfo) (cons : M (PS Elements)) (c : BCall) : M (PS Elements) :=
  withAccepts .tab do
    noStar c c!"tabs.rs" 53
    noScore c c!"tabs.rs" 54
    getHeadNone b c.inHead
    let r ← getBody cons b false
    let tabs ← orFail .tabViewContainsNonTab (partItems .tab r.item)
    if tabs.isEmpty then fail .tabViewEmpty
    else okP false [.mk .tabView tabs] r.errors

/-- `parse_tab`, tabs.rs:85-112. -/
def blkTab (b : BlockInfo) (cons : M (PS Elements)) (c : BCall) : M (PS Elements) := do
  noStar c c!"tabs.rs" 93
  noScore c c!"tabs.rs" 94
  let label ← getHeadValue b c.inHead (orFail .blockMissingArguments)
  let r ← getBody cons b true
  okP false [.mk (.part .tab) [.mk (.tab label) r.item]] r.errors

/-- The conversion of ruby text, ruby.rs:74-96. -/
def rubyTextToContainer : Elem → Elem
  | .mk (.part .rubyText) [.mk (.rubyText attrs) es] => eContainer .rubyText es attrs
  | e => e

/-- `parse_block`, ruby.rs:55-120. -/
def blkRuby (b : BlockInfo) (cons : M (PS Elements)) (c : BCall) : M (PS Elements) := do
  noStar c c!"ruby.rs" 63
  noScore c c!"ruby.rs" 64
  withAccepts .ruby do
    let args ← getHeadMap b c.inHead
    let r ← getBody cons b false
    let es := stripWhitespace (r.item.map rubyTextToContainer)
    let attrs ← toAttrs args
    okP r.psafe [eContainer .ruby es attrs] r.errors

/-- `parse_text`, ruby.rs:124-150. -/
def blkRubyText (b : BlockInfo) (cons : M (PS Elements)) (c : BCall) : M (PS Elements) := do
  noStar c c!"ruby.rs" 132
  noScore c c!"ruby.rs" 133
  let args ← getHeadMap b c.inHead
  let r ← getBody cons b false
  let attrs ← toAttrs args
  okP r.psafe [.mk (.part .rubyText) [.mk (.rubyText attrs) (stripWhitespace r.item)]] r.errors

/-- `parse_shortcut`, ruby.rs:154-194. -/
def blkRubyShort (b : BlockInfo) (_ : M (PS Elements)) (c : BCall) : M (PS Elements) := do
  noStar c c!"ruby.rs" 162
  noScore c c!"ruby.rs" 163
  let (base, ruby) ← getHeadValue b c.inHead (fun v => do
    let v ← orFail .blockMissingArguments v
    match splitOn '|' v with
    | [base, ruby] => pure (trim base, trim ruby)
    | _ => fail .blockMalformedArguments)
  okE [eContainer .ruby [eText base, eContainer .rubyText [eText ruby]]]

/-! ### Modules (module/) -/

/-- `MODULE_RULES`, module/mapping.rs:26-33: rule name and accepted name. -/
def moduleRules : List (Str × Str) :=
  [(c!"module-backlinks", c!"Backlinks"), (c!"module-categories", c!"Categories"),
   (c!"module-css", c!"CSS"), (c!"module-join", c!"Join"), (c!"module-page-tree", c!"PageTree"),
   (c!"module-rate", c!"Rate")]

/-- The `parse_fn`s of module/modules/{backlinks,categories,css,join,page_tree,rate}.rs:29-46. -/
def moduleParse (b : BlockInfo) (rule : Str) (args : Args) : M (PS Elements) := do
  if rule = c!"module-backlinks" then
    okP false [.mk (.module (.backlinks (argGet args c!"page").1)) []]
  else if rule = c!"module-categories" then do
    let (h, _) ← argBool args c!"includeHidden"
    okP false [.mk (.module (.categories (h.getD false))) []]
  else if rule = c!"module-css" then do
    let css ← getBodyText b
    okP false [.mk (.style css) []]
  else if rule = c!"module-join" then do
    let (button, args) := argGet args c!"button"
    let attrs ← toAttrs args
    okP false [.mk (.module (.join button attrs)) []]
  else if rule = c!"module-page-tree" then do
    let (root, args) := argGet args c!"root"
    let (depth, args) ← argNonZero args c!"depth"
    let (showRoot, _) ← argBool args c!"showRoot"
    okP false [.mk (.module (.pageTree root (showRoot.getD false) depth)) []]
  else okP false [.mk (.module .rate) []]

/-- module/rule.rs:33-67. -/
def blkModule (b : BlockInfo) (_ : M (PS Elements)) (c : BCall) : M (PS Elements) := do
  checkPageSyntax
  noStar c c!"module/rule.rs" 42
  noScore c c!"module/rule.rs" 43
  let (sub, args) ← getHeadNameMap b c.inHead
  match moduleRules.find? fun r => eqIgnoreCase sub r.2 with
  | none => fail .noSuchModule
  | some (rule, _) => do
    setRule (.blk rule)
    moduleParse b rule args

/-! ### The table of blocks -/

/-- A block whose `parse_fn` is `f`. -/
def mkBlock (name : Str) (names : List Str) (star score newlines : Bool)
    (f : BlockInfo → M (PS Elements) → BCall → M (PS Elements)) : BlockRule :=
  ⟨⟨name, names, star, score, newlines⟩, f ⟨name, names, star, score, newlines⟩⟩

/-- `BLOCK_RULES`, src/parsing/rule/impls/block/mapping.rs:26-87, with the constants `BLOCK_*` of the
block files. -/
def blockRules : List BlockRule := [
  mkBlock c!"block-align-center" [c!"="] false false true (blkAlign · .center),
  mkBlock c!"block-align-justify" [c!"=="] false false true (blkAlign · .justify),
  mkBlock c!"block-align-left" [c!"<"] false false true (blkAlign · .left),
  mkBlock c!"block-align-right" [c!">"] false false true (blkAlign · .right),
  mkBlock c!"block-anchor" [c!"a", c!"anchor"] true true false blkAnchor,
  mkBlock c!"block-bibcite" [c!"bibcite"] false true false blkBibcite,
  mkBlock c!"block-bibliography" [c!"bibliography"] false false true blkBibliography,
  mkBlock c!"block-blockquote" [c!"blockquote", c!"quote"] false false true blkBlockquote,
  mkBlock c!"block-bold" [c!"b", c!"bold", c!"strong"] false false false (blkContainer · .bold),
  mkBlock c!"block-char" [c!"char", c!"character"] false false false blkChar,
  mkBlock c!"block-checkbox" [c!"checkbox"] true false false blkCheckbox,
  mkBlock c!"block-code" [c!"code"] false false true blkCode,
  mkBlock c!"block-collapsible" [c!"collapsible"] false false true blkCollapsible,
  mkBlock c!"block-date" [c!"date"] false false false blkDate,
  mkBlock c!"block-del" [c!"del", c!"deletion"] false false false (blkContainer · .deletion),
  mkBlock c!"block-div" [c!"div"] false true true blkDiv,
  mkBlock c!"block-embed" [c!"embed"] false false true blkEmbed,
  mkBlock c!"block-equation-ref" [c!"equation", c!"eref", c!"eqref"] false false false blkEquationRef,
  mkBlock c!"block-footnote" [c!"footnote"] false false false blkFootnote,
  mkBlock c!"block-footnote-block" [c!"footnoteblock"] false false true blkFootnoteBlock,
  mkBlock c!"block-hidden" [c!"hidden"] false false true (blkContainer · .hidden),
  mkBlock c!"block-html" [c!"html"] false false true blkHtml,
  mkBlock c!"block-ifcategory" [c!"ifcategory"] false false true blkIfCategory,
  mkBlock c!"block-iframe" [c!"iframe"] false false true blkIframe,
  mkBlock c!"block-iftags" [c!"iftags"] false false true blkIfTags,
  mkBlock c!"block-image" [c!"image", c!"=image", c!"<image", c!">image", c!"f<image", c!"f>image"]
    false false false blkImage,
  mkBlock c!"block-include-elements" [c!"include-elements"] false false true blkIncludeElements,
  mkBlock c!"block-include" [c!"include"] false false true blkInclude,
  mkBlock c!"block-ins" [c!"ins", c!"insertion"] false false false (blkContainer · .insertion),
  mkBlock c!"block-invisible" [c!"invisible"] false false true (blkContainer · .invisible),
  mkBlock c!"block-italics" [c!"i", c!"italics", c!"em", c!"emphasis"] false false false
    (blkContainer · .italics),
  mkBlock c!"block-later" [c!"later"] true false true blkLater,
  mkBlock c!"block-list-item" [c!"li"] false true true blkListItem,
  mkBlock c!"block-lines" [c!"lines", c!"newlines"] false false true blkLines,
  mkBlock c!"block-mark" [c!"mark", c!"highlight"] false false false (blkContainer · .mark),
  mkBlock c!"block-math" [c!"math"] false false true blkMath,
  mkBlock c!"block-module" [c!"module", c!"module654"] false false true blkModule,
  mkBlock c!"block-monospace" [c!"tt", c!"mono", c!"monospace"] false false false
    (blkContainer · .monospace),
  mkBlock c!"block-list-ordered" [c!"ol"] false true true (blkList · .numbered),
  mkBlock c!"block-paragraph" [c!"p", c!"paragraph"] false false true blkParagraph,
  mkBlock c!"block-radio" [c!"radio", c!"radio-button"] true false false blkRadio,
  mkBlock c!"block-ruby-short" [c!"rb", c!"ruby2"] false false false blkRubyShort,
  mkBlock c!"block-ruby-text" [c!"rt", c!"rubytext"] false false true blkRubyText,
  mkBlock c!"block-ruby" [c!"ruby"] false false true blkRuby,
  mkBlock c!"block-size" [c!"size"] false false false blkSize,
  mkBlock c!"block-span" [c!"span"] false true false blkSpan,
  mkBlock c!"block-strikethrough" [c!"s", c!"strikethrough"] false false false
    (blkContainer · .strikethrough),
  mkBlock c!"block-subscript" [c!"sub", c!"subscript"] false false false (blkContainer · .subscript),
  mkBlock c!"block-superscript" [c!"sup", c!"super", c!"superscript"] false false false
    (blkContainer · .superscript),
  mkBlock c!"block-tab" [c!"tab"] false false true blkTab,
  mkBlock c!"block-table" [c!"table"] false false true blkTable,
  mkBlock c!"block-table-cell-header" [c!"hcell"] false false true blkCellHeader,
  mkBlock c!"block-table-cell-regular" [c!"cell"] false false true blkCellRegular,
  mkBlock c!"block-toc" [c!"toc", c!"f<toc", c!"f>toc"] false false true blkToc,
  mkBlock c!"block-table-row" [c!"row"] false false true blkTableRow,
  mkBlock c!"block-tabview" [c!"tabview", c!"tabs"] false false true blkTabView,
  mkBlock c!"block-target" [c!"target", c!"anchortarget"] false false true blkTarget,
  mkBlock c!"block-list-unordered" [c!"ul"] false true true (blkList · .bullet),
  mkBlock c!"block-underline" [c!"u", c!"underline"] false false false (blkContainer · .underline),
  mkBlock c!"block-user" [c!"user"] true false false blkUser]

/-- `get_block_rule_with_name`, src/parsing/rule/impls/block/mapping.rs:95-100.  The Rust table is a
`HashMap`; its constructor (102-128) asserts that no two blocks share a name, so searching the list
finds the same block. -/
def getBlockRule (name : Str) : Option BlockRule :=
  blockRules.find? fun r => r.info.names.any fun n => eqIgnoreCase (stripScore name) n

/-! ### src/parsing/rule/impls/block/rule.rs -/

/-- `parse_block`, rule.rs:87-141. -/
def ruleBlock (cons : M (PS Elements)) (star : Bool) : M (PS Elements) := do
  setRule (if star then .blockStar else .block)
  getOptionalSpace
  let (name, inHead) ← getBlockName star
  let (name, score) := match stripSfx c!"_" name with
    | some n => (n, true)
    | none => (name, false)
  match getBlockRule name with
  | none => fail .noSuchBlock
  | some block => do
    setRule (.blk block.info.name)
    if !block.info.star && star then fail .blockDisallowsStar
    else if !block.info.score && score then fail .blockDisallowsScore
    else do
      getOptionalSpace
      block.parse cons ⟨name, star, score, inHead⟩

/-- `block_skip`, rule.rs:56-83. -/
def ruleBlockSkip : M (PS Elements) := do
  let c ← step
  let b ← evaluateFn (do
    if c.token ≠ .leftBlock && c.token ≠ .leftBlockStar then pure false
    else do
      let (name, _) ← getBlockName false
      match getBlockRule name with
      | some r => pure r.info.newlines
      | none => pure false)
  if b then okE [] else fail .ruleFailed

end Ftml
