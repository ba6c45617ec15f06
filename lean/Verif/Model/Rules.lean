import Verif.Model.ParserCore
/-
Model of the token rules `src/parsing/rule/impls/*.rs` (all but the block rules).  `cons` stands for
`consume` (src/parsing/consume.rs).
-/
namespace Ftml
open M

/-- A failing check `if cond { return Err(RuleFailed) }`. -/
def require (b : Bool) : M Unit := if b then pure () else fail .ruleFailed

/-- The current token and the next, `next_two_tokens`, src/parsing/parser.rs:491-496. -/
def nextTwo : M (Token × Option Token) := do
  let p ← getP
  pure (p.cur.token, p.rem[0]?.map (·.token))
/-- `next_three_tokens`, src/parsing/parser.rs:499-505. -/
def nextThree : M (Token × Option Token × Option Token) := do
  let p ← getP
  pure (p.cur.token, p.rem[0]?.map (·.token), p.rem[1]?.map (·.token))

/-- null.rs:29-34. -/
def ruleNull : M (PS Elements) := okE []
/-- text.rs:29-35. -/
def ruleText : M (PS Elements) := do
  let c ← current
  okE [eText c.slice]
/-- email.rs:29-34. -/
def ruleEmail : M (PS Elements) := do
  let c ← current
  okE [.mk (.email c.slice) []]
/-- dash.rs:29-36. -/
def ruleDash : M (PS Elements) := okE [eText ['\u2014']]

/-- anchor.rs:37-68. -/
def ruleAnchor : M (PS Elements) := do
  let _ ← checkStep .leftBlockAnchor
  let _ ← getToken .whitespace .ruleFailed
  let name ← collectText [.cur .rightBlock] [.cur .whitespace, .cur .paragraphBreak, .cur .lineBreak] none
  let e ← env
  okE [.mk (.anchorName (if e.settings.isolateUserIds then isolateIds name else name)) []]

/-- bibcite.rs:29-68. -/
def ruleBibcite : M (PS Elements) := do
  let _ ← checkStep .leftParentheses
  let c ← current
  if c.token ≠ .identifier && !eqIgnoreCase c.slice c!"bibcite" then fail .ruleFailed
  else do
    let _ ← step
    if (← curTok) ≠ .whitespace then fail .ruleFailed
    else do
      let _ ← step
      let label ← collectText [.cur .rightParentheses]
        [.cur .whitespace, .cur .paragraphBreak, .cur .lineBreak] none
      okE [.mk (.bibCite label false) []]

/-- `MAX_BLOCKQUOTE_DEPTH`, blockquote.rs:26. -/
def maxBlockquoteDepth : Nat := 30

/-- The line endings `LineBreak`, `ParagraphBreak`, `InputEnd` as close conditions. -/
def lineEnds : List Cond := [.cur .lineBreak, .cur .paragraphBreak, .cur .inputEnd]

/-- Loop of `build_blockquote_element`, blockquote.rs:110-123; the nested call is the `List` case. -/
def quoteItem : DItem Unit (List Elem × Bool) → PStack → PStack
  | .item (es, ps), s => es.foldl (fun s e => s.pushElement e ps) s
  | .list _ items, s =>
    let q := eContainer .blockquote (go items PStack.new).popLineBreak.intoElements
    s.popLineBreak.pushElement q false
where
  /-- the `for` loop -/
  go : List (DItem Unit (List Elem × Bool)) → PStack → PStack
    | [], s => s
    | i :: is, s => go is (quoteItem i s)

/-- `build_blockquote_element`, blockquote.rs:106-132. -/
def buildBlockquote (items : List (DItem Unit (List Elem × Bool))) : Elem :=
  eContainer .blockquote (quoteItem.go items PStack.new).popLineBreak.intoElements

/-- One turn of the loop over the lines of a quote, blockquote.rs:47-87. -/
def quoteTurn (cons : M (PS Elements)) (acc : List (Nat × Unit × (List Elem × Bool)) × List PErr) :
    M (Turn (List (Nat × Unit × (List Elem × Bool)) × List PErr) (List (Nat × Unit × (List Elem × Bool)) × List PErr)) := do
  let c ← current
  if c.token ≠ .quote then pure (.done acc)
  else do
    let depth := byteLen c.slice
    let _ ← step
    getOptionalSpace
    if depth > maxBlockquoteDepth then fail .blockquoteDepthExceeded
    else do
      let r ← collectConsume cons lineEnds [] none
      pure (.more (acc.1 ++ [(depth - 1, (), (r.item ++ [eLineBreak], true && r.psafe))],
        acc.2 ++ r.errors))

/-- blockquote.rs:34-104. -/
def ruleBlockquote (cons : M (PS Elements)) : M (PS Elements) := do
  let (depths, errors) ← loop (quoteTurn cons) ([], [])
  if depths.isEmpty then fail .ruleFailed
  else do
    let lists ← unwrap .depth (processDepths () depths)
    okP false (lists.map fun l => buildBlockquote l.2) errors

/-- The container rules with an opening and closing token: bold.rs:29-46, italics.rs, underline.rs,
superscript.rs, subscript.rs, monospace.rs:29-46, strikethrough.rs:51-70. -/
def ruleDelimited (cons : M (PS Elements)) (ct : CType) (opening closing : Token) : M (PS Elements) := do
  let _ ← checkStep opening
  collectContainer cons ct [.cur closing]
    [.cur .paragraphBreak, .pair opening .whitespace, .pair .whitespace closing] none

/-- center.rs:30-63. -/
def ruleCenter (cons : M (PS Elements)) : M (PS Elements) := do
  require ((← curTok) == .equals)
  let _ ← step
  require ((← curTok) == .whitespace)
  let _ ← step
  collectContainer cons (.align .center) lineEnds [] none

/-- clear_float.rs:30-47. -/
def ruleClearFloat : M (PS Elements) := do
  let t ← curTok
  match (match t with
    | .clearFloatBoth => some ClearFloat.both
    | .clearFloatLeft => some .left
    | .clearFloatRight => some .right
    | _ => none) with
  | none => fail .ruleFailed
  | some cf => do
    getOptionalLineBreak
    okE [.mk (.clearFloat cf) []]

/-- Regex `[a-fA-F0-9]`. -/
def isHexA (c : Char) : Bool :=
  isDigitA c || (97 ≤ c.toNat && c.toNat ≤ 102) || (65 ≤ c.toNat && c.toNat ≤ 70)
/-- `hexify_color`, color.rs:26-27, 82-88. -/
def hexifyColor (s : Str) : Str :=
  if (s.length == 3 || s.length == 6) && s.all isHexA then '#' :: s else s
/-- color.rs:35-75. -/
def ruleColor (cons : M (PS Elements)) : M (PS Elements) := do
  let _ ← checkStep .color
  let color ← collectText [.cur .pipe] [.cur .paragraphBreak, .cur .lineBreak] none
  let r ← collectConsume cons [.cur .color] [.cur .paragraphBreak] none
  okP r.psafe [.mk (.color (hexifyColor color)) r.item] r.errors

/-- comment.rs:29-66. -/
def ruleComment : M (PS Elements) := do
  let _ ← checkStep .leftComment
  loop (fun (_ : Unit) => do
    let t ← curTok
    if t = .rightComment then do
      let _ ← step
      let r ← okE []
      pure (.done r)
    else if t = .inputEnd then fail .endOfInput
    else do
      let _ ← step
      pure (.more ())) ()

/-- `skip_newline`, definition_list.rs:37-51. -/
def ruleDefinitionListSkip : M (PS Elements) := do
  let t ← nextThree
  if t = (.lineBreak, some .colon, some .whitespace) then okE [] else fail .ruleFailed

/-- `DefinitionListItem` as a structural node, src/tree/definition_list.rs:28-36. -/
def eDefItem (key : Str) (ks vs : List Elem) : Elem := .mk (.defItem key) [.mk .defKey ks, .mk .defValue vs]

/-- `parse_item`, definition_list.rs:97-178. -/
def parseDefItem (cons : M (PS Elements)) : M (PS (Elem × Bool)) := do
  let p ← getP
  require p.startOfLine
  require ((← nextTwo) == (.colon, some .whitespace))
  stepN 2
  let startToken ← current
  let k ← collectConsume cons [.pair .whitespace .colon] [.cur .paragraphBreak, .cur .lineBreak] none
  let endToken ← current
  stepN 2
  let key ← slicePartialText startToken endToken
  let v ← collectConsumeKeep cons [.cur .paragraphBreak, .cur .lineBreak, .cur .inputEnd] [] none
  let last := v.item.2
  if last.token = .paragraphBreak || last.token = .inputEnd then
    okP false (eDefItem (trim key) (stripWhitespace k.item) (stripWhitespace v.item.1), true) (k.errors ++ v.errors)
  else if last.token = .lineBreak then
    okP false (eDefItem (trim key) (stripWhitespace k.item) (stripWhitespace v.item.1), false) (k.errors ++ v.errors)
  else panic (.expect c!"definition_list.rs" 165)

/-- `parse_definition_list`, definition_list.rs:53-95 (the collected errors are dropped). -/
def ruleDefinitionList (cons : M (PS Elements)) : M (PS Elements) := do
  let first ← parseDefItem cons
  if first.item.2 then okE [.mk .definitionList [first.item.1]]
  else do
    let items ← loop (fun (items : List Elem) => do
      match ← onClone (parseDefItem cons) with
      | (.ok s, q) => do
        updateP q
        if s.item.2 then pure (.done (items ++ [s.item.1])) else pure (.more (items ++ [s.item.1]))
      | (.error _, _) => pure (.done items)) [first.item.1]
    okE [.mk .definitionList items]

/-- double_angle.rs:29-51. -/
def ruleDoubleAngle : M (PS Elements) := do
  let c ← current
  if c.token = .leftDoubleAngle then okE [eText ['\u00ab']]
  else if c.token = .quote then
    (if c.slice = c!">>" then okE [eText ['\u00bb']] else fail .ruleFailed)
  else panic (.expect c!"double_angle.rs" 49)

/-- header.rs:30-98; the self-recursive call of line 89 is `n` deep at most. -/
def headerFn (cons : M (PS Elements)) : Nat → M (PS Elements)
  | 0 => diverge
  | n+1 => do
    let c ← current
    require (c.token == .heading)
    let _ ← step
    let h ← unwrap (.expect c!"header.rs" 51) (Heading.ofStr c.slice)
    require ((← curTok) == .whitespace)
    let _ ← step
    let r ← collectContainer cons (.header h) [.cur .inputEnd, .cur .lineBreak, .cur .paragraphBreak] [] none
    if h.hasToc then do
      match r.item with
      | [.mk (.container _ _) es] => pushToc h.level es
      | _ => panic (.expect c!"header.rs" 76)
    else pure ()
    match ← attempt (headerFn cons n) with
    | .ok s => okP false (r.item ++ s.item) (r.errors ++ s.errors)
    | .error _ => okP false r.item r.errors
/-- header.rs:30-98. -/
def ruleHeader (cons : M (PS Elements)) : M (PS Elements) := do
  let n ← remLen
  headerFn cons (n + 1)

/-- horizontal_rule.rs:29-36. -/
def ruleHorizontalRule : M (PS Elements) := do
  let _ ← checkStep .tripleDash
  getOptionalLineBreak
  okE [.mk .horizontalRule []]

/-- Tokens that start a line-based construct, line_break.rs:47-63. -/
def isSkipTok : Token → Bool
  | .quote | .bulletItem | .numberedItem | .heading | .equals | .tripleDash | .clearFloatLeft
  | .clearFloatRight | .clearFloatBoth | .tableColumn | .tableColumnLeft | .tableColumnRight
  | .tableColumnCenter | .tableColumnTitle => true
  | _ => false

/-- `line_break`, line_break.rs:35-72 (`line_break_paragraph`, 75-93, calls it). -/
def ruleLineBreak : M (PS Elements) := do
  let skip ← evaluateFn (do
    let _ ← step
    getOptionalSpace
    return isSkipTok (← curTok))
  if skip then okE [] else okE [eLineBreak]

/-- link_anchor.rs:37-93. -/
def ruleLinkAnchor : M (PS Elements) := do
  let _ ← checkStep .leftBracketAnchor
  let url ← collectText [.cur .whitespace] [.cur .rightBracket, .cur .paragraphBreak, .cur .lineBreak] none
  let e ← env
  let url := if url.isEmpty then c!"javascript:;" else '#' :: e.world.normalize url
  let label ← collectText [.cur .rightBracket] [.cur .paragraphBreak, .cur .lineBreak] none
  okE [.mk (.link .anchor (.url url) none (.text (trim label)) none) []]

/-- `url_valid`, link_single.rs:121-138. -/
def urlValid (url : Str) : Bool :=
  if url.isEmpty then false else if startsWith url c!"/" then true else isUrl url

/-- link_single.rs:43-119. -/
def ruleLinkSingle (opening : Token) (target : Option AnchorTarget) : M (PS Elements) := do
  let _ ← checkStep opening
  let url ← collectText [.cur .whitespace] [.cur .rightBracket, .cur .paragraphBreak, .cur .lineBreak] none
  if !urlValid url then fail .invalidUrl
  else do
    let label ← collectText [.cur .rightBracket] [.cur .paragraphBreak, .cur .lineBreak] none
    okE [.mk (.link .direct (.url url) (LinkLoc.parseExtra url) (.text (trim label)) target) []]

/-- `strip_category`, link_triple.rs:200-225 (recursion on a shorter text). -/
def stripCategory : Nat → Str → Option Str
  | 0, _ => none
  | n+1, url =>
    match splitOnce ':' url with
    | none => none
    | some ([], rest) =>
      match splitOnce ':' rest with
      | none => none
      | some (_, r) => some ((stripCategory n (trimStart r)).getD (trimStart r))
    | some (_, rest) => some (trimStart rest)

/-- `LinkLocation::parse_interwiki`, src/tree/link.rs:39-58, with the error of link_triple.rs:123 and
178. -/
def parseLinkLoc (url : Str) : M (LinkLoc × LinkType) := do
  let e ← env
  match LinkLoc.parseInterwiki e.settings.interwiki url with
  | none => diverge
  | some none => fail .ruleFailed
  | some (some r) => pure r

/-- link_triple.rs:47-191. -/
def ruleLinkTriple (opening : Token) (target : Option AnchorTarget) : M (PS Elements) := do
  let _ ← checkStep opening
  let (url, last) ← collectTextKeep [.cur .pipe, .cur .rightLink] [.cur .paragraphBreak, .cur .lineBreak] none
  let url := trim url
  if url.isEmpty then fail .ruleFailed
  else if last.token = .rightLink then do
    let (link, lt) ← parseLinkLoc url
    okE [.mk (.link lt link (LinkLoc.parseExtra url) (.url (stripCategory (url.length + 1) url)) target) []]
  else if last.token = .pipe then do
    let label ← collectText [.cur .rightLink] [.cur .paragraphBreak, .cur .lineBreak] none
    let label := trim label
    let (link, lt) ← parseLinkLoc url
    okE [.mk (.link lt link (LinkLoc.parseExtra url)
      (if label.isEmpty then .page else .text label) target) []]
  else panic (.expect c!"link_triple.rs" 103)

/-- `MAX_LIST_DEPTH`, list.rs:25. -/
def maxListDepth : Nat := 20
/-- `get_list_type`, list.rs:27-33. -/
def getListType : Token → Option ListType
  | .bulletItem => some .bullet
  | .numberedItem => some .numbered
  | _ => none

/-- `build_item` of `build_list_element`, list.rs:141-149. -/
def buildListItem : DItem ListType (List Elem) → Elem
  | .item es => .mk (.item []) es
  | .list l items => .mk .subList [.mk (.list l []) (go items)]
where
  /-- `list.into_iter().map(build_item)` -/
  go : List (DItem ListType (List Elem)) → List Elem
    | [] => []
    | i :: is => buildListItem i :: go is
/-- `build_list_element`, list.rs:137-160. -/
def buildList (l : ListType) (items : List (DItem ListType (List Elem))) : Elem :=
  .mk (.list l []) (buildListItem.go items)

/-- One turn of the loop over the lines of a list, list.rs:57-118. -/
def listTurn (cons : M (PS Elements)) (acc : List (Nat × ListType × List Elem) × List PErr) :
    M (Turn (List (Nat × ListType × List Elem) × List PErr) (List (Nat × ListType × List Elem) × List PErr)) := do
  let c ← current
  if c.token = .whitespace || c.token = .bulletItem || c.token = .numberedItem then do
    let depth := if c.token = .whitespace then byteLen c.slice else 0
    if c.token = .whitespace then do
      let _ ← step
      pure ()
    else pure ()
    if depth > maxListDepth then fail .listDepthExceeded
    else do
      match getListType (← curTok) with
      | none => pure (.done acc)
      | some lt => do
        let _ ← step
        if (← curTok) ≠ .whitespace then pure (.done acc)
        else do
          let _ ← step
          let r ← collectConsume cons [.cur .lineBreak, .cur .inputEnd, .cur .paragraphBreak] [] none
          pure (.more (acc.1 ++ [(depth, lt, r.item)], acc.2 ++ r.errors))
  else pure (.done acc)

/-- list.rs:41-135. -/
def ruleList (cons : M (PS Elements)) : M (PS Elements) := do
  let (depths, errors) ← loop (listTurn cons) ([], [])
  if depths.isEmpty then fail .ruleFailed
  else do
    let lists ← unwrap .depth (processDepths .generic depths)
    okP false (lists.map fun l => buildList l.1 l.2) errors

/-- math.rs:29-49. -/
def ruleMath : M (PS Elements) := do
  let _ ← checkStep .leftMath
  let src ← collectText [.cur .rightMath] [.cur .paragraphBreak, .cur .lineBreak] none
  okE [.mk (.mathInline (trim src)) []]

/-- `look_ahead_err`, src/parsing/parser.rs:482-488. -/
def lookAheadErr (n : Nat) : M ETok := do
  match ← lookAhead n with
  | some t => pure t
  | none => fail .endOfInput

/-- The scanning loop of raw.rs:116-169. -/
def rawScan (ending : Token) : M (PS Elements) := do
  let start ← step
  loop (fun (stop : ETok) => do
    let t ← curTok
    if t = ending then do
      let s ← slicePartialText start stop
      let _ ← step
      let r ← okE [.mk (.raw s) []]
      pure (.done r)
    else if t = .lineBreak || t = .paragraphBreak then fail .ruleFailed
    else if t = .inputEnd then fail .endOfInput
    else do
      let n ← step
      pure (.more n)) start

/-- raw.rs:35-170. -/
def ruleRaw : M (PS Elements) := do
  let t ← curTok
  if t = .raw then do
    let n1 ← lookAheadErr 0
    let n2 ← lookAheadErr 1
    if n1.token = .raw then
      (if n2.token = .raw then do
        stepN 3
        okE [.mk (.raw c!"@@") []]
      else if n2.token = .other && n2.slice = c!"@" then do
        stepN 3
        okE [.mk (.raw c!"@") []]
      else do
        stepN 2
        okE [.mk (.raw []) []])
    else if (n1.token = .lineBreak || n1.token = .paragraphBreak) && n2.token = .raw then fail .ruleFailed
    else if n2.token = .raw then do
      stepN 3
      okE [.mk (.raw n1.slice) []]
    else rawScan .raw
  else if t = .leftRaw then rawScan .rightRaw
  else panic (.expect c!"raw.rs" 44)

/-- The five column tokens. -/
def isColumnTok : Token → Bool
  | .tableColumn | .tableColumnTitle | .tableColumnLeft | .tableColumnCenter | .tableColumnRight => true
  | _ => false

/-- `TableCellStart`, table.rs:26-31. -/
structure CellStart where
  align : Option Alignment
  header : Bool
  span : Nat

/-- `parse_cell_start`, table.rs:206-255. -/
def parseCellStart : M (Option CellStart) :=
  loop (fun (span : Nat) => do
    let t ← curTok
    match t with
    | .tableColumnTitle => do
      let _ ← step
      pure (.done (some ⟨none, true, span + 1⟩))
    | .tableColumnLeft => do
      let _ ← step
      pure (.done (some ⟨some .left, false, span + 1⟩))
    | .tableColumnCenter => do
      let _ ← step
      pure (.done (some ⟨some .center, false, span + 1⟩))
    | .tableColumnRight => do
      let _ ← step
      pure (.done (some ⟨some .right, false, span + 1⟩))
    | .tableColumn => do
      let _ ← step
      pure (.more (span + 1))
    | _ => if span > 0 then pure (.done (some ⟨none, false, span⟩)) else pure (.done none)) 0

/-- How the cell loop of table.rs:99-179 is left. -/
inductive CellEnd where
  /-- lines 121-126: cell and row are built, the table ends -/
  | endTable
  /-- lines 129-133: the cell is built, the row ends -/
  | endRow
  /-- line 136 -/
  | nextCell
  /-- line 166: `finish_table!` -/
  | finish

/-- The `'cell` loop, table.rs:99-179. -/
def tableCell (cons : M (PS Elements)) (errors : List PErr) : M (List Elem × List PErr × CellEnd) :=
  loop (fun (acc : List Elem × List PErr) => do
    let (elements, errors) := acc
    let (t, next) ← nextTwo
    if isColumnTok t && next.isSome then
      (if next = some .paragraphBreak || next = some .inputEnd then do
        let _ ← step
        pure (.done (elements, errors, .endTable))
      else if next = some .lineBreak then do
        stepN 2
        pure (.done (elements, errors, .endRow))
      else pure (.done (elements, errors, .nextCell)))
    else if t = .whitespace && elements.isEmpty then do
      let _ ← step
      pure (.more acc)
    else if t = .whitespace && (match next with | some n => isColumnTok n | none => false) then do
      let _ ← step
      pure (.more acc)
    else if t = .lineBreak || t = .paragraphBreak || t = .inputEnd then
      pure (.done (elements, errors, .finish))
    else do
      let r ← cons
      pure (.more (elements ++ r.item, errors ++ r.errors))) ([], errors)

/-- How the row loop is left. -/
inductive RowEnd where
  | endTable
  | endRow
  | finish

/-- The `'row` loop, table.rs:74-182. -/
def tableRow (cons : M (PS Elements)) (errors : List PErr) : M (List Elem × List PErr × RowEnd) :=
  loop (fun (acc : List Elem × List PErr) => do
    let (cells, errors) := acc
    match ← parseCellStart with
    | none => pure (.done (cells, errors, .finish))
    | some cs => do
      let (es, errors, how) ← tableCell cons errors
      let cells' := cells ++ [.mk (.cell cs.header cs.span cs.align []) es]
      match how with
      | .endTable => pure (.done (cells', errors, .endTable))
      | .endRow => pure (.done (cells', errors, .endRow))
      | .nextCell => pure (.more (cells', errors))
      | .finish => pure (.done (cells, errors, .finish))) ([], errors)

/-- table.rs:39-193. -/
def ruleTable (cons : M (PS Elements)) : M (PS Elements) := do
  let (rows, errors) ← loop (fun (acc : List Elem × List PErr) => do
    let (rows, errors) := acc
    let (cells, errors, how) ← tableRow cons errors
    match how with
    | .endTable => pure (.done (rows ++ [.mk (.row []) cells], errors))
    | .endRow => pure (.more (rows ++ [.mk (.row []) cells], errors))
    | .finish => if rows.isEmpty then fail .ruleFailed else pure (.done (rows, errors))) ([], [])
  okP false [.mk (.table (attrInsert [] c!"class" c!"wj-table").2) rows] errors

/-- underscore_line_break.rs:29-64. -/
def ruleUnderscoreLineBreak : M (PS Elements) := do
  let p ← getP
  let two ← nextTwo
  if two = (.whitespace, some .underscore) then do
    let _ ← step
    pure ()
  else if two.1 = .underscore && two.2.isSome && p.startOfLine then pure ()
  else fail .ruleFailed
  let two ← nextTwo
  if two = (.underscore, some .lineBreak) || two = (.underscore, some .paragraphBreak) then do
    stepN 2
    okE [eLineBreak]
  else fail .ruleFailed

/-- url.rs:30-46. -/
def ruleUrl : M (PS Elements) := do
  let c ← current
  okE [.mk (.link .direct (.url c.slice) none (.url none) none) []]

/-- variable.rs:33-48.  The regex `\{\$(.+)\}` is modelled on slices of the form `{$…}` with at least
one character inside; every `Variable` token has that form (C57). -/
def ruleVariable : M (PS Elements) := do
  let c ← current
  match (stripPfx c!"{$" c.slice).bind (stripSfx c!"}") with
  | some (x :: xs) => okE [.mk (.variable (x :: xs)) []]
  | _ => panic (.expect c!"variable.rs" 42)

end Ftml
