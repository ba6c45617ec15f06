import Verif.Model.Blocks
/-
Model of `src/parsing/{mod,consume}.rs` and `src/parsing/rule/mapping.rs`.
-/
namespace Ftml
open M

/-! ### src/parsing/rule/mapping.rs -/

/-- `RULE_MAP`, lines 34-113. -/
def rulesFor : Token → List RuleId
  | .leftBracket => [.linkSingle, .text]
  | .leftBracketAnchor => [.linkAnchor]
  | .leftBracketStar => [.linkSingleNewTab]
  | .rightBracket => [.text]
  | .leftBlock => [.block]
  | .leftBlockEnd => []
  | .leftBlockAnchor => [.anchor]
  | .leftBlockStar => [.blockStar]
  | .rightBlock => []
  | .leftParentheses => [.bibcite, .text]
  | .rightParentheses => [.bibcite, .text]
  | .leftMath => [.math]
  | .rightMath => []
  | .doubleDash => [.strikethroughDash, .dash]
  | .tripleDash => [.horizontalRule]
  | .doubleTilde => [.strikethroughTilde]
  | .leftDoubleAngle => [.doubleAngle]
  | .clearFloatBoth | .clearFloatLeft | .clearFloatRight => [.clearFloat]
  | .pipe => [.text]
  | .equals => [.center, .text]
  | .colon => [.definitionList, .text]
  | .underscore => [.underscoreLineBreak, .text]
  | .quote => [.blockquote, .doubleAngle, .text]
  | .heading => [.header, .text]
  | .whitespace => [.underscoreLineBreak, .list, .text]
  | .bold => [.bold]
  | .italics => [.italics]
  | .underline => [.underline]
  | .superscript => [.superscript]
  | .subscript => [.subscript]
  | .leftMonospace => [.monospace]
  | .rightMonospace => []
  | .color => [.color]
  | .raw | .leftRaw => [.raw]
  | .rightRaw => []
  | .bulletItem | .numberedItem => [.list, .text]
  | .leftLink => [.linkTriple]
  | .leftLinkStar => [.linkTripleNewTab]
  | .rightLink => []
  | .tableColumn | .tableColumnLeft | .tableColumnRight | .tableColumnCenter | .tableColumnTitle => [.table]
  | .identifier => [.text]
  | .email => [.email]
  | .url => [.url]
  | .variable => [.variable, .text]
  | .string => [.text]
  | .lineBreak => [.blockSkipNewline, .definitionListSkipNewline, .lineBreak]
  | .paragraphBreak => [.lineBreakParagraph]
  | .inputStart | .inputEnd => [.null]
  | .leftComment => [.comment]
  | .rightComment => []
  | .other => [.text]

/-- The `try_consume_fn` of each rule (the constants `RULE_*` of src/parsing/rule/impls/*.rs).
`RULE_PAGE`, `RULE_FALLBACK` and the pseudo rules panic when executed
(src/parsing/rule/impls/{page,fallback}.rs:29-33, block/mod.rs:98-102). -/
def ruleFn (cons : M (PS Elements)) : RuleId → M (PS Elements)
  | .page => panic (.expect c!"page.rs" 32)
  | .fallback => panic (.expect c!"fallback.rs" 32)
  | .blk _ => panic (.expect c!"block/mod.rs" 101)
  | .null => ruleNull
  | .text => ruleText
  | .anchor => ruleAnchor
  | .bibcite => ruleBibcite
  | .block => ruleBlock cons false
  | .blockStar => ruleBlock cons true
  | .blockSkipNewline => ruleBlockSkip
  | .blockquote => ruleBlockquote cons
  | .bold => ruleDelimited cons .bold .bold .bold
  | .center => ruleCenter cons
  | .clearFloat => ruleClearFloat
  | .color => ruleColor cons
  | .comment => ruleComment
  | .dash => ruleDash
  | .definitionList => ruleDefinitionList cons
  | .definitionListSkipNewline => ruleDefinitionListSkip
  | .doubleAngle => ruleDoubleAngle
  | .email => ruleEmail
  | .header => ruleHeader cons
  | .horizontalRule => ruleHorizontalRule
  | .italics => ruleDelimited cons .italics .italics .italics
  | .lineBreak | .lineBreakParagraph => ruleLineBreak
  | .linkAnchor => ruleLinkAnchor
  | .linkSingle => ruleLinkSingle .leftBracket none
  | .linkSingleNewTab => ruleLinkSingle .leftBracketStar (some .newTab)
  | .linkTriple => ruleLinkTriple .leftLink none
  | .linkTripleNewTab => ruleLinkTriple .leftLinkStar (some .newTab)
  | .list => ruleList cons
  | .math => ruleMath
  | .monospace => ruleDelimited cons .monospace .leftMonospace .rightMonospace
  | .raw => ruleRaw
  | .strikethroughDash => ruleDelimited cons .strikethrough .doubleDash .doubleDash
  | .strikethroughTilde => ruleDelimited cons .strikethrough .doubleTilde .doubleTilde
  | .subscript => ruleDelimited cons .subscript .subscript .subscript
  | .superscript => ruleDelimited cons .superscript .superscript .superscript
  | .table => ruleTable cons
  | .underline => ruleDelimited cons .underline .underline .underline
  | .underscoreLineBreak => ruleUnderscoreLineBreak
  | .url => ruleUrl
  | .variable => ruleVariable

/-! ### src/parsing/consume.rs -/

/-- The code after the rule loop, consume.rs:85-107. -/
def consumeFallback (c : ETok) (errors : List PErr) : M (PS Elements) := do
  let _ ← step
  match errors.getLast? with
  | some e =>
    if e.kind = .recursionDepthExceeded then throw e
    else do
      depthDecrement
      okE [eText c.slice] (errors ++ [mkErr .noRulesMatch .fallback c])
  | none => do
    depthDecrement
    okE [eText c.slice] (errors ++ [mkErr .noRulesMatch .fallback c])

/-- The rule loop, consume.rs:53-83. -/
def consumeRules (cons : M (PS Elements)) (c : ETok) : List RuleId → List PErr → M (PS Elements)
  | [], errors => consumeFallback c errors
  | r :: rs, errors => do
    let old ← remLen
    match ← attempt (tryConsume r (ruleFn cons r)) with
    | .ok out => do
      let now ← remLen
      if now = old then do
        let _ ← step
        depthDecrement
        pure out
      else do
        depthDecrement
        pure out
    | .error e => consumeRules cons c rs (errors ++ [e])

/-- `consume`, consume.rs:38-108.  The argument bounds the nesting of calls; `depth_increment` stops
the recursion before it is used up (no `diverge`). -/
def consume : Nat → M (PS Elements)
  | 0 => do
    depthIncrement
    diverge
  | n+1 => do
    depthIncrement
    let c ← current
    consumeRules (consume n) c (rulesFor c.token) []

/-! ### src/parsing/mod.rs -/

/-- `parse_internal`, lines 172-203: result, final shared state, `has_footnote_block`.  `Parser::new`
(src/parsing/parser.rs:94-122) panics on an empty token list. -/
def parseInternal (e : Env) : Res (PS (List Elem)) :=
  match e.tokens with
  | [] => .panic (.expect c!"parser.rs" 103)
  | c :: r =>
    gatherParagraphs (consume maxRecursionDepth) .page none e
      ⟨⟨c, r, .page, 0, .none, false, false, true⟩, ⟨[], [], [], [], []⟩⟩

/-- The link of a table-of-contents entry, lines 215-229. -/
def tocLink (n : Nat) (name : Str) : Elem :=
  .mk (.link .toc (.url (c!"#toc" ++ natToStr n)) none (.text name) none) []

/-- `build_item` and the recursion of `build_toc_list_element`, lines 207-240; the number is the
`Incrementer`. -/
def buildTocItem : DItem Unit Str → Nat → Elem × Nat
  | .item name, n => (.mk (.item []) [tocLink n name], n + 1)
  | .list _ items, n =>
    let r := go items n
    (.mk .subList [.mk (.list .bullet []) r.1], r.2)
where
  /-- `list.into_iter().map(build_item).collect()` -/
  go : List (DItem Unit Str) → Nat → List Elem × Nat
    | [], n => ([], n)
    | i :: is, n =>
      let r := buildTocItem i n
      let rs := go is r.2
      (r.1 :: rs.1, rs.2)

/-- Lines 118-121. -/
def buildToc : List (Unit × List (DItem Unit Str)) → Nat → List Elem
  | [], _ => []
  | (_, items) :: rest, n =>
    let r := buildTocItem.go items n
    .mk (.list .bullet []) r.1 :: buildToc rest r.2

/-- What `parse` returns, src/parsing/outcome.rs:31-34. -/
structure Outcome where
  tree : Tree
  errors : List PErr

/-- `parse`, lines 78-169; the error case of `Except` is a panic, `none` exhausted fuel. -/
def parseEnv (e : Env) : Option (Except Panic Outcome) :=
  match parseInternal e with
  | .diverge => none
  | .panic p => some (.error p)
  | .ok r st =>
    match processDepths () (st.sh.toc.map fun t => (t.1, (), t.2)) with
    | none => some (.error .depth)
    | some lists =>
      let es := if st.p.hasFootnoteBlock then r.item else r.item ++ [.mk (.footnoteBlock none false) []]
      some (.ok ⟨⟨es, buildToc lists 0, st.sh.htmlBlocks, st.sh.codeBlocks, st.sh.footnotes, st.sh.bibs,
        byteLen e.text⟩, r.errors⟩)
  | .err x st =>
    some (.ok ⟨⟨[eText e.text], [], st.sh.htmlBlocks, st.sh.codeBlocks, [], [], byteLen e.text⟩, [x]⟩)

/-- `parse`, lines 78-169. -/
def parse (w : World) (t : Tokenization) (info : PageInfo) (settings : Settings) :
    Option (Except Panic Outcome) :=
  parseEnv ⟨t.fullText, t.tokens, info, settings, w⟩

end Ftml
