import Verif.Model.TextRender
/-
Model of the parser core: `src/parsing/{parser,consume,result,error,condition,check_step,parser_wrap,
macros,collect/*,paragraph/*,rule/mod}.rs`.

A Rust function on `&mut Parser` is a function `M α` from the environment and the parser state to an
outcome.  The part of the parser behind `Rc<RefCell<..>>` is the field `sh`, which every clone of the
parser shares: it is threaded through failing and discarded sub-parsers too.  The rest (`p`) is copied
by `clone`.
-/
namespace Ftml

/-- `ParseErrorKind`, src/parsing/error.rs:105-219. -/
inductive EKind where
  | recursionDepthExceeded | endOfInput | noRulesMatch | ruleFailed | notSupportedMode | notStartOfLine
  | invalidInclude | listEmpty | listContainsNonItem | listItemOutsideList | listDepthExceeded
  | tableContainsNonRow | tableRowContainsNonCell | tableRowOutsideTable | tableCellOutsideTable
  | tabViewEmpty | tabViewContainsNonTab | tabOutsideTabView | footnotesNested | blockquoteDepthExceeded
  | rubyTextOutsideRuby | bibliographyContainsNonDefinitionList | codeNonUniqueName | noSuchBlock
  | blockDisallowsStar | blockDisallowsScore | blockMissingName | blockMissingCloseBrackets
  | blockMalformedArguments | blockMissingArguments | blockExpectedEnd | blockEndMismatch | noSuchEmbed
  | noSuchModule | moduleMissingName | noSuchPage | noSuchVariable | invalidUrl
deriving DecidableEq, Repr

/-- The rules of src/parsing/rule/impls. -/
inductive RuleId where
  | page | fallback | null | text
  | anchor | bibcite | block | blockStar | blockSkipNewline | blockquote | bold | center | clearFloat
  | color | comment | dash | definitionList | definitionListSkipNewline | doubleAngle | email | header
  | horizontalRule | italics | lineBreak | lineBreakParagraph | linkAnchor | linkSingle
  | linkSingleNewTab | linkTriple | linkTripleNewTab | list | math | monospace | raw
  | strikethroughDash | strikethroughTilde | subscript | superscript | table | underline
  | underscoreLineBreak | url | variable
  /-- the pseudo rule of a block, `BlockRule::rule`, src/parsing/rule/impls/block/mod.rs:96-109 -/
  | blk (name : Str)
deriving DecidableEq, Repr

/-- `Rule::name` (src/parsing/rule/mod.rs:48-50): the `name` fields of src/parsing/rule/impls/*.rs. -/
def RuleId.name : RuleId → Str
  | .page => c!"page" | .fallback => c!"fallback" | .null => c!"null" | .text => c!"text"
  | .anchor => c!"anchor" | .bibcite => c!"bibcite" | .block => c!"block" | .blockStar => c!"block-star"
  | .blockSkipNewline => c!"block-skip" | .blockquote => c!"blockquote" | .bold => c!"bold"
  | .center => c!"center" | .clearFloat => c!"clear-float" | .color => c!"color"
  | .comment => c!"comment" | .dash => c!"dash" | .definitionList => c!"definition-list"
  | .definitionListSkipNewline => c!"definition-list-skip-newline"
  | .doubleAngle => c!"double-angle" | .email => c!"email" | .header => c!"header"
  | .horizontalRule => c!"horizontal-rule" | .italics => c!"italics" | .lineBreak => c!"line-break"
  | .lineBreakParagraph => c!"line-break-paragraph" | .linkAnchor => c!"link-anchor"
  | .linkSingle => c!"link-single" | .linkSingleNewTab => c!"link-single-new-tab"
  | .linkTriple => c!"link-triple" | .linkTripleNewTab => c!"link-triple-new-tab" | .list => c!"list"
  | .math => c!"math" | .monospace => c!"monospace" | .raw => c!"raw"
  | .strikethroughDash => c!"strikethrough-dash" | .strikethroughTilde => c!"strikethrough-tilde"
  | .subscript => c!"subscript" | .superscript => c!"superscript" | .table => c!"table"
  | .underline => c!"underline" | .underscoreLineBreak => c!"underscore-line-break" | .url => c!"url"
  | .variable => c!"variable"
  | .blk name => name

/-- `ParseError`, src/parsing/error.rs:36-41. -/
structure PErr where
  token : Token
  rule : RuleId
  start : Nat
  stop : Nat
  kind : EKind
deriving DecidableEq, Repr

/-- The ways the modelled code can panic. -/
inductive Panic where
  /-- `assert_eq!` of `check_step`, src/parsing/check_step.rs:38 -/
  | checkStep
  /-- string slicing, src/text.rs:92-101 -/
  | slice
  /-- `Element::paragraph_safe` of a partial, src/tree/element/object.rs:411 -/
  | partialSafety
  /-- the text renderer called for a heading, src/parsing/parser.rs:230 -/
  | textRender
  /-- `process_depths`, src/parsing/depth.rs -/
  | depth
  /-- `expect`, `unwrap`, `unreachable!`, `panic!` at a given source line -/
  | expect (file : Str) (line : Nat)
deriving DecidableEq, Repr

/-- The immutable inputs of a parse. -/
structure Env where
  text : Str
  tokens : List ETok
  info : PageInfo
  settings : Settings
  world : World

/-- The copied part of `Parser`, src/parsing/parser.rs:40-87. -/
structure PState where
  cur : ETok
  rem : List ETok
  rule : RuleId
  depth : Nat
  accepts : Accepts
  inFootnote : Bool
  hasFootnoteBlock : Bool
  startOfLine : Bool

/-- The shared part of `Parser` (`Rc<RefCell<..>>`), src/parsing/parser.rs:62-80. -/
structure Shared where
  toc : List (Nat × Str)
  htmlBlocks : List Str
  codeBlocks : List CodeBlock
  footnotes : List (List Elem)
  bibs : List (Bibl Elem)

/-- Parser state. -/
structure St where
  p : PState
  sh : Shared

/-- Outcome of running a parser function.  `diverge` marks exhausted fuel. -/
inductive Res (α : Type) where
  | ok (a : α) (s : St)
  | err (e : PErr) (s : St)
  | panic (p : Panic)
  | diverge

/-- A parser function. -/
def M (α : Type) : Type := Env → St → Res α

namespace M
variable {α β : Type}
/-- `Ok(a)`. -/
protected def pure (a : α) : M α := fun _ s => .ok a s
/-- Sequencing with `?`. -/
protected def bind (m : M α) (f : α → M β) : M β := fun e s =>
  match m e s with
  | .ok a s' => f a e s'
  | .err x s' => .err x s'
  | .panic p => .panic p
  | .diverge => .diverge
instance : Monad M where
  pure := M.pure
  bind := M.bind

/-- Read the environment. -/
def env : M Env := fun e s => .ok e s
/-- Read the parser fields. -/
def getP : M PState := fun _ s => .ok s.p s
/-- Read the shared fields. -/
def getSh : M Shared := fun _ s => .ok s.sh s
/-- Update the parser fields. -/
def modP (f : PState → PState) : M Unit := fun _ s => .ok () { s with p := f s.p }
/-- Update the shared fields. -/
def modSh (f : Shared → Shared) : M Unit := fun _ s => .ok () { s with sh := f s.sh }
/-- `Err(e)`. -/
def throw (e : PErr) : M α := fun _ s => .err e s
/-- A panic. -/
def panic (p : Panic) : M α := fun _ _ => .panic p
/-- Exhausted fuel. -/
def diverge : M α := fun _ _ => .diverge
/-- `match m { Ok(a) => .., Err(e) => .. }` on the same parser: the changes a failing call made to the
parser are kept. -/
def attempt (m : M α) : M (Except PErr α) := fun e s =>
  match m e s with
  | .ok a s' => .ok (.ok a) s'
  | .err x s' => .ok (.error x) s'
  | .panic p => .panic p
  | .diverge => .diverge
/-- Run on a clone of the parser (src/parsing/parser.rs:39 `Clone`): the shared fields change, the
parser's own fields do not; the clone's final fields are returned. -/
def onClone (m : M α) : M (Except PErr α × PState) := fun e s =>
  match m e s with
  | .ok a s' => .ok (.ok a, s'.p) { s' with p := s.p }
  | .err x s' => .ok (.error x, s'.p) { s' with p := s.p }
  | .panic p => .panic p
  | .diverge => .diverge
/-- `Option::expect` and the like. -/
def unwrap (p : Panic) : Option α → M α
  | some a => pure a
  | none => panic p

/-- One turn of a loop. -/
inductive Turn (σ β : Type) where
  | more (s : σ)
  | done (b : β)

/-- `n` turns of a `loop { .. }`. -/
def loopN {σ : Type} (body : σ → M (Turn σ β)) : Nat → σ → M β
  | 0, _ => diverge
  | n+1, s => do
    match ← body s with
    | .more s' => loopN body n s'
    | .done b => pure b

/-- `loop { .. }`: as many turns as there are remaining tokens, plus one; that this is enough is
proved (no `diverge`). -/
def loop {σ : Type} (body : σ → M (Turn σ β)) (s : σ) : M β := fun e st =>
  loopN body (st.p.rem.length + 1) s e st
end M

open M

/-! ### src/parsing/parser.rs -/

/-- `MAX_RECURSION_DEPTH`, line 36. -/
def maxRecursionDepth : Nat := 100

/-- `ParseError::new`, src/parsing/error.rs:45-56. -/
def mkErr (k : EKind) (r : RuleId) (t : ETok) : PErr := ⟨t.token, r, t.start, t.stop, k⟩

/-- `Err(parser.make_err(kind))`, lines 569-571. -/
def fail {α : Type} (k : EKind) : M α := do
  let p ← getP
  throw (mkErr k p.rule p.cur)

/-- `current`, lines 407-409. -/
def current : M ETok := do return (← getP).cur
/-- `current().token`. -/
def curTok : M Token := do return (← current).token
/-- `set_rule`, lines 168-170. -/
def setRule (r : RuleId) : M Unit := modP fun p => { p with rule := r }
/-- `set_accepts_partial`, lines 196-198. -/
def setAccepts (a : Accepts) : M Unit := modP fun p => { p with accepts := a }

/-- `depth_increment`, lines 178-187. -/
def depthIncrement : M Unit := do
  modP fun p => { p with depth := p.depth + 1 }
  let p ← getP
  if p.depth > maxRecursionDepth then fail .recursionDepthExceeded else pure ()
/-- `depth_decrement`, lines 190-193. -/
def depthDecrement : M Unit := modP fun p => { p with depth := p.depth - 1 }

/-- `check_page_syntax`, lines 211-217. -/
def checkPageSyntax : M Unit := do
  if (← env).settings.enablePageSyntax then pure () else fail .notSupportedMode

/-- `push_table_of_contents_entry`, lines 220-233. -/
def pushToc (level : Nat) (es : List Elem) : M Unit := do
  let e ← env
  let name ← unwrap .textRender (textRenderPartial e.world e.info es)
  modSh fun s => { s with toc := s.toc ++ [(level - 1, name)] }

/-- `push_footnote`, lines 251-253. -/
def pushFootnote (es : List Elem) : M Unit := modSh fun s => { s with footnotes := s.footnotes ++ [es] }
/-- `push_html_block`, lines 261-263. -/
def pushHtmlBlock (b : Str) : M Unit := modSh fun s => { s with htmlBlocks := s.htmlBlocks ++ [b] }
/-- `push_code_block`, lines 265-286; `false` = `Err(NonUniqueNameError)`. -/
def pushCodeBlock (b : CodeBlock) : M Bool := do
  let s ← getSh
  if b.name.isSome && s.codeBlocks.any (fun b' => b'.name == b.name) then pure false
  else do
    modSh fun s => { s with codeBlocks := s.codeBlocks ++ [b] }
    pure true
/-- `push_bibliography`, lines 289-294. -/
def pushBibliography (b : Bibl Elem) : M Nat := do
  let s ← getSh
  modSh fun s => { s with bibs := s.bibs ++ [b] }
  pure s.bibs.length

/-- `ParseCondition`, src/parsing/condition.rs. -/
inductive Cond where
  | cur (t : Token)
  | pair (a b : Token)

/-- `evaluate`, lines 324-368. -/
def evalCond (p : PState) : Cond → Bool
  | .cur t => p.cur.token == t
  | .pair a b => p.cur.token == a && (match p.rem with | [] => false | n :: _ => n.token == b)

/-- `evaluate_any`, lines 371-378. -/
def evalAny (p : PState) (cs : List Cond) : Bool := cs.any (evalCond p)

/-- `update`, lines 417-427. -/
def updateP (q : PState) : M Unit := modP fun p =>
  { p with accepts := q.accepts, inFootnote := q.inFootnote, hasFootnoteBlock := q.hasFootnoteBlock,
           startOfLine := q.startOfLine, cur := q.cur, rem := q.rem }

/-- `evaluate_fn`, lines 381-387. -/
def evaluateFn (f : M Bool) : M Bool := do
  match ← onClone f with
  | (.ok b, _) => pure b
  | (.error _, _) => pure false

/-- `save_evaluate_fn`, lines 389-403. -/
def saveEvaluateFn (f : M Bool) : M (Option ETok) := do
  match ← onClone f with
  | (.ok true, q) => do
    let last ← current
    updateP q
    pure (some last)
  | _ => pure none

/-- `remaining()` as compared by `same_pointer` (lines 412-414, 430-432): every `remaining` slice is a
suffix of the one token slice, so pointers are equal exactly when lengths are. -/
def remLen : M Nat := do return (← getP).rem.length

/-- Tokens after which a line starts, lines 440-443. -/
def isLineStartTok : Token → Bool
  | .inputStart | .lineBreak | .paragraphBreak => true
  | _ => false

/-- `step`, lines 436-457. -/
def step : M ETok := do
  modP fun p => { p with startOfLine := isLineStartTok p.cur.token }
  let p ← getP
  match p.rem with
  | c :: r => do
    modP fun p => { p with cur := c, rem := r }
    pure c
  | [] => fail .endOfInput

/-- `step_n`, lines 461-469. -/
def stepN : Nat → M Unit
  | 0 => pure ()
  | n+1 => do
    let _ ← step
    stepN n

/-- `look_ahead`, lines 475-478. -/
def lookAhead (n : Nat) : M (Option ETok) := do return (← getP).rem[n]?

/-- `get_token`, lines 508-523. -/
def getToken (t : Token) (k : EKind) : M Str := do
  let c ← current
  if c.token = t then do
    let _ ← step
    pure c.slice
  else fail k

/-- `get_optional_token`, lines 525-533. -/
def getOptionalToken (t : Token) : M Unit := do
  if (← curTok) = t then do
    let _ ← step
    pure ()
  else pure ()
/-- `get_optional_line_break`, lines 535-538. -/
def getOptionalLineBreak : M Unit := getOptionalToken .lineBreak
/-- `get_optional_space`, lines 541-544. -/
def getOptionalSpace : M Unit := getOptionalToken .whitespace

/-- The tokens skipped by `get_optional_spaces_any`, lines 549-554. -/
def isSpaceAnyTok : Token → Bool
  | .whitespace | .lineBreak | .paragraphBreak | .equals => true
  | _ => false
/-- `get_optional_spaces_any`, lines 546-564. -/
def getOptionalSpacesAny : M Unit :=
  loop (fun (_ : Unit) => do
    if isSpaceAnyTok (← curTok) then do
      let _ ← step
      pure (.more ())
    else pure (.done ())) ()

/-- `check_step`, src/parsing/check_step.rs:32-43. -/
def checkStep (t : Token) : M ETok := do
  let c ← current
  if c.token = t then do
    let _ ← step
    pure c
  else panic .checkStep

/-- `full_text().slice(..)`, src/text.rs:59-67. -/
def sliceText (a b : ETok) : M Str := do
  unwrap .slice (fullSlice (← env).text a b)
/-- `full_text().slice_partial(..)`, src/text.rs:82-90. -/
def slicePartialText (a b : ETok) : M Str := do
  unwrap .slice (fullSlicePartial (← env).text a b)

/-! ### src/parsing/result.rs, src/parsing/macros.rs -/

/-- `ParseSuccess`, src/parsing/result.rs:31-45. -/
structure PS (α : Type) where
  item : α
  errors : List PErr
  psafe : Bool

/-- `Elements` (src/tree/element/collection.rs:34-38): `None`, `Single` and `Multiple` are lists of
length 0, 1 and any. -/
abbrev Elements := List Elem

/-- `ok!(item, errors)`, src/parsing/macros.rs:27-39: the paragraph safety is computed. -/
def okE (es : Elements) (errors : List PErr := []) : M (PS Elements) := do
  let ps ← unwrap .partialSafety (elementsParagraphSafe? es)
  pure ⟨es, errors, ps⟩
/-- `ok!(paragraph_safe; item, errors)`, src/parsing/macros.rs:41-48. -/
def okP {α : Type} (ps : Bool) (a : α) (errors : List PErr := []) : M (PS α) := pure ⟨a, errors, ps⟩

/-- `PartialElement::parse_error_kind`, src/tree/partial.rs:61-69. -/
def PartKind.errKind : PartKind → EKind
  | .listItem => .listItemOutsideList
  | .tableRow => .tableRowOutsideTable
  | .tableCell => .tableCellOutsideTable
  | .tab => .tabOutsideTabView
  | .rubyText => .rubyTextOutsideRuby

/-- `check_partials`, src/parsing/result.rs:115-128 (the first offending partial). -/
def firstBadPartial (a : Accepts) : List Elem → Option PartKind
  | [] => none
  | .mk (.part k) _ :: es => if a.matches k then firstBadPartial a es else some k
  | _ :: es => firstBadPartial a es

/-! ### src/parsing/rule/mod.rs -/

/-- `LineRequirement::StartOfLine` rules (the `position` fields of src/parsing/rule/impls/*.rs). -/
def RuleId.needsLineStart : RuleId → Bool
  | .blockquote | .center | .clearFloat | .definitionList | .header | .horizontalRule | .list | .table => true
  | _ => false

/-- `Rule::try_consume`, src/parsing/rule/mod.rs:53-82. -/
def tryConsume (r : RuleId) (f : M (PS Elements)) : M (PS Elements) := do
  let p ← getP
  if r.needsLineStart && !p.startOfLine then fail .notStartOfLine
  else do
    match ← onClone (do setRule r; f) with
    | (.error e, _) => throw e
    | (.ok out, q) =>
      match firstBadPartial p.accepts out.item with
      | some k => fail k.errKind
      | none => do
        updateP q
        pure out

/-! ### src/parsing/collect -/

/-- `collect`, src/parsing/collect/generic.rs:62-125; `σ` is the state captured by the `process`
closure. -/
def collect {σ : Type} (close invalid : List Cond) (ek : Option EKind) (process : σ → M (PS σ)) (s : σ) :
    M (PS (σ × ETok)) :=
  loop (fun (acc : σ × List PErr × Bool) => do
    let (s, errors, ps) := acc
    let p ← getP
    if evalAny p close then do
      if p.cur.token ≠ .inputEnd then do
        let _ ← step
        pure (.done ⟨(s, p.cur), errors, ps⟩)
      else pure (.done ⟨(s, p.cur), errors, ps⟩)
    else if evalAny p invalid then fail (ek.getD .ruleFailed)
    else if p.cur.token = .inputEnd then fail .endOfInput
    else do
      let out ← process s
      let r ← remLen
      if r = p.rem.length then do
        let _ ← step
        pure (.more (out.item, errors ++ out.errors, ps && out.psafe))
      else pure (.more (out.item, errors ++ out.errors, ps && out.psafe))) (s, [], true)

/-- `collect_consume_keep`, src/parsing/collect/consume.rs:52-72.  `cons` is `consume`. -/
def collectConsumeKeep (cons : M (PS Elements)) (close invalid : List Cond) (ek : Option EKind) :
    M (PS (List Elem × ETok)) :=
  collect close invalid ek (fun (acc : List Elem) => do
    let out ← cons
    pure ⟨acc ++ out.item, out.errors, out.psafe⟩) []

/-- `collect_consume`, src/parsing/collect/consume.rs:29-44. -/
def collectConsume (cons : M (PS Elements)) (close invalid : List Cond) (ek : Option EKind) :
    M (PS (List Elem)) := do
  let r ← collectConsumeKeep cons close invalid ek
  pure ⟨r.item.1, r.errors, r.psafe⟩

/-- `collect_container`, src/parsing/collect/container.rs:41-75. -/
def collectContainer (cons : M (PS Elements)) (ct : CType) (close invalid : List Cond)
    (ek : Option EKind) : M (PS Elements) := do
  let r ← collectConsume cons close invalid ek
  okP (r.psafe && ct.paragraphSafe) [eContainer ct r.item] r.errors

/-- `collect_text_keep`, src/parsing/collect/text.rs:55-102.  The closure returns no errors, so the
`assert!` of line 88 holds by construction. -/
def collectTextKeep (close invalid : List Cond) (ek : Option EKind) : M (Str × ETok) := do
  let start ← current
  let r ← collect close invalid ek (fun (_ : Option ETok) => do
    let c ← current
    pure ⟨some c, [], true⟩) none
  match r.item.1 with
  | some stop => do
    let s ← sliceText start stop
    pure (s, r.item.2)
  | none => pure ([], r.item.2)

/-- `collect_text`, src/parsing/collect/text.rs:29-47. -/
def collectText (close invalid : List Cond) (ek : Option EKind) : M Str := do
  let r ← collectTextKeep close invalid ek
  pure r.1

/-! ### src/parsing/paragraph -/

/-- `ParagraphStack`, src/parsing/paragraph/stack.rs:26-35. -/
structure PStack where
  current : List Elem
  finished : List Elem
  errors : List PErr

namespace PStack
/-- `new`, lines 39-41. -/
def new : PStack := ⟨[], [], []⟩
/-- `build_paragraph` and `end_paragraph`, lines 95-122. -/
def endParagraph (s : PStack) : PStack :=
  if s.current.isEmpty then s
  else { s with current := [], finished := s.finished ++ [eContainer .paragraph s.current] }
/-- `push_element`, lines 54-70. -/
def pushElement (s : PStack) (e : Elem) (safe : Bool) : PStack :=
  if safe then { s with current := s.current ++ [e] }
  else { s.endParagraph with finished := s.endParagraph.finished ++ [e] }
/-- `pop_line_break`, lines 86-92. -/
def popLineBreak (s : PStack) : PStack :=
  match s.current.getLast? with
  | some (.mk .lineBreak _) => { s with current := s.current.dropLast }
  | _ => s
/-- `into_elements`, lines 158-172. -/
def intoElements (s : PStack) : List Elem := s.endParagraph.finished
/-- `push_elements`, src/parsing/paragraph/mod.rs:130-145. -/
def pushElements (safe : Bool) : List Elem → PStack → PStack
  | [], s => s
  | e :: es, s =>
    if s.current.isEmpty && (match e.kind with | .lineBreak => true | _ => false) then pushElements safe es s
    else pushElements safe es (s.pushElement e safe)
end PStack

/-- `into_result`, src/parsing/paragraph/stack.rs:128-151. -/
def PStack.intoResult (s : PStack) : M (PS (List Elem)) := do
  let s := s.endParagraph
  let ps ← unwrap .partialSafety (elementsParagraphSafe? s.finished)
  pure ⟨s.finished, s.errors, ps⟩

/-- `gather_paragraphs`, src/parsing/paragraph/mod.rs:51-128.  The close condition gets the flag
`first`, the state captured by the closures of src/parsing/rule/impls/block/parser.rs:225-235: whether
it has not been called before. -/
def gatherParagraphs (cons : M (PS Elements)) (r : RuleId) (close : Option (Bool → M Bool)) :
    M (PS (List Elem)) := do
  setRule r
  let s ← loop (fun (acc : PStack × Bool) => do
    let (s, first) := acc
    let t ← curTok
    if t = .inputEnd then
      (if close.isSome then fail .endOfInput else pure (.done s))
    else if t = .paragraphBreak then do
      let _ ← step
      pure (.more (s.endParagraph, first))
    else do
      let stop ← (match close with
        | some c => do
          match ← attempt (c first) with
          | .ok b => pure b
          | .error _ => pure false
        | none => pure false)
      if stop then pure (.done s)
      else do
        let out ← cons
        let s := PStack.pushElements out.psafe out.item s
        pure (.more ({ s with errors := s.errors ++ out.errors }, false))) (PStack.new, true)
  s.intoResult

/-! ### src/parsing/parser_wrap.rs -/

/-- `ParserWrap`, src/parsing/parser_wrap.rs:30-63: the flag is restored when the wrapper is dropped,
also on errors. -/
def withAccepts {α : Type} (a : Accepts) (m : M α) : M α := do
  let p ← getP
  setAccepts a
  match ← attempt m with
  | .ok r => do
    setAccepts p.accepts
    pure r
  | .error e => do
    setAccepts p.accepts
    throw e

end Ftml
