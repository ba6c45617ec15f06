import Verif.Model.Rules
/-
Model of `src/parsing/rule/impls/block/{mod,parser,arguments}.rs`.
-/
namespace Ftml
open M

/-- `BlockRule`, src/parsing/rule/impls/block/mod.rs:45-89 (without `parse_fn`). -/
structure BlockInfo where
  name : Str
  names : List Str
  star : Bool
  score : Bool
  newlines : Bool

/-! ### arguments.rs -/

/-- `Arguments`, arguments.rs:36-38: a `HashMap` with ASCII case-insensitive keys.  The list order is
insertion order; nothing observable depends on it, because the keys are distinct up to case. -/
abbrev Args := List (Str × Str)

/-- `insert`, arguments.rs:46-50: as `HashMap::insert`, an equal key keeps its first spelling. -/
def argInsert (k v : Str) : Args → Args
  | [] => [(k, v)]
  | (k', v') :: m => if eqIgnoreCase k k' then (k', v) :: m else (k', v') :: argInsert k v m
/-- `get`, arguments.rs:52-56: removes the entry. -/
def argGet (m : Args) (k : Str) : Option Str × Args :=
  ((m.find? fun p => eqIgnoreCase k p.1).map (·.2), m.filter fun p => !eqIgnoreCase k p.1)

/-- `get_bool`, arguments.rs:58-70. -/
def argBool (m : Args) (k : Str) : M (Option Bool × Args) := do
  match argGet m k with
  | (none, m) => pure (none, m)
  | (some v, m) => match parseBoolean v with
    | some b => pure (some b, m)
    | none => fail .blockMalformedArguments

/-- Digit value in a radix up to 36 (`char::to_digit`). -/
def digitVal (c : Char) : Option Nat :=
  if isDigitA c then some (c.toNat - 48)
  else if isLowerA c then some (c.toNat - 87)
  else if isUpperA c then some (c.toNat - 55) else none

/-- Value of a digit string, `none` on a bad digit. -/
def digitsVal (radix : Nat) : Nat → Str → Option Nat
  | acc, [] => some acc
  | acc, c :: s => match digitVal c with
    | some d => if d < radix then digitsVal radix (acc * radix + d) s else none
    | none => none

/-- `u32::from_str_radix` (an optional `+`, then at least one digit, at most `u32::MAX`). -/
def parseU32 (radix : Nat) (s : Str) : Option Nat :=
  let s := match s with
    | '+' :: rest => if rest.isEmpty then s else rest
    | _ => s
  if s.isEmpty then none
  else match digitsVal radix 0 s with
    | some n => if n < 2 ^ 32 then some n else none
    | none => none

/-- `str::parse::<NonZeroU32>`. -/
def parseNonZeroU32 (s : Str) : Option Nat :=
  match parseU32 10 s with
  | some 0 => none
  | r => r

/-- `get_value::<NonZeroU32>`, arguments.rs:72-84. -/
def argNonZero (m : Args) (k : Str) : M (Option Nat × Args) := do
  match argGet m k with
  | (none, m) => pure (none, m)
  | (some v, m) => match parseNonZeroU32 v with
    | some b => pure (some b, m)
    | none => fail .blockMalformedArguments

/-- `to_attribute_map`, arguments.rs:114-118. -/
def toAttrs (m : Args) : M AttrMap := do
  let e ← env
  pure (attrIsolateId e.settings.isolateUserIds (attrFromArgs e.world.toExt m))

/-! ### parser.rs -/

/-- `get_block_name_internal`, parser.rs:58-86. -/
def getBlockNameInternal (k : EKind) : M (Str × Bool) := do
  let (name, last) ← collectTextKeep
    [.cur .whitespace, .cur .lineBreak, .cur .paragraphBreak, .cur .rightBlock] [] (some k)
  if last.token = .whitespace || last.token = .lineBreak || last.token = .paragraphBreak then
    pure (trim name, true)
  else if last.token = .rightBlock then pure (trim name, false)
  else panic (.expect c!"block/parser.rs" 81)

/-- `get_block_name`, parser.rs:40-56. -/
def getBlockName (star : Bool) : M (Str × Bool) := do
  getOptionalToken (if star then .leftBlockStar else .leftBlock)
  getOptionalSpace
  getBlockNameInternal .blockMissingName

/-- `get_end_block`, parser.rs:89-102. -/
def getEndBlock : M Str := do
  let _ ← getToken .leftBlockEnd .blockExpectedEnd
  getOptionalSpace
  let (name, inHead) ← getBlockName false
  if inHead then do
    getOptionalSpace
    let _ ← getToken .rightBlock .blockExpectedEnd
    pure name
  else pure name

/-- `strip_suffix('_').unwrap_or(name)`. -/
def stripScore (name : Str) : Str := (stripSfx c!"_" name).getD name

/-- `verify_end_block`, parser.rs:107-139. -/
def verifyEndBlock (first : Bool) (b : BlockInfo) : M (Option ETok) :=
  saveEvaluateFn (do
    if b.newlines && !first then getOptionalLineBreak else pure ()
    let name ← getEndBlock
    return b.names.any fun n => eqIgnoreCase (stripScore name) n)

/-- `get_body_generic` with the trivial `process` closure of `get_body_text`, parser.rs:146-201. -/
def getBodyText (b : BlockInfo) : M Str := do
  let start ← current
  let stop ← loop (fun (first : Bool) => do
    match ← verifyEndBlock first b with
    | some stop => pure (.done stop)
    | none => do
      let _ ← step
      pure (.more false)) true
  slicePartialText start stop

/-- `get_body_elements_no_paragraphs`, parser.rs:239-264. -/
def bodyNoParagraphs (cons : M (PS Elements)) (b : BlockInfo) : M (PS (List Elem)) :=
  loop (fun (acc : List Elem × List PErr × Bool × Bool) => do
    let (es, errors, ps, first) := acc
    match ← verifyEndBlock first b with
    | some _ => pure (.done ⟨es, errors, ps⟩)
    | none => do
      let old ← remLen
      let r ← cons
      let now ← remLen
      if now = old then do
        let _ ← step
        pure (.more (es ++ r.item, errors ++ r.errors, ps && r.psafe, false))
      else pure (.more (es ++ r.item, errors ++ r.errors, ps && r.psafe, false))) ([], [], true, true)

/-- `get_body_elements_paragraphs`, parser.rs:221-237. -/
def bodyParagraphs (cons : M (PS Elements)) (b : BlockInfo) : M (PS (List Elem)) := do
  let p ← getP
  gatherParagraphs cons p.rule (some fun first => do return (← verifyEndBlock first b).isSome)

/-- `get_body_elements`, parser.rs:204-219. -/
def getBody (cons : M (PS Elements)) (b : BlockInfo) (asParagraphs : Bool) : M (PS (List Elem)) :=
  if asParagraphs then bodyParagraphs cons b else bodyNoParagraphs cons b

/-- `get_head_block`, parser.rs:424-445. -/
def getHeadBlock (b : BlockInfo) (inHead : Bool) : M Unit := do
  if inHead then do
    let _ ← getToken .rightBlock .blockMissingCloseBrackets
    pure ()
  else pure ()
  if (← curTok) ≠ .inputEnd && b.newlines then getOptionalLineBreak else pure ()

/-- Regex `[A-Za-z0-9_\-]+`, parser.rs:34: unanchored, so one such character anywhere is enough. -/
def isArgumentKey (s : Str) : Bool := s.any fun c => isAlnumA c || c == '_' || c == '-'

/-- The key loop, parser.rs:290-330; `none` = no more arguments. -/
def getArgKey : M (Option Str) := do
  let start ← current
  let fin ← loop (fun (_ : Unit) => do
    let c ← current
    if c.token = .rightBlock then pure (.done true)
    else if isSpaceAnyTok c.token then pure (.done false)
    else if isArgumentKey c.slice then do
      let _ ← step
      pure (.more ())
    else fail .blockMalformedArguments) ()
  if fin then pure none
  else do
    let stop ← current
    let s ← slicePartialText start stop
    pure (some s)

/-- `get_head_map`, parser.rs:267-351. -/
def getHeadMap (b : BlockInfo) (inHead : Bool) : M Args := do
  let m ← (if inHead then
    loop (fun (m : Args) => do
      getOptionalSpacesAny
      match ← getArgKey with
      | none => pure (.done m)
      | some key => do
        getOptionalSpace
        let _ ← getToken .equals .blockMalformedArguments
        getOptionalSpace
        let v ← getToken .string .blockMalformedArguments
        pure (.more (argInsert key (parseString v) m))) []
    else pure [])
  getHeadBlock b inHead
  pure m

/-- `get_head_name_map`, parser.rs:353-373. -/
def getHeadNameMap (b : BlockInfo) (inHead : Bool) : M (Str × Args) := do
  if !inHead then fail .blockMissingName
  else do
    let (sub, inHead) ← getBlockNameInternal .moduleMissingName
    let m ← getHeadMap b inHead
    pure (sub, m)

/-- `get_head_value`, parser.rs:375-410. -/
def getHeadValue {α : Type} (b : BlockInfo) (inHead : Bool) (convert : Option Str → M α) : M α := do
  let arg ← (if inHead then do
      let s ← collectText [.cur .rightBlock] [.cur .paragraphBreak, .cur .lineBreak]
        (some .blockMalformedArguments)
      pure (some s)
    else pure none)
  let v ← convert arg
  getHeadBlock b false
  pure v

/-- `get_head_none`, parser.rs:412-421. -/
def getHeadNone (b : BlockInfo) (inHead : Bool) : M Unit := do
  getOptionalSpace
  getHeadBlock b inHead

/-- `assert!(cond)`. -/
def assertM (cond : Bool) (file : Str) (line : Nat) : M Unit :=
  if cond then pure () else panic (.expect file line)

end Ftml
