import Verif.Lemmas.Inline
/-
Inline markup is parsed to its meaning: the rules.
-/
namespace Ftml
open M Markup Lexer
variable {env : Env}

/-- The rule fails on these tokens, changing nothing. -/
def Fails (env : Env) (r : RuleId) (toks : List ETok) (sol : Bool) : Prop :=
  ∀ (cons : M (PS Elements)) (p : PState) (sh : Shared), ∃ e,
    tryConsume r (ruleFn cons r) env ⟨p.at toks sol, sh⟩ = .err e ⟨p.at toks sol, sh⟩

theorem Fails.line {r : RuleId} (h : r.needsLineStart = true) (toks : List ETok) : Fails env r toks false :=
  fun _ _ _ => ⟨_, tryConsume_line h⟩

theorem consumeRules_skip {cons : M (PS Elements)} {c : ETok} {toks : List ETok} {sol : Bool} {p : PState} {sh : Shared}
    {rs2 : List RuleId} : ∀ {rs1 : List RuleId}, (∀ r ∈ rs1, Fails env r toks sol) → ∀ errs, ∃ errs',
      consumeRules cons c (rs1 ++ rs2) errs env ⟨p.at toks sol, sh⟩ = consumeRules cons c rs2 errs' env ⟨p.at toks sol, sh⟩ := by
  intro rs1
  induction rs1 with
  | nil => intro _ errs; exact ⟨errs, rfl⟩
  | cons r rs1 ih =>
    intro h errs
    obtain ⟨e, he⟩ := h r (by simp) cons p sh
    obtain ⟨errs', h'⟩ := ih (fun r hr => h r (by simp [hr])) (errs ++ [e])
    exact ⟨errs', by rw [List.cons_append, consumeRules_next he, h']⟩

/-- No left-over parts. -/
def NoParts (es : List Elem) : Prop := ∀ a, firstBadPartial a es = none

/-- A rule that reads the whole construct and collects footnotes, changing the name of the current rule on the way. -/
theorem eats_put' {x : ETok} {xs rest : List ETok} {sol : Bool} {r r' : RuleId} {rs1 rs2 : List RuleId} {n : Nat}
    {es : List Elem} {safe : Bool} {fs : List (List Elem)} (hr : rest ≠ [])
    (hrules : rulesFor x.token = rs1 ++ r :: rs2) (hfail : ∀ r' ∈ rs1, Fails env r' (x :: xs ++ rest) sol)
    (hline : r.needsLineStart = true → sol = true) (hp : NoParts es)
    (hrun : ∀ (fuel : Nat) (p : PState) (sh : Shared), n ≤ fuel → p.depth + n ≤ 100 → (p.inFootnote = true → fs = []) →
      ruleFn (consume fuel) r env ⟨({ p with rule := r } : PState).at (x :: xs ++ rest) sol, sh⟩ =
        .ok ⟨es, [], safe⟩ ⟨({ p with rule := r' } : PState).at rest (solAfter (x :: xs)), putNotes sh fs⟩) :
    Eats env (n + 1) sol (x :: xs) rest es safe fs := by
  intro fuel p sh hf hd hfn
  obtain ⟨fuel, rfl⟩ : ∃ k, fuel = k + 1 := ⟨fuel - 1, by omega⟩
  rw [consume_enter (by omega)]
  have : (x :: xs ++ rest).headD default = x := rfl
  rw [this, hrules]
  obtain ⟨errs, he⟩ := consumeRules_skip (cons := consume fuel) (c := x) (p := { p with depth := p.depth + 1 })
    (sh := sh) (rs2 := r :: rs2) hfail []
  rw [he]
  refine consumeRules_moved (tryConsume_ok' hline (hrun _ { p with depth := p.depth + 1 } _ (by omega) ?_ hfn) (hp _)) (by simp; omega) hr
  dsimp only
  omega

/-- A rule that reads the whole construct and collects footnotes. -/
theorem eats_put {x : ETok} {xs rest : List ETok} {sol : Bool} {r : RuleId} {rs1 rs2 : List RuleId} {n : Nat}
    {es : List Elem} {safe : Bool} {fs : List (List Elem)} (hr : rest ≠ [])
    (hrules : rulesFor x.token = rs1 ++ r :: rs2) (hfail : ∀ r' ∈ rs1, Fails env r' (x :: xs ++ rest) sol)
    (hline : r.needsLineStart = true → sol = true) (hp : NoParts es)
    (hrun : ∀ (fuel : Nat) (p : PState) (sh : Shared), n ≤ fuel → p.depth + n ≤ 100 → (p.inFootnote = true → fs = []) →
      ruleFn (consume fuel) r env ⟨p.at (x :: xs ++ rest) sol, sh⟩ =
        .ok ⟨es, [], safe⟩ ⟨p.at rest (solAfter (x :: xs)), putNotes sh fs⟩) :
    Eats env (n + 1) sol (x :: xs) rest es safe fs :=
  eats_put' hr hrules hfail hline hp (fun fuel p sh h1 h2 h3 => hrun fuel { p with rule := r } sh h1 h2 h3)

/-- A rule that reads the whole construct, changing the name of the current rule on the way. -/
theorem eats_rule' {x : ETok} {xs rest : List ETok} {sol : Bool} {r r' : RuleId} {rs1 rs2 : List RuleId} {n : Nat}
    {es : List Elem} {safe : Bool} (hr : rest ≠ [])
    (hrules : rulesFor x.token = rs1 ++ r :: rs2) (hfail : ∀ r' ∈ rs1, Fails env r' (x :: xs ++ rest) sol)
    (hline : r.needsLineStart = true → sol = true) (hp : NoParts es)
    (hrun : ∀ (fuel : Nat) (p : PState) (sh : Shared), n ≤ fuel → p.depth + n ≤ 100 → 
      ruleFn (consume fuel) r env ⟨({ p with rule := r } : PState).at (x :: xs ++ rest) sol, sh⟩ =
        .ok ⟨es, [], safe⟩ ⟨({ p with rule := r' } : PState).at rest (solAfter (x :: xs)), sh⟩) :
    Eats env (n + 1) sol (x :: xs) rest es safe [] :=
  eats_put' hr hrules hfail hline hp (fun fuel p sh h1 h2 _ => hrun fuel p sh h1 h2)

/-- A rule that reads the whole construct. -/
theorem eats_rule {x : ETok} {xs rest : List ETok} {sol : Bool} {r : RuleId} {rs1 rs2 : List RuleId} {n : Nat}
    {es : List Elem} {safe : Bool} (hr : rest ≠ [])
    (hrules : rulesFor x.token = rs1 ++ r :: rs2) (hfail : ∀ r' ∈ rs1, Fails env r' (x :: xs ++ rest) sol)
    (hline : r.needsLineStart = true → sol = true) (hp : NoParts es)
    (hrun : ∀ (fuel : Nat) (p : PState) (sh : Shared), n ≤ fuel → p.depth + n ≤ 100 → 
      ruleFn (consume fuel) r env ⟨p.at (x :: xs ++ rest) sol, sh⟩ =
        .ok ⟨es, [], safe⟩ ⟨p.at rest (solAfter (x :: xs)), sh⟩) :
    Eats env (n + 1) sol (x :: xs) rest es safe [] :=
  eats_put hr hrules hfail hline hp (fun fuel p sh h1 h2 _ => hrun fuel p sh h1 h2)

/-- A rule that reads nothing: the current token is skipped. -/
theorem eats_tok {x : ETok} {rest : List ETok} {sol : Bool} {r : RuleId} {rs1 rs2 : List RuleId}
    {es : List Elem} {safe : Bool} (hr : rest ≠ [])
    (hrules : rulesFor x.token = rs1 ++ r :: rs2) (hfail : ∀ r' ∈ rs1, Fails env r' (x :: rest) sol)
    (hline : r.needsLineStart = true → sol = true) (hp : NoParts es)
    (hrun : ∀ (cons : M (PS Elements)) (p : PState) (sh : Shared),
      ruleFn cons r env ⟨p.at (x :: rest) sol, sh⟩ = .ok ⟨es, [], safe⟩ ⟨p.at (x :: rest) sol, sh⟩) :
    Eats env 1 sol [x] rest es safe [] := by
  intro fuel p sh hf hd hfn
  obtain ⟨fuel, rfl⟩ : ∃ k, fuel = k + 1 := ⟨fuel - 1, by omega⟩
  rw [consume_enter (by omega)]
  have : ([x] ++ rest).headD default = x := rfl
  rw [this, hrules]
  obtain ⟨errs, he⟩ := consumeRules_skip (cons := consume fuel) (c := x) (p := { p with depth := p.depth + 1 })
    (sh := sh) (rs2 := r :: rs2) hfail []
  rw [List.singleton_append, he]
  obtain ⟨y, ys, rfl⟩ := List.exists_cons_of_ne_nil hr
  exact consumeRules_stayed (tryConsume_ok hline (hrun _ _ _) (hp _))

theorem noParts_nil : NoParts [] := fun _ => rfl
theorem noParts_cons {k : Kind} {ks es : List Elem} (h : ∀ q, k ≠ .part q) (hs : NoParts es) : NoParts (.mk k ks :: es) := by
  intro a
  cases k <;> first | exact hs a | exact absurd rfl (h _)

theorem eats_text {x : ETok} {rest : List ETok} {sol : Bool} {rs1 : List RuleId} (hr : rest ≠ [])
    (hrules : rulesFor x.token = rs1 ++ [.text]) (hfail : ∀ r' ∈ rs1, Fails env r' (x :: rest) sol) :
    Eats env 1 sol [x] rest [eText x.slice] true [] :=
  eats_tok hr hrules hfail (by simp [RuleId.needsLineStart]) (noParts_cons (by simp) noParts_nil)
    (fun _ _ _ => rfl)

/-- `evaluate_fn` does not change the parser. -/
theorem evaluateFn_ok {f : M Bool} {s s' : St} {b : Bool} (h : f env s = .ok b s') :
    evaluateFn f env s = .ok b ⟨s.p, s'.sh⟩ := by
  unfold evaluateFn
  rw [bind_ok (onClone_ok h)]
  rfl

theorem fails_underscore {x : ETok} {xs : List ETok} {sol : Bool} (hx : x.token = .whitespace)
    (hn : ∀ y ys, xs = y :: ys → y.token ≠ .underscore) : Fails env .underscoreLineBreak (x :: xs) sol := by
  intro cons p sh
  refine ⟨_, tryConsume_fails (x := ?_) (s' := ⟨({ p with rule := .underscoreLineBreak } : PState).at (x :: xs) sol, sh⟩) (by simp [RuleId.needsLineStart]) ?_⟩
  · exact mkErr .ruleFailed .underscoreLineBreak x
  · show ruleUnderscoreLineBreak env _ = _
    unfold ruleUnderscoreLineBreak
    rw [bind_ok (s' := ⟨({ p with rule := .underscoreLineBreak } : PState).at (x :: xs) sol, sh⟩)
      (a := ({ p with rule := .underscoreLineBreak } : PState).at (x :: xs) sol) rfl]
    rw [bind_ok (s' := ⟨({ p with rule := .underscoreLineBreak } : PState).at (x :: xs) sol, sh⟩)
      (a := (x.token, xs[0]?.map (·.token))) rfl]
    dsimp only
    rw [if_neg]
    · rw [if_neg (by simp [hx])]
      rfl
    · cases xs with
      | nil => simp
      | cons y ys => simp [hn y ys rfl]

theorem loop_one {σ β : Type} {body : σ → M (Turn σ β)} {s : σ} {b : β} {st st' : St}
    (h : body s env st = .ok (.done b) st') : loop body s env st = .ok b st' := by
  show loopN body (st.p.rem.length + 1) s env st = _
  rw [loopN, bind_ok h]
  rfl
theorem loop_one_err {σ β : Type} {body : σ → M (Turn σ β)} {s : σ} {e : PErr} {st st' : St}
    (h : body s env st = .err e st') : loop body s env st = .err e st' := by
  show loopN body (st.p.rem.length + 1) s env st = _
  rw [loopN, bind_err h]

theorem fails_list {x y : ETok} {ys : List ETok} {sol : Bool} (hx : x.token = .whitespace)
    (hy : getListType y.token = none) : Fails env .list (x :: y :: ys) sol := by
  cases sol with
  | false => exact .line rfl _
  | true =>
  intro cons p sh
  by_cases hd : byteLen x.slice > maxListDepth
  · refine ⟨_, tryConsume_fails (x := mkErr .listDepthExceeded .list y)
      (s' := ⟨({ p with rule := .list } : PState).at (y :: ys) false, sh⟩) (by simp) ?_⟩
    show ruleList cons env _ = _
    unfold ruleList
    refine bind_err (loop_one_err ?_)
    unfold listTurn
    rw [bind_ok (s' := ⟨({ p with rule := .list } : PState).at (x :: y :: ys) true, sh⟩) (a := x) rfl]
    simp only [hx, Bool.true_or, decide_true, if_true]
    rw [bind_ok (s' := ⟨({ p with rule := .list } : PState).at (y :: ys) false, sh⟩) (a := y)]
    · rw [if_pos hd]
      rfl
    · rw [step_at, hx]; rfl
  · refine ⟨_, tryConsume_fails (x := mkErr .ruleFailed .list y)
      (s' := ⟨({ p with rule := .list } : PState).at (y :: ys) false, sh⟩) (by simp) ?_⟩
    show ruleList cons env _ = _
    unfold ruleList
    rw [bind_ok (s' := ⟨({ p with rule := .list } : PState).at (y :: ys) false, sh⟩) (a := ([], []))]
    · rfl
    refine loop_one ?_
    unfold listTurn
    rw [bind_ok (s' := ⟨({ p with rule := .list } : PState).at (x :: y :: ys) true, sh⟩) (a := x) rfl]
    simp only [hx, Bool.true_or, decide_true, if_true]
    rw [bind_ok (s' := ⟨({ p with rule := .list } : PState).at (y :: ys) false, sh⟩) (a := y)]
    · rw [if_neg hd]
      rw [bind_ok (s' := ⟨({ p with rule := .list } : PState).at (y :: ys) false, sh⟩) (a := y.token) rfl]
      rw [hy]
      rfl
    · rw [step_at, hx]; rfl

theorem fails_doubleAngle {x : ETok} {xs : List ETok} {sol : Bool} (hx : x.token = .quote) (hs : x.slice ≠ c!">>") :
    Fails env .doubleAngle (x :: xs) sol := by
  intro cons p sh
  refine ⟨_, tryConsume_fails (x := mkErr .ruleFailed .doubleAngle x)
    (s' := ⟨({ p with rule := .doubleAngle } : PState).at (x :: xs) sol, sh⟩) (by simp [RuleId.needsLineStart]) ?_⟩
  show ruleDoubleAngle env _ = _
  unfold ruleDoubleAngle
  rw [bind_ok (s' := ⟨({ p with rule := .doubleAngle } : PState).at (x :: xs) sol, sh⟩) (a := x) rfl]
  rw [if_neg (by simp [hx]), if_pos hx, if_neg hs]
  rfl

theorem fails_blockSkip {x y : ETok} {ys : List ETok} {sol : Bool} (hy : y.token ≠ .leftBlock)
    (hy' : y.token ≠ .leftBlockStar) : Fails env .blockSkipNewline (x :: y :: ys) sol := by
  intro cons p sh
  refine ⟨_, tryConsume_fails (x := mkErr .ruleFailed .blockSkipNewline y)
    (s' := ⟨({ p with rule := .blockSkipNewline } : PState).at (y :: ys) (isLineStartTok x.token), sh⟩)
      (by simp [RuleId.needsLineStart]) ?_⟩
  show ruleBlockSkip env _ = _
  unfold ruleBlockSkip
  rw [bind_ok (step_at ..)]
  rw [bind_ok (evaluateFn_ok (b := false)
    (s' := ⟨({ p with rule := .blockSkipNewline } : PState).at (y :: ys) (isLineStartTok x.token), sh⟩) ?_)]
  · rfl
  · rw [if_pos (by simp [hy, hy'])]
    rfl

theorem fails_defSkip {x y : ETok} {ys : List ETok} {sol : Bool} (hy : y.token ≠ .colon) :
    Fails env .definitionListSkipNewline (x :: y :: ys) sol := by
  intro cons p sh
  refine ⟨_, tryConsume_fails (x := mkErr .ruleFailed .definitionListSkipNewline x)
    (s' := ⟨({ p with rule := .definitionListSkipNewline } : PState).at (x :: y :: ys) sol, sh⟩)
      (by simp [RuleId.needsLineStart]) ?_⟩
  show ruleDefinitionListSkip env _ = _
  unfold ruleDefinitionListSkip
  rw [bind_ok (s' := ⟨({ p with rule := .definitionListSkipNewline } : PState).at (x :: y :: ys) sol, sh⟩)
    (a := (x.token, some y.token, ys[0]?.map (·.token))) rfl]
  rw [if_neg (by simp [hy])]
  rfl

/-- The token after the optional blanks. -/
def afterBlank : List ETok → Token
  | x :: y :: _ => if x.token = .whitespace then y.token else x.token
  | x :: [] => x.token
  | [] => .inputEnd

theorem run_lineBreak {x y z : ETok} {zs : List ETok} {sol : Bool} {p : PState} {sh : Shared}
    (hsk : isSkipTok (afterBlank (y :: z :: zs)) = false) :
    ruleLineBreak env ⟨p.at (x :: y :: z :: zs) sol, sh⟩ = .ok ⟨[eLineBreak], [], true⟩ ⟨p.at (x :: y :: z :: zs) sol, sh⟩ := by
  unfold ruleLineBreak
  rw [bind_ok (evaluateFn_ok (b := false) (s' := ⟨p.at (if y.token = .whitespace then z :: zs else y :: z :: zs)
    (if y.token = .whitespace then false else isLineStartTok x.token), sh⟩) ?_)]
  · rfl
  · rw [bind_ok (step_at ..)]
    unfold getOptionalSpace getOptionalToken
    by_cases hw : y.token = .whitespace
    · rw [bind_ok (s' := ⟨p.at (z :: zs) false, sh⟩) (a := ())]
      · simp only [afterBlank, hw, if_true] at hsk
        rw [bind_ok (s' := ⟨p.at (z :: zs) false, sh⟩) (a := z.token) rfl, hsk]
        simp [hw, pure_ok]
      · rw [bind_ok (s' := ⟨p.at (y :: z :: zs) (isLineStartTok x.token), sh⟩) (a := y.token) rfl, if_pos hw]
        rw [bind_ok (step_at ..), hw]
        rfl
    · rw [bind_ok (s' := ⟨p.at (y :: z :: zs) (isLineStartTok x.token), sh⟩) (a := ())]
      · simp only [afterBlank, hw, if_false] at hsk
        rw [bind_ok (s' := ⟨p.at (y :: z :: zs) (isLineStartTok x.token), sh⟩) (a := y.token) rfl, hsk]
        simp [hw, pure_ok]
      · rw [bind_ok (s' := ⟨p.at (y :: z :: zs) (isLineStartTok x.token), sh⟩) (a := y.token) rfl, if_neg hw]
        rfl

theorem run_lineBreak1 {x y : ETok} {sol : Bool} {p : PState} {sh : Shared}
    (hw : y.token ≠ .whitespace) (hsk : isSkipTok y.token = false) :
    ruleLineBreak env ⟨p.at [x, y] sol, sh⟩ = .ok ⟨[eLineBreak], [], true⟩ ⟨p.at [x, y] sol, sh⟩ := by
  unfold ruleLineBreak
  rw [bind_ok (evaluateFn_ok (b := false) (s' := ⟨p.at [y] (isLineStartTok x.token), sh⟩) ?_)]
  · rfl
  · rw [bind_ok (step_at ..)]
    unfold getOptionalSpace getOptionalToken
    rw [bind_ok (s' := ⟨p.at [y] (isLineStartTok x.token), sh⟩) (a := ())]
    · rw [bind_ok (s' := ⟨p.at [y] (isLineStartTok x.token), sh⟩) (a := y.token) rfl, hsk]
      rfl
    · rw [bind_ok (s' := ⟨p.at [y] (isLineStartTok x.token), sh⟩) (a := y.token) rfl, if_neg hw]
      rfl

end Ftml
