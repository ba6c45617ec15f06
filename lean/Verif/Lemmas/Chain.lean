import Verif.Lemmas.Eats
/-
The loops of the parser on given tokens: `collect`, `collect_text`, `gather_paragraphs`.
-/
namespace Ftml
open M
variable {env : Env}

/-- `cons`, called again and again from the tokens `toks`, gives the outcomes `outs` without errors and
ends at the tokens of the last index; `G` holds at the start of each call. -/
inductive Calls (env : Env) (cons : M (PS Elements)) (G : List ETok → Prop) (p : PState) :
    List ETok → Bool → Shared → List (Elements × Bool) → List ETok → Bool → Shared → Prop where
  | nil {toks sol sh} : Calls env cons G p toks sol sh [] toks sol sh
  | cons {toks sol sh es safe toks1 sol1 sh1 outs toks' sol' sh'} : G toks →
      cons env ⟨p.at toks sol, sh⟩ = .ok ⟨es, [], safe⟩ ⟨p.at toks1 sol1, sh1⟩ →
      toks1.length < toks.length → toks1 ≠ [] →
      Calls env cons G p toks1 sol1 sh1 outs toks' sol' sh' →
      Calls env cons G p toks sol sh ((es, safe) :: outs) toks' sol' sh'

theorem Calls.length_le {cons G p toks sol sh outs toks' sol' sh'}
    (h : Calls env cons G p toks sol sh outs toks' sol' sh') : toks'.length ≤ toks.length := by
  induction h with
  | nil => exact Nat.le_refl _
  | cons _ _ h _ _ ih => omega

/-- The elements of the outcomes. -/
abbrev outElems (outs : List (Elements × Bool)) : List Elem := outs.flatMap (·.1)
/-- Whether all outcomes are paragraph safe. -/
abbrev outSafe (outs : List (Elements × Bool)) : Bool := outs.all (·.2)

theorem evalAny_at (p : PState) (x : ETok) (xs : List ETok) (sol : Bool) (cs : List Cond) :
    evalAny (p.at (x :: xs) sol) cs = cs.any (fun c => match c with
      | .cur t => x.token == t
      | .pair a b => x.token == a && (match xs with | [] => false | n :: _ => n.token == b)) := by
  unfold evalAny
  congr 1

/-- The tokens meet one of the conditions. -/
def Meets (cs : List Cond) : List ETok → Bool
  | [] => false
  | x :: xs => cs.any (fun c => match c with
      | .cur t => x.token == t
      | .pair a b => x.token == a && (match xs with | [] => false | n :: _ => n.token == b))

theorem evalAny_meets (p : PState) {toks : List ETok} (h : toks ≠ []) (sol : Bool) (cs : List Cond) :
    evalAny (p.at toks sol) cs = Meets cs toks := by
  cases toks with
  | nil => exact (h rfl).elim
  | cons x xs => exact evalAny_at ..

/-- Tokens at which `collect` goes on. -/
def Goes (close invalid : List Cond) (toks : List ETok) : Prop :=
  toks ≠ [] ∧ Meets close toks = false ∧ Meets invalid toks = false ∧ (toks.headD default).token ≠ .inputEnd

/-- Where `collect` leaves the parser when it ends. -/
def afterClose : List ETok → Bool → List ETok × Bool
  | x :: xs, sol => if x.token = .inputEnd then (x :: xs, sol) else (xs, isLineStartTok x.token)
  | [], sol => ([], sol)

theorem collectLoop_chain {σ : Type} {close invalid : List Cond} {ek : Option EKind} {process : σ → M (PS σ)}
    {cons : M (PS Elements)} {upd : σ → Elements → σ}
    (hproc : ∀ s st es safe st', cons env st = .ok ⟨es, [], safe⟩ st' →
      process s env st = .ok ⟨upd s es, [], safe⟩ st')
    {p : PState} {toks sol sh outs x xs sol' sh'}
    (h : Calls env cons (Goes close invalid) p toks sol sh outs (x :: xs) sol' sh')
    (hc : Meets close (x :: xs) = true) (hx : x.token ≠ .inputEnd → xs ≠ []) :
    ∀ n (s : σ) (ps : Bool), toks.length ≤ n → loopN (fun (acc : σ × List PErr × Bool) => do
      let (s, errors, ps) := acc
      let p ← getP
      if evalAny p close then do
        if p.cur.token ≠ .inputEnd then do
          let _ ← step
          pure (.done (⟨(s, p.cur), errors, ps⟩ : PS (σ × ETok)))
        else pure (.done ⟨(s, p.cur), errors, ps⟩)
      else if evalAny p invalid then fail (ek.getD .ruleFailed)
      else if p.cur.token = .inputEnd then fail .endOfInput
      else do
        let out ← process s
        let r ← remLen
        if r = p.rem.length then do
          let _ ← step
          pure (.more (out.item, errors ++ out.errors, ps && out.psafe))
        else pure (.more (out.item, errors ++ out.errors, ps && out.psafe))) n (s, [], ps) env ⟨p.at toks sol, sh⟩ =
      .ok ⟨((outs.map (·.1)).foldl upd s, x), [], ps && outSafe outs⟩
        ⟨p.at (afterClose (x :: xs) sol').1 (afterClose (x :: xs) sol').2, sh'⟩ := by
  generalize hT : x :: xs = T at h
  induction h with
  | @nil toks sol sh =>
    intro n s ps hn
    subst hT
    cases n with
    | zero => simp at hn
    | succ n =>
      rw [loopN]
      refine bind_ok (a := .done ⟨(s, x), [], ps⟩)
        (s' := ⟨p.at (afterClose (x :: xs) sol).1 (afterClose (x :: xs) sol).2, sh⟩) ?_ |>.trans ?_
      · dsimp only
        rw [bind_ok (s' := ⟨p.at (x :: xs) _, _⟩) (a := p.at (x :: xs) _) rfl]
        rw [evalAny_meets _ (by simp), hc]
        simp only [if_true]
        by_cases he : x.token = .inputEnd
        · rw [if_neg (by simp [PState.at, he])]
          simp only [afterClose, he, if_true]
          rfl
        · rw [if_pos (by simp [PState.at, he])]
          obtain ⟨y, ys, rfl⟩ := List.exists_cons_of_ne_nil (hx he)
          rw [bind_ok (step_at ..)]
          simp only [afterClose, he, if_false]
          rfl
      · simp [pure_ok]
  | @cons toks sol sh es safe toks1 sol1 sh1 outs toks' sol' sh' hg hrun hlt hne _ ih =>
    intro n s ps hn
    obtain ⟨hne0, hcl, hinv, hie⟩ := hg
    cases n with
    | zero => simp at hn; exact absurd hn hne0
    | succ n =>
      rw [loopN]
      refine bind_ok (a := .more (upd s es, [], ps && safe)) (s' := ⟨p.at toks1 sol1, sh1⟩) ?_ |>.trans ?_
      · dsimp only
        rw [bind_ok (s' := ⟨p.at toks sol, sh⟩) (a := p.at toks sol) rfl]
        rw [evalAny_meets _ hne0, evalAny_meets _ hne0, hcl, hinv]
        simp only [Bool.false_eq_true, if_false]
        rw [if_neg (by simpa [PState.at] using hie)]
        rw [bind_ok (hproc s _ _ _ _ hrun)]
        rw [bind_ok (s' := ⟨p.at toks1 sol1, sh1⟩) (a := toks1.tail.length) rfl]
        have := List.length_pos_iff.2 hne
        rw [if_neg (by simp [PState.at]; omega)]
        rfl
      · dsimp only
        rw [ih hT n (upd s es) (ps && safe) (by omega)]
        simp [Bool.and_assoc]

theorem collect_chain {σ : Type} {close invalid : List Cond} {ek : Option EKind} {process : σ → M (PS σ)}
    {cons : M (PS Elements)} {upd : σ → Elements → σ}
    (hproc : ∀ s st es safe st', cons env st = .ok ⟨es, [], safe⟩ st' →
      process s env st = .ok ⟨upd s es, [], safe⟩ st')
    {p : PState} {toks sol sh outs x xs sol' sh'}
    (h : Calls env cons (Goes close invalid) p toks sol sh outs (x :: xs) sol' sh')
    (hc : Meets close (x :: xs) = true) (hx : x.token ≠ .inputEnd → xs ≠ []) (s : σ) :
    collect close invalid ek process s env ⟨p.at toks sol, sh⟩ =
      .ok ⟨((outs.map (·.1)).foldl upd s, x), [], outSafe outs⟩
        ⟨p.at (afterClose (x :: xs) sol').1 (afterClose (x :: xs) sol').2, sh'⟩ := by
  have h1 : 0 < toks.length := by have := h.length_le; simp at this; omega
  have := collectLoop_chain (ek := ek) hproc h hc hx (toks.tail.length + 1) s true
    (by rw [List.length_tail]; omega)
  rw [Bool.true_and] at this
  exact this

theorem collectConsumeKeep_chain {close invalid : List Cond} {ek : Option EKind}
    {cons : M (PS Elements)} {p : PState} {toks sol sh outs x xs sol' sh'}
    (h : Calls env cons (Goes close invalid) p toks sol sh outs (x :: xs) sol' sh')
    (hc : Meets close (x :: xs) = true) (hx : x.token ≠ .inputEnd → xs ≠ []) :
    collectConsumeKeep cons close invalid ek env ⟨p.at toks sol, sh⟩ =
      .ok ⟨(outElems outs, x), [], outSafe outs⟩
        ⟨p.at (afterClose (x :: xs) sol').1 (afterClose (x :: xs) sol').2, sh'⟩ := by
  unfold collectConsumeKeep
  rw [collect_chain (upd := fun acc es => acc ++ es) ?_ h hc hx]
  · congr 3
    have : ∀ (outs : List (Elements × Bool)) (acc : List Elem),
        (outs.map (·.1)).foldl (fun acc es => acc ++ es) acc = acc ++ outElems outs := by
      intro outs
      induction outs with
      | nil => simp
      | cons o outs ih => intro acc; simp [ih]
    simpa using congrArg (fun a => (a, x)) (this outs [])
  · intro s st es safe st' hrun
    rw [bind_ok hrun]
    rfl

theorem collectConsume_chain {close invalid : List Cond} {ek : Option EKind}
    {cons : M (PS Elements)} {p : PState} {toks sol sh outs x xs sol' sh'}
    (h : Calls env cons (Goes close invalid) p toks sol sh outs (x :: xs) sol' sh')
    (hc : Meets close (x :: xs) = true) (hx : x.token ≠ .inputEnd → xs ≠ []) :
    collectConsume cons close invalid ek env ⟨p.at toks sol, sh⟩ =
      .ok ⟨outElems outs, [], outSafe outs⟩
        ⟨p.at (afterClose (x :: xs) sol').1 (afterClose (x :: xs) sol').2, sh'⟩ := by
  unfold collectConsume
  rw [bind_ok (collectConsumeKeep_chain h hc hx)]
  rfl

theorem collectContainer_chain {close invalid : List Cond} {ek : Option EKind} {ct : CType}
    {cons : M (PS Elements)} {p : PState} {toks sol sh outs x xs sol' sh'}
    (h : Calls env cons (Goes close invalid) p toks sol sh outs (x :: xs) sol' sh')
    (hc : Meets close (x :: xs) = true) (hx : x.token ≠ .inputEnd → xs ≠ []) :
    collectContainer cons ct close invalid ek env ⟨p.at toks sol, sh⟩ =
      .ok ⟨[eContainer ct (outElems outs)], [], outSafe outs && ct.paragraphSafe⟩
        ⟨p.at (afterClose (x :: xs) sol').1 (afterClose (x :: xs) sol').2, sh'⟩ := by
  unfold collectContainer
  rw [bind_ok (collectConsume_chain h hc hx)]
  rfl

/-! ### Text -/

theorem collectTextKeep_at {close invalid : List Cond} {ek : Option EKind} {p : PState} {xs : List ETok}
    {x : ETok} {rest : List ETok} {sol : Bool} {sh : Shared}
    (hg : ∀ a b, xs = a ++ b → b ≠ [] → Goes close invalid (b ++ x :: rest))
    (hc : Meets close (x :: rest) = true) (hr : rest ≠ []) (hx : x.token ≠ .inputEnd)
    (hs : (xs ++ x :: rest) <:+ (tokenize env.text).tokens) :
    collectTextKeep close invalid ek env ⟨p.at (xs ++ x :: rest) sol, sh⟩ =
      .ok (slicesOf xs, x) ⟨p.at rest (isLineStartTok x.token), sh⟩ := by
  -- the loop
  have key : ∀ (ys : List ETok), (∀ a b, ys = a ++ b → b ≠ [] → Goes close invalid (b ++ x :: rest)) →
      ∀ n (sol : Bool) (s : Option ETok), ys.length + 1 + rest.length ≤ n →
      loopN (fun (acc : Option ETok × List PErr × Bool) => do
      let (s, errors, ps) := acc
      let p ← getP
      if evalAny p close then do
        if p.cur.token ≠ .inputEnd then do
          let _ ← step
          pure (.done (⟨(s, p.cur), errors, ps⟩ : PS (Option ETok × ETok)))
        else pure (.done ⟨(s, p.cur), errors, ps⟩)
      else if evalAny p invalid then fail (ek.getD .ruleFailed)
      else if p.cur.token = .inputEnd then fail .endOfInput
      else do
        let out ← (fun (_ : Option ETok) => do
          let c ← current
          pure (⟨some c, [], true⟩ : PS (Option ETok))) s
        let r ← remLen
        if r = p.rem.length then do
          let _ ← step
          pure (.more (out.item, errors ++ out.errors, ps && out.psafe))
        else pure (.more (out.item, errors ++ out.errors, ps && out.psafe))) n (s, [], true) env
          ⟨p.at (ys ++ x :: rest) sol, sh⟩ =
      .ok ⟨(match ys.getLast? with | some l => some l | none => s, x), [], true⟩
        ⟨p.at rest (isLineStartTok x.token), sh⟩ := by
    intro ys
    induction ys with
    | nil =>
      intro _ n sol s hn
      cases n with
      | zero => omega
      | succ n =>
        rw [loopN]
        refine bind_ok (a := .done ⟨(s, x), [], true⟩) (s' := ⟨p.at rest (isLineStartTok x.token), sh⟩) ?_ |>.trans ?_
        · dsimp only
          rw [bind_ok (s' := ⟨p.at (x :: rest) sol, _⟩) (a := p.at (x :: rest) sol) rfl]
          rw [evalAny_meets _ (by simp), hc]
          simp only [if_true]
          rw [if_pos (by simp [PState.at, hx])]
          obtain ⟨y, ys, rfl⟩ := List.exists_cons_of_ne_nil hr
          rw [bind_ok (step_at ..)]
          rfl
        · rfl
    | cons y ys ih =>
      intro hg n sol s hn
      cases n with
      | zero => omega
      | succ n =>
        obtain ⟨hne0, hcl, hinv, hie⟩ := hg [] (y :: ys) rfl (by simp)
        rw [loopN]
        refine bind_ok (a := .more (some y, [], true)) (s' := ⟨p.at (ys ++ x :: rest) (isLineStartTok y.token), sh⟩) ?_ |>.trans ?_
        · dsimp only
          rw [bind_ok (s' := ⟨p.at (y :: ys ++ x :: rest) sol, sh⟩) (a := p.at (y :: ys ++ x :: rest) sol) rfl]
          rw [evalAny_meets _ hne0, evalAny_meets _ hne0, hcl, hinv]
          simp only [Bool.false_eq_true, if_false]
          rw [if_neg (by simpa [PState.at] using hie)]
          have hcur : (do
              let c ← current
              pure (⟨some c, [], true⟩ : PS (Option ETok)) : M _) env ⟨p.at (y :: ys ++ x :: rest) sol, sh⟩ =
              .ok ⟨some y, [], true⟩ ⟨p.at (y :: ys ++ x :: rest) sol, sh⟩ := rfl
          rw [bind_ok hcur]
          rw [bind_ok (s' := ⟨p.at (y :: ys ++ x :: rest) sol, sh⟩) (a := (ys ++ x :: rest).length) rfl]
          rw [if_pos (by simp [PState.at])]
          obtain ⟨z, zs, hz⟩ : ∃ z zs, ys ++ x :: rest = z :: zs := by cases ys <;> simp
          rw [List.cons_append, hz, bind_ok (step_at ..)]
          rfl
        · dsimp only
          rw [ih (fun a b e hb => hg (y :: a) b (by rw [e]; rfl) hb) n _ _ (by simp at hn; omega)]
          cases ys with
          | nil => rfl
          | cons z zs => simp [List.getLast?_cons]
  unfold collectTextKeep
  rw [bind_ok (s' := ⟨p.at (xs ++ x :: rest) sol, sh⟩) (a := (xs ++ x :: rest).headD default) rfl]
  have := key xs hg ((xs ++ x :: rest).tail.length + 1) sol none (by simp; omega)
  have hcol : collect close invalid ek (fun (_ : Option ETok) => do
      let c ← current
      pure (⟨some c, [], true⟩ : PS (Option ETok))) none env ⟨p.at (xs ++ x :: rest) sol, sh⟩ = _ := this
  rw [bind_ok hcol]
  dsimp only
  cases hl : xs.getLast? with
  | none =>
    rw [List.getLast?_eq_none_iff] at hl
    subst hl
    rfl
  | some l =>
    dsimp only
    obtain ⟨ys, rfl⟩ := List.getLast?_eq_some_iff.1 hl
    have hsl : fullSlice env.text ((ys ++ [l] ++ x :: rest).headD default) l = some (slicesOf (ys ++ [l])) := by
      cases ys with
      | nil => exact slice_ok (m := []) (r' := x :: rest) hs rfl
      | cons y ys => exact slice_ok (m := y :: ys) (r' := x :: rest) hs (by simp)
    have : sliceText ((ys ++ [l] ++ x :: rest).headD default) l env ⟨p.at rest (isLineStartTok x.token), sh⟩ =
        .ok (slicesOf (ys ++ [l])) ⟨p.at rest (isLineStartTok x.token), sh⟩ := by
      unfold sliceText
      rw [bind_ok (m := M.env) (s' := ⟨p.at rest (isLineStartTok x.token), sh⟩) (a := env) rfl, hsl]
      rfl
    rw [bind_ok this]
    rfl

theorem collectText_at {close invalid : List Cond} {ek : Option EKind} {p : PState} {xs : List ETok}
    {x : ETok} {rest : List ETok} {sol : Bool} {sh : Shared}
    (hg : ∀ a b, xs = a ++ b → b ≠ [] → Goes close invalid (b ++ x :: rest))
    (hc : Meets close (x :: rest) = true) (hr : rest ≠ []) (hx : x.token ≠ .inputEnd)
    (hs : (xs ++ x :: rest) <:+ (tokenize env.text).tokens) :
    collectText close invalid ek env ⟨p.at (xs ++ x :: rest) sol, sh⟩ =
      .ok (slicesOf xs) ⟨p.at rest (isLineStartTok x.token), sh⟩ := by
  unfold collectText
  rw [bind_ok (collectTextKeep_at hg hc hr hx hs)]
  rfl

/-! ### Paragraphs -/

/-- The paragraph stack after some outcomes. -/
def pushAll (s : PStack) : List (Elements × Bool) → PStack
  | [] => s
  | (es, safe) :: outs => pushAll (PStack.pushElements safe es s) outs

/-- Tokens that do not end a block: no end tag, nor a line break in front of one where that counts. -/
def NoEnd (newlines : Bool) : List ETok → Prop
  | x :: xs => x.token ≠ .leftBlockEnd ∧
      (newlines = true → x.token = .lineBreak → (xs.headD default).token ≠ .leftBlockEnd)
  | [] => True

/-- Tokens `gather_paragraphs` goes on with, even if it looks for the end of a block. -/
def GoesOn (toks : List ETok) : Prop :=
  (toks.headD default).token ≠ .inputEnd ∧ (toks.headD default).token ≠ .paragraphBreak ∧ NoEnd true toks ∧ 2 ≤ toks.length

/-- The turns of `gather_paragraphs`. -/
inductive Gathers (env : Env) (cons : M (PS Elements)) (p : PState) :
    List ETok → Bool → Shared → PStack → List ETok → Bool → Shared → PStack → Prop where
  | nil {toks sol sh s} : Gathers env cons p toks sol sh s toks sol sh s
  | brk {x y ys sol sh s toks' sol' sh' s'} : x.token = .paragraphBreak →
      Gathers env cons p (y :: ys) true sh s.endParagraph toks' sol' sh' s' →
      Gathers env cons p (x :: y :: ys) sol sh s toks' sol' sh' s'
  | cons {toks sol sh es safe toks1 sol1 sh1 s toks' sol' sh' s'} :
      GoesOn toks →
      cons env ⟨p.at toks sol, sh⟩ = .ok ⟨es, [], safe⟩ ⟨p.at toks1 sol1, sh1⟩ →
      toks1.length < toks.length →
      Gathers env cons p toks1 sol1 sh1 (PStack.pushElements safe es s) toks' sol' sh' s' →
      Gathers env cons p toks sol sh s toks' sol' sh' s'

theorem Gathers.trans {cons p a1 a2 a3 a4 b1 b2 b3 b4 c1 c2 c3 c4}
    (h1 : Gathers env cons p a1 a2 a3 a4 b1 b2 b3 b4) (h2 : Gathers env cons p b1 b2 b3 b4 c1 c2 c3 c4) :
    Gathers env cons p a1 a2 a3 a4 c1 c2 c3 c4 := by
  induction h1 with
  | nil => exact h2
  | brk h _ ih => exact .brk h (ih h2)
  | cons a c d _ ih => exact .cons a c d (ih h2)

theorem Gathers.length_le {cons p toks sol sh s toks' sol' sh' s'}
    (h : Gathers env cons p toks sol sh s toks' sol' sh' s') : toks'.length ≤ toks.length := by
  induction h with
  | nil => exact Nat.le_refl _
  | brk _ _ ih => simp at ih ⊢; omega
  | cons _ _ h _ ih => omega

theorem Calls.gathers {cons G p toks sol sh outs toks' sol' sh'}
    (h : Calls env cons G p toks sol sh outs toks' sol' sh')
    (hG : ∀ toks, G toks → GoesOn toks)
    (s : PStack) : Gathers env cons p toks sol sh s toks' sol' sh' (pushAll s outs) := by
  induction h generalizing s with
  | nil => exact .nil
  | cons hg hrun hlt hne _ ih => exact .cons (hG _ hg) hrun hlt (ih _)

/-- Where `gather_paragraphs` stops: at the end of the input, or where the condition says so. -/
def StopsAt (env : Env) (p : PState) (close : Option (Bool → M Bool)) (first : Bool) (E : List ETok) (sol : Bool) (sh : Shared)
    (toks2 : List ETok) (sol2 : Bool) : Prop :=
  match close with
  | none => (E.headD default).token = .inputEnd ∧ toks2 = E ∧ sol2 = sol
  | some c => (E.headD default).token ≠ .inputEnd ∧ (E.headD default).token ≠ .paragraphBreak ∧
      c first env ⟨p.at E sol, sh⟩ = .ok true ⟨p.at toks2 sol2, sh⟩

/-- The state after `gather_paragraphs` has set its rule. -/
theorem gatherParagraphs_gathers {cons : M (PS Elements)} {r : RuleId} {close : Option (Bool → M Bool)} {p : PState}
    {toks sol sh E sol' sh' s'} {toks2 : List ETok} {sol2 : Bool}
    (h : Gathers env cons { p with rule := r } toks sol sh PStack.new E sol' sh' s') (hE : E ≠ [])
    (hno : ∀ c, close = some c → ∀ first t sol sh, GoesOn t → c first env ⟨({ p with rule := r } : PState).at t sol, sh⟩ =
      .ok false ⟨({ p with rule := r } : PState).at t sol, sh⟩)
    (hyes : StopsAt env { p with rule := r } close false E sol' sh' toks2 sol2)
    (hfirst : StopsAt env { p with rule := r } close true E sol' sh' toks2 sol2 ∨
      (toks ≠ E ∧ (toks.headD default).token ≠ .paragraphBreak))
    (hs : s'.errors = []) {safe : Bool}
    (hsafe : elementsParagraphSafe? s'.endParagraph.finished = some safe) :
    gatherParagraphs cons r close env ⟨p.at toks sol, sh⟩ =
      .ok ⟨s'.intoElements, [], safe⟩ ⟨({ p with rule := r } : PState).at toks2 sol2, sh'⟩ := by
  unfold gatherParagraphs
  rw [bind_ok (s' := ⟨({ p with rule := r } : PState).at toks sol, sh⟩) (a := ()) rfl]
  have key : ∀ n (first : Bool), toks.length ≤ n →
      (first = true → StopsAt env { p with rule := r } close true E sol' sh' toks2 sol2 ∨
        (toks ≠ E ∧ (toks.headD default).token ≠ .paragraphBreak)) → ∀ (s0 : PStack),
      Gathers env cons { p with rule := r } toks sol sh s0 E sol' sh' s' →
      loopN (fun (acc : PStack × Bool) => do
    let (s, first) := acc
    let t ← curTok
    if t = .inputEnd then
      (if close.isSome then fail .endOfInput else pure (.done s))
    else if t = .paragraphBreak then do
      let _ ← step
      pure (.more (s.endParagraph, first))
    else do
      let stop ← (match close with
        | some c => do
          match ← attempt (c first) with
          | .ok b => pure b
          | .error _ => pure false
        | none => pure false)
      if stop then pure (.done s)
      else do
        let out ← cons
        let s := PStack.pushElements out.psafe out.item s
        pure (.more ({ s with errors := s.errors ++ out.errors }, false))) n (s0, first) env
        ⟨({ p with rule := r } : PState).at toks sol, sh⟩ =
        .ok s' ⟨({ p with rule := r } : PState).at toks2 sol2, sh'⟩ := by
    clear h hfirst
    intro n first hn hfi s0 h
    induction h generalizing n first with
    | @nil toks sol sh s =>
      have hst : StopsAt env { p with rule := r } close first toks sol sh toks2 sol2 := by
        cases first with
        | false => exact hyes
        | true => exact (hfi rfl).resolve_right (fun h => h.1 rfl)
      cases n with
      | zero => have := List.length_pos_iff.2 hE; omega
      | succ n =>
        rw [loopN]
        rw [bind_ok (a := .done s) (s' := ⟨({ p with rule := r } : PState).at toks2 sol2, sh⟩)]
        · rfl
        · dsimp only
          rw [bind_ok (s' := ⟨({ p with rule := r } : PState).at toks sol, sh⟩) (a := (toks.headD default).token) rfl]
          cases close with
          | none =>
            obtain ⟨h1, rfl, rfl⟩ := hst
            rw [if_pos h1]
            rfl
          | some c =>
            obtain ⟨h1, h2, h3⟩ := hst
            rw [if_neg h1, if_neg h2]
            dsimp only
            rw [bind_ok (a := true) (s' := ⟨({ p with rule := r } : PState).at toks2 sol2, sh⟩)]
            · rfl
            · rw [bind_ok (attempt_ok h3)]
              rfl
    | @brk x1 y ys sol sh s toks' sol' sh' s' hb _ ih =>
      cases n with
      | zero => simp at hn
      | succ n =>
        rw [loopN]
        rw [bind_ok (a := .more (s.endParagraph, first)) (s' := ⟨({ p with rule := r } : PState).at (y :: ys) true, sh⟩)]
        · exact ih hE hyes hs hsafe n first (by simp at hn ⊢; omega) (fun hf => .inl ((hfi hf).resolve_right (fun h => h.2 hb)))
        · dsimp only
          rw [bind_ok (s' := ⟨({ p with rule := r } : PState).at (x1 :: y :: ys) sol, sh⟩) (a := x1.token) rfl]
          rw [if_neg (by rw [hb]; simp), if_pos hb, bind_ok (step_at ..), hb]
          rfl
    | @cons toks sol sh es safe toks1 sol1 sh1 s toks' sol' sh' s' hg hrun hlt _ ih =>
      cases n with
      | zero => omega
      | succ n =>
        rw [loopN]
        rw [bind_ok (a := .more (PStack.pushElements safe es s, false)) (s' := ⟨({ p with rule := r } : PState).at toks1 sol1, sh1⟩)]
        · exact ih hE hyes hs hsafe n false (by omega) (by simp)
        · dsimp only
          rw [bind_ok (s' := ⟨({ p with rule := r } : PState).at toks sol, sh⟩) (a := (toks.headD default).token) rfl]
          rw [if_neg hg.1, if_neg hg.2.1]
          cases close with
          | none =>
            rw [bind_ok (s' := ⟨({ p with rule := r } : PState).at toks sol, sh⟩) (a := false) rfl]
            simp only [Bool.false_eq_true, if_false]
            rw [bind_ok hrun]
            simp [pure_ok]
          | some c =>
            dsimp only
            rw [bind_ok (s' := ⟨({ p with rule := r } : PState).at toks sol, sh⟩) (a := false)]
            · simp only [Bool.false_eq_true, if_false]
              rw [bind_ok hrun]
              simp [pure_ok]
            · rw [bind_ok (attempt_ok (hno c rfl first toks sol sh hg))]
              rfl
  have hlen : 0 < toks.length := by
    have := h.length_le; have := List.length_pos_iff.2 hE; omega
  have hl := key (toks.tail.length + 1) true (by rw [List.length_tail]; omega) (fun _ => hfirst) PStack.new h
  refine (bind_ok (a := s') (s' := ⟨({ p with rule := r } : PState).at toks2 sol2, sh'⟩) ?_).trans ?_
  · exact hl
  · unfold PStack.intoResult
    rw [hsafe]
    have : s'.endParagraph.errors = [] := by
      unfold PStack.endParagraph; split <;> simp [hs]
    rw [bind_ok (s' := ⟨({ p with rule := r } : PState).at toks2 sol2, sh'⟩) (a := safe) rfl, this]
    rfl

end Ftml
