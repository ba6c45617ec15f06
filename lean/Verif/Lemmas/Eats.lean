import Verif.Lemmas.Lexing
import Verif.Lemmas.Tokens
/-
What the parser does on given tokens, as equations: the functional counterpart of the invariants in
`Lemmas/Core.lean`.
-/
namespace Ftml
open M

/-- What the meaning of markup depends on. -/
def Env.cx (e : Env) : Markup.Ctx := ⟨e.settings, e.world, e.info⟩

/-- The parser fields with another position. -/
def PState.at (p : PState) (toks : List ETok) (sol : Bool) : PState :=
  { p with cur := toks.headD default, rem := toks.tail, startOfLine := sol }

/-- Sequencing after a success. -/
theorem bind_ok {α β : Type} {m : M α} {f : α → M β} {e : Env} {s s' : St} {a : α} (h : m e s = .ok a s') :
    (m >>= f) e s = f a e s' := by
  show M.bind m f e s = _
  simp [M.bind, h]
theorem bind_err {α β : Type} {m : M α} {f : α → M β} {e : Env} {s s' : St} {x : PErr} (h : m e s = .err x s') :
    (m >>= f) e s = .err x s' := by
  show M.bind m f e s = _
  simp [M.bind, h]
theorem pure_ok {α : Type} (a : α) (e : Env) (s : St) : (pure a : M α) e s = .ok a s := rfl
theorem attempt_ok {α : Type} {m : M α} {e : Env} {s s' : St} {a : α} (h : m e s = .ok a s') :
    attempt m e s = .ok (.ok a) s' := by simp [attempt, h]
theorem attempt_err {α : Type} {m : M α} {e : Env} {s s' : St} {x : PErr} (h : m e s = .err x s') :
    attempt m e s = .ok (.error x) s' := by simp [attempt, h]
theorem onClone_ok {α : Type} {m : M α} {e : Env} {s s' : St} {a : α} (h : m e s = .ok a s') :
    onClone m e s = .ok (.ok a, s'.p) { s' with p := s.p } := by simp [onClone, h]
theorem onClone_err {α : Type} {m : M α} {e : Env} {s s' : St} {x : PErr} (h : m e s = .err x s') :
    onClone m e s = .ok (.error x, s'.p) { s' with p := s.p } := by simp [onClone, h]

theorem step_at (e : Env) (p : PState) (x y : ETok) (ys : List ETok) (sol : Bool) (sh : Shared) :
    step e ⟨p.at (x :: y :: ys) sol, sh⟩ = .ok y ⟨p.at (y :: ys) (isLineStartTok x.token), sh⟩ := rfl

theorem fail_at {α : Type} (k : EKind) (e : Env) (s : St) : (fail k : M α) e s = .err (mkErr k s.p.rule s.p.cur) s := rfl

theorem checkStep_at (e : Env) (p : PState) {x : ETok} {t : Token} (h : x.token = t) (y : ETok) (ys : List ETok)
    (sol : Bool) (sh : Shared) :
    checkStep t e ⟨p.at (x :: y :: ys) sol, sh⟩ = .ok x ⟨p.at (y :: ys) (isLineStartTok t), sh⟩ := by
  subst h
  unfold checkStep
  rw [bind_ok (s' := ⟨p.at (x :: y :: ys) sol, sh⟩) (a := x) rfl]
  rw [if_pos rfl]
  rw [bind_ok (step_at ..)]
  rfl

/-! ### Rules -/

variable {env : Env}

/-- As `tryConsume_ok`, for rules that change the name of the current rule on the way. -/
theorem tryConsume_ok' {r r' : RuleId} {f : M (PS Elements)} {p : PState} {toks toks' : List ETok} {sol sol' : Bool}
    {sh sh' : Shared} {out : PS Elements} (hl : r.needsLineStart = true → sol = true)
    (h : f env ⟨({ p with rule := r } : PState).at toks sol, sh⟩ =
      .ok out ⟨({ p with rule := r' } : PState).at toks' sol', sh'⟩)
    (hb : firstBadPartial p.accepts out.item = none) :
    tryConsume r f env ⟨p.at toks sol, sh⟩ = .ok out ⟨p.at toks' sol', sh'⟩ := by
  unfold tryConsume
  rw [bind_ok (s' := ⟨p.at toks sol, sh⟩) (a := p.at toks sol) rfl]
  have hc : (r.needsLineStart && !(p.at toks sol).startOfLine) = false := by
    cases h1 : r.needsLineStart with
    | false => rfl
    | true => simp [PState.at, hl h1]
  rw [hc]
  simp only [Bool.false_eq_true, if_false]
  have h' : (do setRule r; f : M _) env ⟨p.at toks sol, sh⟩ = .ok out ⟨({ p with rule := r' } : PState).at toks' sol', sh'⟩ := by
    rw [bind_ok (s' := ⟨({ p with rule := r } : PState).at toks sol, sh⟩) (a := ()) rfl]
    exact h
  rw [bind_ok (onClone_ok h')]
  dsimp only
  have : (p.at toks sol).accepts = p.accepts := rfl
  rw [this, hb]
  rfl

theorem tryConsume_ok {r : RuleId} {f : M (PS Elements)} {p : PState} {toks toks' : List ETok} {sol sol' : Bool}
    {sh sh' : Shared} {out : PS Elements} (hl : r.needsLineStart = true → sol = true)
    (h : f env ⟨({ p with rule := r } : PState).at toks sol, sh⟩ =
      .ok out ⟨({ p with rule := r } : PState).at toks' sol', sh'⟩)
    (hb : firstBadPartial p.accepts out.item = none) :
    tryConsume r f env ⟨p.at toks sol, sh⟩ = .ok out ⟨p.at toks' sol', sh'⟩ := tryConsume_ok' hl h hb

theorem tryConsume_fails {r : RuleId} {f : M (PS Elements)} {p : PState} {toks : List ETok} {sol : Bool}
    {sh : Shared} {x : PErr} {s' : St} (hl : r.needsLineStart = true → sol = true)
    (h : f env ⟨({ p with rule := r } : PState).at toks sol, sh⟩ = .err x s') :
    tryConsume r f env ⟨p.at toks sol, sh⟩ = .err x ⟨p.at toks sol, s'.sh⟩ := by
  unfold tryConsume
  rw [bind_ok (s' := ⟨p.at toks sol, sh⟩) (a := p.at toks sol) rfl]
  have hc : (r.needsLineStart && !(p.at toks sol).startOfLine) = false := by
    cases h1 : r.needsLineStart with
    | false => rfl
    | true => simp [PState.at, hl h1]
  rw [hc]
  simp only [Bool.false_eq_true, if_false]
  have h' : (do setRule r; f : M _) env ⟨p.at toks sol, sh⟩ = .err x s' := by
    rw [bind_ok (s' := ⟨({ p with rule := r } : PState).at toks sol, sh⟩) (a := ()) rfl]
    exact h
  rw [bind_ok (onClone_err h')]
  rfl

theorem tryConsume_line {r : RuleId} {f : M (PS Elements)} {p : PState} {toks : List ETok}
    {sh : Shared} (hl : r.needsLineStart = true) :
    tryConsume r f env ⟨p.at toks false, sh⟩ =
      .err (mkErr .notStartOfLine p.rule (toks.headD default)) ⟨p.at toks false, sh⟩ := by
  unfold tryConsume
  rw [bind_ok (s' := ⟨p.at toks false, sh⟩) (a := p.at toks false) rfl]
  have hc : (r.needsLineStart && !(p.at toks false).startOfLine) = true := by simp [PState.at, hl]
  rw [hc]
  rfl

/-! ### `consume` -/

theorem consume_enter {n : Nat} {p : PState} {toks : List ETok} {sol : Bool} {sh : Shared}
    (hd : p.depth + 1 ≤ 100) :
    consume (n + 1) env ⟨p.at toks sol, sh⟩ =
      consumeRules (consume n) (toks.headD default) (rulesFor (toks.headD default).token) [] env
        ⟨({ p with depth := p.depth + 1 } : PState).at toks sol, sh⟩ := by
  rw [consume]
  have h : depthIncrement env ⟨p.at toks sol, sh⟩ = .ok () ⟨({ p with depth := p.depth + 1 } : PState).at toks sol, sh⟩ := by
    unfold depthIncrement
    rw [bind_ok (s' := ⟨({ p with depth := p.depth + 1 } : PState).at toks sol, sh⟩) (a := ()) rfl]
    rw [bind_ok (s' := ⟨({ p with depth := p.depth + 1 } : PState).at toks sol, sh⟩)
      (a := ({ p with depth := p.depth + 1 } : PState).at toks sol) rfl]
    rw [if_neg]
    · rfl
    · simp [PState.at, maxRecursionDepth]; omega
  rw [bind_ok h]
  rw [bind_ok (s' := ⟨({ p with depth := p.depth + 1 } : PState).at toks sol, sh⟩) (a := toks.headD default) rfl]

theorem consumeRules_next {cons : M (PS Elements)} {c : ETok} {r : RuleId} {rs : List RuleId} {errs : List PErr}
    {p : PState} {toks : List ETok} {sol : Bool} {sh sh' : Shared} {x : PErr}
    (h : tryConsume r (ruleFn cons r) env ⟨p.at toks sol, sh⟩ = .err x ⟨p.at toks sol, sh'⟩) :
    consumeRules cons c (r :: rs) errs env ⟨p.at toks sol, sh⟩ =
      consumeRules cons c rs (errs ++ [x]) env ⟨p.at toks sol, sh'⟩ := by
  rw [consumeRules]
  rw [bind_ok (s' := ⟨p.at toks sol, sh⟩) (a := toks.tail.length) rfl]
  rw [bind_ok (attempt_err h)]

theorem consumeRules_moved {cons : M (PS Elements)} {c : ETok} {r : RuleId} {rs : List RuleId} {errs : List PErr}
    {p : PState} {toks toks' : List ETok} {sol sol' : Bool} {sh sh' : Shared} {out : PS Elements}
    (h : tryConsume r (ruleFn cons r) env ⟨({ p with depth := p.depth + 1 } : PState).at toks sol, sh⟩ =
      .ok out ⟨({ p with depth := p.depth + 1 } : PState).at toks' sol', sh'⟩)
    (hl : toks'.length < toks.length) (hn : toks' ≠ []) :
    consumeRules cons c (r :: rs) errs env ⟨({ p with depth := p.depth + 1 } : PState).at toks sol, sh⟩ =
      .ok out ⟨p.at toks' sol', sh'⟩ := by
  rw [consumeRules]
  rw [bind_ok (s' := ⟨({ p with depth := p.depth + 1 } : PState).at toks sol, sh⟩) (a := toks.tail.length) rfl]
  rw [bind_ok (attempt_ok h)]
  dsimp only
  rw [bind_ok (s' := ⟨({ p with depth := p.depth + 1 } : PState).at toks' sol', sh'⟩) (a := toks'.tail.length) rfl]
  have := List.length_pos_iff.2 hn
  rw [if_neg (by rw [List.length_tail, List.length_tail]; omega)]
  rfl

theorem consumeRules_stayed {cons : M (PS Elements)} {c : ETok} {r : RuleId} {rs : List RuleId} {errs : List PErr}
    {p : PState} {x y : ETok} {ys : List ETok} {sol sol' : Bool} {sh sh' : Shared} {out : PS Elements}
    (h : tryConsume r (ruleFn cons r) env ⟨({ p with depth := p.depth + 1 } : PState).at (x :: y :: ys) sol, sh⟩ =
      .ok out ⟨({ p with depth := p.depth + 1 } : PState).at (x :: y :: ys) sol', sh'⟩) :
    consumeRules cons c (r :: rs) errs env ⟨({ p with depth := p.depth + 1 } : PState).at (x :: y :: ys) sol, sh⟩ =
      .ok out ⟨p.at (y :: ys) (isLineStartTok x.token), sh'⟩ := by
  rw [consumeRules]
  rw [bind_ok (s' := ⟨({ p with depth := p.depth + 1 } : PState).at (x :: y :: ys) sol, sh⟩) (a := (y :: ys).length) rfl]
  rw [bind_ok (attempt_ok h)]
  dsimp only
  rw [bind_ok (s' := ⟨({ p with depth := p.depth + 1 } : PState).at (x :: y :: ys) sol', sh'⟩) (a := (y :: ys).length) rfl]
  rw [if_pos rfl]
  rw [bind_ok (step_at ..)]
  rfl

/-- The value of the start-of-line flag after the tokens. -/
def solAfter (xs : List ETok) : Bool := match xs.getLast? with
  | some x => isLineStartTok x.token
  | none => false

theorem solAfter_append (xs : List ETok) (x : ETok) : solAfter (xs ++ [x]) = isLineStartTok x.token := by
  simp [solAfter]

/-- The shared lists with further footnotes. -/
def putNotes (sh : Shared) : List (List Elem) → Shared
  | [] => sh
  | ns => { sh with footnotes := sh.footnotes ++ ns }

theorem putNotes_eq (sh : Shared) (ns : List (List Elem)) : putNotes sh ns = { sh with footnotes := sh.footnotes ++ ns } := by
  cases ns <;> simp [putNotes]

theorem putNotes_append (sh : Shared) (a b : List (List Elem)) : putNotes (putNotes sh a) b = putNotes sh (a ++ b) := by
  simp [putNotes_eq]

/-- `consume` reads exactly the tokens `xs` in front of `rest`, giving the elements, without errors; the
nesting is at most `n`, and the footnotes `ns` (none within a footnote) are collected. -/
def Eats (env : Env) (n : Nat) (sol : Bool) (xs rest : List ETok) (es : List Elem) (safe : Bool)
    (ns : List (List Elem)) : Prop :=
  ∀ (fuel : Nat) (p : PState) (sh : Shared), n ≤ fuel → p.depth + n ≤ 100 → (p.inFootnote = true → ns = []) →
    consume fuel env ⟨p.at (xs ++ rest) sol, sh⟩ = .ok ⟨es, [], safe⟩ ⟨p.at rest (solAfter xs), putNotes sh ns⟩

end Ftml
