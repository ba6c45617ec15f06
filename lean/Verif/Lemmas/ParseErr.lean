import Verif.Lemmas.ParseSpec
import Verif.Props.Lexer
/- The only error that leaves the page is that of the depth limit. -/
namespace Ftml
open M

/-- A triple that also says that the only error is that of the depth limit. -/
def TE (c : Ctx) (s : St) {α : Type} (m : M α) (Q : α → St → Prop) : Prop :=
  Tri c s m Q ∧ ∀ x s', m c.env s = .err x s' → x.kind = .recursionDepthExceeded

section
variable {α β : Type} {c : Ctx} {s : St}

theorem TE.bind {m : M α} {f : α → M β} {Q : α → St → Prop} {R : β → St → Prop} (h : TE c s m Q)
    (hf : ∀ a s', Inv c s' → Le s s' → Q a s' → TE c s' (f a) R) : TE c s (m >>= f) R := by
  refine ⟨h.1.bind fun a s' h1 h2 h3 => (hf a s' h1 h2 h3).1, ?_⟩
  intro x s' he
  simp only [Bind.bind, M.bind] at he
  have h1 := h.1
  unfold Tri at h1
  cases hm : m c.env s with
  | ok a s1 =>
    rw [hm] at he h1
    exact (hf a s1 h1.1 h1.2.1 h1.2.2).2 x s' he
  | err y s1 =>
    rw [hm] at he
    simp only [Res.err.injEq] at he
    exact he.1 ▸ h.2 y s1 hm
  | panic p => rw [hm] at he; cases he
  | diverge => rw [hm] at he; cases he

theorem TE.pure {a : α} {Q : α → St → Prop} (hi : Inv c s) (h : Q a s) : TE c s (pure a) Q :=
  ⟨Tri.pure hi h, by intro x s' e; cases e⟩

theorem TE.of_noerr {m : M α} {Q : α → St → Prop} (h : Tri c s m Q) (h' : ∀ x s', m c.env s ≠ .err x s') :
    TE c s m Q := ⟨h, fun x s' e => (h' x s' e).elim⟩

theorem te_curTok {f : Token → M β} {R} : TE c s (curTok >>= f) R = TE c s (f s.p.cur.token) R := rfl
theorem te_pure {a : α} {f : α → M β} {R} : TE c s (Pure.pure a >>= f) R = TE c s (f a) R := rfl

theorem loop_err {σ : Type} {body : σ → M (Turn σ β)} {a : σ} (hi : Inv c s)
    (hb : ∀ a s', Inv c s' → Le s s' → TE c s' (body a) fun _ _ => True) :
    ∀ x s', loop body a c.env s = .err x s' → x.kind = .recursionDepthExceeded := by
  have key : ∀ n a s', Inv c s' → Le s s' → ∀ x s'', loopN body n a c.env s' = .err x s'' →
      x.kind = .recursionDepthExceeded := by
    intro n
    induction n with
    | zero => intro a s' _ _ x s'' h; cases h
    | succ n ih =>
      intro a s' hi' hl x s'' h
      simp only [loopN, Bind.bind, M.bind] at h
      obtain ⟨h1, h2⟩ := hb a s' hi' hl
      unfold Tri at h1
      cases hm : body a c.env s' with
      | ok t s1 =>
        rw [hm] at h h1
        cases t with
        | more a' => exact ih a' s1 h1.1 (hl.trans h1.2.1) x s'' h
        | done b => cases h
      | err y s1 =>
        rw [hm] at h
        simp only [Res.err.injEq] at h
        exact h.1 ▸ h2 y s1 hm
      | panic p => rw [hm] at h; cases h
      | diverge => rw [hm] at h; cases h
  exact key _ a s hi (Le.refl s)

/-- The token before the end is never the last. -/
theorem Inv.rem_ne_nil (hi : Inv c s) (h : s.p.cur.token ≠ .inputEnd) : s.p.rem ≠ [] := by
  intro e
  obtain ⟨pre, hp⟩ := hi.sfx
  rw [e, hi.wf] at hp
  obtain ⟨mid, h1, _⟩ := C07_tokens_tile c.env.text
  rw [h1] at hp
  have h2 := congrArg List.getLast? hp
  simp only [List.getLast?_append, List.getLast?_cons] at h2
  simp at h2
  rw [h2] at h
  exact h rfl

theorem step_TE (hi : Inv c s) (h : s.p.rem ≠ []) : TE c s step fun _ s' =>
    s'.p.rem.length < s.p.rem.length := by
  refine .of_noerr ((step_spec' hi).mono fun _ _ _ _ h => h.2.2.1) ?_
  intro x s' e
  unfold step at e
  simp only [Bind.bind, M.bind, modP, getP] at e
  cases hr : s.p.rem with
  | nil => exact h hr
  | cons y r => rw [hr] at e; cases e

theorem depthIncrement_TE (hi : Inv c s) : TE c s depthIncrement fun _ s' => s'.p.cur = s.p.cur ∧
    s'.p.rem = s.p.rem ∧ s'.sh = s.sh ∧ s'.p.depth = s.p.depth + 1 ∧ s.p.depth < maxRecursionDepth := by
  refine ⟨depthIncrement_spec hi, ?_⟩
  intro x s' e
  unfold depthIncrement fail at e
  simp only [Bind.bind, M.bind, modP, getP] at e
  split at e
  · simp only [M.bind, getP, M.throw, Res.err.injEq] at e
    rw [← e.1]; rfl
  · cases e

theorem consumeFallback_err {t : ETok} {errors : List PErr} {e : Env} (hn : s.p.rem ≠ []) (x : PErr) (s' : St)
    (h : consumeFallback t errors e s = .err x s') : x.kind = .recursionDepthExceeded := by
  unfold consumeFallback step at h
  cases hr : s.p.rem with
  | nil => exact (hn hr).elim
  | cons y r =>
    simp only [Bind.bind, M.bind, modP, getP, hr, Pure.pure, M.pure] at h
    cases hg : errors.getLast? with
    | none => rw [hg] at h; cases h
    | some z =>
      rw [hg] at h
      dsimp only at h
      split at h
      · rename_i hz
        simp only [M.throw, Res.err.injEq] at h
        exact h.1 ▸ hz
      · cases h

theorem consumeRules_err {cons : M (PS Elements)} {rs : List RuleId} {t : ETok} {errors : List PErr}
    (hc : ConsSpec (c.D + 1) c.env cons) (hi : Inv c s) (hd : c.D + 1 ≤ s.p.depth) (ht : s.p.cur = t)
    (hr : ∀ r ∈ rs, r ∈ rulesFor t.token) (hn : s.p.rem ≠ []) (x : PErr) (s' : St)
    (h : consumeRules cons t rs errors c.env s = .err x s') : x.kind = .recursionDepthExceeded := by
  induction rs generalizing s errors with
  | nil => exact consumeFallback_err hn x s' h
  | cons r rs ih =>
    unfold consumeRules at h
    have h1 := tryConsume_spec (r := r) (f := ruleFn cons r) (hi.deeper hd) (fun s1 hi1 hcur _ _ _ =>
      ruleFn_spec hc hi1 (by rw [hcur, ht]; exact hr r (List.mem_cons_self ..)))
    unfold Tri at h1
    simp only [Bind.bind, M.bind, remLen, getP, attempt, Pure.pure, M.pure] at h
    dsimp only at h1
    cases hm : tryConsume r (ruleFn cons r) c.env s with
    | err y s1 =>
      rw [hm] at h h1
      have hp := tryConsume_err hm
      obtain ⟨h1, _⟩ := h1
      refine ih ⟨h1.wf, h1.sfx, Nat.le_of_succ_le h1.dep, h1.acc, h1.fn, h1.fb, h1.sh⟩ (by rw [hp]; exact hd)
        (by rw [hp]; exact ht) (fun r hr' => hr r (List.mem_cons_of_mem _ hr')) (by rw [hp]; exact hn) h
    | ok a s1 =>
      rw [hm] at h h1
      simp only [M.bind, getP, M.pure] at h
      split at h
      · rename_i hlen
        have := (h1.2.1.eq_of_len hlen).2
        have hn1 : s1.p.rem ≠ [] := by rw [this]; exact hn
        cases hr1 : s1.p.rem with
        | nil => exact (hn1 hr1).elim
        | cons y r => simp only [step, Bind.bind, M.bind, modP, getP, hr1, Pure.pure, M.pure, depthDecrement] at h; cases h
      · cases h
    | panic p => rw [hm] at h; cases h
    | diverge => rw [hm] at h; cases h

theorem consume_TE (n D : Nat) (h : maxRecursionDepth ≤ D + n) (hi : Inv c s) (hD : c.D = D)
    (ht : s.p.cur.token ≠ .inputEnd) : TE c s (consume n) fun _ _ => True := by
  refine ⟨(consume_spec n D c.env h c s rfl hD hi).mono fun _ _ _ _ _ => trivial, ?_⟩
  intro x s' he
  subst hD
  cases n with
  | zero =>
    unfold consume at he
    refine (TE.bind (R := fun _ _ => True) (depthIncrement_TE hi) fun _ s1 hi1 _ h1 => ?_).2 x s' he
    have := hi.dep
    omega
  | succ n =>
    unfold consume at he
    have hc := consume_spec n (c.D + 1) c.env (by omega)
    refine (TE.bind (R := fun _ _ => True) (depthIncrement_TE hi) fun _ s1 hi1 _ h1 => ?_).2 x s' he
    have := hi.dep
    refine ⟨?_, ?_⟩
    · tri
      exact (consumeRules_spec hc hi1 (by omega) rfl (fun r hr => hr) (by simp)).mono fun _ _ _ _ _ => trivial
    · intro x s' he
      simp only [current, Bind.bind, M.bind, getP, Pure.pure, M.pure] at he
      exact consumeRules_err hc hi1 (by omega) rfl (fun r hr => hr)
        (hi1.rem_ne_nil (by rw [h1.1]; exact ht)) x s' he

theorem bind_run {m : M α} {f : α → M β} {e : Env} : (m >>= f) e s = match m e s with
  | .ok a s' => f a e s'
  | .err x s' => .err x s'
  | .panic p => .panic p
  | .diverge => .diverge := rfl

theorem page_err {x : PErr} {s' : St} (hi : Inv c s) (hD : c.D = 0)
    (h : gatherParagraphs (consume maxRecursionDepth) .page none c.env s = .err x s') :
    x.kind = .recursionDepthExceeded := by
  have hc := consume_spec maxRecursionDepth 0 c.env (by simp)
  unfold gatherParagraphs at h
  have hset := setRule_spec (r := .page) hi
  unfold Tri at hset
  rw [bind_run] at h
  simp only [setRule, modP] at h hset
  rw [bind_run] at h
  split at h
  · rename_i st s1 _
    unfold PStack.intoResult at h
    cases ho : elementsParagraphSafe? st.endParagraph.finished with
    | none => rw [ho] at h; cases h
    | some b => rw [ho] at h; cases h
  · rename_i y s1 hl
    simp only [Res.err.injEq] at h
    rw [← h.1]
    refine loop_err hset.1 ?_ y s1 hl
    rintro ⟨st, first⟩ s2 hi2 _
    rw [te_curTok]
    dsimp only
    split
    · exact TE.pure hi2 trivial
    · rename_i hend
      split
      · exact (step_TE hi2 (hi2.rem_ne_nil hend)).bind fun _ s3 hi3 _ _ => TE.pure hi3 trivial
      · rw [te_pure]
        exact (consume_TE maxRecursionDepth 0 (by simp) hi2 hD hend).bind fun _ s3 hi3 _ _ => TE.pure hi3 trivial
  · cases h
  · cases h
/-- What is known of a parse that returns. -/
inductive ParseOk (env : Env) (o : Outcome) : Prop where
  /-- the page was parsed -/
  | parsed (es : List Elem) (ps fb : Bool) (s0 s : St) (lists)
    (hi : Inv (topCtx env) s) (hs : s0.sh = ⟨[], [], [], [], []⟩)
    (he : EsOk (topCtx env) s0 s es o.errors ps) (hfb : s.p.hasFootnoteBlock = fb)
    (hl : processDepths () (s.sh.toc.map fun t => (t.1, (), t.2)) = some lists)
    (ht : o.tree = ⟨if fb then es else es ++ [.mk (.footnoteBlock none false) []], buildToc lists 0,
      s.sh.htmlBlocks, s.sh.codeBlocks, s.sh.footnotes, s.sh.bibs, byteLen env.text⟩)
  /-- the nesting was too deep -/
  | fallback (x : PErr) (s : St) (hi : Inv (topCtx env) s) (hx : ErrOk env x)
    (hk : x.kind = .recursionDepthExceeded)
    (ht : o = ⟨⟨[eText env.text], [], s.sh.htmlBlocks, s.sh.codeBlocks, [], [], byteLen env.text⟩, [x]⟩)

theorem tokens_ne_nil (text : Str) : (tokenize text).tokens ≠ [] := by
  simp only [tokenize, Lexer.extractAll]; split <;> simp

theorem parseEnv_ok {env : Env} (h : env.tokens = (tokenize env.text).tokens) :
    match parseEnv env with
    | none => False
    | some (.error p) => PanicOk env.text p
    | some (.ok o) => ParseOk env o := by
  unfold parseEnv parseInternal
  cases ht : env.tokens with
  | nil => exact absurd (h ▸ ht) (tokens_ne_nil _)
  | cons t r =>
    have h1 := page_spec h ht
    unfold Tri at h1
    simp only [startSt, topCtx] at h1
    cases hg : gatherParagraphs (consume maxRecursionDepth) .page none env
        ⟨⟨t, r, .page, 0, .none, false, false, true⟩, ⟨[], [], [], [], []⟩⟩ with
    | diverge => rw [hg] at h1; dsimp only; rw [hg]; exact h1
    | panic p => rw [hg] at h1; dsimp only; rw [hg]; exact h1
    | err x s =>
      rw [hg] at h1
      dsimp only
      rw [hg]
      exact .fallback x s h1.1 h1.2.2 (page_err (c := topCtx env) (start_inv h ht) rfl hg) rfl
    | ok a s =>
      rw [hg] at h1
      dsimp only
      rw [hg]
      dsimp only
      obtain ⟨trees, h2, _⟩ := C15_process_depths () (s.sh.toc.map fun t => (t.1, (), t.2))
      rw [h2]
      exact .parsed a.item a.psafe _ (startSt t r) s trees h1.1 rfl h1.2.2 rfl h2 rfl

end
end Ftml
