import Verif.Lemmas.ArgRun
/-
Blocks `[[name arguments]]` on given tokens.
-/
namespace Ftml
open M Markup Lexer
variable {env : Env}

theorem map_append_split {α β : Type} {f : α → β} {xs : List α} {a b : List β} (h : xs.map f = a ++ b) :
    ∃ ys zs, xs = ys ++ zs ∧ ys.map f = a ∧ zs.map f = b := by
  refine ⟨xs.take a.length, xs.drop a.length, (List.take_append_drop ..).symm, ?_, ?_⟩
  · rw [List.map_take, h]; simp
  · rw [List.map_drop, h]; simp

/-! ### Optional and required tokens -/

theorem optTok_no {t : Token} {p : PState} {toks : List ETok} {sol : Bool} {sh : Shared}
    (h : (toks.headD default).token ≠ t) :
    getOptionalToken t env ⟨p.at toks sol, sh⟩ = .ok () ⟨p.at toks sol, sh⟩ := by
  unfold getOptionalToken
  rw [bind_ok (s' := ⟨p.at toks sol, sh⟩) (a := (toks.headD default).token) rfl, if_neg h]
  rfl
theorem optTok_yes {t : Token} {p : PState} {x y : ETok} {ys : List ETok} {sol : Bool} {sh : Shared}
    (h : x.token = t) :
    getOptionalToken t env ⟨p.at (x :: y :: ys) sol, sh⟩ = .ok () ⟨p.at (y :: ys) (isLineStartTok t), sh⟩ := by
  unfold getOptionalToken
  rw [bind_ok (s' := ⟨p.at (x :: y :: ys) sol, sh⟩) (a := x.token) rfl, if_pos h, bind_ok (step_at ..), h]
  rfl
theorem getToken_yes {t : Token} {k : EKind} {p : PState} {x y : ETok} {ys : List ETok} {sol : Bool} {sh : Shared}
    (h : x.token = t) :
    getToken t k env ⟨p.at (x :: y :: ys) sol, sh⟩ = .ok x.slice ⟨p.at (y :: ys) (isLineStartTok t), sh⟩ := by
  unfold getToken
  rw [bind_ok (s' := ⟨p.at (x :: y :: ys) sol, sh⟩) (a := x) rfl, if_pos h, bind_ok (step_at ..), h]
  rfl
theorem getToken_no {t : Token} {k : EKind} {p : PState} {toks : List ETok} {sol : Bool} {sh : Shared}
    (h : (toks.headD default).token ≠ t) : ∃ e,
    getToken t k env ⟨p.at toks sol, sh⟩ = .err e ⟨p.at toks sol, sh⟩ := by
  refine ⟨mkErr k p.rule (toks.headD default), ?_⟩
  unfold getToken
  rw [bind_ok (s' := ⟨p.at toks sol, sh⟩) (a := toks.headD default) rfl, if_neg h]
  rfl

/-! ### Names -/

/-- Tokens that end the name of a block. -/
def endsName : Token → Bool
  | .whitespace | .lineBreak | .paragraphBreak | .rightBlock => true
  | _ => false

theorem blockNameInternal_at {k : EKind} {p : PState} {ns : List ETok} {c : ETok} {rest : List ETok} {sol : Bool} {sh : Shared}
    (hn : ∀ x ∈ ns, endsName x.token = false ∧ x.token ≠ .inputEnd) (hc : c.token = .whitespace ∨ c.token = .rightBlock)
    (hr : rest ≠ []) (ht : trim (slicesOf ns) = slicesOf ns)
    (hs : (ns ++ c :: rest) <:+ (tokenize env.text).tokens) :
    getBlockNameInternal k env ⟨p.at (ns ++ c :: rest) sol, sh⟩ =
      .ok (slicesOf ns, c.token == .whitespace) ⟨p.at rest false, sh⟩ := by
  unfold getBlockNameInternal
  rw [bind_ok (collectTextKeep_at (xs := ns) (x := c) (rest := rest) ?_ ?_ hr ?_ hs)]
  · rcases hc with hc | hc
    · simp [hc, ht, pure_ok, isLineStartTok]
    · simp [hc, ht, pure_ok, isLineStartTok]
  · intro a b e hb
    obtain ⟨z, zs, rfl⟩ := List.exists_cons_of_ne_nil hb
    have := hn z (by rw [e]; simp)
    refine ⟨by simp, ?_, by simp [Meets], by simpa using this.2⟩
    have h1 := this.1
    revert h1
    simp only [Meets, List.cons_append, List.any_cons, List.any_nil]
    cases z.token <;> simp [endsName]
  · rcases hc with hc | hc <;> simp [Meets, hc]
  · rcases hc with hc | hc <;> simp [hc]

theorem headD_append {α : Type} {d : α} {a b : List α} (h : a ≠ []) : (a ++ b).headD d = a.headD d := by
  cases a with
  | nil => exact (h rfl).elim
  | cons => rfl

/-- A name, perhaps after an opening bracket. -/
theorem blockName_at {star : Bool} {p : PState} {ns : List ETok} {c : ETok} {rest : List ETok} {sol : Bool} {sh : Shared}
    (hne : ns ≠ []) (hl : (ns.headD default).token ≠ .leftBlock) (hl' : (ns.headD default).token ≠ .leftBlockStar)
    (hn : ∀ x ∈ ns, endsName x.token = false ∧ x.token ≠ .inputEnd) (hc : c.token = .whitespace ∨ c.token = .rightBlock)
    (hr : rest ≠ []) (ht : trim (slicesOf ns) = slicesOf ns)
    (hs : (ns ++ c :: rest) <:+ (tokenize env.text).tokens) :
    getBlockName star env ⟨p.at (ns ++ c :: rest) sol, sh⟩ =
      .ok (slicesOf ns, c.token == .whitespace) ⟨p.at rest false, sh⟩ := by
  unfold getBlockName
  rw [bind_ok (optTok_no (by rw [headD_append hne]; cases star <;> assumption))]
  unfold getOptionalSpace
  rw [bind_ok (optTok_no ?_)]
  · exact blockNameInternal_at hn hc hr ht hs
  · rw [headD_append hne]
    obtain ⟨x, xs, rfl⟩ := List.exists_cons_of_ne_nil hne
    have := (hn x (by simp)).1
    intro e
    simp at e
    rw [e] at this; cases this

theorem blockName_open {star : Bool} {p : PState} {o : ETok} {ns : List ETok} {c : ETok} {rest : List ETok} {sol : Bool} {sh : Shared}
    (ho : o.token = if star then .leftBlockStar else .leftBlock) (hne : ns ≠ [])
    (hn : ∀ x ∈ ns, endsName x.token = false ∧ x.token ≠ .inputEnd) (hc : c.token = .whitespace ∨ c.token = .rightBlock)
    (hr : rest ≠ []) (ht : trim (slicesOf ns) = slicesOf ns)
    (hs : (ns ++ c :: rest) <:+ (tokenize env.text).tokens) :
    getBlockName star env ⟨p.at (o :: (ns ++ c :: rest)) sol, sh⟩ =
      .ok (slicesOf ns, c.token == .whitespace) ⟨p.at rest false, sh⟩ := by
  unfold getBlockName
  obtain ⟨x, xs, rfl⟩ := List.exists_cons_of_ne_nil hne
  rw [List.cons_append, bind_ok (optTok_yes ho)]
  unfold getOptionalSpace
  rw [bind_ok (optTok_no ?_)]
  · exact blockNameInternal_at hn hc hr ht hs
  · have := (hn x (by simp)).1
    intro e
    simp at e
    rw [e] at this; cases this

/-! ### The end of a block -/

/-- What the name at the end looks like. -/
structure EndName (ns : List ETok) : Prop where
  ne : ns ≠ []
  head : (ns.headD default).token ≠ .leftBlock ∧ (ns.headD default).token ≠ .leftBlockStar
  toks : ∀ x ∈ ns, endsName x.token = false ∧ x.token ≠ .inputEnd
  trim : trim (slicesOf ns) = slicesOf ns

theorem endName_one {n : ETok} (hn : n.token = .identifier) (ht : trim n.slice = n.slice) : EndName [n] :=
  ⟨by simp, by simp [hn], by simp [hn, endsName], by simpa [slicesOf] using ht⟩

/-- What the end looks like. -/
theorem getEndBlock_at {p : PState} {o c : ETok} {ns rest : List ETok} {sol : Bool} {sh : Shared}
    (ho : o.token = .leftBlockEnd) (hn : EndName ns) (hc : c.token = .rightBlock) (hr : rest ≠ [])
    (hs : (ns ++ c :: rest) <:+ (tokenize env.text).tokens) :
    getEndBlock env ⟨p.at (o :: (ns ++ c :: rest)) sol, sh⟩ = .ok (slicesOf ns) ⟨p.at rest false, sh⟩ := by
  obtain ⟨m, ms, rfl⟩ := List.exists_cons_of_ne_nil hn.ne
  unfold getEndBlock
  rw [List.cons_append, bind_ok (getToken_yes ho)]
  unfold getOptionalSpace
  rw [bind_ok (optTok_no (by
    have := (hn.toks m (by simp)).1
    intro e
    simp at e
    rw [e] at this; cases this))]
  have := blockName_at (star := false) (p := p) (ns := m :: ms) (c := c) (rest := rest) (sol := isLineStartTok .leftBlockEnd) (sh := sh)
    hn.ne hn.head.1 hn.head.2 hn.toks (.inr hc) hr hn.trim hs
  rw [← List.cons_append, bind_ok this]
  simp [hc, pure_ok]

theorem getEndBlock_no {p : PState} {toks : List ETok} {sol : Bool} {sh : Shared}
    (h : (toks.headD default).token ≠ .leftBlockEnd) : ∃ e,
    getEndBlock env ⟨p.at toks sol, sh⟩ = .err e ⟨p.at toks sol, sh⟩ := by
  obtain ⟨e, he⟩ := getToken_no (env := env) (k := .blockExpectedEnd) (p := p) (sol := sol) (sh := sh) h
  exact ⟨e, by unfold getEndBlock; rw [bind_err he]⟩

theorem verifyEnd_no {b : BlockInfo} {first : Bool} {p : PState} {x y : ETok} {ys : List ETok} {sol : Bool} {sh : Shared}
    (h : NoEnd (b.newlines && !first) (x :: y :: ys)) :
    verifyEndBlock first b env ⟨p.at (x :: y :: ys) sol, sh⟩ = .ok none ⟨p.at (x :: y :: ys) sol, sh⟩ := by
  unfold verifyEndBlock saveEvaluateFn
  have key : ∃ e s', (do
      if b.newlines && !first then getOptionalLineBreak else pure ()
      let name ← getEndBlock
      return b.names.any fun n => eqIgnoreCase (stripScore name) n : M Bool) env ⟨p.at (x :: y :: ys) sol, sh⟩ =
        .err e s' ∧ s'.sh = sh := by
    cases hb : (b.newlines && !first) with
    | false =>
      obtain ⟨e, he⟩ := getEndBlock_no (env := env) (p := p) (sol := sol) (sh := sh) (toks := x :: y :: ys) (by simpa using h.1)
      simp only [Bool.false_eq_true, if_false]
      exact ⟨e, _, bind_err he, rfl⟩
    | true =>
      rw [hb] at h
      simp only [if_true]
      unfold getOptionalLineBreak
      by_cases hx : x.token = .lineBreak
      · obtain ⟨e, he⟩ := getEndBlock_no (env := env) (p := p) (sol := isLineStartTok .lineBreak) (sh := sh) (toks := y :: ys)
          (by simpa using h.2 rfl hx)
        exact ⟨e, _, by rw [bind_ok (optTok_yes hx)]; exact bind_err he, rfl⟩
      · obtain ⟨e, he⟩ := getEndBlock_no (env := env) (p := p) (sol := sol) (sh := sh) (toks := x :: y :: ys) (by simpa using h.1)
        exact ⟨e, _, by rw [bind_ok (optTok_no (by simpa using hx))]; exact bind_err he, rfl⟩
  obtain ⟨e, s', h1, h2⟩ := key
  rw [bind_ok (onClone_err h1)]
  simp [h2, pure_ok]

/-- The end of a block, perhaps after a line break. -/
theorem verifyEnd_yes {b : BlockInfo} {first : Bool} {p : PState} {W : List ETok} {o c : ETok} {ns rest : List ETok} {sol : Bool}
    {sh : Shared} (hW : W = [] ∨ ∃ w, W = [w] ∧ w.token = .lineBreak ∧ b.newlines = true ∧ first = false)
    (ho : o.token = .leftBlockEnd) (hn : EndName ns) (hc : c.token = .rightBlock) (hr : rest ≠ [])
    (hb : b.names.any (fun m => eqIgnoreCase (stripScore (slicesOf ns)) m) = true)
    (hs : (ns ++ c :: rest) <:+ (tokenize env.text).tokens) :
    verifyEndBlock first b env ⟨p.at (W ++ o :: (ns ++ c :: rest)) sol, sh⟩ =
      .ok (some ((W ++ o :: (ns ++ c :: rest)).headD default)) ⟨p.at rest false, sh⟩ := by
  unfold verifyEndBlock saveEvaluateFn
  have key : (do
      if b.newlines && !first then getOptionalLineBreak else pure ()
      let name ← getEndBlock
      return b.names.any fun n => eqIgnoreCase (stripScore name) n : M Bool) env ⟨p.at (W ++ o :: (ns ++ c :: rest)) sol, sh⟩ =
        .ok true ⟨p.at rest false, sh⟩ := by
    have he : ∀ sol, getEndBlock env ⟨p.at (o :: (ns ++ c :: rest)) sol, sh⟩ = .ok (slicesOf ns) ⟨p.at rest false, sh⟩ :=
      fun sol => getEndBlock_at ho hn hc hr hs
    rcases hW with rfl | ⟨w, rfl, hw, hnl, hfi⟩
    · simp only [List.nil_append]
      cases b.newlines && !first with
      | false =>
        simp only [Bool.false_eq_true, if_false]
        rw [bind_ok (he _), hb]
        rfl
      | true =>
        simp only [if_true]
        unfold getOptionalLineBreak
        rw [bind_ok (optTok_no (by simp [ho])), bind_ok (he _), hb]
        rfl
    · rw [hnl, hfi]
      simp only [Bool.not_false, Bool.and_self, if_true, List.singleton_append]
      unfold getOptionalLineBreak
      rw [bind_ok (optTok_yes hw), bind_ok (he _), hb]
      rfl
  rw [bind_ok (onClone_ok key)]
  rfl

/-- The contents of a block, with paragraphs. -/
theorem bodyParagraphs_gathers {b : BlockInfo} {cons : M (PS Elements)} {p : PState} {toks sol sh W o c ns rest sol' sh' s'}
    (h : Gathers env cons p toks sol sh PStack.new (W ++ o :: (ns ++ c :: rest)) sol' sh' s')
    (hW : W = [] ∨ ∃ w, W = [w] ∧ w.token = .lineBreak ∧ b.newlines = true)
    (hfirst : W = [] ∨ toks.length ≠ (W ++ o :: (ns ++ c :: rest)).length ∧ (toks.headD default).token ≠ .paragraphBreak)
    (ho : o.token = .leftBlockEnd) (hn : EndName ns) (hc : c.token = .rightBlock) (hr : rest ≠ [])
    (hb : b.names.any (fun m => eqIgnoreCase (stripScore (slicesOf ns)) m) = true)
    (hs : (ns ++ c :: rest) <:+ (tokenize env.text).tokens)
    (herr : s'.errors = []) {safe : Bool} (hsafe : elementsParagraphSafe? s'.endParagraph.finished = some safe) :
    getBody cons b true env ⟨p.at toks sol, sh⟩ = .ok ⟨s'.intoElements, [], safe⟩ ⟨p.at rest false, sh'⟩ := by
  have hh : ((W ++ o :: (ns ++ c :: rest)).headD default).token ≠ .inputEnd ∧
      ((W ++ o :: (ns ++ c :: rest)).headD default).token ≠ .paragraphBreak := by
    rcases hW with rfl | ⟨w, rfl, hw, _⟩
    · simp [ho]
    · simp [hw]
  have yes : ∀ first, (first = true → W = []) → StopsAt env p (some fun first => do return (← verifyEndBlock first b).isSome) first
      (W ++ o :: (ns ++ c :: rest)) sol' sh' rest false := by
    intro first hf
    refine ⟨hh.1, hh.2, ?_⟩
    dsimp only
    rw [bind_ok (verifyEnd_yes (b := b) (W := W) ?_ ho hn hc hr hb hs)]
    · rfl
    · rcases hW with rfl | ⟨w, rfl, hw, hnl⟩
      · exact .inl rfl
      · refine .inr ⟨w, rfl, hw, hnl, ?_⟩
        cases first with
        | false => rfl
        | true => exact (List.cons_ne_nil _ _ (hf rfl)).elim
  show bodyParagraphs cons b env _ = _
  unfold bodyParagraphs
  rw [bind_ok (s' := ⟨p.at toks sol, sh⟩) (a := p.at toks sol) rfl]
  refine gatherParagraphs_gathers (p := p) (r := p.rule) h (by simp) ?_ (yes false (by simp)) ?_ herr hsafe
  · rintro c' rfl' first t sol sh hg
    cases rfl'
    obtain ⟨_, _, hg1, hg2⟩ := hg
    obtain ⟨x, y, ys, rfl⟩ : ∃ x y ys, t = x :: y :: ys := by
      cases t with
      | nil => simp at hg2
      | cons x t => cases t with
        | nil => simp at hg2
        | cons y ys => exact ⟨x, y, ys, rfl⟩
    dsimp only
    rw [bind_ok (verifyEnd_no ⟨hg1.1, fun _ => hg1.2 rfl⟩)]
    rfl
  · rcases hfirst with h1 | ⟨h1, h2⟩
    · exact .inl (yes true (fun _ => h1))
    · exact .inr ⟨fun e => h1 (by rw [e]), h2⟩

/-- The contents of a block, without paragraphs. -/
theorem bodyNoParagraphs_chain {b : BlockInfo} {cons : M (PS Elements)} {p : PState} {toks sol sh outs o n c rest sol' sh'}
    (h : Calls env cons (fun t => NoEnd b.newlines t ∧ 2 ≤ t.length) p toks sol sh outs (o :: n :: c :: rest) sol' sh')
    (ho : o.token = .leftBlockEnd) (hn : n.token = .identifier) (hc : c.token = .rightBlock) (hr : rest ≠ [])
    (ht : trim n.slice = n.slice) (hb : b.names.any (fun m => eqIgnoreCase (stripScore n.slice) m) = true)
    (hs : (n :: c :: rest) <:+ (tokenize env.text).tokens) :
    bodyNoParagraphs cons b env ⟨p.at toks sol, sh⟩ =
      .ok ⟨outElems outs, [], outSafe outs⟩ ⟨p.at rest false, sh'⟩ := by
  have key : ∀ k (first : Bool) (es : List Elem) (ps : Bool), toks.length ≤ k →
      loopN (fun (acc : List Elem × List PErr × Bool × Bool) => do
        let (es, errors, ps, first) := acc
        match ← verifyEndBlock first b with
        | some _ => pure (.done (⟨es, errors, ps⟩ : PS (List Elem)))
        | none => do
          let old ← remLen
          let r ← cons
          let now ← remLen
          if now = old then do
            let _ ← step
            pure (.more (es ++ r.item, errors ++ r.errors, ps && r.psafe, false))
          else pure (.more (es ++ r.item, errors ++ r.errors, ps && r.psafe, false))) k (es, [], ps, first) env
        ⟨p.at toks sol, sh⟩ = .ok ⟨es ++ outElems outs, [], ps && outSafe outs⟩ ⟨p.at rest false, sh'⟩ := by
    generalize hT : o :: n :: c :: rest = T at h
    induction h with
    | @nil toks sol sh =>
      intro k first es ps hk
      subst hT
      obtain ⟨k, rfl⟩ : ∃ j, k = j + 1 := ⟨k - 1, by simp at hk; omega⟩
      rw [loopN]
      refine (bind_ok (a := .done ⟨es, [], ps⟩) (s' := ⟨p.at rest false, sh⟩) ?_).trans ?_
      · dsimp only
        have hv := verifyEnd_yes (env := env) (b := b) (first := first) (p := p) (sol := sol) (sh := sh) (W := []) (ns := [n]) (.inl rfl) ho
          (endName_one hn ht) hc hr (by simpa [slicesOf] using hb) hs
        simp only [List.nil_append, List.singleton_append] at hv
        rw [bind_ok hv]
        rfl
      · simp [pure_ok]
    | @cons toks sol sh es1 safe toks1 sol1 sh1 outs toks' sol' sh' hg hrun hlt hne _ ih =>
      intro k first es ps hk
      obtain ⟨hend, hlen⟩ := hg
      obtain ⟨x, y, ys, rfl⟩ : ∃ x y ys, toks = x :: y :: ys := by
        cases toks with
        | nil => simp at hlen
        | cons x t => cases t with
          | nil => simp at hlen
          | cons y ys => exact ⟨x, y, ys, rfl⟩
      obtain ⟨k, rfl⟩ : ∃ j, k = j + 1 := ⟨k - 1, by simp at hk; omega⟩
      rw [loopN]
      refine (bind_ok (a := .more (es ++ es1, [], ps && safe, false)) (s' := ⟨p.at toks1 sol1, sh1⟩) ?_).trans ?_
      · dsimp only
        rw [bind_ok (verifyEnd_no ⟨hend.1, fun h1 h2 => hend.2 (by simp at h1; exact h1.1) h2⟩)]
        dsimp only
        rw [bind_ok (s' := ⟨p.at (x :: y :: ys) sol, sh⟩) (a := (y :: ys).length) rfl]
        rw [bind_ok hrun]
        rw [bind_ok (s' := ⟨p.at toks1 sol1, sh1⟩) (a := toks1.tail.length) rfl]
        have := List.length_pos_iff.2 hne
        rw [if_neg (by simp at hlt ⊢; omega)]
        rfl
      · dsimp only
        rw [ih hT k false (es ++ es1) (ps && safe) (by omega)]
        simp [Bool.and_assoc]
  have h1 : 0 < toks.length := by have := h.length_le; simp at this; omega
  have := key (toks.tail.length + 1) true [] true (by rw [List.length_tail]; omega)
  rw [Bool.true_and, List.nil_append] at this
  exact this

/-! ### Arguments -/

/-- The tokens that can be in the name of an argument. -/
def KeyTok (x : ETok) : Prop := (x.token = .identifier ∨ x.token = .other) ∧ isArgumentKey x.slice = true

theorem getArgKey_at {p : PState} {ks : List ETok} {e : ETok} {rest : List ETok} {sol : Bool} {sh : Shared}
    (hk : ∀ x ∈ ks, KeyTok x) (hne : ks ≠ []) (he : e.token = .equals)
    (hs : (ks ++ e :: rest) <:+ (tokenize env.text).tokens) :
    getArgKey env ⟨p.at (ks ++ e :: rest) sol, sh⟩ = .ok (some (slicesOf ks)) ⟨p.at (e :: rest) false, sh⟩ := by
  obtain ⟨a, as, rfl⟩ := List.exists_cons_of_ne_nil hne
  unfold getArgKey
  rw [bind_ok (s' := ⟨p.at (a :: as ++ e :: rest) sol, sh⟩) (a := a) rfl]
  have key : ∀ (zs : List ETok), (∀ x ∈ zs, KeyTok x) → ∀ n (sol : Bool), zs.length < n → (zs = [] → sol = false) →
      loopN (fun (_ : Unit) => do
        let c ← current
        if c.token = .rightBlock then pure (.done true)
        else if isSpaceAnyTok c.token then pure (.done false)
        else if isArgumentKey c.slice then do
          let _ ← step
          pure (.more ())
        else fail .blockMalformedArguments) n () env ⟨p.at (zs ++ e :: rest) sol, sh⟩ = .ok false ⟨p.at (e :: rest) false, sh⟩ := by
    intro zs
    induction zs with
    | nil =>
      intro _ n sol hn hsol
      obtain ⟨n, rfl⟩ : ∃ k, n = k + 1 := ⟨n - 1, by simp at hn; omega⟩
      cases hsol rfl
      rw [loopN, bind_ok (a := .done false) (s' := ⟨p.at (e :: rest) false, sh⟩)]
      · rfl
      · rw [bind_ok (s' := ⟨p.at (e :: rest) false, sh⟩) (a := e) rfl, if_neg (by simp [he]), if_pos (by simp [he, isSpaceAnyTok])]
        rfl
    | cons z zs ih =>
      intro hz n sol hn _
      obtain ⟨n, rfl⟩ : ∃ k, n = k + 1 := ⟨n - 1, by simp at hn; omega⟩
      obtain ⟨hz1, hz2⟩ := hz z (by simp)
      obtain ⟨w, ws, hw⟩ : ∃ w ws, zs ++ e :: rest = w :: ws := by cases zs <;> simp
      have hzt : z.token ≠ .rightBlock ∧ isSpaceAnyTok z.token = false ∧ isLineStartTok z.token = false := by
        rcases hz1 with h | h <;> simp [h, isSpaceAnyTok, isLineStartTok]
      rw [loopN, bind_ok (a := .more ()) (s' := ⟨p.at (zs ++ e :: rest) false, sh⟩)]
      · exact ih (fun x hx => hz x (by simp [hx])) n _ (by simp at hn; omega) (fun _ => rfl)
      · rw [bind_ok (s' := ⟨p.at (z :: zs ++ e :: rest) sol, sh⟩) (a := z) rfl, if_neg hzt.1, if_neg (by simp [hzt.2.1]), if_pos hz2]
        rw [List.cons_append, hw, bind_ok (step_at ..), hzt.2.2]
        rfl
  have hl := key (a :: as) hk ((as ++ e :: rest).length + 1) sol (by simp) (by simp)
  refine (bind_ok (a := false) (s' := ⟨p.at (e :: rest) false, sh⟩) hl).trans ?_
  simp only [Bool.false_eq_true, if_false]
  rw [bind_ok (s' := ⟨p.at (e :: rest) false, sh⟩) (a := e) rfl]
  have hsl : fullSlicePartial env.text a e = some (slicesOf (a :: as)) :=
    slicePartial_ok (r := as ++ e :: rest) (r' := rest) hs rfl
  have : slicePartialText a e env ⟨p.at (e :: rest) false, sh⟩ = .ok (slicesOf (a :: as)) ⟨p.at (e :: rest) false, sh⟩ := by
    unfold slicePartialText
    rw [bind_ok (m := M.env) (s' := ⟨p.at (e :: rest) false, sh⟩) (a := env) rfl, hsl]
    rfl
  rw [bind_ok this]
  rfl

theorem getArgKey_end {p : PState} {r : ETok} {rest : List ETok} {sol : Bool} {sh : Shared} (hr : r.token = .rightBlock) :
    getArgKey env ⟨p.at (r :: rest) sol, sh⟩ = .ok none ⟨p.at (r :: rest) sol, sh⟩ := by
  unfold getArgKey
  rw [bind_ok (s' := ⟨p.at (r :: rest) sol, sh⟩) (a := r) rfl]
  refine (bind_ok (a := true) (s' := ⟨p.at (r :: rest) sol, sh⟩) (loop_one ?_)).trans ?_
  · rw [bind_ok (s' := ⟨p.at (r :: rest) sol, sh⟩) (a := r) rfl, if_pos hr]
    rfl
  · rfl

/-- Blanks before something else. -/
theorem spacesAny_at {p : PState} {W : List ETok} {x : ETok} {rest : List ETok} {sol : Bool} {sh : Shared}
    (hW : W = [] ∨ ∃ w, W = [w] ∧ w.token = .whitespace) (hx : isSpaceAnyTok x.token = false) :
    getOptionalSpacesAny env ⟨p.at (W ++ x :: rest) sol, sh⟩ =
      .ok () ⟨p.at (x :: rest) (if W = [] then sol else false), sh⟩ := by
  unfold getOptionalSpacesAny
  rcases hW with rfl | ⟨w, rfl, hw⟩
  · refine loop_one ?_
    simp only [List.nil_append, if_true]
    rw [bind_ok (s' := ⟨p.at (x :: rest) sol, sh⟩) (a := x.token) rfl, if_neg (by simp [hx])]
    rfl
  · show loopN _ ((x :: rest).length + 1) () env _ = _
    rw [loopN, bind_ok (a := .more ()) (s' := ⟨p.at (x :: rest) false, sh⟩)]
    · dsimp only
      rw [List.length_cons, loopN, bind_ok (a := .done ()) (s' := ⟨p.at (x :: rest) false, sh⟩)]
      · rfl
      · rw [bind_ok (s' := ⟨p.at (x :: rest) false, sh⟩) (a := x.token) rfl, if_neg (by simp [hx])]
        rfl
    · rw [bind_ok (s' := ⟨p.at ([w] ++ x :: rest) sol, sh⟩) (a := w.token) rfl, if_pos (by simp [hw, isSpaceAnyTok])]
      rw [List.singleton_append, bind_ok (step_at ..), hw]
      rfl

/-- One turn of `get_head_map`. -/
def headTurn (m : Args) : M (Turn Args Args) := do
  getOptionalSpacesAny
  match ← getArgKey with
  | none => pure (.done m)
  | some key => do
    getOptionalSpace
    let _ ← getToken .equals .blockMalformedArguments
    getOptionalSpace
    let v ← getToken .string .blockMalformedArguments
    pure (.more (argInsert key (parseString v) m))

theorem headTurn_arg {p : PState} {W ks : List ETok} {e v : ETok} {rest : List ETok} {sol : Bool} {sh : Shared} {m : Args}
    (hW : W = [] ∨ ∃ w, W = [w] ∧ w.token = .whitespace) (hk : ∀ x ∈ ks, KeyTok x) (hne : ks ≠ []) (he : e.token = .equals)
    (hv : v.token = .string) (hr : rest ≠ []) (hs : (ks ++ e :: v :: rest) <:+ (tokenize env.text).tokens) :
    headTurn m env ⟨p.at (W ++ (ks ++ e :: v :: rest)) sol, sh⟩ =
      .ok (.more (argInsert (slicesOf ks) (parseString v.slice) m)) ⟨p.at rest false, sh⟩ := by
  obtain ⟨a, as, rfl⟩ := List.exists_cons_of_ne_nil hne
  have ha : isSpaceAnyTok a.token = false := by
    rcases (hk a (by simp)).1 with h | h <;> simp [h, isSpaceAnyTok]
  unfold headTurn
  rw [List.cons_append, bind_ok (spacesAny_at hW ha), ← List.cons_append, bind_ok (getArgKey_at hk hne he hs)]
  obtain ⟨y, ys, rfl⟩ := List.exists_cons_of_ne_nil hr
  dsimp only
  unfold getOptionalSpace
  rw [bind_ok (optTok_no (by simp [he])), bind_ok (getToken_yes he), bind_ok (optTok_no (by simp [hv])),
    bind_ok (getToken_yes hv)]
  rfl

theorem headTurn_end {p : PState} {r : ETok} {rest : List ETok} {sol : Bool} {sh : Shared} {m : Args}
    (hr : r.token = .rightBlock) :
    headTurn m env ⟨p.at (r :: rest) sol, sh⟩ = .ok (.done m) ⟨p.at (r :: rest) sol, sh⟩ := by
  unfold headTurn
  have := spacesAny_at (env := env) (p := p) (W := []) (x := r) (rest := rest) (sol := sol) (sh := sh) (.inl rfl)
    (by simp [hr, isSpaceAnyTok])
  simp only [List.nil_append, if_true] at this
  rw [bind_ok this, bind_ok (getArgKey_end hr)]
  rfl

theorem char_key {c : Char} (h : isAlnumA c = true ∨ c = '-') : isArgumentKey [c] = true := by
  rcases h with h | h <;> simp [isArgumentKey, h]

theorem key_tok {p : Plain} {x : ETok} (hok : p.ok = true) (h : (∃ s, p = .word s) ∨ p = .char '-') (hx : x.pair = p.lex) :
    KeyTok x := by
  have ht : x.token = p.lex.1 := congrArg (·.1) hx
  have hs : x.slice = p.lex.2 := congrArg (·.2) hx
  rcases h with ⟨s, rfl⟩ | rfl
  · refine ⟨.inl ht, ?_⟩
    rw [hs]
    simp [Plain.ok] at hok
    cases s with
    | nil => simp at hok
    | cons c s =>
      have := hok.2 c (by simp)
      simp [Plain.lex, Plain.str, isArgumentKey, this]
  · exact ⟨.inr (by rw [ht]; rfl), by rw [hs]; rfl⟩

theorem headLoop_at {p : PState} {sh : Shared} {r : ETok} {rest : List ETok} (hr : r.token = .rightBlock) (hrest : rest ≠ []) :
    ∀ (args : List Arg) {xs T : List ETok} {sol : Bool} {m : Args} {n : Nat}, args.all Arg.ok = true →
      xs.map ETok.pair = args.flatMap Arg.lex → (T = xs ∨ ∃ w, xs = w :: T) →
      (xs ++ r :: rest) <:+ (tokenize env.text).tokens → T.length < n →
      ∃ sol', loopN headTurn n m env ⟨p.at (T ++ r :: rest) sol, sh⟩ =
        .ok (args.foldl (fun m a => argInsert a.name a.value m) m) ⟨p.at (r :: rest) sol', sh⟩ := by
  intro args
  induction args with
  | nil =>
    intro xs T sol m n _ hxs hT _ hn
    simp at hxs
    subst hxs
    have : T = [] := by rcases hT with h | ⟨w, h⟩ <;> simp_all
    subst this
    obtain ⟨n, rfl⟩ : ∃ k, n = k + 1 := ⟨n - 1, by simp at hn; omega⟩
    refine ⟨sol, ?_⟩
    rw [loopN, List.nil_append, bind_ok (headTurn_end hr)]
    rfl
  | cons a args ih =>
    intro xs T sol m n hok hxs hT hs hn
    rw [List.all_cons, Bool.and_eq_true] at hok
    obtain ⟨k1, k2, k3, k4, k5⟩ := arg_form hok.1
    have hok' : args.all Arg.ok = true := hok.2
    rw [List.flatMap_cons] at hxs
    obtain ⟨ys, zs, rfl, hys, hzs⟩ := map_append_split hxs
    obtain ⟨w, ys, rfl, hw, hys⟩ := List.map_eq_cons_iff.1 hys
    obtain ⟨ks, vs, rfl, hks, hvs⟩ := map_append_split hys
    obtain ⟨e, vs, rfl, he, hvs⟩ := List.map_eq_cons_iff.1 hvs
    obtain ⟨v, vs, rfl, hv, hvs⟩ := List.map_eq_cons_iff.1 hvs
    have : vs = [] := by simpa using hvs
    subst this
    have het : e.token = .equals := congrArg (·.1) he
    have hvt : v.token = .string := congrArg (·.1) hv
    have hvs' : v.slice = quote a.value := congrArg (·.2) hv
    have hwt : w.token = .whitespace := congrArg (·.1) hw
    have hkn : slicesOf ks = a.name := (plains_tok hks).2
    have hkk : ∀ x ∈ ks, KeyTok x := by
      intro x hx
      have hx' : x.pair ∈ a.key.map Plain.lex := by rw [← hks]; exact List.mem_map.2 ⟨x, hx, rfl⟩
      obtain ⟨pl, hpl, hpe⟩ := List.mem_map.1 hx'
      exact key_tok (List.all_eq_true.1 k1 pl hpl) (k2 pl hpl) hpe.symm
    have hkne : ks ≠ [] := by
      rintro rfl
      exact k3 (by simpa using hks.symm)
    have hs0 : (w :: (ks ++ e :: v :: (zs ++ r :: rest))) <:+ (tokenize env.text).tokens := by
      have : w :: (ks ++ [e, v]) ++ zs ++ r :: rest = w :: (ks ++ e :: v :: (zs ++ r :: rest)) := by simp
      rwa [this] at hs
    have hs1 := List.IsSuffix.trans (List.suffix_cons w _) hs0
    have hs2 : (zs ++ r :: rest) <:+ (tokenize env.text).tokens :=
      List.IsSuffix.trans (List.suffix_append (ks ++ [e, v]) _) (by simpa using hs1)
    obtain ⟨W, hW, hTW⟩ : ∃ W : List ETok, (W = [] ∨ ∃ w, W = [w] ∧ w.token = .whitespace) ∧
        T ++ r :: rest = W ++ (ks ++ e :: v :: (zs ++ r :: rest)) := by
      rcases hT with rfl | ⟨w', hT⟩
      · exact ⟨[w], .inr ⟨w, rfl, hwt⟩, by simp⟩
      · simp only [List.cons_append, List.cons.injEq] at hT
        exact ⟨[], .inl rfl, by rw [← hT.2]; simp⟩
    have hTl : zs.length < T.length := by
      have := congrArg List.length hTW
      simp at this
      omega
    obtain ⟨n, rfl⟩ : ∃ k, n = k + 1 := ⟨n - 1, by omega⟩
    obtain ⟨sol', h⟩ := ih (xs := zs) (T := zs) (sol := false) (m := argInsert a.name a.value m) (n := n) hok' hzs (.inl rfl) hs2
      (by omega)
    refine ⟨sol', ?_⟩
    rw [loopN, hTW, bind_ok (headTurn_arg hW hkk hkne het hvt (by simp) hs1), hvs', C54_quote_round_trip, hkn]
    exact h

/-- The end of the start: a line break after it is skipped if that counts. -/
def HeadEnd (b : BlockInfo) (T T2 : List ETok) (sol2 : Bool) : Prop :=
  (T2 = T ∧ sol2 = false ∧ (b.newlines = true → (T.headD default).token ≠ .lineBreak)) ∨
  (b.newlines = true ∧ T2 ≠ [] ∧ sol2 = true ∧ ∃ x, T = x :: T2 ∧ x.token = .lineBreak)

theorem HeadEnd.ne {b : BlockInfo} {T T2 : List ETok} {sol2 : Bool} (h : HeadEnd b T T2 sol2) (hT : T ≠ []) : T2 ≠ [] := by
  rcases h with ⟨rfl, _⟩ | ⟨_, h, _⟩ <;> assumption

theorem headEnd_false {b : BlockInfo} {p : PState} {sh : Shared} {T T2 : List ETok} {sol2 : Bool} (h : HeadEnd b T T2 sol2) :
    getHeadBlock b false env ⟨p.at T false, sh⟩ = .ok () ⟨p.at T2 sol2, sh⟩ := by
  unfold getHeadBlock
  simp only [Bool.false_eq_true, if_false]
  rw [bind_ok (s' := ⟨p.at T false, sh⟩) (a := (T.headD default).token) rfl]
  unfold getOptionalLineBreak
  rcases h with ⟨rfl, rfl, h⟩ | ⟨h1, h2, rfl, x, rfl, hx⟩
  · split
    · rename_i h'
      simp at h'
      exact optTok_no (by simpa using h h'.2)
    · rfl
  · obtain ⟨y, ys, rfl⟩ := List.exists_cons_of_ne_nil h2
    rw [if_pos (by simp [hx, h1])]
    exact optTok_yes hx

theorem headEnd_true {b : BlockInfo} {p : PState} {sh : Shared} {r : ETok} {T T2 : List ETok} {sol sol2 : Bool}
    (hr : r.token = .rightBlock) (hT : T ≠ []) (h : HeadEnd b T T2 sol2) :
    getHeadBlock b true env ⟨p.at (r :: T) sol, sh⟩ = .ok () ⟨p.at T2 sol2, sh⟩ := by
  obtain ⟨y, ys, rfl⟩ := List.exists_cons_of_ne_nil hT
  have := headEnd_false (env := env) (p := p) (sh := sh) h
  unfold getHeadBlock at this ⊢
  simp only [Bool.false_eq_true, if_false, if_true] at this ⊢
  rw [bind_ok (getToken_yes hr)]
  exact this

/-- The part of the start after the name. -/
theorem getHeadMap_args {b : BlockInfo} {p : PState} {sh : Shared} {r w : ETok} {rest rest2 : List ETok} {args : List Arg} {xs : List ETok}
    {sol sol2 : Bool} (hr : r.token = .rightBlock) (hrest : rest ≠ []) (hok : args.all Arg.ok = true)
    (hxs : (w :: xs).map ETok.pair = args.flatMap Arg.lex) (hs : (w :: xs ++ r :: rest) <:+ (tokenize env.text).tokens)
    (hb : HeadEnd b rest rest2 sol2) :
    getHeadMap b true env ⟨p.at (xs ++ r :: rest) sol, sh⟩ =
      .ok (args.foldl (fun m a => argInsert a.name a.value m) []) ⟨p.at rest2 sol2, sh⟩ := by
  obtain ⟨sol', h⟩ := headLoop_at (env := env) (p := p) (sh := sh) hr hrest args (xs := w :: xs) (T := xs) (sol := sol) (m := [])
    (n := (xs ++ r :: rest).tail.length + 1) hok hxs (.inr ⟨w, rfl⟩) hs (by simp; omega)
  unfold getHeadMap
  simp only [if_true]
  have hl : loop headTurn [] env ⟨p.at (xs ++ r :: rest) sol, sh⟩ = _ := h
  refine (bind_ok (m := loop headTurn []) hl).trans ?_
  rw [bind_ok (headEnd_true hr hrest hb)]
  rfl

theorem getHeadBlock_false {b : BlockInfo} {p : PState} {sh : Shared} {rest : List ETok} {sol : Bool}
    (hb : b.newlines = true → (rest.headD default).token ≠ .lineBreak) :
    getHeadBlock b false env ⟨p.at rest sol, sh⟩ = .ok () ⟨p.at rest sol, sh⟩ := by
  unfold getHeadBlock
  simp only [Bool.false_eq_true, if_false]
  rw [bind_ok (s' := ⟨p.at rest sol, sh⟩) (a := (rest.headD default).token) rfl]
  unfold getOptionalLineBreak
  split
  · rename_i h
    simp at h
    exact optTok_no (by simpa using hb h.2)
  · rfl

theorem getHeadMap_none {b : BlockInfo} {p : PState} {sh : Shared} {rest rest2 : List ETok} {sol2 : Bool}
    (hb : HeadEnd b rest rest2 sol2) :
    getHeadMap b false env ⟨p.at rest false, sh⟩ = .ok [] ⟨p.at rest2 sol2, sh⟩ := by
  unfold getHeadMap
  simp only [Bool.false_eq_true, if_false]
  rw [bind_ok (pure_ok _ _ _), bind_ok (headEnd_false hb)]
  rfl

/-- `get_head_value` with a value. -/
theorem getHeadValue_at {α : Type} {b : BlockInfo} {convert : Option Str → M α} {v : α} {p : PState} {sh : Shared} {r : ETok}
    {xs rest : List ETok} {sol : Bool} (hr : r.token = .rightBlock) (hrest : rest ≠ [])
    (hxs : ∀ x ∈ xs, x.token ≠ .rightBlock ∧ x.token ≠ .paragraphBreak ∧ x.token ≠ .lineBreak ∧ x.token ≠ .inputEnd)
    (hs : (xs ++ r :: rest) <:+ (tokenize env.text).tokens)
    (hv : convert (some (slicesOf xs)) env ⟨p.at rest false, sh⟩ = .ok v ⟨p.at rest false, sh⟩)
    (hb : b.newlines = true → (rest.headD default).token ≠ .lineBreak) :
    getHeadValue b true convert env ⟨p.at (xs ++ r :: rest) sol, sh⟩ = .ok v ⟨p.at rest false, sh⟩ := by
  unfold getHeadValue
  simp only [if_true]
  refine (bind_ok (a := some (slicesOf xs)) (s' := ⟨p.at rest false, sh⟩) ?_).trans ?_
  · rw [bind_ok (collectText_at (xs := xs) (x := r) (rest := rest) ?_ (by simp [Meets, hr]) hrest (by simp [hr]) hs), hr]
    · rfl
    intro a b e hb
    obtain ⟨z, zs, rfl⟩ := List.exists_cons_of_ne_nil hb
    have := hxs z (by rw [e]; simp)
    exact ⟨by simp, by simp [Meets, this], by simp [Meets, this], by simpa using this.2.2.2⟩
  · rw [bind_ok hv, bind_ok (getHeadBlock_false hb)]
    rfl

/-! ### Attributes -/

theorem distinct_nodup : ∀ {l : List Str}, distinct l = true → l.Nodup
  | [], _ => .nil
  | a :: l, h => by
    simp only [distinct, Bool.and_eq_true, Bool.not_eq_true', List.contains_eq_mem, decide_eq_false_iff_not] at h
    exact List.nodup_cons.2 ⟨h.1, distinct_nodup h.2⟩

end Ftml
