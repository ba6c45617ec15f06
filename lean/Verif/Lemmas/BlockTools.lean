import Verif.Lemmas.RulesSpec
/- Specifications of the block parser's helpers (src/parsing/rule/impls/block/parser.rs, arguments.rs). -/
namespace Ftml
open M

section
variable {c : Ctx} {s0 s : St} {cons : M (PS Elements)} {b : BlockInfo}

/-- `slice_partial` between the tokens of two earlier states. -/
theorem slicePartialAt_spec {s0 sl : St} (hi : Inv c s) (h0 : Inv c s0) (hl : Le s0 sl) :
    Tri c s (slicePartialText s0.p.cur sl.p.cur) fun a s' => s' = s ∧
      ∃ m, s0.p.cur :: s0.p.rem = m ++ sl.p.cur :: sl.p.rem ∧ a = slicesOf m := by
  unfold slicePartialText
  tri
  obtain ⟨m, hm⟩ := hl.sfx
  have h1 := h0.sfx
  rw [hi.wf] at h1
  have := slicePartial_ok h1 hm.symm
  rw [this]
  exact Tri.pure hi ⟨rfl, m, hm.symm, rfl⟩

theorem saveEvaluateFn_spec {f : M Bool} {Q : Bool → St → Prop} (hi : Inv c s) (h : Tri c s f Q) :
    Tri c s (saveEvaluateFn f) fun r _ => r = none ∨ r = some s.p.cur := by
  unfold saveEvaluateFn
  refine (onClone_spec hi h).bind ?_
  rintro ⟨o, q⟩ s' hi' hl' ⟨hp, ho⟩
  cases o with
  | error x => exact Tri.pure hi' (.inl rfl)
  | ok b =>
    obtain ⟨s1, h1, h2, h3, h4, _⟩ := ho
    cases b with
    | false => exact Tri.pure hi' (.inl rfl)
    | true =>
      dsimp only
      tri
      refine (updateP_spec hi' hp h1 h2 h3 h4).bind ?_
      intro _ s3 hi3 _ _
      exact Tri.pure hi3 (.inr (by rw [hp]))

theorem getBlockNameInternal_spec {k : EKind} (hi : Inv c s) : Tri c s (getBlockNameInternal k) fun r _ =>
    (∃ a b m, s.p.cur :: s.p.rem = m ++ b ∧ slicesOf m = a ∧ r.1 = trim a) ∧ OnLine c.env.text r.1 := by
  unfold getBlockNameInternal
  refine (collectTextKeep_spec hi).bind ?_
  rintro ⟨name, last⟩ s' hi' hl' ⟨sl, m, h1, h2, h3, h4, h5, h6, h7, hp, h8⟩
  dsimp only at h4 h8 ⊢
  subst h4
  obtain ⟨x, hx, hx'⟩ := evalAny_cur h5
  have hq : (∃ a b m, s.p.cur :: s.p.rem = m ++ b ∧ slicesOf m = a ∧ trim name = trim a) ∧ OnLine c.env.text (trim name) :=
    ⟨⟨_, _, m, h7, rfl, by rw [h8]⟩, h8 ▸ (hi.slices_past h7 hp (by simp) (by simp)).trim⟩
  simp only [List.mem_cons, List.not_mem_nil, or_false] at hx
  rcases hx with rfl | rfl | rfl | rfl <;> simp only [evalCond, beq_iff_eq] at hx' <;> simp only [hx']
  · exact Tri.pure hi' hq
  · exact Tri.pure hi' hq
  · exact Tri.pure hi' hq
  · exact Tri.pure hi' hq

theorem getBlockName_spec {star : Bool} (hi : Inv c s) : Tri c s (getBlockName star) fun _ _ => True := by
  unfold getBlockName
  refine (getOptionalToken_spec hi).skip fun _ s1 hi1 hl1 => ?_
  refine (getOptionalSpace_spec hi1).skip fun _ s2 hi2 hl2 => ?_
  exact (getBlockNameInternal_spec hi2).mono fun _ _ _ _ _ => trivial

theorem getEndBlock_spec (hi : Inv c s) : Tri c s getEndBlock fun _ _ => True := by
  unfold getEndBlock
  refine (getToken_spec hi).skip fun _ s1 hi1 hl1 => ?_
  refine (getOptionalSpace_spec hi1).skip fun _ s2 hi2 hl2 => ?_
  refine (getBlockName_spec hi2).skip fun r s3 hi3 hl3 => ?_
  obtain ⟨name, inHead⟩ := r
  dsimp only
  split
  · refine (getOptionalSpace_spec hi3).skip fun _ s4 hi4 hl4 => ?_
    refine (getToken_spec hi4).skip fun _ s5 hi5 hl5 => ?_
    exact Tri.pure hi5 trivial
  · exact Tri.pure hi3 trivial

theorem verifyEndBlock_spec {first : Bool} (hi : Inv c s) : Tri c s (verifyEndBlock first b) fun r _ =>
    r = none ∨ r = some s.p.cur := by
  unfold verifyEndBlock
  have rest : ∀ s1, Inv c s1 → Tri c s1 (getEndBlock >>= fun name =>
      (pure (b.names.any fun n => eqIgnoreCase (stripScore name) n) : M Bool)) fun _ _ => True := by
    intro s1 hi1
    exact (getEndBlock_spec hi1).skip fun _ s2 hi2 _ => Tri.pure hi2 trivial
  refine saveEvaluateFn_spec (Q := fun _ _ => True) hi ?_
  split
  · exact (getOptionalLineBreak_spec hi).skip fun _ s1 hi1 _ => rest s1 hi1
  · exact rest s hi

theorem getBodyText_spec (hi : Inv c s) : Tri c s (getBodyText b) fun a _ => a <:+: c.env.text := by
  unfold getBodyText
  tri
  refine Tri.bind (Q := fun stop s' => ∃ sl, Le s sl ∧ stop = sl.p.cur) ?_ ?_
  · refine loop_spec (I := fun _ _ => True) hi trivial ?_
    intro first s1 hi1 hl1 _
    refine (verifyEndBlock_spec hi1).bind ?_
    rintro r s2 hi2 hl2 (rfl | rfl)
    · refine (step_spec' hi2).bind fun _ s3 hi3 hl3 h => ?_
      exact Tri.pure hi3 ⟨by have := hl2.len; omega, trivial⟩
    · exact Tri.pure hi2 ⟨s1, hl1, rfl⟩
  · rintro stop s1 hi1 hl1 ⟨sl, h1, rfl⟩
    refine (slicePartialAt_spec hi1 hi h1).mono fun _ _ _ _ h => ?_
    obtain ⟨_, m, hm, rfl⟩ := h
    exact hi.slices_infix hm

theorem bodyNoParagraphs_spec (hc : ConsSpec c.D c.env cons) (hi : Inv c s) :
    Tri c s (bodyNoParagraphs cons b) fun r s' => EsOk c s s' r.item r.errors r.psafe := by
  unfold bodyNoParagraphs
  refine loop_spec (I := fun (acc : List Elem × List PErr × Bool × Bool) s' =>
    EsOk c s s' acc.1 acc.2.1 acc.2.2.1) hi (EsOk.nil (Le.refl _)) ?_
  rintro ⟨es, errors, ps, first⟩ s1 hi1 hl1 hI
  dsimp only at hI ⊢
  refine (verifyEndBlock_spec hi1).bind ?_
  rintro r s2 hi2 hl2 (rfl | rfl)
  · dsimp only
    tri
    refine (hc c s2 rfl rfl hi2).bind ?_
    rintro r s3 hi3 hl3 ⟨h3, hlt⟩
    tri
    have h4 := (hI.le hl2).append h3 hl3
    split
    · refine (step_spec' hi3).bind fun _ s4 hi4 hl4 h => ?_
      exact Tri.pure hi4 ⟨by have := hl2.len; omega, h4.le hl4⟩
    · exact Tri.pure hi3 ⟨by have := hl2.len; omega, h4⟩
  · exact Tri.pure hi2 (hI.le hl2)

theorem getBody_spec {par : Bool} (hc : ConsSpec c.D c.env cons) (hi : Inv c s) :
    Tri c s (getBody cons b par) fun r s' => EsOk c s s' r.item r.errors r.psafe := by
  unfold getBody
  split
  · unfold bodyParagraphs
    tri
    refine gatherParagraphs_spec hc hi ?_
    rintro f first s1 hf hi1 _
    cases hf
    exact (verifyEndBlock_spec hi1).skip fun _ s2 hi2 _ => Tri.pure hi2 trivial
  · exact bodyNoParagraphs_spec hc hi

theorem getHeadBlock_spec {inHead : Bool} (hi : Inv c s) : Tri c s (getHeadBlock b inHead) fun _ _ => True := by
  unfold getHeadBlock
  have rest : ∀ s1, Inv c s1 → Tri c s1 (curTok >>= fun t =>
      if t ≠ .inputEnd && b.newlines then getOptionalLineBreak else (pure () : M Unit)) fun _ _ => True := by
    intro s1 hi1
    tri
    split
    · exact (getOptionalLineBreak_spec hi1).mono fun _ _ _ _ _ => trivial
    · exact Tri.pure hi1 trivial
  split
  · refine (getToken_spec hi).skip fun _ s1 hi1 hl1 => ?_
    tri
    exact rest s1 hi1
  · exact rest s hi

/-- The names of the arguments stand in the text, and so do the values with these names; no name is there twice. -/
structure ArgsOk (text : Str) (m : Args) : Prop where
  mem : ∀ p ∈ m, p.1 <:+: text ∧
    ∃ x body, ArgWritten text x body ∧ lowerA x = lowerA p.1 ∧ p.2 = parseString (c!"\"" ++ body ++ c!"\"")
  nodup : (m.map fun p => lowerA p.1).Nodup

theorem ArgsOk.names {text : Str} {m : Args} (h : ArgsOk text m) : (m.map (·.1)).Nodup := by
  have := h.nodup
  unfold List.Nodup at *
  rw [List.pairwise_map] at *
  exact this.imp fun h e => h (by rw [e])

theorem ArgsOk.get {text : Str} {m : Args} (h : ArgsOk text m) (k : Str) : ArgsOk text (argGet m k).2 :=
  ⟨fun p hp => h.mem p (List.mem_filter.1 hp).1, h.nodup.sublist (List.filter_sublist.map _)⟩

theorem ArgsOk.given {text : Str} {m : Args} (h : ArgsOk text m) {k v : Str} (hg : (argGet m k).1 = some v) :
    ArgGiven text k v := by
  simp only [argGet, Option.map_eq_some_iff] at hg
  obtain ⟨p, hp, rfl⟩ := hg
  have h1 := h.mem p (List.mem_of_find?_eq_some hp)
  have h2 := List.find?_some hp
  obtain ⟨x, body, hw, hx, hv⟩ := h1.2
  refine ⟨x, body, hw, hx.trans ?_, hv⟩
  simpa [eqIgnoreCase] using (by simpa [eqIgnoreCase] using h2 : lowerA k = lowerA p.1).symm

theorem ArgWritten.key {text x body : Str} (h : ArgWritten text x body) : x <:+: text := by
  obtain ⟨_, s1, s2, _, h, _⟩ := h
  refine List.IsInfix.trans ?_ h
  exact ⟨[], s1 ++ c!"=" ++ s2 ++ c!"\"" ++ body ++ c!"\"", by simp [List.append_assoc]⟩

theorem argInsert_names {k v : Str} : ∀ {m : Args}, ∀ x ∈ (argInsert k v m).map (fun p => lowerA p.1),
    x = lowerA k ∨ x ∈ m.map fun p => lowerA p.1
  | [], x, h => by simpa [argInsert] using h
  | (k', v') :: m, x, h => by
    unfold argInsert at h
    split at h
    · exact .inr h
    · simp only [List.map_cons, List.mem_cons] at h ⊢
      rcases h with h | h
      · exact .inr (.inl h)
      · exact (argInsert_names x h).imp id .inr

theorem argInsert_nodup {k v : Str} : ∀ {m : Args}, (m.map fun p => lowerA p.1).Nodup → ((argInsert k v m).map fun p => lowerA p.1).Nodup
  | [], _ => by simp [argInsert]
  | (k', v') :: m, h => by
    unfold argInsert
    split
    · exact h
    · next hk =>
      simp only [List.map_cons, List.nodup_cons] at h ⊢
      refine ⟨fun hm => ?_, argInsert_nodup h.2⟩
      rcases argInsert_names _ hm with e | e
      · exact hk (by simp [eqIgnoreCase, e])
      · exact h.1 e

theorem ArgsOk.insert {text : Str} {m : Args} (h : ArgsOk text m) {k body : Str} (hk : ArgWritten text k body) :
    ArgsOk text (argInsert k (parseString (c!"\"" ++ body ++ c!"\"")) m) := by
  refine ⟨?_, argInsert_nodup h.nodup⟩
  replace h := h.mem
  induction m with
  | nil =>
    intro p hp
    simp only [argInsert, List.mem_singleton] at hp
    subst hp
    exact ⟨hk.key, k, body, hk, rfl, rfl⟩
  | cons q m ih =>
    obtain ⟨k', v'⟩ := q
    intro p hp
    unfold argInsert at hp
    split at hp
    · next he =>
      rcases List.mem_cons.1 hp with rfl | hp
      · exact ⟨(h (k', v') (by simp)).1, k, body, hk, by simpa [eqIgnoreCase] using he, rfl⟩
      · exact h p (by simp [hp])
    · rcases List.mem_cons.1 hp with rfl | hp
      · exact h (k', v') (by simp)
      · exact ih (fun p hp => h p (by simp [hp])) p hp

theorem getArgKey_spec (hi : Inv c s) : Tri c s getArgKey fun r s' => ∀ k, r = some k →
    ∃ m, s.p.cur :: s.p.rem = m ++ s'.p.cur :: s'.p.rem ∧ k = slicesOf m ∧ '\n' ∉ k := by
  unfold getArgKey
  tri
  refine Tri.bind (Q := fun _ s' => ∃ m, s.p.cur :: s.p.rem = m ++ s'.p.cur :: s'.p.rem ∧
      ∀ x ∈ m, x.token ≠ .lineBreak ∧ x.token ≠ .paragraphBreak)
    (loop_spec (I := fun _ s' => ∃ m, s.p.cur :: s.p.rem = m ++ s'.p.cur :: s'.p.rem ∧
      ∀ x ∈ m, x.token ≠ .lineBreak ∧ x.token ≠ .paragraphBreak) hi ⟨[], rfl, by simp⟩ ?_) ?_
  · intro _ s1 hi1 hl1 hI
    tri
    split
    · exact Tri.pure hi1 hI
    · split
      · exact Tri.pure hi1 hI
      · rename_i hsp
        split
        · refine (step_spec' hi1).bind fun _ s2 hi2 hl2 h => ?_
          refine Tri.pure hi2 ⟨h.2.2.1, ?_⟩
          obtain ⟨m, hm, hx⟩ := hI
          refine ⟨m ++ [s1.p.cur], by rw [hm, h.2.1, h.1]; simp, ?_⟩
          intro x hm
          rcases List.mem_append.1 hm with hm | hm
          · exact hx x hm
          · simp only [List.mem_singleton] at hm
            subst hm
            constructor <;> (intro e; exact hsp (by rw [e]; rfl))
        · exact fail_spec hi1
  · intro fin s1 hi1 hl1 hI
    split
    · exact Tri.pure hi1 (by simp)
    · tri
      refine (slicePartialAt_spec hi1 hi hl1).bind fun a s2 hi2 _ h2 => Tri.pure hi2 ?_
      intro k hk
      cases hk
      obtain ⟨rfl, m, hm, e⟩ := h2
      obtain ⟨m', hm', hx⟩ := hI
      obtain rfl := List.append_cancel_right (hm.symm.trans hm')
      exact ⟨m, hm, e, e ▸ (hi.slices_line hm hx).2⟩

theorem getToken_spec' {t : Token} {k : EKind} (hi : Inv c s) : Tri c s (getToken t k) fun a s' =>
    s.p.cur.token = t ∧ a = s.p.cur.slice ∧ s.p.rem = s'.p.cur :: s'.p.rem := by
  unfold getToken
  rw [tri_current]
  split
  · next ht =>
    refine (step_spec hi).bind ?_
    intro a s' hi' _ h
    exact Tri.pure hi' ⟨ht, rfl, by rw [h.2.1, h.1]⟩
  · exact fail_spec hi

theorem space_slices {s' : St} (hi : Inv c s)
    (h : (s.p.cur.token = .whitespace ∧ s.p.rem = s'.p.cur :: s'.p.rem) ∨ (s.p.cur.token ≠ .whitespace ∧ s' = s)) :
    ∃ x, s.p.cur :: s.p.rem = x ++ s'.p.cur :: s'.p.rem ∧ ∀ ch ∈ slicesOf x, ch = ' ' ∨ ch = '\t' := by
  rcases h with ⟨h1, h2⟩ | ⟨_, rfl⟩
  · refine ⟨[s.p.cur], by rw [h2]; rfl, ?_⟩
    have := hi.shape hi.cur_mem
    rw [h1] at this
    simpa [slicesOf] using this.2
  · exact ⟨[], rfl, by simp [slicesOf]⟩

theorem getHeadMap_spec {inHead : Bool} (hi : Inv c s) : Tri c s (getHeadMap b inHead) fun m _ => ArgsOk c.env.text m := by
  unfold getHeadMap
  have rest : ∀ (m : Args) s1, Inv c s1 → ArgsOk c.env.text m →
      Tri c s1 (getHeadBlock b inHead >>= fun _ => (pure m : M Args))
      fun m _ => ArgsOk c.env.text m := fun m s1 hi1 hm =>
    (getHeadBlock_spec hi1).skip fun _ s2 hi2 _ => Tri.pure hi2 hm
  split
  · refine Tri.bind (Q := fun m _ => ArgsOk c.env.text m) (loop_spec (I := fun m _ => ArgsOk c.env.text m) hi
      ⟨(by intro p hp; cases hp), by simp⟩ ?_) fun m s1 hi1 _ hm => rest m s1 hi1 hm
    intro m s1 hi1 hl1 hm
    refine (getOptionalSpacesAny_spec hi1).skip fun _ s2 hi2 hl2 => ?_
    refine (getArgKey_spec hi2).bind fun r s3 hi3 hl3 hkey => ?_
    cases r with
    | none => exact Tri.pure hi3 hm
    | some key =>
      dsimp only
      refine (getOptionalToken_spec hi3).bind fun _ s4 hi4 hl4 h4 => ?_
      refine (getToken_spec' hi4).bind fun _ s5 hi5 hl5 h5 => ?_
      refine (getOptionalToken_spec hi5).bind fun _ s6 hi6 hl6 h6 => ?_
      refine (getToken_spec' hi6).bind fun q s7 hi7 hl7 h7 => ?_
      obtain ⟨m0, hm0, rfl, hline⟩ := hkey _ rfl
      obtain ⟨x1, e1, w1⟩ := space_slices hi3 h4.2
      obtain ⟨x2, e2, w2⟩ := space_slices hi5 h6.2
      have sh4 := hi4.shape hi4.cur_mem
      have sh6 := hi6.shape hi6.cur_mem
      rw [h5.1] at sh4
      rw [h7.1] at sh6
      simp only [TokenShape, tokenLiteral, Option.some.injEq] at sh4
      obtain ⟨body, sh6, hbody⟩ := sh6
      have hw : ArgWritten c.env.text (slicesOf m0) body := by
        refine ⟨hline, slicesOf x1, slicesOf x2, ?_, ?_⟩
        · intro ch hch
          rcases List.mem_append.1 hch with h | h
          · exact w1 ch h
          · exact w2 ch h
        · have : s2.p.cur :: s2.p.rem = (m0 ++ x1 ++ [s4.p.cur] ++ x2 ++ [s6.p.cur]) ++ (s7.p.cur :: s7.p.rem) := by
            rw [hm0, e1, h5.2.2, e2, h7.2.2]; simp
          have := hi2.slices_infix this
          refine ⟨?_, hbody⟩
          simpa [slicesOf, ← sh4, sh6] using this
      refine Tri.pure hi7 ⟨?_, ?_⟩
      · have := hl2.len; have := hl3.len; have := hl4.len; have := hl6.len
        have := congrArg List.length h5.2.2; have := congrArg List.length h7.2.2
        simp only [List.length_cons] at *
        omega
      · rw [h7.2.1, sh6]
        exact hm.insert hw
  · exact rest [] s hi ⟨(by intro p hp; cases hp), by simp⟩

theorem getHeadNameMap_spec {inHead : Bool} (hi : Inv c s) :
    Tri c s (getHeadNameMap b inHead) fun r _ => ArgsOk c.env.text r.2 ∧ OnLine c.env.text r.1 := by
  unfold getHeadNameMap
  split
  · exact fail_spec hi
  · refine (getBlockNameInternal_spec hi).bind fun r s1 hi1 hl1 hn => ?_
    obtain ⟨sub, h⟩ := r
    exact (getHeadMap_spec hi1).bind fun _ s2 hi2 _ h => Tri.pure hi2 ⟨h, hn.2⟩

theorem getHeadValue_spec {α : Type} {inHead : Bool} {convert : Option Str → M α} {Q : α → Prop} (hi : Inv c s)
    (h : ∀ arg s1, Inv c s1 → (∀ x, arg = some x → OnLine c.env.text x) → Tri c s1 (convert arg) fun a _ => Q a) :
    Tri c s (getHeadValue b inHead convert) fun a _ => Q a := by
  unfold getHeadValue
  have rest : ∀ (arg : Option Str) s1, Inv c s1 → (∀ x, arg = some x → OnLine c.env.text x) → Tri c s1 (convert arg >>= fun v =>
      getHeadBlock b false >>= fun _ => (pure v : M α)) fun a _ => Q a := by
    intro arg s1 hi1 hx
    refine (h arg s1 hi1 hx).bind fun a s2 hi2 _ ha => ?_
    exact (getHeadBlock_spec hi2).skip fun _ s3 hi3 _ => Tri.pure hi3 ha
  split
  · refine Tri.bind (Q := fun a _ => ∀ x, a = some x → OnLine c.env.text x) ?_ fun a s1 hi1 hl1 h => rest a s1 hi1 h
    refine (collectText_spec hi).bind fun a s1 hi1 hl1 hn => Tri.pure hi1 ?_
    obtain ⟨_, m, _, _, _, _, _, hm, hp, rfl⟩ := hn
    intro x hx
    cases hx
    exact hi.slices_past hm hp (by simp) (by simp)
  · exact rest none s hi (by simp)

theorem getHeadNone_spec {inHead : Bool} (hi : Inv c s) : Tri c s (getHeadNone b inHead) fun _ _ => True := by
  unfold getHeadNone
  exact (getOptionalSpace_spec hi).skip fun _ s1 hi1 _ => getHeadBlock_spec hi1

theorem argBool_spec {m : Args} {k : Str} (hi : Inv c s) : Tri c s (argBool m k) fun r s' => s' = s ∧
    (ArgsOk c.env.text m → ArgsOk c.env.text r.2) := by
  unfold argBool
  split
  · next h => exact Tri.pure hi ⟨rfl, fun hm => by have := hm.get k; rw [h] at this; exact this⟩
  · next h =>
    split
    · exact Tri.pure hi ⟨rfl, fun hm => by have := hm.get k; rw [h] at this; exact this⟩
    · exact fail_spec hi

theorem argNonZero_spec {m : Args} {k : Str} (hi : Inv c s) : Tri c s (argNonZero m k) fun r s' => s' = s ∧ r.1 ≠ some 0 := by
  unfold argNonZero
  split
  · exact Tri.pure hi ⟨rfl, by simp⟩
  · split
    · next hb =>
      refine Tri.pure hi ⟨rfl, ?_⟩
      rintro e
      cases e
      unfold parseNonZeroU32 at hb
      split at hb
      · cases hb
      · next hz => exact hz hb
    · exact fail_spec hi

theorem attrFromArgs_names {e : Ext} {t : Str} {m : Args} (hm : ArgsOk t m) {k v : Str}
    (h : (k, v) ∈ attrFromArgs e m) : k ∈ safeAttributes ∨ CustomName t k := by
  obtain ⟨k', v', h1, h2⟩ := attrFromArgs_mem h
  unfold attrOfArg at h2
  split at h2
  · next hs =>
    obtain ⟨w, _, h3⟩ := Option.map_eq_some_iff.1 h2
    simp only [Prod.mk.injEq] at h3
    obtain ⟨rfl, _⟩ := h3
    unfold isSafeAttribute at hs
    rcases Bool.or_eq_true_iff.1 hs with hs | hs
    · left
      exact (containsCI_iff (by decide +kernel) _).1 hs
    · right
      refine ⟨k', (hm.mem _ h1).1, rfl, ?_⟩
      simp only [List.any_cons, List.any_nil, Bool.or_false, Bool.or_eq_true, Bool.and_eq_true] at hs
      exact hs.imp (fun h => startsWith_iff.1 h.1) (fun h => startsWith_iff.1 h.1)
  · cases h2

theorem attrFromArgs_from (st : Settings) {e : Ext} {t : Str} {m : Args} (hm : ArgsOk t m) {k v : Str}
    (h : (k, v) ∈ attrFromArgs e m) :
    AttrFrom st t k (if k = c!"id" ∧ st.isolateUserIds = true then isolateIds v else v) := by
  obtain ⟨k', v', h1, h2⟩ := attrFromArgs_mem h
  unfold attrOfArg at h2
  split at h2
  · obtain ⟨w, h4, h3⟩ := Option.map_eq_some_iff.1 h2
    simp only [Prod.mk.injEq] at h3
    obtain ⟨rfl, h5⟩ := h3
    obtain ⟨_, x, body, hw, hx, hv⟩ := hm.mem _ h1
    dsimp only at hx hv
    refine .inr (.inr ⟨x, body, hw, hx, ?_⟩)
    have hb : containsCI booleanAttributes k' = true ↔ lowerA k' ∈ booleanAttributes := containsCI_iff (by decide +kernel) _
    have hu : containsCI urlAttributes k' = true ↔ lowerA k' ∈ urlAttributes := containsCI_iff (by decide +kernel) _
    have d1 : ∀ k ∈ booleanAttributes, k ≠ c!"id" ∧ k ∉ urlAttributes := by decide +kernel
    have d2 : ∀ k ∈ urlAttributes, k ≠ c!"id" := by decide +kernel
    rw [← hv]
    split at h4
    · next hbt =>
      have hbm := hb.1 hbt
      have hun : containsCI urlAttributes k' = false := by
        rw [Bool.eq_false_iff]; intro h; exact (d1 _ hbm).2 (hu.1 h)
      rw [hun] at h5
      rw [if_neg (fun h => (d1 _ hbm).1 h.1)]
      simp only [Bool.false_eq_true, if_false] at h5
      subst h5
      split at h4
      · next hp => cases h4; exact .inl ⟨hbm, hp, rfl⟩
      · cases h4
      · next hp =>
        cases h4
        exact .inr (.inr (.inr ⟨(d1 _ hbm).2, fun h => ((d1 _ hbm).1 h).elim, fun _ => hp, rfl⟩))
    · next hbt =>
      have hbm : lowerA k' ∉ booleanAttributes := fun h => hbt (hb.2 h)
      cases h4
      split at h5
      · next hut =>
        have hum := hu.1 hut
        rw [if_neg (fun h => d2 _ hum h.1)]
        exact .inr (.inl ⟨hum, e, h5.symm⟩)
      · next hut =>
        subst h5
        have hum : lowerA k' ∉ urlAttributes := fun h => hut (hu.2 h)
        by_cases hid : lowerA k' = c!"id" ∧ st.isolateUserIds = true
        · rw [if_pos hid]
          exact .inr (.inr (.inl ⟨hid.1, hid.2, rfl⟩))
        · rw [if_neg hid]
          refine .inr (.inr (.inr ⟨hum, fun h => ?_, fun h => (hbm h).elim, rfl⟩))
          exact Bool.eq_false_iff.2 fun h' => hid ⟨h, h'⟩
  · cases h2

theorem attrOk_args (st : Settings) (e : Ext) {t : Str} {m : Args} (hm : ArgsOk t m) :
    AttrOk st t (attrIsolateId st.isolateUserIds (attrFromArgs e m)) := by
  refine ⟨?_, ?_⟩
  · unfold attrIsolateId
    split
    · refine List.pairwise_map.2 ((attrFromArgs_sorted e m).imp ?_)
      rintro ⟨k1, v1⟩ ⟨k2, v2⟩ h
      dsimp only at h ⊢
      split <;> split <;> exact h
    · exact attrFromArgs_sorted e m
  cases hf : st.isolateUserIds with
  | false =>
    rw [(C13_attribute_ids _).1]
    intro k v h
    have hfrom := attrFromArgs_from st hm h
    rw [if_neg (by simp [hf])] at hfrom
    refine ⟨(C20_whitelisted e m _ h).1, attrFromArgs_names hm h, ?_, by simp, hfrom⟩
    rintro (rfl | rfl)
    · exact C20_urls_safe e m v (.inl h)
    · exact C20_urls_safe e m v (.inr h)
  | true =>
    intro k v h
    simp only [attrIsolateId, if_true, List.mem_map] at h
    obtain ⟨⟨k', v'⟩, h1, h2⟩ := h
    dsimp only at h2
    by_cases hk : k' = c!"id"
    · rw [hk] at h2
      simp only [beq_self_eq_true, if_true, Prod.mk.injEq] at h2
      obtain ⟨rfl, rfl⟩ := h2
      rw [hk] at h1
      have hfrom := attrFromArgs_from st hm h1
      rw [if_pos ⟨rfl, hf⟩] at hfrom
      refine ⟨(C20_whitelisted e m _ h1).1, attrFromArgs_names hm h1, ?_, ?_, hfrom⟩
      · rintro (h | h) <;> exact absurd h (by decide)
      · intro _ _; exact (C13_all_prefixed v').2
    · rw [if_neg (by simpa using hk)] at h2
      simp only [Prod.mk.injEq] at h2
      obtain ⟨rfl, rfl⟩ := h2
      have hfrom := attrFromArgs_from st hm h1
      rw [if_neg (fun h => hk h.1)] at hfrom
      refine ⟨(C20_whitelisted e m _ h1).1, attrFromArgs_names hm h1, ?_, ?_, hfrom⟩
      · rintro (rfl | rfl)
        · exact C20_urls_safe e m v' (.inl h1)
        · exact C20_urls_safe e m v' (.inr h1)
      · intro _ h; exact (hk h).elim

theorem toAttrs_spec {m : Args} (hi : Inv c s) (hm : ArgsOk c.env.text m) :
    Tri c s (toAttrs m) fun a s' => s' = s ∧ AttrOk c.env.settings c.env.text a := by
  unfold toAttrs
  tri
  exact Tri.pure hi ⟨rfl, attrOk_args _ _ hm⟩

end
end Ftml
