import Verif.Lemmas.RuleTools
import Verif.Props.Depth
/- Specifications of the token rules (src/parsing/rule/impls/*.rs). -/
namespace Ftml
open M

/-- What every rule guarantees, relative to an earlier state. -/
abbrev RuleOk (c : Ctx) (s0 s : St) (m : M (PS Elements)) : Prop :=
  Tri c s m fun r s' => RuOk c s0 s' r.item r.errors r.psafe

section
variable {c : Ctx} {s0 s : St} {cons : M (PS Elements)}

theorem leafE {k : Kind} (hi : Inv c s) (hl : Le s0 s) (hsp : Special (c.gam s) k [])
    (hleaf : k.isLeaf = true := by rfl) (hattr : k.attrs = [] := by rfl)
    (hpage : k.pageOnly = false := by rfl) (hblk : k.blocks = none := by rfl) : RuleOk c s0 s (okE [.mk k []]) :=
  okE_spec (ps' := false) hi (RuOk.simple hl hleaf hattr hpage hblk hsp (by simp))

theorem nilE (hi : Inv c s) (hl : Le s0 s) : RuleOk c s0 s (okE []) :=
  okE_spec (ps' := false) hi (RuOk.nil hl)

theorem Inv.cur_infix (hi : Inv c s) : s.p.cur.slice <:+: c.env.text := by
  obtain ⟨a, b, h⟩ := hi.contains
  exact ⟨a, b, h.symm⟩

theorem Inv.slices_infix (h : Inv c s) {m r : List ETok} (hm : s.p.cur :: s.p.rem = m ++ r) :
    slicesOf m <:+: c.env.text := by
  obtain ⟨a, ha⟩ := h.text_at hm
  exact ⟨a, _, ha.symm⟩

theorem infix_trim {a t : Str} (h : a <:+: t) : trim a <:+: t := by
  obtain ⟨x, y, hxy, _⟩ := trim_decomp a
  exact List.IsInfix.trans ⟨x, y, hxy.symm⟩ h

theorem ruleNull_spec (hi : Inv c s) : RuleOk c s s ruleNull := nilE hi (Le.refl _)
theorem ruleText_spec (hi : Inv c s) : RuleOk c s s ruleText := by
  unfold ruleText; tri; exact leafE hi (Le.refl _) (.inl hi.cur_infix)
theorem ruleDash_spec (hi : Inv c s) (h : s.p.cur.token = .doubleDash) : RuleOk c s s ruleDash := by
  have := hi.shape hi.cur_mem
  rw [h] at this
  simp only [TokenShape, tokenLiteral, Option.some.injEq] at this
  exact leafE hi (Le.refl _) (.inr (.inl ⟨rfl, this ▸ hi.cur_infix⟩))

theorem ruleEmail_spec (hi : Inv c s) (h : s.p.cur.token = .email) : RuleOk c s s ruleEmail := by
  have := hi.shape hi.cur_mem
  rw [h] at this; exact this.elim

theorem ruleAnchor_spec (hi : Inv c s) (h : s.p.cur.token = .leftBlockAnchor) : RuleOk c s s ruleAnchor := by
  unfold ruleAnchor
  refine (checkStep_spec hi h).skip fun _ s1 hi1 hl1 => ?_
  refine (getToken_spec hi1).skip fun _ s2 hi2 hl2 => ?_
  refine (collectText_spec hi2).bind fun name s3 hi3 hl3 hn => ?_
  obtain ⟨_, m, _, _, _, _, _, hm, hp, rfl⟩ := hn
  tri
  exact leafE hi3 ((hl1.trans hl2).trans hl3) ⟨_, hi2.slices_past hm hp (by simp) (by simp), rfl⟩

theorem ruleBibcite_spec (hi : Inv c s) (h : s.p.cur.token = .leftParentheses ∨ s.p.cur.token = .rightParentheses) :
    RuleOk c s s ruleBibcite := by
  unfold ruleBibcite
  rcases h with h | h
  · refine (checkStep_spec hi h).skip fun _ s1 hi1 hl1 => ?_
    tri
    split
    · exact fail_spec hi1
    · refine (step_spec hi1).skip fun _ s2 hi2 hl2 => ?_
      tri
      split
      · exact fail_spec hi2
      · refine (step_spec hi2).skip fun _ s3 hi3 hl3 => ?_
        refine (collectText_spec hi3).bind fun _ s4 hi4 hl4 hn => ?_
        obtain ⟨_, m, _, _, _, _, _, hm, hp, rfl⟩ := hn
        exact leafE hi4 (((hl1.trans hl2).trans hl3).trans hl4) (hi3.slices_past hm hp (by simp) (by simp))
  · refine Tri.bind (Q := fun _ _ => False) ?_ fun _ _ _ _ h => h.elim
    unfold checkStep
    tri
    rw [if_neg (by rw [h]; decide)]
    obtain ⟨a, b, hab⟩ := hi.contains
    have := hi.shape hi.cur_mem
    rw [h] at this
    simp only [TokenShape, tokenLiteral, Option.some.injEq] at this
    exact .inl ⟨rfl, a, b, by rw [hab, ← this]⟩

theorem ruleDelimited_spec {ct : CType} {o cl : Token} (hc : ConsSpec c.D c.env cons) (hi : Inv c s)
    (h : s.p.cur.token = o) (h1 : ct ≠ .paragraph) (h2 : ∀ h, ct ≠ .header h) :
    RuleOk c s s (ruleDelimited cons ct o cl) := by
  unfold ruleDelimited
  refine (checkStep_spec hi h).skip fun _ s1 hi1 hl1 => ?_
  exact (collectContainer_spec hc hi1 h1 h2).mono fun _ _ _ _ h => h.le0 hl1

theorem ruleCenter_spec (hc : ConsSpec c.D c.env cons) (hi : Inv c s) : RuleOk c s s (ruleCenter cons) := by
  unfold ruleCenter
  tri
  refine require_bind hi fun _ => ?_
  refine (step_spec hi).skip fun _ s1 hi1 hl1 => ?_
  tri
  refine require_bind hi1 fun _ => ?_
  refine (step_spec hi1).skip fun _ s2 hi2 hl2 => ?_
  exact (collectContainer_spec hc hi2 (by simp) (by simp)).mono fun _ _ _ _ h => h.le0 (hl1.trans hl2)

theorem ruleClearFloat_spec (hi : Inv c s) : RuleOk c s s ruleClearFloat := by
  unfold ruleClearFloat
  tri
  split
  · exact fail_spec hi
  · refine (getOptionalLineBreak_spec hi).skip fun _ s1 hi1 hl1 => ?_
    exact leafE hi1 hl1 trivial

theorem ruleColor_spec (hc : ConsSpec c.D c.env cons) (hi : Inv c s) (h : s.p.cur.token = .color) :
    RuleOk c s s (ruleColor cons) := by
  unfold ruleColor
  refine (checkStep_spec hi h).skip fun _ s1 hi1 hl1 => ?_
  refine (collectText_spec hi1).bind fun col s2 hi2 hl2 hn => ?_
  refine (collectConsume_spec hc hi2).bind fun r s3 hi3 hl3 h => ?_
  have h := h.le0 (hl1.trans hl2)
  refine okP_spec hi3 (RuOk.node h ?_ rfl rfl (attrOk_nil _) (by intro h; cases h) (by intro _ h; cases h)
    ?_ (fun _ h => by cases h) ?_)
  rotate_left
  · obtain ⟨_, m, _, _, _, _, _, hm, hp, rfl⟩ := hn
    refine ⟨_, hi1.slices_past hm hp (by simp) (by simp), ?_⟩
    unfold hexifyColor
    split
    · exact .inr rfl
    · exact .inl rfl
  rotate_left
  · intro k' hk; simp [allowedKid, hk]
  · intro m; have := h.cnt m; have := meas_zero (k := .color (hexifyColor ‹_›)) (by simp) (by simp) m; omega

theorem ruleComment_spec (hi : Inv c s) (h : s.p.cur.token = .leftComment) : RuleOk c s s ruleComment := by
  unfold ruleComment
  refine (checkStep_spec hi h).skip fun _ s1 hi1 hl1 => ?_
  refine loop_spec (I := fun _ _ => True) hi1 trivial ?_
  intro _ s2 hi2 hl2 _
  tri
  split
  · refine (step_spec hi2).skip fun _ s3 hi3 hl3 => ?_
    refine (nilE (s0 := s) hi3 ((hl1.trans hl2).trans hl3)).bind fun r s4 hi4 hl4 h => ?_
    exact Tri.pure hi4 h
  · split
    · exact fail_spec hi2
    · refine (step_spec' hi2).bind fun _ s3 hi3 hl3 h => ?_
      exact Tri.pure hi3 ⟨h.2.2.1, trivial⟩

theorem ruleDefinitionListSkip_spec (hi : Inv c s) : RuleOk c s s ruleDefinitionListSkip := by
  unfold ruleDefinitionListSkip
  tri
  split
  · exact nilE hi (Le.refl _)
  · exact fail_spec hi

/-- The kinds of the tokens that close a `collect`. -/
theorem evalAny_cur {p : PState} {cs : List Cond} (h : evalAny p cs = true) :
    ∃ x ∈ cs, evalCond p x = true := by
  unfold evalAny at h
  exact List.any_eq_true.1 h

theorem parseDefItem_spec (hc : ConsSpec c.D c.env cons) (hi : Inv c s) :
    Tri c s (parseDefItem cons) fun r s' => GsOk c s s' [r.item.1] ∧ (∃ key, r.item.1.kind = .defItem key) ∧
      s'.p.rem.length < s.p.rem.length := by
  unfold parseDefItem
  tri
  refine require_bind hi fun _ => ?_
  tri
  refine require_bind hi fun _ => ?_
  refine (stepN_spec 2 hi).bind fun _ s1 hi1 hl1 hst => ?_
  tri
  refine (collectConsume_spec hc hi1).bind fun k s2 hi2 hl2 hk => ?_
  tri
  refine (stepN_spec 2 hi2).skip fun _ s3 hi3 hl3 => ?_
  refine Tri.bind (Q := fun _ s' => s' = s3) ?_ ?_
  · unfold slicePartialText
    tri
    obtain ⟨m, hm⟩ := hl2.sfx
    have h1 := hi1.sfx
    rw [hi1.wf] at h1
    rw [slicePartial_ok h1 hm.symm]
    exact Tri.pure hi3 rfl
  rintro key _ _ _ rfl
  refine (collectConsumeKeep_spec hc hi3).bind fun v s4 hi4 hl4 hv => ?_
  obtain ⟨hv, sl, hsl, _, _, hlast, hclose, _⟩ := hv
  have hitem : GsOk c s s4 [eDefItem (trim key) (stripWhitespace k.item) (stripWhitespace v.item.1)] := by
    have h1 : GsOk c s s2 [.mk .defKey (stripWhitespace k.item)] := by
      have hks := (hk.le0 hl1).sub (stripBoth_sublist Elem.isWhitespace k.item)
      refine hks.gs.node (by simp) (NodeOk.plain ?_ trivial)
      intro e he
      have := hks.elem e he
      simp [allowedKid, this]
    have h2 : GsOk c s2 s4 [.mk .defValue (stripWhitespace v.item.1)] := by
      have hvs := (hv.le0 hl3).sub (stripBoth_sublist Elem.isWhitespace v.item.1)
      refine hvs.gs.node (by simp) (NodeOk.plain ?_ trivial)
      intro e he
      have := hvs.elem e he
      simp [allowedKid, this]
    refine (h1.append h2 (hl3.trans hl4)).node (by simp) (NodeOk.plain ?_ ⟨_, _, rfl⟩)
    intro e he
    simp only [List.cons_append, List.nil_append, List.mem_cons, List.not_mem_nil, or_false] at he
    rcases he with rfl | rfl <;> rfl
  have hlen : s4.p.rem.length < s.p.rem.length := by
    have := hst.1; have := hl2.len; have := hl3.len; have := hl4.len; omega
  split
  · exact Tri.pure hi4 ⟨hitem, ⟨_, rfl⟩, hlen⟩
  · split
    · exact Tri.pure hi4 ⟨hitem, ⟨_, rfl⟩, hlen⟩
    · rename_i h1 h2
      exfalso
      rw [hlast] at h1 h2
      simp only [evalAny, evalCond, List.any_cons, List.any_nil, Bool.or_false, Bool.or_eq_true, beq_iff_eq] at hclose
      simp only [decide_eq_true_eq, Bool.or_eq_true] at h1
      rcases hclose with h | h | h
      · exact h1 (.inl h)
      · exact h2 h
      · exact h1 (.inr h)

theorem ruleDefinitionList_spec (hc : ConsSpec c.D c.env cons) (hi : Inv c s) :
    RuleOk c s s (ruleDefinitionList cons) := by
  have fin : ∀ {s' items}, Inv c s' → GsOk c s s' items → items ≠ [] →
      (∀ e ∈ items, ∃ key, e.kind = .defItem key) → RuleOk c s s' (okE [.mk .definitionList items]) := by
    intro s' items hi' hg hne hk
    have : GsOk c s s' [.mk .definitionList items] := by
      refine hg.node (by simp) (NodeOk.plain ?_ hne)
      intro e he
      obtain ⟨key, hk⟩ := hk e he
      rw [hk]; rfl
    refine okE_spec (ps' := false) hi' (this.toEs ?_ ?_ (by simp)).toRuOk
    · intro e he; simp only [List.mem_singleton] at he; subst he; rfl
    · simp
  unfold ruleDefinitionList
  refine (parseDefItem_spec hc hi).bind fun first s1 hi1 hl1 h1 => ?_
  split
  · refine fin hi1 h1.1 (by simp) ?_
    intro e he; simp only [List.mem_singleton] at he; subst he; exact h1.2.1
  · refine Tri.bind (Q := fun items s' => GsOk c s s' items ∧ items ≠ [] ∧ ∀ e ∈ items, ∃ key, e.kind = .defItem key)
      (loop_spec (I := fun items s' => GsOk c s s' items ∧ items ≠ [] ∧ ∀ e ∈ items, ∃ key, e.kind = .defItem key)
        hi1 ⟨h1.1, by simp, ?_⟩ ?_) ?_
    · intro e he; simp only [List.mem_singleton] at he; subst he; exact h1.2.1
    · intro items s2 hi2 hl2 hI
      refine (onClone_spec hi2 (parseDefItem_spec hc hi2)).bind ?_
      rintro ⟨o, q⟩ s3 hi3 hl3 ⟨hp, h⟩
      cases o with
      | error x => exact Tri.pure hi3 ⟨hI.1.le hl3, hI.2⟩
      | ok r =>
        dsimp only at h ⊢
        obtain ⟨s4, e1, e2, hi4, hl4, h4⟩ := h
        refine (updateP_spec (s0 := s2) (s1 := s4) hi3 hp e1 e2 hi4 hl4).bind ?_
        rintro _ s5 hi5 hl5 ⟨f1, f2, f3, f4⟩
        have hg : c.gam s5 = c.gam s4 := by simp [Ctx.gam, f1, f4]
        have h25 : Le s2 s5 := ⟨by rw [f2, f3]; exact hl4.sfx, by rw [f4]; exact hl4.fb, by rw [f1]; exact hl4.sh⟩
        have hn : GsOk c s2 s5 [r.item.1] := ⟨by rw [hg]; exact h4.1.good, by rw [f1]; exact h4.1.cnt⟩
        have hI' : GsOk c s s5 (items ++ [r.item.1]) ∧ items ++ [r.item.1] ≠ [] ∧
            ∀ e ∈ items ++ [r.item.1], ∃ key, e.kind = .defItem key := by
          refine ⟨hI.1.append hn h25, by simp, ?_⟩
          intro e he
          rcases List.mem_append.1 he with he | he
          · exact hI.2.2 e he
          · simp only [List.mem_singleton] at he; subst he; exact h4.2.1
        split
        · exact Tri.pure hi5 hI'
        · refine Tri.pure hi5 ⟨?_, hI'⟩
          rw [f3]; exact h4.2.2
    · rintro items s2 hi2 _ ⟨h2, h3, h4⟩
      exact fin hi2 h2 h3 h4

theorem ruleDoubleAngle_spec (hi : Inv c s) (h : s.p.cur.token = .leftDoubleAngle ∨ s.p.cur.token = .quote) :
    RuleOk c s s ruleDoubleAngle := by
  unfold ruleDoubleAngle
  tri
  split
  · next ht =>
    have := hi.shape hi.cur_mem
    rw [ht] at this
    simp only [TokenShape, tokenLiteral, Option.some.injEq] at this
    exact leafE hi (Le.refl _) (.inr (.inr (.inl ⟨rfl, this ▸ hi.cur_infix⟩)))
  · split
    · split
      · next hs => exact leafE hi (Le.refl _) (.inr (.inr (.inr (.inl ⟨rfl, hs ▸ hi.cur_infix⟩))))
      · exact fail_spec hi
    · rename_i h1 h2
      rcases h with h | h
      · exact (h1 h).elim
      · exact (h2 h).elim

theorem headerFn_spec (hc : ConsSpec c.D c.env cons) (n : Nat) {s : St} (hi : Inv c s) (hn : s.p.rem.length < n) :
    RuleOk c s s (headerFn cons n) := by
  induction n generalizing s with
  | zero => omega
  | succ n ih =>
    unfold headerFn
    tri
    refine require_bind hi fun htok => ?_
    refine (step_spec' hi).bind fun _ s1 hi1 hl1 hs1 => ?_
    obtain ⟨lv, hlv1, hlv2, hh, _⟩ := C57_heading_tokens c.env.text s.p.cur (hi.wf ▸ hi.cur_mem) (by simpa using htok)
    rw [hh]
    simp only [unwrap]
    tri
    refine require_bind hi1 fun _ => ?_
    refine (step_spec' hi1).bind fun _ s2 hi2 hl2 hs2 => ?_
    generalize hhd : (⟨lv, s.p.cur.slice.getLast? == some '+'⟩ : Heading) = hd
    refine Tri.bind (Q := fun r s' => ∃ es, r.item = [eContainer (.header hd) es] ∧ EsOk c s2 s' es r.errors false) ?_ ?_
    · unfold collectContainer
      refine (collectConsume_spec hc hi2).bind fun r s' hi' _ h => ?_
      exact Tri.pure hi' ⟨_, rfl, h.ps_false⟩
    rintro r s3 hi3 hl3 ⟨es, hr, hes⟩
    have rest : ∀ s4, Inv c s4 → Le s3 s4 → RuOk c s s4 [eContainer (.header hd) es] r.errors false →
        RuleOk c s s4 (do
          match ← attempt (headerFn cons n) with
          | .ok s => okP false (r.item ++ s.item) (r.errors ++ s.errors)
          | .error _ => okP false r.item r.errors) := by
      intro s4 hi4 hl4 hru
      rw [hr]
      refine Tri.bind (attempt_spec (ih hi4 ?_)) ?_
      · have := hs1.2.2.1; have := hs2.2.2.1; have := hl3.len; have := hl4.len; omega
      · intro o s5 hi5 hl5 ho
        cases o with
        | error x => exact okP_spec hi5 (hru.le hl5)
        | ok r2 => exact okP_spec hi5 ((hru.append ho hl5).ps_of (by simp))
    have hlv : 1 ≤ hd.level ∧ hd.level ≤ 6 := by rw [← hhd]; exact ⟨hlv1, hlv2⟩
    have hnode : ∀ s4, Le s3 s4 → (∀ m : Meas, m.ofKind (.container (.header hd) []) + m.size s3.sh ≤ m.size s4.sh) →
        RuOk c s s4 [eContainer (.header hd) es] r.errors false := by
      intro s4 hl4 hm
      have h4 := (hes.le hl4).le0 (hl1.trans hl2)
      refine RuOk.node h4 ?_ rfl rfl (attrOk_nil _) (by intro h; cases h) (by intro _ h; cases h) ⟨hlv.1, hlv.2, rfl⟩ (by simp) ?_
      · intro k' hk; simp [allowedKid, hk]
      · intro m
        have := (hes.le0 (hl1.trans hl2)).cnt m; have := hm m
        omega
    have hht : (s.p.cur.slice.getLast? == some '+') = hd.hasToc := by rw [← hhd]
    have hlvl : lv = hd.level := by rw [← hhd]
    split
    · rename_i htoc
      rw [hht] at htoc
      split
      · rename_i ct a es' heq
        rw [hr] at heq
        simp only [List.cons.injEq, Elem.mk.injEq, and_true] at heq
        obtain ⟨_, rfl⟩ := heq
        refine (pushToc_spec hi3 hes.goods).bind fun _ s4 hi4 hl4 h4 => ?_
        refine rest s4 hi4 hl4 (hnode s4 hl4 ?_)
        intro m
        cases m with
        | footnotes => simp [Meas.ofKind, Meas.size, h4.2.2]
        | headings => simp [Meas.ofKind, Meas.size, h4.2.1, htoc]; omega
      · rename_i hne
        exact (hne _ _ _ hr).elim
    · rename_i htoc
      rw [hht] at htoc
      refine rest s3 hi3 (Le.refl _) (hnode s3 (Le.refl _) ?_)
      intro m
      cases m <;> simp [Meas.ofKind, htoc]

theorem ruleHeader_spec (hc : ConsSpec c.D c.env cons) (hi : Inv c s) : RuleOk c s s (ruleHeader cons) := by
  unfold ruleHeader
  tri
  exact headerFn_spec hc _ hi (by omega)

theorem ruleHorizontalRule_spec (hi : Inv c s) (h : s.p.cur.token = .tripleDash) :
    RuleOk c s s ruleHorizontalRule := by
  unfold ruleHorizontalRule
  refine (checkStep_spec hi h).skip fun _ s1 hi1 hl1 => ?_
  refine (getOptionalLineBreak_spec hi1).skip fun _ s2 hi2 hl2 => ?_
  exact leafE hi2 (hl1.trans hl2) trivial

theorem evaluateFn_spec {f : M Bool} {Q : Bool → St → Prop} (hi : Inv c s) (h : Tri c s f Q) :
    Tri c s (evaluateFn f) fun _ _ => True := by
  unfold evaluateFn
  refine (onClone_spec hi h).bind ?_
  rintro ⟨o, q⟩ s' hi' _ _
  cases o <;> exact Tri.pure hi' trivial

theorem ruleLineBreak_spec (hi : Inv c s) : RuleOk c s s ruleLineBreak := by
  unfold ruleLineBreak
  refine Tri.skip (evaluateFn_spec (Q := fun _ _ => True) hi ?_) fun b s1 hi1 hl1 => ?_
  · refine (step_spec hi).skip fun _ s1 hi1 hl1 => ?_
    refine (getOptionalSpace_spec hi1).skip fun _ s2 hi2 hl2 => ?_
    tri
    exact Tri.pure hi2 trivial
  · split
    · exact nilE hi1 hl1
    · exact leafE hi1 hl1 trivial

theorem ruleLinkAnchor_spec (hi : Inv c s) (h : s.p.cur.token = .leftBracketAnchor) :
    RuleOk c s s ruleLinkAnchor := by
  unfold ruleLinkAnchor
  refine (checkStep_spec hi h).skip fun _ s1 hi1 hl1 => ?_
  refine (collectText_spec hi1).bind fun a s2 hi2 hl2 hn => ?_
  obtain ⟨_, m, _, _, _, _, _, hm, hp, rfl⟩ := hn
  tri
  refine (collectText_spec hi2).bind fun l s3 hi3 hl3 hn => ?_
  obtain ⟨_, m', _, _, _, _, _, hm', hp', rfl⟩ := hn
  refine leafE hi3 ((hl1.trans hl2).trans hl3) ⟨.inr ⟨?_, _, hi1.slices_past hm hp (by simp) (by simp), .inl ⟨rfl, rfl, ?_⟩⟩,
    by intro u _ h; cases h⟩
  · rintro t (e | e) <;> cases e
    exact (hi2.slices_past hm' hp' (by simp) (by simp)).trim
  · simp only [List.isEmpty_iff]
    split <;> rfl

theorem ruleLinkSingle_spec {o : Token} {t : Option AnchorTarget} (hi : Inv c s) (h : s.p.cur.token = o) :
    RuleOk c s s (ruleLinkSingle o t) := by
  unfold ruleLinkSingle
  refine (checkStep_spec hi h).skip fun _ s1 hi1 hl1 => ?_
  refine (collectText_spec hi1).bind fun a s2 hi2 hl2 hn => ?_
  obtain ⟨_, m, _, _, _, _, _, hm, hp, rfl⟩ := hn
  split
  · exact fail_spec hi2
  · rename_i hv
    refine (collectText_spec hi2).bind fun l s3 hi3 hl3 hn => ?_
    obtain ⟨_, m', _, _, _, _, _, hm', hp', rfl⟩ := hn
    refine leafE hi3 ((hl1.trans hl2).trans hl3) ⟨.inr ⟨?_, _, hi1.slices_past hm hp (by simp) (by simp), .inr (.inl ⟨rfl, rfl, ?_⟩)⟩,
      by intro u _ h; cases h⟩
    · rintro t (e | e) <;> cases e
      exact (hi2.slices_past hm' hp' (by simp) (by simp)).trim
    · simp only [Bool.not_eq_true', Bool.not_eq_false] at hv
      unfold urlValid at hv
      split at hv
      · cases hv
      · split at hv
        · next h => exact .inl (startsWith_iff.1 h)
        · exact .inr hv

theorem parseLinkLoc_spec {url : Str} (hi : Inv c s) : Tri c s (parseLinkLoc url) fun r s' => s' = s ∧
    LinkLoc.parseInterwiki c.env.settings.interwiki url = some (some r) := by
  unfold parseLinkLoc
  tri
  split
  · rename_i hn
    exfalso
    unfold LinkLoc.parseInterwiki at hn
    split at hn
    · cases hn
    · rename_i l _
      obtain ⟨r, hr, _⟩ := C18_build c.env.settings.interwiki l
      rw [hr] at hn; cases hn
  · exact fail_spec hi
  · exact Tri.pure hi ⟨rfl, ‹_›⟩

theorem splitOnce_infix {ch : Char} {a x y : Str} (h : splitOnce ch a = some (x, y)) : y <:+: a := by
  obtain ⟨rfl, _⟩ := splitOnce_some.1 h
  exact (List.suffix_append_of_suffix (List.suffix_cons ch y)).isInfix

theorem stripCategory_infix (n : Nat) : ∀ (url t : Str), stripCategory n url = some t → t <:+: url := by
  induction n with
  | zero => intro url t h; simp [stripCategory] at h
  | succ n ih =>
    intro url t h
    have ht : ∀ a : Str, trimStart a <:+: a := fun a => (List.dropWhile_suffix _).isInfix
    unfold stripCategory at h
    split at h
    · cases h
    · rename_i rest h1
      split at h
      · cases h
      · rename_i x r h2
        cases h
        refine List.IsInfix.trans ?_ ((splitOnce_infix h2).trans (splitOnce_infix h1))
        cases h3 : stripCategory n (trimStart r) with
        | none => exact ht r
        | some v => exact (ih _ _ h3).trans (ht r)
    · rename_i x rest _ h1
      cases h
      exact (ht rest).trans (splitOnce_infix h1)

theorem ruleLinkTriple_spec {o : Token} {t : Option AnchorTarget} (hi : Inv c s) (h : s.p.cur.token = o)
    (ho : o = .leftLink ∨ o = .leftLinkStar) : RuleOk c s s (ruleLinkTriple o t) := by
  unfold ruleLinkTriple
  refine (checkStep_spec hi h).bind fun _ s1 hi1 hl1 h1 => ?_
  refine (collectTextKeep_spec hi1).bind ?_
  rintro ⟨url, last⟩ s2 hi2 hl2 ⟨sl, m, hsl, hl3, hl4, hlast, hclose, hnext, hm, hpast, hurl⟩
  dsimp only at hlast hurl ⊢
  have hau : OnLine c.env.text (trim url) := hurl ▸ (hi1.slices_past hm hpast (by simp) (by simp)).trim
  split
  · exact fail_spec hi2
  · split
    · refine (parseLinkLoc_spec hi2).bind ?_
      rintro ⟨link, lt⟩ _ _ _ ⟨rfl, hloc⟩
      refine leafE hi2 (hl1.trans hl2) ⟨.inr ⟨?_, _, hau, .inr (.inr ⟨hloc, rfl⟩)⟩, by intro u _ h; cases h⟩
      rintro t (e | e)
      · cases e
      · simp only [LinkLabel.url.injEq] at e
        exact hau.of_infix (stripCategory_infix _ _ _ e)
    · split
      · rename_i hpipe
        refine (collectText_spec hi2).bind ?_
        rintro label s3 hi3 hl5 ⟨sl2, m2, hsl2, hl6, hl7, hclose2, hnext2, hm2, hpast2, hlab⟩
        refine (parseLinkLoc_spec hi3).bind ?_
        rintro ⟨link, lt⟩ _ _ _ ⟨rfl, hloc⟩
        refine leafE hi3 ((hl1.trans hl2).trans hl5) ⟨.inr ⟨?_, _, hau, .inr (.inr ⟨hloc, rfl⟩)⟩, ?_⟩
        · intro t e
          split at e
          · rcases e with e | e <;> cases e
          · rcases e with e | e <;> cases e
            exact hlab ▸ (hi2.slices_past hm2 hpast2 (by simp) (by simp)).trim
        intro u _ hpage
        -- the text of the link
        have hblank : trim label = [] := by
          by_cases hb : (trim label).isEmpty
          · simpa using hb
          · rw [if_neg hb] at hpage; cases hpage
        rw [trim_nil_iff] at hblank
        rw [hlast] at hpipe
        have hn := hnext (by rw [hpipe]; decide)
        have hr2 : sl2.p.cur.token = .rightLink := by
          simpa [evalAny, evalCond] using hclose2
        have hsplit : s.p.cur :: s.p.rem = (s.p.cur :: m ++ sl.p.cur :: m2) ++ sl2.p.cur :: sl2.p.rem := by
          rw [h1.2.1, hm, hn, hm2]; simp
        obtain ⟨a, ha⟩ := hi.text_at hsplit
        have hsh := hi.shape hi.cur_mem
        have hshp := hi.shape (t := sl.p.cur) hsl.cur_mem
        have hshr := hi.shape (t := sl2.p.cur) hsl2.cur_mem
        rw [hpipe] at hshp
        rw [hr2] at hshr
        simp only [TokenShape, tokenLiteral, Option.some.injEq] at hshp hshr
        rw [hlab] at hblank
        rw [h] at hsh
        rcases ho with rfl | rfl
        · simp only [TokenShape, tokenLiteral, Option.some.injEq] at hsh
          refine ⟨a, slicesOf m, slicesOf m2, slicesOf sl2.p.rem, ?_, hblank⟩
          show c.env.text = _
          rw [ha]
          simp [slicesOf, ← hsh, ← hshp, ← hshr]
        · simp only [TokenShape, tokenLiteral, Option.some.injEq] at hsh
          refine ⟨a, '*' :: slicesOf m, slicesOf m2, slicesOf sl2.p.rem, ?_, hblank⟩
          show c.env.text = _
          rw [ha]
          simp [slicesOf, ← hsh, ← hshp, ← hshr]
      · rename_i h2 h3
        exfalso
        rw [hlast] at h2 h3
        simp only [evalAny, evalCond, List.any_cons, List.any_nil, Bool.or_false, Bool.or_eq_true, beq_iff_eq] at hclose
        rcases hclose with h | h
        · exact h3 h
        · exact h2 h

theorem ruleMath_spec (hi : Inv c s) (h : s.p.cur.token = .leftMath) : RuleOk c s s ruleMath := by
  unfold ruleMath
  refine (checkStep_spec hi h).skip fun _ s1 hi1 hl1 => ?_
  refine (collectText_spec hi1).bind fun _ s2 hi2 hl2 hn => ?_
  obtain ⟨_, m, _, _, _, _, _, hm, hp, rfl⟩ := hn
  exact leafE hi2 (hl1.trans hl2) (hi1.slices_past hm hp (by simp) (by simp)).trim

theorem lookAheadErr_spec {n : Nat} (hi : Inv c s) : Tri c s (lookAheadErr n) fun t s' => s' = s ∧ s.p.rem[n]? = some t := by
  unfold lookAheadErr
  tri
  split
  · rename_i h; exact Tri.pure hi ⟨rfl, h⟩
  · exact fail_spec hi

theorem rawScan_spec {t : Token} (hi : Inv c s) : RuleOk c s s (rawScan t) := by
  unfold rawScan
  refine (step_spec hi).bind fun start s1 hi1 hl1 h1 => ?_
  have hst : start = s1.p.cur := h1.1.symm
  subst hst
  refine loop_spec (I := fun stop s' => stop = s'.p.cur ∧ ∃ m, s1.p.cur :: s1.p.rem = m ++ s'.p.cur :: s'.p.rem ∧
    ∀ x ∈ m, x.token ≠ .lineBreak ∧ x.token ≠ .paragraphBreak) hi1 ⟨rfl, [], rfl, by simp⟩ ?_
  rintro stop s2 hi2 hl2 ⟨rfl, m', hm', hline⟩
  tri
  split
  · refine (slicePartialText_spec hi2 hi1 hl2).bind ?_
    rintro x _ _ _ ⟨rfl, m, hm, rfl⟩
    refine (step_spec hi2).skip fun _ s3 hi3 hl3 => ?_
    have e : m = m' := by
      have := hm.symm.trans hm'
      have hl := congrArg List.length this
      simp only [List.length_append, List.length_cons] at hl
      exact (List.append_inj this (by omega)).1
    refine (leafE (s0 := s) (k := .raw _) hi3 ((hl1.trans hl2).trans hl3) (e ▸ hi1.slices_line hm' hline)).bind fun r s4 hi4 hl4 h => ?_
    exact Tri.pure hi4 h
  · split
    · exact fail_spec hi2
    · rename_i hb
      split
      · exact fail_spec hi2
      · refine (step_spec' hi2).bind fun n s3 hi3 hl3 h => ?_
        simp only [Bool.or_eq_true, decide_eq_true_eq, not_or] at hb
        refine Tri.pure hi3 ⟨h.2.2.1, h.1.symm, m' ++ [s2.p.cur], ?_, ?_⟩
        · rw [hm']
          have := h.2.1
          simp [this, h.1]
        · intro x hx
          rcases List.mem_append.1 hx with hx | hx
          · exact hline x hx
          · rw [List.mem_singleton.1 hx]; exact hb

theorem Inv.ahead_infix (hi : Inv c s) {n : Nat} {t : ETok} (h : s.p.rem[n]? = some t) : t.slice <:+: c.env.text ∧
    ('\n' ∈ t.slice → t.token = .lineBreak ∨ t.token = .paragraphBreak) := by
  refine ⟨?_, C57_line_ends c.env.text t (hi.wf ▸ hi.sfx.subset (List.mem_cons_of_mem _ (List.mem_of_getElem? h)))⟩
  obtain ⟨a, b, e⟩ := List.append_of_mem (List.mem_of_getElem? h)
  obtain ⟨x, hx⟩ := hi.text_at (m := s.p.cur :: a) (r := t :: b) (by rw [e]; rfl)
  exact ⟨x ++ slicesOf (s.p.cur :: a), slicesOf b, by rw [hx]; simp [slicesOf]⟩

theorem ruleRaw_spec (hi : Inv c s) (h : s.p.cur.token = .raw ∨ s.p.cur.token = .leftRaw) : RuleOk c s s ruleRaw := by
  unfold ruleRaw
  tri
  split
  · next h0 =>
    have i0 : c!"@@" <:+: c.env.text := by
      have := hi.shape hi.cur_mem
      rw [h0] at this
      simp only [TokenShape, tokenLiteral, Option.some.injEq] at this
      exact this ▸ hi.cur_infix
    refine (lookAheadErr_spec hi).bind ?_
    rintro n1 _ _ _ ⟨rfl, g1⟩
    refine (lookAheadErr_spec hi).bind ?_
    rintro n2 _ _ _ ⟨rfl, g2⟩
    have i1 := hi.ahead_infix g1
    have i2 := hi.ahead_infix g2
    split
    · next hn1 =>
      split
      · exact (stepN_spec 3 hi).skip fun _ s1 hi1 hl1 => leafE hi1 hl1 ⟨i0, by decide⟩
      · split
        · next hn2 =>
          simp only [Bool.and_eq_true, decide_eq_true_eq] at hn2
          exact (stepN_spec 3 hi).skip fun _ s1 hi1 hl1 => leafE hi1 hl1 ⟨hn2.2 ▸ i2.1, by decide⟩
        · exact (stepN_spec 2 hi).skip fun _ s1 hi1 hl1 => leafE hi1 hl1 ⟨List.nil_infix, by simp⟩
    · split
      · exact fail_spec hi
      · rename_i hb
        split
        · rename_i hr
          refine (stepN_spec 3 hi).skip fun _ s1 hi1 hl1 => leafE hi1 hl1 ⟨i1.1, fun hn => hb ?_⟩
          rw [hr]
          rcases i1.2 hn with e | e <;> simp [e]
        · exact rawScan_spec hi
  · split
    · exact rawScan_spec hi
    · rename_i h1 h2
      rcases h with h | h
      · exact (h1 h).elim
      · exact (h2 h).elim

theorem ruleUnderscoreLineBreak_spec (hi : Inv c s) : RuleOk c s s ruleUnderscoreLineBreak := by
  have fin : ∀ s1, Inv c s1 → Le s s1 → RuleOk c s s1 (do
      let two ← nextTwo
      if two = (.underscore, some .lineBreak) || two = (.underscore, some .paragraphBreak) then do
        stepN 2
        okE [eLineBreak]
      else fail .ruleFailed) := by
    intro s1 hi1 hl1
    tri
    split
    · exact (stepN_spec 2 hi1).skip fun _ s2 hi2 hl2 => leafE hi2 (hl1.trans hl2) trivial
    · exact fail_spec hi1
  unfold ruleUnderscoreLineBreak
  tri
  split
  · exact (step_spec hi).skip fun _ s1 hi1 hl1 => fin s1 hi1 hl1
  · split
    · exact fin s hi (Le.refl _)
    · exact Tri.bind (Q := fun _ _ => True) (fail_spec hi) fun _ s1 hi1 hl1 _ => fin s1 hi1 hl1

theorem ruleUrl_spec (hi : Inv c s) (h : s.p.cur.token = .url) : RuleOk c s s ruleUrl := by
  unfold ruleUrl
  tri
  have hl : OnLine c.env.text s.p.cur.slice := by
    have := hi.slices_line (m := [s.p.cur]) (r := s.p.rem) rfl (by simp [h])
    simpa [slicesOf] using this
  have hs := hi.shape hi.cur_mem
  rw [h] at hs
  obtain ⟨rest, _, hs, _⟩ := hs
  refine leafE hi (Le.refl _) ⟨.inr ⟨?_, _, hl, .inr (.inl ⟨rfl, rfl, .inr ?_⟩)⟩, by intro u _ h; cases h⟩
  · rintro t (e | e) <;> cases e
  · unfold isUrl
    rw [List.any_eq_true]
    rcases hs with e | e | e <;> rw [e]
    · exact ⟨c!"http://", by decide, startsWith_iff.2 (List.prefix_append _ _)⟩
    · exact ⟨c!"https://", by decide, startsWith_iff.2 (List.prefix_append _ _)⟩
    · exact ⟨c!"ftp://", by decide, startsWith_iff.2 (List.prefix_append _ _)⟩

theorem stripSfx_append (a b : Str) : stripSfx b (a ++ b) = some a := by
  unfold stripSfx
  have : stripPfx b.reverse (a ++ b).reverse = some a.reverse := stripPfx_some.2 (by simp)
  rw [this]; simp

theorem ruleVariable_spec (hi : Inv c s) (h : s.p.cur.token = .variable) : RuleOk c s s ruleVariable := by
  unfold ruleVariable
  tri
  have := hi.shape hi.cur_mem
  rw [h] at this
  obtain ⟨name, h1, h2, h3⟩ := this
  have : (stripPfx c!"{$" s.p.cur.slice).bind (stripSfx c!"}") = some name := by
    rw [h3]
    have : stripPfx c!"{$" (c!"{$" ++ name ++ c!"}") = some (name ++ c!"}") := stripPfx_some.2 (by simp)
    rw [this]
    exact stripSfx_append _ _
  rw [this]
  cases name with
  | nil => exact (h1 rfl).elim
  | cons x xs => exact leafE hi (Le.refl _) ⟨⟨h1, h2⟩, h3 ▸ hi.cur_infix⟩

/-! ### Tables -/

theorem parseCellStart_spec (hi : Inv c s) : Tri c s parseCellStart fun r s' => ∀ cs, r = some cs →
    1 ≤ cs.span ∧ s'.p.rem.length < s.p.rem.length := by
  unfold parseCellStart
  refine loop_spec (I := fun span s' => 1 ≤ span → s'.p.rem.length < s.p.rem.length) hi (by simp) ?_
  intro span s1 hi1 hl1 hI
  have key : ∀ {x : Option CellStart} {R : Turn Nat (Option CellStart) → St → Prop},
      (∀ s2, s2.p.rem.length < s.p.rem.length → R (.done x) s2) → Tri c s1 (do
      let _ ← step
      pure (Turn.done (σ := Nat) x)) R := by
    intro x R hx
    refine (step_spec' hi1).bind fun _ s2 hi2 hl2 h => ?_
    refine Tri.pure hi2 (hx _ ?_)
    have := h.2.2.1; have := hl1.len; omega
  tri
  split
  · refine key ?_; intro s2 h2 cs h; cases h; exact ⟨by simp, h2⟩
  · refine key ?_; intro s2 h2 cs h; cases h; exact ⟨by simp, h2⟩
  · refine key ?_; intro s2 h2 cs h; cases h; exact ⟨by simp, h2⟩
  · refine key ?_; intro s2 h2 cs h; cases h; exact ⟨by simp, h2⟩
  · refine (step_spec' hi1).bind fun _ s2 hi2 hl2 h => ?_
    refine Tri.pure hi2 ⟨h.2.2.1, fun _ => ?_⟩
    have := h.2.2.1; have := hl1.len; omega
  · split
    · refine Tri.pure hi1 ?_
      intro cs h; cases h
      exact ⟨by assumption, hI (by assumption)⟩
    · refine Tri.pure hi1 ?_
      intro cs h; cases h

theorem tableCell_spec {errors : List PErr} (hc : ConsSpec c.D c.env cons) (hi : Inv c s)
    (he : ∀ x ∈ errors, ErrOk c.env x) : Tri c s (tableCell cons errors) fun r s' =>
      EsOk c s s' r.1 r.2.1 false := by
  unfold tableCell
  refine loop_spec (I := fun acc s' => EsOk c s s' acc.1 acc.2 false) hi
    ((EsOk.nil (Le.refl _)).errs_of he) ?_
  rintro ⟨elements, errors⟩ s1 hi1 hl1 hI
  dsimp only at hI ⊢
  tri
  split
  · split
    · exact (step_spec hi1).skip fun _ s2 hi2 hl2 => Tri.pure hi2 (hI.le hl2)
    · split
      · exact (stepN_spec 2 hi1).skip fun _ s2 hi2 hl2 => Tri.pure hi2 (hI.le hl2)
      · exact Tri.pure hi1 hI
  · split
    · exact (step_spec' hi1).bind fun _ s2 hi2 hl2 h => Tri.pure hi2 ⟨h.2.2.1, hI.le hl2⟩
    · split <;>
      · split
        · exact (step_spec' hi1).bind fun _ s2 hi2 hl2 h => Tri.pure hi2 ⟨h.2.2.1, hI.le hl2⟩
        · split
          · exact Tri.pure hi1 hI
          · refine (hc c s1 rfl rfl hi1).bind fun r s2 hi2 hl2 h => ?_
            exact Tri.pure hi2 ⟨h.2, (hI.append h.1 hl2).ps_of (by simp)⟩

/-- Nodes all of one kind. -/
structure NsOk (c : Ctx) (s0 s : St) (ok : Kind → Prop) (es : List Elem) (errs : List PErr) : Prop where
  gs : GsOk c s0 s es
  kind : ∀ e ∈ es, ok e.kind
  errs : ∀ x ∈ errs, ErrOk c.env x

theorem tableRow_spec {errors : List PErr} (hc : ConsSpec c.D c.env cons) (hi : Inv c s)
    (he : ∀ x ∈ errors, ErrOk c.env x) : Tri c s (tableRow cons errors) fun r s' =>
      NsOk c s s' (fun k => ∃ a b d e, k = .cell a b d e) r.1 r.2.1 ∧
      (r.2.2 = .endRow → s'.p.rem.length < s.p.rem.length) := by
  unfold tableRow
  refine loop_spec (I := fun acc s' => NsOk c s s' (fun k => ∃ a b d e, k = .cell a b d e) acc.1 acc.2) hi
    ⟨GsOk.nil (Le.refl _), by simp, he⟩ ?_
  rintro ⟨cells, errors⟩ s1 hi1 hl1 hI
  dsimp only at hI ⊢
  refine (parseCellStart_spec hi1).bind fun o s2 hi2 hl2 ho => ?_
  cases o with
  | none => exact Tri.pure hi2 ⟨⟨hI.gs.le hl2, hI.kind, hI.errs⟩, by simp⟩
  | some cs =>
    obtain ⟨hsp, hlen⟩ := ho cs rfl
    refine (tableCell_spec hc hi2 hI.errs).bind ?_
    rintro ⟨es, errors', how⟩ s3 hi3 hl3 h3
    dsimp only at h3 ⊢
    have hcell : GsOk c s1 s3 [.mk (.cell cs.header cs.span cs.align []) es] := by
      refine (h3.le0 hl2).gs.node (by simp) (NodeOk.plain ?_ hsp)
      intro e he
      have := h3.elem e he
      simp [allowedKid, this]
    have hcells : NsOk c s s3 (fun k => ∃ a b d e, k = .cell a b d e)
        (cells ++ [.mk (.cell cs.header cs.span cs.align []) es]) errors' := by
      refine ⟨hI.gs.append hcell (hl2.trans hl3), ?_, h3.errs⟩
      intro e he
      rcases List.mem_append.1 he with he | he
      · exact hI.kind e he
      · simp only [List.mem_singleton] at he; subst he; exact ⟨_, _, _, _, rfl⟩
    have hlen3 : s3.p.rem.length < s1.p.rem.length := by have := hl3.len; omega
    cases how with
    | endTable => exact Tri.pure hi3 ⟨hcells, by simp⟩
    | endRow => exact Tri.pure hi3 ⟨hcells, fun _ => by have := hl1.len; dsimp only at *; omega⟩
    | nextCell => exact Tri.pure hi3 ⟨hlen3, hcells⟩
    | finish => exact Tri.pure hi3 ⟨⟨hI.gs.le (hl2.trans hl3), hI.kind, h3.errs⟩, by simp⟩

theorem table_attrs (st : Settings) {t : Str} : AttrOk st t (attrInsert [] c!"class" c!"wj-table").2 := by
  have : (attrInsert [] c!"class" c!"wj-table").2 = [(c!"class", c!"wj-table")] := by decide +kernel
  rw [this]
  refine ⟨by simp [SortedKeys], ?_⟩
  intro k v h
  simp only [List.mem_singleton, Prod.mk.injEq] at h
  obtain ⟨rfl, rfl⟩ := h
  refine ⟨.inl (by decide +kernel), .inl (by decide +kernel), ?_, ?_, .inr (.inl ⟨rfl, rfl⟩)⟩
  · intro h; exfalso; revert h; decide
  · intro _ h; exfalso; revert h; decide

theorem ruleTable_spec (hc : ConsSpec c.D c.env cons) (hi : Inv c s) : RuleOk c s s (ruleTable cons) := by
  unfold ruleTable
  refine Tri.bind (Q := fun acc s' => NsOk c s s' (fun k => ∃ a, k = .row a) acc.1 acc.2)
    (loop_spec (I := fun acc s' => NsOk c s s' (fun k => ∃ a, k = .row a) acc.1 acc.2) hi
      ⟨GsOk.nil (Le.refl _), by simp, by simp⟩ ?_) ?_
  · rintro ⟨rows, errors⟩ s1 hi1 hl1 hI
    dsimp only at hI ⊢
    refine (tableRow_spec hc hi1 hI.errs).bind ?_
    rintro ⟨cells, errors', how⟩ s2 hi2 hl2 ⟨h2, hlen⟩
    dsimp only at h2 hlen ⊢
    have hrow : GsOk c s1 s2 [.mk (.row []) cells] := by
      refine h2.gs.node (by simp) (NodeOk.plain ?_ trivial)
      intro e he
      obtain ⟨_, _, _, _, hk⟩ := h2.kind e he
      rw [hk]; rfl
    have hrows : NsOk c s s2 (fun k => ∃ a, k = .row a) (rows ++ [.mk (.row []) cells]) errors' := by
      refine ⟨hI.gs.append hrow hl2, ?_, h2.errs⟩
      intro e he
      rcases List.mem_append.1 he with he | he
      · exact hI.kind e he
      · simp only [List.mem_singleton] at he; subst he; exact ⟨_, rfl⟩
    cases how with
    | endTable => exact Tri.pure hi2 hrows
    | endRow => exact Tri.pure hi2 ⟨hlen rfl, hrows⟩
    | finish =>
      dsimp only
      split
      · exact fail_spec hi2
      · exact Tri.pure hi2 ⟨hI.gs.le hl2, hI.kind, h2.errs⟩
  · rintro ⟨rows, errors⟩ s1 hi1 hl1 h
    dsimp only at h ⊢
    have : GsOk c s s1 [.mk (.table (attrInsert [] c!"class" c!"wj-table").2) rows] := by
      refine h.gs.node (by simp) ⟨?_, (by intro h; cases h), table_attrs _, (by intro h; cases h), (by intro _ h; cases h), trivial⟩
      intro e he
      obtain ⟨_, hk⟩ := h.kind e he
      rw [hk]; rfl
    refine okP_spec hi1 (this.toEs ?_ h.errs (by simp)).toRuOk
    intro e he; simp only [List.mem_singleton] at he; subst he; rfl

/-! ### Lists and blockquotes -/

/-- The payloads of a sequence of items, with the flag `f` gives. -/
abbrev payloads {L T : Type} (f : T → List Elem × Bool) (items : List (Nat × L × T)) : List (List Elem × Bool) :=
  items.map fun x => f x.2.2

mutual
theorem buildListItem_ok {s s' : St} (d : Nat) (l : ListType) : (i : DItem ListType (List Elem)) → niceItem i →
    Chain c s (payloads (fun es => (es, false)) (readItem d l i)) s' →
    GsOk c s s' [buildListItem i] ∧ ∀ l a, allowedKid (.list l a) (buildListItem i).kind = true
  | .item es, _, h => by
    simp only [readItem, payloads, List.map_cons, List.map_nil] at h
    obtain ⟨s1, h1, h2, h3⟩ := h
    refine ⟨?_, fun _ _ => rfl⟩
    have h2 := h2.le h3
    refine h2.gs.node (by simp) (NodeOk.plain ?_ trivial)
    intro e he
    have := h2.elem e he
    simp [allowedKid, this]
  | .list l' xs, hn, h => by
    simp only [readItem] at h
    simp only [niceItem] at hn
    have := buildListItems_ok (d + 1) l' xs hn.2.2 h
    refine ⟨?_, fun _ _ => rfl⟩
    unfold buildListItem
    have hlist : GsOk c s s' [.mk (.list l' []) (buildListItem.go xs)] := by
      refine this.1.node (by simp) (NodeOk.plain (fun e he => this.2 e he _ _) ?_)
      cases xs with
      | nil => exact (hn.1 rfl).elim
      | cons x xs => simp [Special, buildListItem.go]
    refine hlist.node (by simp) (NodeOk.plain ?_ rfl)
    intro e he
    simp only [List.mem_singleton] at he; subst he; rfl
theorem buildListItems_ok {s s' : St} (d : Nat) (l : ListType) : (is : List (DItem ListType (List Elem))) →
    niceItems is → Chain c s (payloads (fun es => (es, false)) (readItems d l is)) s' →
    GsOk c s s' (buildListItem.go is) ∧ ∀ e ∈ buildListItem.go is, ∀ l a, allowedKid (.list l a) e.kind = true
  | [], _, h => by
    simp only [readItems, payloads, List.map_nil, Chain] at h
    exact ⟨GsOk.nil h, by simp [buildListItem.go]⟩
  | x :: xs, hn, h => by
    simp only [readItems, payloads, List.map_append] at h
    simp only [niceItems] at hn
    obtain ⟨s1, h1, h2⟩ := h.split
    have e1 := buildListItem_ok d l x hn.1 h1
    have e2 := buildListItems_ok d l xs hn.2 h2
    refine ⟨e1.1.append e2.1 h2.toLe, ?_⟩
    intro e he
    rcases List.mem_cons.1 he with rfl | he
    · exact e1.2
    · exact e2.2 e he
end

theorem niceTrees_cons {L T : Type} {l : L} {xs : List (DItem L T)} {ts : List (L × List (DItem L T))}
    (h : niceTrees ((l, xs) :: ts)) : xs ≠ [] ∧ niceItems xs ∧ niceTrees ts := by
  cases ts with
  | nil => exact ⟨h.1, h.2.2, trivial⟩
  | cons t ts => exact ⟨h.1, h.2.2.1, h.2.2.2.2⟩

theorem buildLists_ok {s s' : St} (ts : List (ListType × List (DItem ListType (List Elem)))) (hn : niceTrees ts)
    (h : Chain c s (payloads (fun es => (es, false)) (readTrees ts)) s') :
    GsOk c s s' (ts.map fun l => buildList l.1 l.2) := by
  induction ts generalizing s with
  | nil => simp only [readTrees, payloads, List.flatMap_nil, List.map_nil, Chain] at h; exact GsOk.nil h
  | cons t ts ih =>
    obtain ⟨l, xs⟩ := t
    have hn := niceTrees_cons hn
    simp only [readTrees, payloads, List.flatMap_cons, List.map_append] at h
    obtain ⟨s1, h1, h2⟩ := h.split
    have e1 := buildListItems_ok 0 l xs hn.2.1 h1
    have e2 := ih hn.2.2 h2
    refine GsOk.append (es := [_]) ?_ e2 h2.toLe
    refine e1.1.node (by simp) (NodeOk.plain (fun e he => e1.2 e he _ _) ?_)
    cases xs with
    | nil => exact (hn.1 rfl).elim
    | cons x xs => simp [Special, buildListItem.go]

theorem ruleList_spec (hc : ConsSpec c.D c.env cons) (hi : Inv c s) : RuleOk c s s (ruleList cons) := by
  unfold ruleList
  refine Tri.bind (Q := fun (acc : List (Nat × ListType × List Elem) × List PErr) s' => Chain c s (payloads (fun es => (es, false)) acc.1) s' ∧ ∀ x ∈ acc.2, ErrOk c.env x)
    (loop_spec (I := fun (acc : List (Nat × ListType × List Elem) × List PErr) s' => Chain c s (payloads (fun es => (es, false)) acc.1) s' ∧
      ∀ x ∈ acc.2, ErrOk c.env x) hi ⟨Le.refl _, by simp⟩ ?_) ?_
  · rintro ⟨items, errors⟩ s1 hi1 hl1 ⟨hI, hE⟩
    dsimp only at hI hE ⊢
    unfold listTurn
    tri
    have rest : ∀ {R : Turn (List (Nat × ListType × List Elem) × List PErr) _ → St → Prop} (depth : Nat) (s2 : St),
        Inv c s2 → Le s1 s2 →
        (∀ s3, Chain c s (payloads (fun es => (es, false)) items) s3 → R (.done (items, errors)) s3) →
        (∀ s3 its ers, s3.p.rem.length < s1.p.rem.length → Chain c s (payloads (fun es => (es, false)) its) s3 →
          (∀ x ∈ ers, ErrOk c.env x) → R (.more (its, ers)) s3) →
        Tri c s2 (if depth > maxListDepth then fail .listDepthExceeded
      else do
        match getListType (← curTok) with
        | none => pure (Turn.done (items, errors))
        | some lt => do
          let _ ← step
          if (← curTok) ≠ .whitespace then pure (Turn.done (items, errors))
          else do
            let _ ← step
            let r ← collectConsume cons [.cur .lineBreak, .cur .inputEnd, .cur .paragraphBreak] [] none
            pure (Turn.more (items ++ [(depth, lt, r.item)], errors ++ r.errors))) R := by
      intro R depth s2 hi2 hl2 hd hm
      split
      · exact fail_spec hi2
      · tri
        split
        · exact Tri.pure hi2 (hd _ (hI.le hl2))
        · refine (step_spec' hi2).bind fun _ s3 hi3 hl3 h3 => ?_
          tri
          split
          · exact Tri.pure hi3 (hd _ (hI.le (hl2.trans hl3)))
          · refine (step_spec hi3).skip fun _ s4 hi4 hl4 => ?_
            refine (collectConsume_spec hc hi4).bind fun r s5 hi5 hl5 h5 => ?_
            refine Tri.pure hi5 (hm _ _ _ ?_ ?_ ?_)
            · have := h3.2.2.1; have := hl2.len; have := hl4.len; have := hl5.len; omega
            · simp only [payloads, List.map_append, List.map_cons, List.map_nil]
              refine (hI.le (hl2.trans (hl3.trans hl4))).snoc ?_ hl5
              exact (h5.ps_false).errs_of (by simp)
            · intro x hx
              rcases List.mem_append.1 hx with hx | hx
              · exact hE x hx
              · exact h5.errs x hx
    split
    · split
      · refine (step_spec hi1).skip fun _ s2 hi2 hl2 => ?_
        exact rest _ s2 hi2 hl2 (fun s3 h => ⟨h, hE⟩) (fun s3 its ers h1 h2 h3 => ⟨h1, h2, h3⟩)
      · exact rest _ s1 hi1 (Le.refl _) (fun s3 h => ⟨h, hE⟩) (fun s3 its ers h1 h2 h3 => ⟨h1, h2, h3⟩)
    · exact Tri.pure hi1 ⟨hI, hE⟩
  · rintro ⟨items, errors⟩ s1 hi1 hl1 ⟨hI, hE⟩
    dsimp only at hI hE ⊢
    split
    · exact fail_spec hi1
    · obtain ⟨trees, h1, h2, h3⟩ := C15_process_depths ListType.generic items
      rw [h1]
      simp only [unwrap]
      tri
      rw [← h2] at hI
      have := buildLists_ok trees h3 hI
      refine okP_spec hi1 (this.toEs ?_ hE (by simp)).toRuOk
      intro e he
      obtain ⟨t, _, rfl⟩ := List.mem_map.1 he
      rfl

mutual
theorem quoteItem_ok {s0 s s' : St} (d : Nat) {st : PStack} : (i : DItem Unit (List Elem × Bool)) →
    StOk c s0 s st → st.errors = [] → Chain c s (payloads id (readItem d () i)) s' →
    StOk c s0 s' (quoteItem i st) ∧ (quoteItem i st).errors = []
  | .item (es, ps), hs, he, h => by
    simp only [readItem, payloads, List.map_cons, List.map_nil, id] at h
    obtain ⟨s1, h1, h2, h3⟩ := h
    unfold quoteItem
    refine ⟨(hs.foldl h1 h2).le h3, ?_⟩
    have : ∀ (es : List Elem) (st : PStack), (es.foldl (fun s e => s.pushElement e ps) st).errors = st.errors := by
      intro es
      induction es with
      | nil => intro st; rfl
      | cons e es ih =>
        intro st
        simp only [List.foldl_cons, ih]
        unfold PStack.pushElement PStack.endParagraph
        split <;> (try split) <;> rfl
    rw [this]; exact he
  | .list _ xs, hs, he, h => by
    simp only [readItem] at h
    have := quoteItems_ok (s0 := s) (d + 1) (st := PStack.new) xs (StOk.new (Le.refl _)) rfl h
    unfold quoteItem
    refine ⟨?_, ?_⟩
    · have hq : EsOk c s s' [eContainer .blockquote (quoteItem.go xs PStack.new).popLineBreak.intoElements] [] false := by
        have hf := this.1.popLineBreak.finish
        have herr : (quoteItem.go xs PStack.new).popLineBreak.errors = [] := by
          unfold PStack.popLineBreak; split <;> exact this.2
        rw [herr] at hf
        exact EsOk.of_ru (RuOk.container hf (by simp) (by simp) (attrOk_nil _) (by simp)) (by simp [Elem.kind])
      exact hs.popLineBreak.pushElement hq h.toLe
    · unfold PStack.pushElement PStack.endParagraph PStack.popLineBreak
      repeat' split
      all_goals exact he
theorem quoteItems_ok {s0 s s' : St} (d : Nat) {st : PStack} : (is : List (DItem Unit (List Elem × Bool))) →
    StOk c s0 s st → st.errors = [] → Chain c s (payloads id (readItems d () is)) s' →
    StOk c s0 s' (quoteItem.go is st) ∧ (quoteItem.go is st).errors = []
  | [], hs, he, h => by
    simp only [readItems, payloads, List.map_nil, Chain] at h
    exact ⟨hs.le h, he⟩
  | x :: xs, hs, he, h => by
    simp only [readItems, payloads, List.map_append] at h
    obtain ⟨s1, h1, h2⟩ := h.split
    have e1 := quoteItem_ok d x hs he h1
    exact quoteItems_ok d xs e1.1 e1.2 h2
end

theorem buildQuotes_ok {s s' : St} (ts : List (Unit × List (DItem Unit (List Elem × Bool))))
    (h : Chain c s (payloads id (readTrees ts)) s') :
    EsOk c s s' (ts.map fun l => buildBlockquote l.2) [] false := by
  induction ts generalizing s with
  | nil => simp only [readTrees, payloads, List.flatMap_nil, List.map_nil, Chain] at h; exact EsOk.nil h
  | cons t ts ih =>
    obtain ⟨l, xs⟩ := t
    simp only [readTrees, payloads, List.flatMap_cons, List.map_append] at h
    obtain ⟨s1, h1, h2⟩ := h.split
    have this := quoteItems_ok (s0 := s) 0 (st := PStack.new) xs (StOk.new (Le.refl _)) rfl h1
    have hq : EsOk c s s1 [buildBlockquote xs] [] false := by
      have hf := this.1.popLineBreak.finish
      have herr : (quoteItem.go xs PStack.new).popLineBreak.errors = [] := by
        unfold PStack.popLineBreak; split <;> exact this.2
      rw [herr] at hf
      exact EsOk.of_ru (RuOk.container hf (by simp) (by simp) (attrOk_nil _) (by simp)) (by simp [Elem.kind, buildBlockquote])
    exact hq.append (ih h2) h2.toLe

theorem ruleBlockquote_spec (hc : ConsSpec c.D c.env cons) (hi : Inv c s) : RuleOk c s s (ruleBlockquote cons) := by
  unfold ruleBlockquote
  refine Tri.bind (Q := fun (acc : List (Nat × Unit × (List Elem × Bool)) × List PErr) s' => Chain c s (payloads id acc.1) s' ∧ ∀ x ∈ acc.2, ErrOk c.env x)
    (loop_spec (I := fun (acc : List (Nat × Unit × (List Elem × Bool)) × List PErr) s' => Chain c s (payloads id acc.1) s' ∧
      ∀ x ∈ acc.2, ErrOk c.env x) hi ⟨Le.refl _, by simp⟩ ?_) ?_
  · rintro ⟨items, errors⟩ s1 hi1 hl1 ⟨hI, hE⟩
    dsimp only at hI hE ⊢
    unfold quoteTurn
    tri
    split
    · exact Tri.pure hi1 ⟨hI, hE⟩
    · refine (step_spec' hi1).bind fun _ s2 hi2 hl2 h2 => ?_
      refine (getOptionalSpace_spec hi2).skip fun _ s3 hi3 hl3 => ?_
      split
      · exact fail_spec hi3
      · refine (collectConsume_spec hc hi3).bind fun r s4 hi4 hl4 h4 => ?_
        refine Tri.pure hi4 ⟨?_, ?_, ?_⟩
        · have := h2.2.2.1; have := hl3.len; have := hl4.len; omega
        · simp only [payloads, List.map_append, List.map_cons, List.map_nil, id]
          refine (hI.le (hl2.trans hl3)).snoc ?_ hl4
          have hb : EsOk c s4 s4 [eLineBreak] [] true :=
            EsOk.of_ru (RuOk.simple (Le.refl _) rfl rfl rfl rfl trivial (fun _ h => by cases h)) (by simp [Elem.kind])
          have := (h4.errs_of (errs' := []) (by simp)).append hb (Le.refl _)
          exact this.ps_of (by simp)
        · intro x hx
          rcases List.mem_append.1 hx with hx | hx
          · exact hE x hx
          · exact h4.errs x hx
  · rintro ⟨items, errors⟩ s1 hi1 hl1 ⟨hI, hE⟩
    dsimp only at hI hE ⊢
    split
    · exact fail_spec hi1
    · obtain ⟨trees, h1, h2, h3⟩ := C15_process_depths () items
      rw [h1]
      simp only [unwrap]
      tri
      rw [← h2] at hI
      exact okP_spec hi1 ((buildQuotes_ok trees hI).errs_of hE).toRuOk

end
end Ftml
