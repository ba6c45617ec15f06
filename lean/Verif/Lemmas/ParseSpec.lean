import Verif.Props.Depth
import Verif.Lemmas.BlocksSpec
/- Specifications of the block rule, `consume` and `parse`. -/
namespace Ftml
open M

/-! ### All blocks -/

theorem allBlocks_spec : ∀ r ∈ blockRules, BSpec r.info r.parse := by
  unfold blockRules
  refine List.forall_mem_cons.2 ⟨blkAlign_spec rfl rfl, ?_⟩
  refine List.forall_mem_cons.2 ⟨blkAlign_spec rfl rfl, ?_⟩
  refine List.forall_mem_cons.2 ⟨blkAlign_spec rfl rfl, ?_⟩
  refine List.forall_mem_cons.2 ⟨blkAlign_spec rfl rfl, ?_⟩
  refine List.forall_mem_cons.2 ⟨blkAnchor_spec rfl, ?_⟩
  refine List.forall_mem_cons.2 ⟨blkBibcite_spec rfl, ?_⟩
  refine List.forall_mem_cons.2 ⟨blkBibliography_spec rfl rfl rfl, ?_⟩
  refine List.forall_mem_cons.2 ⟨blkBlockquote_spec rfl rfl, ?_⟩
  refine List.forall_mem_cons.2 ⟨blkContainer_spec rfl rfl rfl (by simp), ?_⟩
  refine List.forall_mem_cons.2 ⟨blkChar_spec rfl rfl rfl, ?_⟩
  refine List.forall_mem_cons.2 ⟨blkCheckbox_spec rfl rfl, ?_⟩
  refine List.forall_mem_cons.2 ⟨blkCode_spec rfl rfl rfl, ?_⟩
  refine List.forall_mem_cons.2 ⟨blkCollapsible_spec rfl rfl rfl, ?_⟩
  refine List.forall_mem_cons.2 ⟨blkDate_spec rfl rfl rfl, ?_⟩
  refine List.forall_mem_cons.2 ⟨blkContainer_spec rfl rfl rfl (by simp), ?_⟩
  refine List.forall_mem_cons.2 ⟨blkDiv_spec rfl, ?_⟩
  refine List.forall_mem_cons.2 ⟨blkEmbed_spec rfl rfl rfl, ?_⟩
  refine List.forall_mem_cons.2 ⟨blkEquationRef_spec rfl rfl rfl, ?_⟩
  refine List.forall_mem_cons.2 ⟨blkFootnote_spec rfl rfl rfl, ?_⟩
  refine List.forall_mem_cons.2 ⟨blkFootnoteBlock_spec rfl rfl rfl, ?_⟩
  refine List.forall_mem_cons.2 ⟨blkContainer_spec rfl rfl rfl (by simp), ?_⟩
  refine List.forall_mem_cons.2 ⟨blkHtml_spec rfl rfl rfl, ?_⟩
  refine List.forall_mem_cons.2 ⟨blkIfCategory_spec rfl rfl, ?_⟩
  refine List.forall_mem_cons.2 ⟨blkIframe_spec rfl rfl rfl, ?_⟩
  refine List.forall_mem_cons.2 ⟨blkIfTags_spec rfl rfl, ?_⟩
  refine List.forall_mem_cons.2 ⟨blkImage_spec rfl rfl rfl, ?_⟩
  refine List.forall_mem_cons.2 ⟨blkIncludeElements_spec rfl rfl rfl, ?_⟩
  refine List.forall_mem_cons.2 ⟨blkInclude_spec rfl rfl, ?_⟩
  refine List.forall_mem_cons.2 ⟨blkContainer_spec rfl rfl rfl (by simp), ?_⟩
  refine List.forall_mem_cons.2 ⟨blkContainer_spec rfl rfl rfl (by simp), ?_⟩
  refine List.forall_mem_cons.2 ⟨blkContainer_spec rfl rfl rfl (by simp), ?_⟩
  refine List.forall_mem_cons.2 ⟨blkLater_spec rfl, ?_⟩
  refine List.forall_mem_cons.2 ⟨blkListItem_spec rfl rfl, ?_⟩
  refine List.forall_mem_cons.2 ⟨blkLines_spec rfl rfl rfl, ?_⟩
  refine List.forall_mem_cons.2 ⟨blkContainer_spec rfl rfl rfl (by simp), ?_⟩
  refine List.forall_mem_cons.2 ⟨blkMath_spec rfl rfl rfl, ?_⟩
  refine List.forall_mem_cons.2 ⟨blkModule_spec rfl rfl rfl, ?_⟩
  refine List.forall_mem_cons.2 ⟨blkContainer_spec rfl rfl rfl (by simp), ?_⟩
  refine List.forall_mem_cons.2 ⟨blkList_spec rfl (.inr rfl), ?_⟩
  refine List.forall_mem_cons.2 ⟨blkParagraph_spec rfl rfl, ?_⟩
  refine List.forall_mem_cons.2 ⟨blkRadio_spec rfl rfl, ?_⟩
  refine List.forall_mem_cons.2 ⟨blkRubyShort_spec rfl rfl, ?_⟩
  refine List.forall_mem_cons.2 ⟨blkRubyText_spec rfl rfl rfl, ?_⟩
  refine List.forall_mem_cons.2 ⟨blkRuby_spec rfl rfl, ?_⟩
  refine List.forall_mem_cons.2 ⟨blkSize_spec rfl rfl, ?_⟩
  refine List.forall_mem_cons.2 ⟨blkSpan_spec rfl, ?_⟩
  refine List.forall_mem_cons.2 ⟨blkContainer_spec rfl rfl rfl (by simp), ?_⟩
  refine List.forall_mem_cons.2 ⟨blkContainer_spec rfl rfl rfl (by simp), ?_⟩
  refine List.forall_mem_cons.2 ⟨blkContainer_spec rfl rfl rfl (by simp), ?_⟩
  refine List.forall_mem_cons.2 ⟨blkTab_spec rfl rfl rfl, ?_⟩
  refine List.forall_mem_cons.2 ⟨blkTable_spec rfl rfl, ?_⟩
  refine List.forall_mem_cons.2 ⟨blkCellHeader_spec rfl rfl rfl, ?_⟩
  refine List.forall_mem_cons.2 ⟨blkCellRegular_spec rfl rfl rfl, ?_⟩
  refine List.forall_mem_cons.2 ⟨blkToc_spec rfl rfl rfl, ?_⟩
  refine List.forall_mem_cons.2 ⟨blkTableRow_spec rfl rfl rfl, ?_⟩
  refine List.forall_mem_cons.2 ⟨blkTabView_spec rfl rfl rfl, ?_⟩
  refine List.forall_mem_cons.2 ⟨blkTarget_spec rfl rfl, ?_⟩
  refine List.forall_mem_cons.2 ⟨blkList_spec rfl (.inl rfl), ?_⟩
  refine List.forall_mem_cons.2 ⟨blkContainer_spec rfl rfl rfl (by simp), ?_⟩
  refine List.forall_mem_cons.2 ⟨blkUser_spec rfl rfl, ?_⟩
  simp

section
variable {c : Ctx} {s0 s : St} {cons : M (PS Elements)}

theorem stripScore_prefix (x : Str) : stripScore x <+: x := by
  unfold stripScore
  cases h : stripSfx c!"_" x with
  | none => exact List.prefix_rfl
  | some r => exact ⟨_, (stripSfx_some h).symm⟩

/-- What is known of the text where a block name was read. -/
theorem getBlockName_opens {star : Bool} (hi : Inv c s)
    (h : s.p.cur.token = if star then .leftBlockStar else .leftBlock) :
    Tri c s (getBlockName star) fun r _ => ∀ nm, nm <+: r.1 → ∀ n, lowerA nm = lowerA n → OpensBlock c.env.text n := by
  unfold getBlockName
  refine (getOptionalToken_spec hi).bind ?_
  rintro _ s1 hi1 hl1 ⟨_, (⟨_, e1⟩ | ⟨hne, _⟩)⟩
  · refine (getOptionalToken_spec hi1).bind ?_
    rintro _ s2 hi2 hl2 ⟨_, e2⟩
    -- what stands between the brackets and the name
    obtain ⟨w, hw, hws⟩ : ∃ w, s1.p.cur :: s1.p.rem = w ++ s2.p.cur :: s2.p.rem ∧
        ∀ c ∈ slicesOf w, isWS c = true := by
      rcases e2 with ⟨ht, e2⟩ | ⟨_, rfl⟩
      · refine ⟨[s1.p.cur], by rw [e2]; rfl, ?_⟩
        have := hi1.shape hi1.cur_mem
        rw [ht] at this
        intro x hx
        have hx : x ∈ s1.p.cur.slice := by simpa [slicesOf] using hx
        rcases this.2 x hx with rfl | rfl <;> decide
      · exact ⟨[], rfl, by simp [slicesOf]⟩
    refine (getBlockNameInternal_spec hi2).mono ?_
    rintro ⟨name, inHead⟩ s3 _ _ ⟨⟨a, b, m, h1, h2, h3⟩, _⟩ nm hnm n hn
    dsimp only at h3 hnm
    obtain ⟨l, r, hlr, hl, _⟩ := trim_decomp a
    obtain ⟨post, hpost⟩ := hnm
    obtain ⟨pre, hpre⟩ := hi.text_at (m := [s.p.cur] ++ w ++ m) (r := b) (by
      rw [e1, hw, h1]; simp)
    have hsl : s.p.cur.slice = c!"[[" ++ (if star then ['*'] else []) := by
      have := hi.shape hi.cur_mem
      rw [h] at this
      cases star
      · simp only [TokenShape, tokenLiteral, Option.some.injEq, Bool.false_eq_true, if_false] at this
        rw [← this]; rfl
      · simp only [TokenShape, tokenLiteral, Option.some.injEq, if_true] at this
        rw [← this]; rfl
    refine ⟨pre, if star then ['*'] else [], slicesOf w ++ l, nm, post ++ r ++ slicesOf b, ?_, ?_, ?_, hn⟩
    · rw [hpre]
      have : slicesOf ([s.p.cur] ++ w ++ m) = s.p.cur.slice ++ slicesOf w ++ (l ++ (nm ++ post) ++ r) := by
        simp only [slicesOf, List.flatMap_append, List.flatMap_cons, List.flatMap_nil, List.append_nil] at h2 ⊢
        rw [h2, hpost, h3, ← hlr]
      rw [this, hsl]
      simp
    · cases star <;> simp
    · intro x hx
      rcases List.mem_append.1 hx with hx | hx
      · exact hws x hx
      · exact hl x hx
  · exact (hne h).elim

theorem getBlockRule_some {name : Str} {r : BlockRule} (h : getBlockRule name = some r) :
    r ∈ blockRules ∧ ∃ n ∈ r.info.names, ∃ nm, nm <+: name ∧ lowerA nm = lowerA n := by
  unfold getBlockRule at h
  refine ⟨List.mem_of_find?_eq_some h, ?_⟩
  have := List.find?_some h
  obtain ⟨n, hn, he⟩ := List.any_eq_true.1 this
  exact ⟨n, hn, stripScore name, stripScore_prefix name, by simpa [eqIgnoreCase] using he⟩

theorem ruleBlock_spec {star : Bool} (hc : ConsSpec c.D c.env cons) (hi : Inv c s)
    (h : s.p.cur.token = if star then .leftBlockStar else .leftBlock) : RuleOk c s s (ruleBlock cons star) := by
  unfold ruleBlock
  refine (setRule_spec hi).bind ?_
  rintro _ s1 hi1 hl1 rfl
  refine (getOptionalToken_spec hi1).bind ?_
  rintro _ s2 hi2 hl2 ⟨_, (⟨ht, _⟩ | ⟨_, rfl⟩)⟩
  · exfalso
    revert ht
    show s.p.cur.token ≠ .whitespace
    rw [h]; cases star <;> simp
  · refine (getBlockName_opens hi2 (by exact h)).bind ?_
    rintro ⟨name, inHead⟩ s3 hi3 hl3 ho
    dsimp only at ho ⊢
    have rest : ∀ (name' : Str) (score : Bool), name' <+: name → RuleOk c s s3 (match getBlockRule name' with
        | none => fail .noSuchBlock
        | some block => do
          setRule (.blk block.info.name)
          if !block.info.star && star then fail .blockDisallowsStar
          else if !block.info.score && score then fail .blockDisallowsScore
          else do
            getOptionalSpace
            block.parse cons ⟨name', star, score, inHead⟩) := by
      intro name' score hp
      split
      · exact fail_spec hi3
      · rename_i block hb
        obtain ⟨hm, n, hn, nm, hnm, he⟩ := getBlockRule_some hb
        have hopen : OpensOne c.env.text block.info.names := ⟨n, hn, ho nm (hnm.trans hp) n he⟩
        refine (setRule_spec hi3).skip fun _ s4 hi4 hl4 => ?_
        split
        · exact fail_spec hi4
        · rename_i hst
          split
          · exact fail_spec hi4
          · rename_i hsc
            refine (getOptionalSpace_spec hi4).skip fun _ s5 hi5 hl5 => ?_
            refine (allBlocks_spec block hm c s5 cons ⟨name', star, score, inHead⟩
              ⟨hi5, hc, ?_, ?_, hopen⟩).mono fun _ _ _ _ hr => hr.le0 (((hl1.trans hl3).trans hl4).trans hl5)
            · intro h; dsimp only at h; rw [h] at hst; simpa using hst
            · intro h; dsimp only at h; rw [h] at hsc; simpa using hsc
    cases hs : stripSfx c!"_" name with
    | none => exact rest name false List.prefix_rfl
    | some n => exact rest n true ⟨_, (stripSfx_some hs).symm⟩

theorem ruleBlockSkip_spec (hi : Inv c s) : RuleOk c s s ruleBlockSkip := by
  unfold ruleBlockSkip
  refine (step_spec hi).skip fun t s1 hi1 hl1 => ?_
  refine Tri.skip (evaluateFn_spec (Q := fun _ _ => True) hi1 ?_) fun b s2 hi2 hl2 => ?_
  · split
    · exact Tri.pure hi1 trivial
    · refine (getBlockName_spec hi1).skip fun r s2 hi2 _ => ?_
      obtain ⟨name, x⟩ := r
      dsimp only
      split
      · exact Tri.pure hi2 trivial
      · exact Tri.pure hi2 trivial
  · split
    · exact nilE hi2 (hl1.trans hl2)
    · exact fail_spec hi2

/-! ### consume -/

/-- The tokens at which rules that rely on it are tried. -/
def startsAt : RuleId → Token → Bool
  | .anchor, t => t == .leftBlockAnchor
  | .bibcite, t => t == .leftParentheses || t == .rightParentheses
  | .block, t => t == .leftBlock
  | .blockStar, t => t == .leftBlockStar
  | .bold, t => t == .bold
  | .color, t => t == .color
  | .comment, t => t == .leftComment
  | .dash, t => t == .doubleDash
  | .doubleAngle, t => t == .leftDoubleAngle || t == .quote
  | .email, t => t == .email
  | .horizontalRule, t => t == .tripleDash
  | .italics, t => t == .italics
  | .linkAnchor, t => t == .leftBracketAnchor
  | .linkSingle, t => t == .leftBracket
  | .linkSingleNewTab, t => t == .leftBracketStar
  | .linkTriple, t => t == .leftLink
  | .linkTripleNewTab, t => t == .leftLinkStar
  | .math, t => t == .leftMath
  | .monospace, t => t == .leftMonospace
  | .raw, t => t == .raw || t == .leftRaw
  | .strikethroughDash, t => t == .doubleDash
  | .strikethroughTilde, t => t == .doubleTilde
  | .subscript, t => t == .subscript
  | .superscript, t => t == .superscript
  | .underline, t => t == .underline
  | .variable, t => t == .variable
  | .url, t => t == .url
  | .page, _ | .fallback, _ | .blk _, _ => false
  | _, _ => true

theorem startsAt_of {r : RuleId} {t : Token} (h : r ∈ rulesFor t) : startsAt r t = true := by
  have key : ∀ t : Token, (rulesFor t).all (startsAt · t) = true := by intro t; cases t <;> rfl
  exact List.all_eq_true.1 (key t) r h

theorem ruleFn_spec {r : RuleId} (hc : ConsSpec c.D c.env cons) (hi : Inv c s) (hr : r ∈ rulesFor s.p.cur.token) :
    RuleOk c s s (ruleFn cons r) := by
  have h := startsAt_of hr
  clear hr
  cases r <;> simp only [startsAt, beq_iff_eq, Bool.or_eq_true, Bool.false_eq_true] at h <;> simp only [ruleFn]
  case null => exact ruleNull_spec hi
  case text => exact ruleText_spec hi
  case anchor => exact ruleAnchor_spec hi h
  case bibcite => exact ruleBibcite_spec hi h
  case block => exact ruleBlock_spec hc hi h
  case blockStar => exact ruleBlock_spec hc hi h
  case blockSkipNewline => exact ruleBlockSkip_spec hi
  case blockquote => exact ruleBlockquote_spec hc hi
  case bold => exact ruleDelimited_spec hc hi h (by simp) (by simp)
  case center => exact ruleCenter_spec hc hi
  case clearFloat => exact ruleClearFloat_spec hi
  case color => exact ruleColor_spec hc hi h
  case comment => exact ruleComment_spec hi h
  case dash => exact ruleDash_spec hi h
  case definitionList => exact ruleDefinitionList_spec hc hi
  case definitionListSkipNewline => exact ruleDefinitionListSkip_spec hi
  case doubleAngle => exact ruleDoubleAngle_spec hi h
  case email => exact ruleEmail_spec hi h
  case header => exact ruleHeader_spec hc hi
  case horizontalRule => exact ruleHorizontalRule_spec hi h
  case italics => exact ruleDelimited_spec hc hi h (by simp) (by simp)
  case lineBreak => exact ruleLineBreak_spec hi
  case lineBreakParagraph => exact ruleLineBreak_spec hi
  case linkAnchor => exact ruleLinkAnchor_spec hi h
  case linkSingle => exact ruleLinkSingle_spec hi h
  case linkSingleNewTab => exact ruleLinkSingle_spec hi h
  case linkTriple => exact ruleLinkTriple_spec hi h (by simp)
  case linkTripleNewTab => exact ruleLinkTriple_spec hi h (by simp)
  case list => exact ruleList_spec hc hi
  case math => exact ruleMath_spec hi h
  case monospace => exact ruleDelimited_spec hc hi h (by simp) (by simp)
  case raw => exact ruleRaw_spec hi h
  case strikethroughDash => exact ruleDelimited_spec hc hi h (by simp) (by simp)
  case strikethroughTilde => exact ruleDelimited_spec hc hi h (by simp) (by simp)
  case subscript => exact ruleDelimited_spec hc hi h (by simp) (by simp)
  case superscript => exact ruleDelimited_spec hc hi h (by simp) (by simp)
  case table => exact ruleTable_spec hc hi
  case underline => exact ruleDelimited_spec hc hi h (by simp) (by simp)
  case underscoreLineBreak => exact ruleUnderscoreLineBreak_spec hi
  case url => exact ruleUrl_spec hi h
  case «variable» => exact ruleVariable_spec hi h

/-- Knowing one more level of depth. -/
theorem Tri.deeper {α : Type} {m : M α} {Q : α → St → Prop} (h : Tri { c with D := c.D + 1 } s m Q) :
    Tri c s (attempt m) fun r s' => c.D + 1 ≤ s'.p.depth ∧
      match r with
      | .ok a => Q a s'
      | .error x => ErrOk c.env x := by
  have h := attempt_spec h
  unfold Tri at *
  split at h
  · rename_i e
    rw [e]
    obtain ⟨h1, h2, h3⟩ := h
    exact ⟨⟨h1.wf, h1.sfx, Nat.le_of_succ_le h1.dep, h1.acc, h1.fn, h1.fb, h1.sh⟩, h2, h1.dep, h3⟩
  · rename_i e
    obtain ⟨h1, h2, h3⟩ := h
    rw [e]
    exact ⟨⟨h1.wf, h1.sfx, Nat.le_of_succ_le h1.dep, h1.acc, h1.fn, h1.fb, h1.sh⟩, h2, h3⟩
  · rename_i e; rw [e]; exact h
  · exact h.elim

theorem depthDecrement_spec {s : St} (hi : Inv c s) (h : c.D + 1 ≤ s.p.depth) :
    Tri c s depthDecrement fun _ s' => s'.p.rem = s.p.rem :=
  ⟨⟨hi.wf, hi.sfx, by show c.D ≤ s.p.depth - 1; omega, hi.acc, hi.fn, hi.fb, hi.sh⟩,
    ⟨List.suffix_rfl, id, ShLe.refl _⟩, rfl⟩

theorem Inv.deeper (hi : Inv c s) (h : c.D + 1 ≤ s.p.depth) : Inv { c with D := c.D + 1 } s :=
  ⟨hi.wf, hi.sfx, h, hi.acc, hi.fn, hi.fb, hi.sh⟩

theorem EsOk.ctx {D : Nat} {es : List Elem} {errs : List PErr} {ps : Bool}
    (h : EsOk { c with D := D } s0 s es errs ps) : EsOk c s0 s es errs ps :=
  ⟨⟨h.good, h.elem, h.errs, h.safe, h.cnt⟩, h.top⟩

theorem step_deep (hi : Inv c s) (h : c.D + 1 ≤ s.p.depth) : Tri c s step fun _ s' =>
    c.D + 1 ≤ s'.p.depth ∧ s'.p.rem.length < s.p.rem.length := by
  have h1 := step_spec' (hi.deeper h)
  unfold Tri at *
  split at h1
  · rename_i e
    rw [e]
    obtain ⟨h1, h2, h3⟩ := h1
    exact ⟨⟨h1.wf, h1.sfx, Nat.le_of_succ_le h1.dep, h1.acc, h1.fn, h1.fb, h1.sh⟩, h2, h1.dep, h3.2.2.1⟩
  · rename_i e
    obtain ⟨h1, h2, h3⟩ := h1
    rw [e]
    exact ⟨⟨h1.wf, h1.sfx, Nat.le_of_succ_le h1.dep, h1.acc, h1.fn, h1.fb, h1.sh⟩, h2, h3⟩
  · rename_i e; rw [e]; exact h1
  · exact h1.elim

theorem consumeFallback_spec {t : ETok} {errors : List PErr} (hi : Inv c s) (hd : c.D + 1 ≤ s.p.depth)
    (ht : t ∈ c.env.tokens) (he : ∀ x ∈ errors, ErrOk c.env x) : Tri c s (consumeFallback t errors) fun r s' =>
    EsOk c s s' r.item r.errors r.psafe ∧ s'.p.rem.length < s.p.rem.length := by
  unfold consumeFallback
  have htx : t.slice <:+: c.env.text := by
    rw [hi.wf] at ht
    obtain ⟨a, b, e⟩ := List.append_of_mem ht
    have := tokens_text c.env.text
    rw [e] at this
    exact ⟨slicesOf a, slicesOf b, by rw [← this]; simp [slicesOf]⟩
  refine (step_deep hi hd).bind fun _ s1 hi1 hl1 h1 => ?_
  have herrs : ∀ x ∈ errors ++ [mkErr .noRulesMatch .fallback t], ErrOk c.env x := by
    intro x hx
    rcases List.mem_append.1 hx with hx | hx
    · exact he x hx
    · simp only [List.mem_singleton] at hx
      subst hx
      exact ⟨t, ht, rfl, rfl, rfl⟩
  have rest : Tri c s1 (depthDecrement >>= fun _ =>
      okE [eText t.slice] (errors ++ [mkErr .noRulesMatch .fallback t])) fun r s' =>
      EsOk c s s' r.item r.errors r.psafe ∧ s'.p.rem.length < s.p.rem.length := by
    refine (depthDecrement_spec hi1 h1.1).bind fun _ s2 hi2 hl2 h2 => ?_
    refine Tri.pure hi2 ⟨EsOk.of_ru (RuOk.text (hl1.trans hl2) (.inl htx) herrs) (by simp [Elem.kind]), ?_⟩
    rw [h2]; exact h1.2
  split
  · rename_i x hx
    split
    · exact throw_spec hi1 (he x (List.mem_of_getLast? hx))
    · exact rest
  · exact rest

theorem fail_p {α : Type} {k : EKind} {e : Env} {s s' : St} {x : PErr}
    (h : (fail k : M α) e s = .err x s') : s'.p = s.p := by
  unfold fail at h
  simp only [Bind.bind, M.bind, getP, M.throw, Res.err.injEq] at h
  rw [← h.2]

/-- A failed rule leaves the copied part of the parser as it was. -/
theorem tryConsume_err {r : RuleId} {f : M (PS Elements)} {e : Env} {s s' : St} {x : PErr}
    (h : tryConsume r f e s = .err x s') : s'.p = s.p := by
  unfold tryConsume at h
  generalize (do setRule r; f : M (PS Elements)) = m at h
  simp only [Bind.bind, M.bind, getP] at h
  split at h
  · exact fail_p h
  · simp only [M.bind, onClone] at h
    cases e1 : m e s with
    | ok a s1 =>
      rw [e1] at h
      dsimp only at h
      cases hb : firstBadPartial s.p.accepts a.item <;> rw [hb] at h <;> dsimp only at h
      · cases h
      · have := fail_p h; exact this
    | err x s1 =>
      rw [e1] at h
      simp only [M.throw, Res.err.injEq] at h
      rw [← h.2]
    | panic p => rw [e1] at h; cases h
    | diverge => rw [e1] at h; cases h

/-- Knowing one more level of depth. -/
theorem Tri.deeper' {α : Type} {m : M α} {Q : α → St → Prop} {P : St → Prop}
    (h : Tri { c with D := c.D + 1 } s m Q) (hp : ∀ x s', m c.env s = .err x s' → P s') :
    Tri c s (attempt m) fun r s' => c.D + 1 ≤ s'.p.depth ∧
      match r with
      | .ok a => Q a s'
      | .error x => ErrOk c.env x ∧ P s' := by
  unfold Tri at *
  simp only [attempt]
  cases e : m c.env s with
  | ok a s' =>
    rw [e] at h
    obtain ⟨h1, h2, h3⟩ := h
    exact ⟨⟨h1.wf, h1.sfx, Nat.le_of_succ_le h1.dep, h1.acc, h1.fn, h1.fb, h1.sh⟩, h2, h1.dep, h3⟩
  | err x s' =>
    rw [e] at h
    obtain ⟨h1, h2, h3⟩ := h
    exact ⟨⟨h1.wf, h1.sfx, Nat.le_of_succ_le h1.dep, h1.acc, h1.fn, h1.fb, h1.sh⟩, h2, h1.dep, h3, hp x s' e⟩
  | panic p => rw [e] at h; exact h
  | diverge => rw [e] at h; exact h

theorem consumeRules_spec {rs : List RuleId} {t : ETok} {errors : List PErr}
    (hc : ConsSpec (c.D + 1) c.env cons) (hi : Inv c s)
    (hd : c.D + 1 ≤ s.p.depth) (ht : s.p.cur = t) (hr : ∀ r ∈ rs, r ∈ rulesFor t.token)
    (he : ∀ x ∈ errors, ErrOk c.env x) : Tri c s (consumeRules cons t rs errors) fun r s' =>
    EsOk c s s' r.item r.errors r.psafe ∧ s'.p.rem.length < s.p.rem.length := by
  induction rs generalizing s errors with
  | nil => exact consumeFallback_spec hi hd (ht ▸ hi.cur_mem) he
  | cons r rs ih =>
    unfold consumeRules
    tri
    have h1 := tryConsume_spec (r := r) (f := ruleFn cons r) (hi.deeper hd) (fun s1 hi1 hcur _ _ _ =>
      ruleFn_spec hc hi1 (by rw [hcur, ht]; exact hr r (List.mem_cons_self ..)))
    refine (Tri.deeper' (P := fun s' => s'.p = s.p) h1 fun x s' h => tryConsume_err h).bind ?_
    rintro (x | out) s1 hi1 hl1 ⟨hd1, h2⟩
    · dsimp only at h2 ⊢
      obtain ⟨hx, hp⟩ := h2
      refine (ih hi1 hd1 (by rw [hp]; exact ht) (fun r hr' => hr r (List.mem_cons_of_mem _ hr')) ?_).mono ?_
      · intro y hy
        rcases List.mem_append.1 hy with hy | hy
        · exact he y hy
        · simp only [List.mem_singleton] at hy
          exact hy ▸ hx
      · intro a s' _ _ h
        refine ⟨h.1.le0 hl1, ?_⟩
        rw [hp] at h; exact h.2
    · dsimp only at h2 ⊢
      tri
      have h2 := h2.ctx
      split
      · refine (step_deep hi1 hd1).bind fun _ s2 hi2 hl2 h3 => ?_
        refine (depthDecrement_spec hi2 h3.1).bind fun _ s4 hi4 hl4 h4 => ?_
        refine Tri.pure hi4 ⟨(h2.le hl2).le hl4, ?_⟩
        have := hl1.len
        rw [h4]; omega
      · refine (depthDecrement_spec hi1 hd1).bind fun _ s4 hi4 hl4 h4 => ?_
        refine Tri.pure hi4 ⟨h2.le hl4, ?_⟩
        have := hl1.len
        rw [h4]; omega

theorem depthIncrement_spec (hi : Inv c s) : Tri c s depthIncrement fun _ s' => s'.p.cur = s.p.cur ∧
    s'.p.rem = s.p.rem ∧ s'.sh = s.sh ∧ s'.p.depth = s.p.depth + 1 ∧ s.p.depth < maxRecursionDepth := by
  unfold depthIncrement
  have h1 : Tri c s (modP fun p => { p with depth := p.depth + 1 }) fun _ s' =>
      s' = { s with p := { s.p with depth := s.p.depth + 1 } } :=
    ⟨⟨hi.wf, hi.sfx, Nat.le_succ_of_le hi.dep, hi.acc, hi.fn, hi.fb, hi.sh⟩,
      ⟨List.suffix_rfl, id, ShLe.refl _⟩, rfl⟩
  refine h1.bind ?_
  rintro _ s1 hi1 hl1 rfl
  tri
  split
  · exact fail_spec hi1
  · rename_i h
    exact Tri.pure hi1 ⟨rfl, rfl, rfl, rfl, by simp at h; omega⟩

/-- `consume`: the fuel suffices because of the depth limit. -/
theorem consume_spec (n D : Nat) (env : Env) (h : maxRecursionDepth ≤ D + n) : ConsSpec D env (consume n) := by
  induction n generalizing D with
  | zero =>
    rintro c s rfl rfl hi
    unfold consume
    refine (depthIncrement_spec hi).bind fun _ s1 hi1 hl1 h1 => ?_
    have := hi.dep
    omega
  | succ n ih =>
    rintro c s rfl rfl hi
    unfold consume
    refine (depthIncrement_spec hi).bind fun _ s1 hi1 hl1 h1 => ?_
    tri
    have := hi.dep
    refine (consumeRules_spec (ih (c.D + 1) (by omega)) hi1 (by omega) rfl (fun r hr => hr) (by simp)).mono ?_
    intro a s' _ _ h2
    refine ⟨h2.1.le0 hl1, ?_⟩
    rw [← h1.2.1]; exact h2.2

/-- The context of a whole parse. -/
def topCtx (env : Env) : Ctx := ⟨env, 0, .none, false⟩

/-- The state `Parser::new` makes. -/
def startSt (t : ETok) (r : List ETok) : St := ⟨⟨t, r, .page, 0, .none, false, false, true⟩, ⟨[], [], [], [], []⟩⟩

theorem start_inv {env : Env} (h : env.tokens = (tokenize env.text).tokens) {t : ETok} {r : List ETok}
    (ht : env.tokens = t :: r) : Inv (topCtx env) (startSt t r) :=
  ⟨h, by show t :: r <:+ env.tokens; rw [ht]; exact List.suffix_rfl, Nat.le_refl _, rfl, rfl, (fun h => by cases h),
    ⟨by simp [startSt], by simp [startSt], by simp [startSt], by simp [startSt], by simp [startSt], by simp [startSt], by simp [startSt]⟩⟩

theorem page_spec {env : Env} (h : env.tokens = (tokenize env.text).tokens) {t : ETok} {r : List ETok}
    (ht : env.tokens = t :: r) :
    Tri (topCtx env) (startSt t r) (gatherParagraphs (consume maxRecursionDepth) .page none) fun r' s' =>
      EsOk (topCtx env) (startSt t r) s' r'.item r'.errors r'.psafe :=
  gatherParagraphs_spec (consume_spec _ _ _ (by simp [topCtx])) (start_inv h ht) (by simp)

end
end Ftml
