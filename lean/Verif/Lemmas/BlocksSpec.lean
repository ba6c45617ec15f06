import Verif.Lemmas.BlockTools
/- Specifications of the blocks (src/parsing/rule/impls/block/blocks/*.rs). -/
namespace Ftml
open M

/-- What a block function may assume. -/
structure BH (b : BlockInfo) (c : Ctx) (s : St) (cons : M (PS Elements)) (call : BCall) : Prop where
  inv : Inv c s
  cons : ConsSpec c.D c.env cons
  star : call.star = true → b.star = true
  score : call.score = true → b.score = true
  opens : OpensOne c.env.text b.names

/-- What a block function guarantees. -/
def BSpec (b : BlockInfo) (f : M (PS Elements) → BCall → M (PS Elements)) : Prop :=
  ∀ c s cons call, BH b c s cons call → RuleOk c s s (f cons call)

section
variable {c : Ctx} {s0 s : St} {cons : M (PS Elements)} {b : BlockInfo} {call : BCall}

theorem BH.noStar (h : BH b c s cons call) (hb : b.star = false) : call.star = false := by
  cases hc : call.star with
  | false => rfl
  | true => rw [h.star hc] at hb; cases hb
theorem BH.noScore (h : BH b c s cons call) (hb : b.score = false) : call.score = false := by
  cases hc : call.score with
  | false => rfl
  | true => rw [h.score hc] at hb; cases hb

theorem star_bind {β : Type} {f : Str} {n : Nat} {k : Unit → M β} {R : β → St → Prop} (h : call.star = false)
    (hk : Tri c s (k ()) R) : Tri c s (Ftml.noStar call f n >>= k) R := by
  simp only [Ftml.noStar, assertM, h]; exact hk
theorem score_bind {β : Type} {f : Str} {n : Nat} {k : Unit → M β} {R : β → St → Prop} (h : call.score = false)
    (hk : Tri c s (k ()) R) : Tri c s (Ftml.noScore call f n >>= k) R := by
  simp only [Ftml.noScore, assertM, h]; exact hk

theorem attrs_bind {β : Type} {m : Args} {f : AttrMap → M β} {R : β → St → Prop} (hi : Inv c s)
    (hm : ArgsOk c.env.text m) (hf : ∀ a, AttrOk c.env.settings c.env.text a → Tri c s (f a) R) : Tri c s (toAttrs m >>= f) R := by
  refine (toAttrs_spec hi hm).bind ?_
  rintro a s' _ _ ⟨rfl, ha⟩
  exact hf a ha

theorem bool_bind {β : Type} {m : Args} {k : Str} {f : Option Bool × Args → M β} {R : β → St → Prop} (hi : Inv c s)
    (hf : ∀ a, (ArgsOk c.env.text m → ArgsOk c.env.text a.2) → Tri c s (f a) R) : Tri c s (argBool m k >>= f) R := by
  refine (argBool_spec hi).bind ?_
  rintro a s' _ _ ⟨rfl, ha⟩
  exact hf a ha

theorem orFail_bind {α β : Type} {k : EKind} {o : Option α} {f : α → M β} {R : β → St → Prop} (hi : Inv c s)
    (hf : ∀ a, o = some a → Tri c s (f a) R) : Tri c s (orFail k o >>= f) R := by
  refine (orFail_spec hi).bind ?_
  rintro a s' _ _ ⟨rfl, ha⟩
  exact hf a ha

theorem trimmedArg_spec {arg : Option Str} (hi : Inv c s) (h : ∀ x, arg = some x → OnLine c.env.text x) :
    Tri c s (trimmedArg arg) fun a _ => OnLine c.env.text a := by
  unfold trimmedArg
  split
  · exact Tri.pure hi (h _ rfl).trim
  · exact fail_spec hi

theorem page_bind {β : Type} {f : Unit → M β} {R : β → St → Prop} (hi : Inv c s)
    (hf : c.env.settings.enablePageSyntax = true → Tri c s (f ()) R) : Tri c s (checkPageSyntax >>= f) R := by
  refine (checkPageSyntax_spec hi).bind ?_
  rintro a s' _ _ ⟨rfl, ha⟩
  exact hf ha

/-- A block that makes one leaf. -/
theorem leafK {k : Kind} {errs : List PErr} (hi : Inv c s) (hl : Le s0 s) (hsp : Special (c.gam s) k [])
    (hattr : AttrOk c.env.settings c.env.text k.attrs) (hblk : ∀ ns, k.blocks = some ns → OpensOne c.env.text ns)
    (hpage : k.pageOnly = true → c.env.settings.enablePageSyntax = true)
    (he : ∀ x ∈ errs, ErrOk c.env x)
    (hleaf : k.isLeaf = true := by rfl) (hne : k ≠ .footnote := by simp) :
    RuleOk c s0 s (okE [.mk k []] errs) :=
  okE_spec (ps' := false) hi (RuOk.leaf hl he hleaf hattr hpage hblk hsp (by simp) hne)

theorem leafF {k : Kind} {errs : List PErr} (hi : Inv c s) (hl : Le s0 s) (hsp : Special (c.gam s) k [])
    (hattr : AttrOk c.env.settings c.env.text k.attrs) (hblk : ∀ ns, k.blocks = some ns → OpensOne c.env.text ns)
    (hpage : k.pageOnly = true → c.env.settings.enablePageSyntax = true)
    (he : ∀ x ∈ errs, ErrOk c.env x)
    (hleaf : k.isLeaf = true := by rfl) (hne : k ≠ .footnote := by simp) :
    RuleOk c s0 s (okP false [.mk k []] errs) :=
  okP_spec hi (RuOk.leaf hl he hleaf hattr hpage hblk hsp (by simp) hne)

theorem blk_opens {text : Str} {ns ms : List Str} (h : OpensOne text ms) (hb : some ms = some ns) : OpensOne text ns := by
  cases hb; exact h

theorem opens_one {text n : Str} (h : OpensOne text [n]) : OpensBlock text n := by
  obtain ⟨m, hm, h⟩ := h
  simp only [List.mem_singleton] at hm
  subst hm
  exact h
theorem names_opens {text : Str} {ns ms : List Str} (hb : ns = ms) (h : OpensOne text ns) : OpensOne text ms := hb ▸ h

theorem noErrs {env : Env} : ∀ x ∈ ([] : List PErr), ErrOk env x := by simp

theorem EsOk.strip {es : List Elem} {errs : List PErr} {ps : Bool} (p : Bool) (h : EsOk c s0 s es errs ps) :
    EsOk c s0 s (if p then stripNewlines es else es) errs ps := by
  split
  · exact h.sub (stripBoth_sublist ..)
  · exact h

theorem EsOk.stripWs {es : List Elem} {errs : List PErr} {ps : Bool} (h : EsOk c s0 s es errs ps) :
    EsOk c s0 s (stripWhitespace es) errs ps := h.sub (stripBoth_sublist ..)

/-! ### Containers -/

theorem blkContainer_spec {ct : CType} (h1 : b.star = false) (h2 : b.score = false) (h3 : ct.paragraphSafe = true)
    (h4 : ∀ hd, ct ≠ .header hd) : BSpec b (blkContainer b ct) := by
  intro c s cons call h
  unfold blkContainer
  refine star_bind (h.noStar h1) (score_bind (h.noScore h2) ?_)
  refine (getHeadMap_spec h.inv).bind fun args s1 hi1 hl1 hargs => ?_
  refine (getBody_spec h.cons hi1).bind fun r s2 hi2 hl2 hr => ?_
  refine attrs_bind hi2 hargs fun a ha => ?_
  exact okP_spec hi2 (RuOk.container (hr.le0 hl1) (by rintro rfl; cases h3) h4 ha fun _ => h3)

theorem blkAlign_spec {a : Alignment} (h1 : b.star = false) (h2 : b.score = false) : BSpec b (blkAlign b a) := by
  intro c s cons call h
  unfold blkAlign
  refine star_bind (h.noStar h1) (score_bind (h.noScore h2) ?_)
  refine (getHeadNone_spec h.inv).skip fun args s1 hi1 hl1 => ?_
  refine (getBody_spec h.cons hi1).bind fun r s2 hi2 hl2 hr => ?_
  exact okE_spec (ps' := false) hi2 (RuOk.container (hr.le0 hl1) (by simp) (by simp) (attrOk_nil _) (by simp))

theorem RuOk.anchor {t : Option AnchorTarget} {attrs : AttrMap} {es : List Elem} {errs : List PErr} {ps ps' : Bool}
    (h : EsOk c s0 s es errs ps) (ha : AttrOk c.env.settings c.env.text attrs) (ho : OpensOne c.env.text [c!"a", c!"anchor"]) :
    RuOk c s0 s [.mk (.anchor t attrs) es] errs ps' := by
  refine RuOk.node h ?_ rfl rfl ha (by intro h; cases h) (fun ns hb => blk_opens ho hb) trivial (fun _ h => by cases h) ?_
  · intro k' hk; simp [allowedKid, hk]
  · intro m; have := h.cnt m; have := meas_zero (k := .anchor t attrs) (by simp) (by simp) m; omega

theorem blkAnchor_spec (hn : b.names = [c!"a", c!"anchor"]) : BSpec b (blkAnchor b) := by
  intro c s cons call h
  unfold blkAnchor
  refine (getHeadMap_spec h.inv).bind fun args s1 hi1 hl1 hargs => ?_
  refine attrs_bind hi1 hargs fun a ha => ?_
  refine (getBody_spec h.cons hi1).bind fun r s2 hi2 hl2 hr => ?_
  exact okP_spec hi2 (RuOk.anchor ((hr.le0 hl1).strip call.score) ha (hn ▸ h.opens))

theorem blkBlockquote_spec (h1 : b.star = false) (h2 : b.score = false) : BSpec b (blkBlockquote b) := by
  intro c s cons call h
  unfold blkBlockquote
  refine star_bind (h.noStar h1) (score_bind (h.noScore h2) ?_)
  refine (getHeadMap_spec h.inv).bind fun args s1 hi1 hl1 hargs => ?_
  refine (getBody_spec h.cons hi1).bind fun r s2 hi2 hl2 hr => ?_
  refine attrs_bind hi2 hargs fun a ha => ?_
  exact okE_spec (ps' := false) hi2 (RuOk.container (hr.le0 hl1) (by simp) (by simp) ha (by simp))

theorem blkDiv_spec (h1 : b.star = false) : BSpec b (blkDiv b) := by
  intro c s cons call h
  unfold blkDiv
  refine star_bind (h.noStar h1) ?_
  refine (getHeadMap_spec h.inv).bind fun args s1 hi1 hl1 hargs => ?_
  refine (getBody_spec h.cons hi1).bind fun r s2 hi2 hl2 hr => ?_
  refine attrs_bind hi2 hargs fun a ha => ?_
  exact okE_spec (ps' := false) hi2 (RuOk.container (hr.le0 hl1) (by simp) (by simp) ha (by simp))

theorem blkSpan_spec (h1 : b.star = false) : BSpec b (blkSpan b) := by
  intro c s cons call h
  unfold blkSpan
  refine star_bind (h.noStar h1) ?_
  refine (getHeadMap_spec h.inv).bind fun args s1 hi1 hl1 hargs => ?_
  refine (getBody_spec h.cons hi1).bind fun r s2 hi2 hl2 hr => ?_
  refine attrs_bind hi2 hargs fun a ha => ?_
  exact okP_spec hi2 (RuOk.container ((hr.le0 hl1).strip call.score) (by simp) (by simp) ha (fun _ => rfl))

theorem style_attrs (st : Settings) {t : Str} {x : Str} (hx : x <:+: t) :
    AttrOk st t (attrInsert [] c!"style" (c!"font-size: " ++ x ++ c!";")).2 := by
  generalize hv : c!"font-size: " ++ x ++ c!";" = v
  have : (attrInsert [] c!"style" v).2 = [(c!"style", v)] := by
    unfold attrInsert
    rw [if_pos (by decide +kernel)]; rfl
  rw [this]
  refine ⟨by simp [SortedKeys], ?_⟩
  intro k v h
  simp only [List.mem_singleton, Prod.mk.injEq] at h
  obtain ⟨rfl, rfl⟩ := h
  refine ⟨.inl (by decide +kernel), .inl (by decide +kernel), ?_, ?_, .inl ⟨rfl, x, hx, hv.symm⟩⟩
  · intro h; exfalso; revert h; decide
  · intro _ h; exfalso; revert h; decide

theorem blkSize_spec (h1 : b.star = false) (h2 : b.score = false) : BSpec b (blkSize b) := by
  intro c s cons call h
  unfold blkSize
  refine star_bind (h.noStar h1) (score_bind (h.noScore h2) ?_)
  refine (getHeadValue_spec (Q := fun x => x <:+: c.env.text) h.inv ?_).bind fun size s1 hi1 hl1 hx => ?_
  · intro arg s1 hi1 hx; exact (orFail_spec hi1).mono fun _ _ _ _ h => (hx _ h.2).1
  · refine (getBody_spec h.cons hi1).bind fun r s2 hi2 hl2 hr => ?_
    exact okP_spec hi2 (RuOk.container (hr.le0 hl1) (by simp) (by simp) (style_attrs _ hx) (fun _ => rfl))

theorem setParagraphAttrs_ru {es : List Elem} {errs : List PErr} {ps : Bool} {attrs : AttrMap}
    (h : EsOk c s0 s es errs ps) (ha : AttrOk c.env.settings c.env.text attrs) :
    RuOk c s0 s (es.map (setParagraphAttrs attrs)) errs false := by
  refine ⟨?_, ?_, h.errs, by simp, ?_⟩
  · intro e he
    obtain ⟨e', he', rfl⟩ := List.mem_map.1 he
    have hg := h.good e' he'
    unfold setParagraphAttrs
    split
    · obtain ⟨hn, hk⟩ := hg
      exact ⟨⟨hn.kids, (fun h => by cases h), ha, (fun h => by cases h), (fun _ h => by cases h), hn.special⟩, hk⟩
    · exact hg
  · intro e he
    obtain ⟨e', he', rfl⟩ := List.mem_map.1 he
    have hg := h.elem e' he'
    unfold setParagraphAttrs
    split
    · rfl
    · exact hg
  · intro m
    have := h.cnt m
    have hc : countIn m (es.map (setParagraphAttrs attrs)) = countIn m es := by
      clear this h
      induction es with
      | nil => rfl
      | cons e es ih =>
        simp only [List.map_cons, countIn_cons, ih]
        congr 1
        unfold setParagraphAttrs
        split
        · cases m <;> rfl
        · rfl
    omega

theorem blkParagraph_spec (h1 : b.star = false) (h2 : b.score = false) : BSpec b (blkParagraph b) := by
  intro c s cons call h
  unfold blkParagraph
  refine star_bind (h.noStar h1) (score_bind (h.noScore h2) ?_)
  refine (getHeadMap_spec h.inv).bind fun args s1 hi1 hl1 hargs => ?_
  refine attrs_bind hi1 hargs fun a ha => ?_
  refine (getBody_spec h.cons hi1).bind fun r s2 hi2 hl2 hr => ?_
  exact okE_spec hi2 (setParagraphAttrs_ru (hr.le0 hl1) ha)

/-! ### Bibliographies -/

theorem blkBibcite_spec (h1 : b.star = false) : BSpec b (blkBibcite b) := by
  intro c s cons call h
  unfold blkBibcite
  refine star_bind (h.noStar h1) ?_
  refine (getHeadValue_spec h.inv fun _ _ hi hx => trimmedArg_spec hi hx).bind fun l s1 hi1 hl1 hx => ?_
  exact leafE hi1 hl1 hx

/-- Bibliography entries with good contents. -/
def BibOk (g : Gam) (A : List PartKind) (bib : Bibl Elem) : Prop :=
  ∀ x ∈ bib.entries, ∀ e ∈ x.2, Good g A e ∧ e.kind.isStruct = false

theorem BibOk.add {g : Gam} {A : List PartKind} {bib : Bibl Elem} {k : Str} {es : List Elem} (h : BibOk g A bib)
    (he : ∀ e ∈ es, Good g A e ∧ e.kind.isStruct = false) : BibOk g A (bib.add k es) := by
  unfold Bibl.add
  split
  · exact h
  · intro x hx
    rcases List.mem_append.1 hx with hx | hx
    · exact h x hx
    · simp only [List.mem_singleton] at hx; subst hx; exact he

theorem addBibItems_ok {g : Gam} {A : List PartKind} {items : List Elem} {bib : Bibl Elem} (h : BibOk g A bib)
    (hi : ∀ e ∈ items, Good g A e) : BibOk g A (addBibItems items bib) := by
  induction items generalizing bib with
  | nil => exact h
  | cons e es ih =>
    have hes : ∀ e ∈ es, Good g A e := fun e he => hi e (List.mem_cons_of_mem _ he)
    unfold addBibItems
    split
    · rename_i heq; cases heq
    · rename_i key kids rest heq
      cases heq
      refine ih (h.add ?_) hes
      have hg := hi _ (List.mem_cons_self ..)
      cases hg with
      | mk _ hn hk =>
        obtain ⟨a, v, rfl⟩ : ∃ a b, kids = [.mk .defKey a, .mk .defValue b] := hn.special
        have hv := hk (.mk .defValue v) (by simp)
        cases hv with
        | mk _ hn' hk' =>
          intro e he
          have he : e ∈ v := by simpa [Elem.kids] using he
          refine ⟨(hk' e he).mono (Gam.Le.refl _) (by intro x hx; simpa [below, adds] using hx), ?_⟩
          have := hn'.kids e he
          simpa [allowedKid] using this
    · rename_i heq
      cases heq
      exact ih h hes

theorem addBibElements_ok {g : Gam} {A : List PartKind} {es : List Elem} {bib bib' : Bibl Elem} (h : BibOk g A bib)
    (hi : ∀ e ∈ es, Good g A e) (he : addBibElements es bib = some bib') : BibOk g A bib' := by
  induction es generalizing bib with
  | nil => simp only [addBibElements, Option.some.injEq] at he; exact he ▸ h
  | cons e es ih =>
    have hes : ∀ e ∈ es, Good g A e := fun e he => hi e (List.mem_cons_of_mem _ he)
    unfold addBibElements at he
    split at he
    · rename_i heq; cases heq
    · rename_i heq
      cases heq
      refine ih (addBibItems_ok h ?_) hes he
      have hg := hi _ (List.mem_cons_self ..)
      cases hg with
      | mk _ hn hk =>
        intro e he
        exact (hk e he).mono (Gam.Le.refl _) (by intro x hx; simpa [below, adds] using hx)
    · rename_i heq
      cases heq
      split at he
      · exact ih h hes he
      · cases he

theorem Good.sh {env : Env} {sh sh' : Shared} {fn : Bool} {A : List PartKind} {e : Elem} (hle : ShLe sh sh')
    (h : Good ⟨env, sh, true, fn⟩ A e) : Good ⟨env, sh', true, fn⟩ A e :=
  Good.mono (g := ⟨env, sh, true, fn⟩) (g' := ⟨env, sh', true, fn⟩) ⟨rfl, hle, id, id⟩ (List.Subset.refl _) h

theorem ShOk.pushBib {env : Env} {sh : Shared} {bib : Bibl Elem} (h : ShOk env sh)
    (hb : BibOk ⟨env, sh, true, false⟩ allParts bib) (ho : OpensBlock env.text c!"bibliography") : ShOk env { sh with bibs := sh.bibs ++ [bib] } := by
  have hle : ShLe sh { sh with bibs := sh.bibs ++ [bib] } :=
    ⟨List.prefix_rfl, List.prefix_rfl, List.prefix_rfl, List.prefix_rfl, List.prefix_append ..⟩
  refine ⟨?_, ?_, h.code, h.footB, fun _ => ho, h.codeB, h.htmlB⟩
  · intro f hf e he
    exact ⟨(h.foot f hf e he).1.sh hle, (h.foot f hf e he).2⟩
  · intro x hx y hy e he
    have : Good ⟨env, sh, true, false⟩ allParts e ∧ e.kind.isStruct = false := by
      rcases List.mem_append.1 hx with hx | hx
      · exact h.bibs x hx y hy e he
      · simp only [List.mem_singleton] at hx; subst hx; exact hb y hy e he
    exact ⟨this.1.sh hle, this.2⟩

theorem gam_le_top {c : Ctx} {s : St} {fn : Bool} (h : fn = true → c.fn = true) :
    (c.gam s).Le ⟨c.env, s.sh, true, fn⟩ := ⟨rfl, ShLe.refl _, fun _ => rfl, h⟩

theorem parts_sub (A : List PartKind) : A ⊆ allParts := fun p _ => mem_allParts p

theorem blkBibliography_spec (h1 : b.star = false) (h2 : b.score = false) (hn : b.names = [c!"bibliography"]) :
    BSpec b (blkBibliography b) := by
  intro c s cons call h
  unfold blkBibliography
  refine star_bind (h.noStar h1) (score_bind (h.noScore h2) ?_)
  refine (getHeadMap_spec h.inv).bind fun args s1 hi1 hl1 hargs => ?_
  dsimp only
  refine bool_bind hi1 fun hide _ => ?_
  refine (getBody_spec h.cons hi1).bind fun r s2 hi2 hl2 hr => ?_
  split
  · exact fail_spec hi2
  · rename_i bib hbib
    have hok : BibOk ⟨c.env, s2.sh, true, false⟩ allParts bib := by
      refine addBibElements_ok (by intro x hx; cases hx) ?_ hbib
      intro e he
      exact (hr.goods e he).mono (gam_le_top (by simp)) (parts_sub _)
    refine Tri.bind (Q := fun i s3 => s3 = { s2 with sh := { s2.sh with bibs := s2.sh.bibs ++ [bib] } } ∧
      i = s2.sh.bibs.length) ?_ ?_
    · unfold pushBibliography
      tri
      refine (modSh_spec hi2 ?_ (hi2.sh.pushBib hok (opens_one (hn ▸ h.opens)))).bind ?_
      · exact ⟨List.prefix_rfl, List.prefix_rfl, List.prefix_rfl, List.prefix_rfl, List.prefix_append ..⟩
      · rintro _ s3 hi3 hl3 rfl
        exact Tri.pure hi3 ⟨rfl, rfl⟩
    · rintro _ s3 hi3 hl3 ⟨rfl, rfl⟩
      refine leafK hi3 ((hl1.trans hl2).trans hl3) ?_ (attrOk_nil _) (fun ns hb => blk_opens (hn ▸ h.opens) hb)
        (by intro h; cases h) hr.errs
      refine ⟨?_, fun v hv => hargs.given hv⟩
      show s2.sh.bibs.length < (s2.sh.bibs ++ [bib]).length
      simp

/-! ### Single elements -/

/-- `get_head_value` with a conversion about which nothing needs to be known. -/
theorem headValue_bind {α β : Type} {inHead : Bool} {convert : Option Str → M α} {f : α → M β} {R : β → St → Prop}
    (hi : Inv c s) {Q : α → Prop}
    (h : ∀ arg s1, Inv c s1 → (∀ x, arg = some x → OnLine c.env.text x) → Tri c s1 (convert arg) fun a _ => Q a)
    (hf : ∀ a s', Inv c s' → Le s s' → Q a → Tri c s' (f a) R) : Tri c s (getHeadValue b inHead convert >>= f) R :=
  (getHeadValue_spec hi h).bind hf

theorem stripSfx_some {p x r : Str} (h : stripSfx p x = some r) : x = r ++ p := by
  unfold stripSfx at h
  obtain ⟨y, hy, rfl⟩ := Option.map_eq_some_iff.1 h
  have := congrArg List.reverse (stripPfx_some.1 hy)
  simpa using this

theorem stripEntity_spec (a : Str) : ∃ ws1 amp semi ws2, a = ws1 ++ (amp ++ stripEntity a ++ semi) ++ ws2 ∧
    (∀ c ∈ ws1 ++ ws2, isWS c = true) ∧
    (∀ c, (amp ++ stripEntity a ++ semi).head? = some c ∨ (amp ++ stripEntity a ++ semi).getLast? = some c → isWS c = false) ∧
    (amp = c!"&" ∨ amp = [] ∧ (stripEntity a ++ semi).head? ≠ some '&') ∧
    (semi = c!";" ∨ semi = [] ∧ (stripEntity a).getLast? ≠ some ';') := by
  obtain ⟨l, r, e, hl, hr⟩ := trim_decomp a
  have key : ∃ amp semi, trim a = amp ++ stripEntity a ++ semi ∧ (amp = c!"&" ∨ amp = [] ∧ (stripEntity a ++ semi).head? ≠ some '&') ∧
      (semi = c!";" ∨ semi = [] ∧ (stripEntity a).getLast? ≠ some ';') := by
    have pre : ∃ amp, trim a = amp ++ (stripPfx c!"&" (trim a)).getD (trim a) ∧
        (amp = c!"&" ∨ amp = [] ∧ ((stripPfx c!"&" (trim a)).getD (trim a)).head? ≠ some '&') := by
      cases hp : stripPfx c!"&" (trim a) with
      | some x => exact ⟨c!"&", stripPfx_some.1 hp, .inl rfl⟩
      | none =>
        refine ⟨[], rfl, .inr ⟨rfl, fun hh => ?_⟩⟩
        rw [Option.getD_none] at hh
        obtain ⟨t, ht⟩ := List.head?_eq_some_iff.1 hh
        rw [stripPfx_some.2 (show trim a = c!"&" ++ t from ht)] at hp
        cases hp
    obtain ⟨amp, h1, h2⟩ := pre
    have suf : ∃ semi, (stripPfx c!"&" (trim a)).getD (trim a) = stripEntity a ++ semi ∧
        (semi = c!";" ∨ semi = [] ∧ (stripEntity a).getLast? ≠ some ';') := by
      unfold stripEntity
      dsimp only
      generalize (stripPfx c!"&" (trim a)).getD (trim a) = y
      cases hp : stripSfx c!";" y with
      | some x => exact ⟨c!";", stripSfx_some hp, .inl rfl⟩
      | none =>
        refine ⟨[], (List.append_nil _).symm, .inr ⟨rfl, fun hh => ?_⟩⟩
        rw [Option.getD_none] at hh
        obtain ⟨t, ht⟩ := List.getLast?_eq_some_iff.1 hh
        have : stripPfx (c!";").reverse y.reverse = some t.reverse := stripPfx_some.2 (by rw [ht]; simp)
        unfold stripSfx at hp
        rw [this] at hp
        cases hp
    obtain ⟨semi, h3, h4⟩ := suf
    rw [h3] at h1 h2
    exact ⟨amp, semi, by rw [h1, List.append_assoc], h2, h4⟩
  obtain ⟨amp, semi, h1, h2, h3⟩ := key
  refine ⟨l, amp, semi, r, by rw [← h1]; exact e, ?_, ?_, h2, h3⟩
  · intro c hc
    rcases List.mem_append.1 hc with hc | hc
    · exact hl c hc
    · exact hr c hc
  · rw [← h1]
    intro c hc
    exact hc.elim (trim_head a c) (trim_last a c)

theorem getCharText_spec {v t : Str} {radix : Nat} (h : getCharText v radix = some t) :
    ∃ c : Char, t = [c] ∧ parseU32 radix v = some c.toNat := by
  unfold getCharText at h
  split at h
  · rename_i n hn
    split at h
    · rename_i hr
      cases h
      refine ⟨_, rfl, ?_⟩
      rw [hn]
      unfold Char.ofNat
      rw [dif_pos hr]
      rfl
    · cases h
  · cases h

theorem findEntity_spec {w : World} {name t : Str} (h : findEntity w name = some t) :
    w.entity name = some t ∨ w.entity name = none ∧
      ∃ c : Char, t = [c] ∧
        ((∃ ds, name = c!"#x" ++ ds ∧ parseU32 16 ds = some c.toNat) ∨ ∃ ds, name = c!"#" ++ ds ∧ parseU32 10 ds = some c.toNat) := by
  unfold findEntity at h
  split at h
  · cases h; exact .inl ‹_›
  · refine .inr ⟨‹_›, ?_⟩
    split at h
    · rename_i hs
      cases h
      obtain ⟨ds, h1, h2⟩ := Option.bind_eq_some_iff.1 hs
      obtain ⟨c, rfl, hc⟩ := getCharText_spec h2
      exact ⟨c, rfl, .inl ⟨ds, stripPfx_some.1 h1, hc⟩⟩
    · obtain ⟨ds, h1, h2⟩ := Option.bind_eq_some_iff.1 h
      obtain ⟨c, rfl, hc⟩ := getCharText_spec h2
      exact ⟨c, rfl, .inr ⟨ds, stripPfx_some.1 h1, hc⟩⟩

theorem charNamed_of {w : World} {a t : Str} (h : findEntity w (stripEntity a) = some t) : CharNamed w a t := by
  obtain ⟨ws1, amp, semi, ws2, h1, h2, h3, h4, h5⟩ := stripEntity_spec a
  exact ⟨ws1, amp, _, semi, ws2, h1, h2, h3, h4, h5, findEntity_spec h⟩

theorem blkChar_spec (h1 : b.star = false) (h2 : b.score = false) (hn : b.names = [c!"char", c!"character"]) : BSpec b (blkChar b) := by
  intro c s cons call h
  unfold blkChar
  refine star_bind (h.noStar h1) (score_bind (h.noScore h2) ?_)
  refine headValue_bind (Q := fun t => ∃ a, OnLine c.env.text a ∧ CharNamed c.env.world a t) h.inv ?_ fun a s1 hi1 hl1 ha => ?_
  · intro arg s1 hi1 hx
    tri
    refine orFail_bind hi1 fun a ha => ?_
    exact (orFail_spec hi1).mono fun _ _ _ _ h => ⟨a, hx a ha, charNamed_of h.2⟩
  · exact okE_spec (ps' := false) hi1 (RuOk.text hl1 (.inr (.inr (.inr (.inr (.inl ⟨hn ▸ h.opens, ha⟩))))) noErrs)

theorem blkCheckbox_spec (h2 : b.score = false) (hn : b.names = [c!"checkbox"]) : BSpec b (blkCheckbox b) := by
  intro c s cons call h
  unfold blkCheckbox
  refine score_bind (h.noScore h2) ?_
  refine (getHeadMap_spec h.inv).bind fun args s1 hi1 hl1 hargs => ?_
  refine (getOptionalSpace_spec hi1).skip fun _ s2 hi2 hl2 => ?_
  refine attrs_bind hi2 hargs fun a ha => ?_
  exact leafK hi2 (hl1.trans hl2) trivial ha (fun ns hb => blk_opens (hn ▸ h.opens) hb) (by intro h; cases h) noErrs

theorem blkRadio_spec (h2 : b.score = false) (hn : b.names = [c!"radio", c!"radio-button"]) : BSpec b (blkRadio b) := by
  intro c s cons call h
  unfold blkRadio
  refine score_bind (h.noScore h2) ?_
  refine (getHeadNameMap_spec h.inv).bind fun args s1 hi1 hl1 hargs => ?_
  obtain ⟨hargs, hname⟩ := hargs
  dsimp only
  refine (getOptionalSpace_spec hi1).skip fun _ s2 hi2 hl2 => ?_
  refine attrs_bind hi2 hargs fun a ha => ?_
  exact leafK hi2 (hl1.trans hl2) hname ha (fun ns hb => blk_opens (hn ▸ h.opens) hb) (by intro h; cases h) noErrs

theorem ShOk.pushCode {env : Env} {sh : Shared} {x : CodeBlock} (h : ShOk env sh)
    (hx : (x.name.isSome && sh.codeBlocks.any (fun b' => b'.name == x.name)) = false)
    (ht : x.contents <:+: env.text) (ho : OpensBlock env.text c!"code") :
    ShOk env { sh with codeBlocks := sh.codeBlocks ++ [x] } := by
  have hle : ShLe sh { sh with codeBlocks := sh.codeBlocks ++ [x] } :=
    ⟨List.prefix_rfl, List.prefix_rfl, List.prefix_append .., List.prefix_rfl, List.prefix_rfl⟩
  refine ⟨?_, ?_, ?_, h.footB, h.bibsB, ?_, h.htmlB⟩
  rotate_left 3
  · intro y hy
    rcases List.mem_append.1 hy with hy | hy
    · exact h.codeB y hy
    · simp only [List.mem_singleton] at hy; subst hy; exact ⟨ht, ho⟩
  · intro f hf e he
    exact ⟨(h.foot f hf e he).1.sh hle, (h.foot f hf e he).2⟩
  · intro f hf y hy e he
    exact ⟨(h.bibs f hf y hy e he).1.sh hle, (h.bibs f hf y hy e he).2⟩
  · refine List.pairwise_append.2 ⟨h.code, by simp, ?_⟩
    intro a ha y hy hs he
    simp only [List.mem_singleton] at hy
    subst hy
    rw [he] at hs
    rw [hs, Bool.true_and] at hx
    have : sh.codeBlocks.any (fun b' => b'.name == y.name) = true :=
      List.any_eq_true.2 ⟨a, ha, by simp [he]⟩
    rw [this] at hx; cases hx

theorem blkCode_spec (h1 : b.star = false) (h2 : b.score = false) (hn : b.names = [c!"code"]) : BSpec b (blkCode b) := by
  intro c s cons call h
  unfold blkCode
  refine star_bind (h.noStar h1) (score_bind (h.noScore h2) ?_)
  refine (getHeadMap_spec h.inv).bind fun args s1 hi1 hl1 hargs => ?_
  dsimp only
  tri
  refine (getBodyText_spec hi1).bind fun code s2 hi2 hl2 hcode => ?_
  generalize ((argGet (argGet args c!"type").2 c!"name").1.map c.env.world.normalize) = name
  refine Tri.bind (Q := fun added s3 => added = true → ⟨code, name⟩ ∈ s3.sh.codeBlocks) ?_ ?_
  · unfold pushCodeBlock
    tri
    split
    · exact Tri.pure hi2 (by simp)
    · rename_i hx
      refine (modSh_spec hi2 ?_ (hi2.sh.pushCode (by simpa using hx) hcode (opens_one (hn ▸ h.opens)))).bind ?_
      · exact ⟨List.prefix_rfl, List.prefix_rfl, List.prefix_append .., List.prefix_rfl, List.prefix_rfl⟩
      · rintro _ s3 hi3 _ rfl
        exact Tri.pure hi3 (by simp)
  · intro added s3 hi3 hl3 ha
    cases added with
    | false => exact fail_spec hi3
    | true =>
      refine leafK hi3 ((hl1.trans hl2).trans hl3) ⟨⟨_, ha rfl, rfl⟩, hcode, fun v hv => ?_⟩ (attrOk_nil _)
        (fun ns hb => blk_opens (hn ▸ h.opens) hb) (by intro h; cases h) noErrs
      obtain ⟨x, hx, rfl⟩ := Option.map_eq_some_iff.1 hv
      exact ⟨x, hargs.given hx, rfl⟩

theorem blkCollapsible_spec (h1 : b.star = false) (h2 : b.score = false) (hn : b.names = [c!"collapsible"]) :
    BSpec b (blkCollapsible b) := by
  intro c s cons call h
  unfold blkCollapsible
  refine star_bind (h.noStar h1) (score_bind (h.noScore h2) ?_)
  refine (getHeadMap_spec h.inv).bind fun args s1 hi1 hl1 hargs => ?_
  dsimp only
  refine bool_bind hi1 fun folded hfol => ?_
  have rest : ∀ x : Bool × Bool, RuleOk c s s1 (getBody cons b true >>= fun r =>
      toAttrs (argGet folded.2 c!"hideLocation").2 >>= fun attrs =>
      okE [.mk (.collapsible attrs (!folded.1.getD true) (argGet args c!"show").1
        (argGet (argGet args c!"show").2 c!"hide").1 x.1 x.2) r.item] r.errors) := by
    intro x
    refine (getBody_spec h.cons hi1).bind fun r s2 hi2 hl2 hr => ?_
    refine attrs_bind hi2 ((hfol ((hargs.get _).get _)).get _) fun a ha => ?_
    have hr := hr.le0 hl1
    refine okE_spec (ps' := false) hi2 (RuOk.node hr ?_ rfl rfl ha (by intro h; cases h)
      (fun ns hb => blk_opens (hn ▸ h.opens) hb)
      ⟨fun v hv => hargs.given hv, fun v hv => (hargs.get _).given hv⟩ (by simp) ?_)
    · intro k' hk; simp [allowedKid, hk]
    · intro m
      have := hr.cnt m
      have := meas_zero (k := .collapsible a (!folded.1.getD true) (argGet args c!"show").1
        (argGet (argGet args c!"show").2 c!"hide").1 x.1 x.2) (by simp) (by simp) m
      omega
  split
  · refine orFail_bind hi1 fun x _ => ?_
    exact rest x
  · exact rest (true, false)

theorem blkDate_spec (h1 : b.star = false) (h2 : b.score = false) (hn : b.names = [c!"date"]) : BSpec b (blkDate b) := by
  intro c s cons call h
  unfold blkDate
  refine star_bind (h.noStar h1) (score_bind (h.noScore h2) ?_)
  tri
  refine (getHeadNameMap_spec h.inv).bind fun args s1 hi1 hl1 hargs => ?_
  refine bool_bind hi1 fun hover _ => ?_
  refine orFail_bind hi1 fun d _ => ?_
  have rest : ∀ d, RuleOk c s s1 (okE [.mk (.date d (argGet args.2 c!"format").1 (hover.1.getD true)) []]) := fun d =>
    leafK hi1 hl1 (fun v hv => hargs.1.given hv) (attrOk_nil _) (fun ns hb => blk_opens (hn ▸ h.opens) hb) (by intro h; cases h) noErrs
  split
  · exact rest _
  · refine Tri.bind (Q := fun _ s' => s' = s1) ?_ ?_
    · refine orFail_bind hi1 fun x _ => ?_
      split
      · exact Tri.pure hi1 rfl
      · exact fail_spec hi1
    · rintro x _ _ _ rfl
      exact rest _

theorem blkEmbed_spec (h1 : b.star = false) (h2 : b.score = false) (hn : b.names = [c!"embed"]) : BSpec b (blkEmbed b) := by
  intro c s cons call h
  unfold blkEmbed
  refine star_bind (h.noStar h1) (score_bind (h.noScore h2) ?_)
  refine (getHeadNameMap_spec h.inv).bind fun args s1 hi1 hl1 hargs => ?_
  dsimp only
  have leaf : ∀ e : Embed, (∃ v, ArgGiven c.env.text c!"video" v ∧ (e = .youtube v ∨ e = .vimeo v)) → RuleOk c s s1 (okE [.mk (.embed e) []]) :=
    fun e he => leafK hi1 hl1 he (attrOk_nil _) (fun ns hb => blk_opens (hn ▸ h.opens) hb) (by intro h; cases h) noErrs
  split
  · refine orFail_bind hi1 fun v hv => ?_
    exact leaf _ ⟨v, hargs.1.given hv, .inl rfl⟩
  · split
    · refine orFail_bind hi1 fun v hv => ?_
      exact leaf _ ⟨v, hargs.1.given hv, .inr rfl⟩
    · exact fail_spec hi1

theorem blkEquationRef_spec (h1 : b.star = false) (h2 : b.score = false)
    (hn : b.names = [c!"equation", c!"eref", c!"eqref"]) : BSpec b (blkEquationRef b) := by
  intro c s cons call h
  unfold blkEquationRef
  refine star_bind (h.noStar h1) (score_bind (h.noScore h2) ?_)
  refine headValue_bind h.inv (fun _ _ hi hx => trimmedArg_spec hi hx) fun a s1 hi1 hl1 hx => ?_
  exact leafK hi1 hl1 hx (attrOk_nil _) (fun ns hb => blk_opens (hn ▸ h.opens) hb) (by intro h; cases h) noErrs

theorem blkHtml_spec (h1 : b.star = false) (h2 : b.score = false) (hn : b.names = [c!"html"]) : BSpec b (blkHtml b) := by
  intro c s cons call h
  unfold blkHtml
  refine star_bind (h.noStar h1) (score_bind (h.noScore h2) ?_)
  refine (getHeadNone_spec h.inv).skip fun _ s1 hi1 hl1 => ?_
  refine (getBodyText_spec hi1).bind fun html s2 hi2 hl2 hh => ?_
  refine (modSh_spec hi2 ?_ ?_).bind ?_
  · exact ⟨List.prefix_rfl, List.prefix_append .., List.prefix_rfl, List.prefix_rfl, List.prefix_rfl⟩
  · exact hi2.sh.ext ⟨List.prefix_rfl, List.prefix_append .., List.prefix_rfl, List.prefix_rfl, List.prefix_rfl⟩
      rfl rfl rfl (by
        intro x hx
        rcases List.mem_append.1 hx with hx | hx
        · exact hi2.sh.htmlB x hx
        · simp only [List.mem_singleton] at hx; subst hx; exact ⟨hh, opens_one (hn ▸ h.opens)⟩)
  · rintro _ s3 hi3 hl3 rfl
    refine leafK hi3 ((hl1.trans hl2).trans hl3) ⟨?_, hh⟩ (attrOk_nil _)
      (fun ns hb => blk_opens (hn ▸ h.opens) hb) (by intro h; cases h) noErrs
    exact List.mem_append_right _ (List.mem_singleton.2 rfl)

theorem blkIframe_spec (h1 : b.star = false) (h2 : b.score = false) (hn : b.names = [c!"iframe"]) : BSpec b (blkIframe b) := by
  intro c s cons call h
  unfold blkIframe
  refine star_bind (h.noStar h1) (score_bind (h.noScore h2) ?_)
  refine (getHeadNameMap_spec h.inv).bind fun args s1 hi1 hl1 hargs => ?_
  obtain ⟨hargs, hname⟩ := hargs
  dsimp only
  split
  · exact fail_spec hi1
  · rename_i hu
    refine attrs_bind hi1 hargs fun a ha => ?_
    exact leafK hi1 hl1 ⟨by simpa using hu, hname⟩ ha (fun ns hb => blk_opens (hn ▸ h.opens) hb) (by intro h; cases h) noErrs

theorem splitOn_parts (ch : Char) (s : Str) : ∀ x ∈ splitOn ch s, ch ∉ x := by
  induction s with
  | nil => simp [splitOn]
  | cons a s ih =>
    unfold splitOn
    split
    · intro x hx
      rcases List.mem_cons.1 hx with rfl | hx
      · simp
      · exact ih x hx
    · next hne =>
      split
      · intro x hx; simp only [List.mem_singleton] at hx; subst hx; simp [Ne.symm hne]
      · next p ps he =>
        intro x hx
        rcases List.mem_cons.1 hx with rfl | hx
        · have := ih p (by simp [he])
          simp [Ne.symm hne, this]
        · exact ih x (by simp [he, hx])

theorem imageSource_from {text s : Str} {src : ImageSource} (h : ImageSource.parse s = some src) (hs : OnLine text s) :
    ImageFrom text src := by
  unfold ImageSource.parse at h
  split at h
  · next hu => cases h; exact ⟨hs, hu⟩
  · have hs' : OnLine text ((stripPfx c!"/" s).getD s) := by
      cases hp : stripPfx c!"/" s with
      | none => exact hs
      | some r => exact hs.of_infix ⟨c!"/", [], by rw [stripPfx_some.1 hp]; simp⟩
    generalize (stripPfx c!"/" s).getD s = s' at h hs'
    have hj := joinWith_splitOn '/' s'
    have hn := splitOn_parts '/' s'
    dsimp only at h
    split at h
    · next he =>
      rw [he] at hj hn
      cases h
      simp only [joinWith] at hj
      subst hj
      exact ⟨hs', hn _ (by simp)⟩
    · next he =>
      rw [he] at hj hn
      cases h
      simp only [joinWith] at hj
      subst hj
      refine ⟨by simpa [List.append_assoc] using hs', ?_⟩
      simp only [List.mem_append, not_or]
      exact ⟨hn _ (by simp), hn _ (by simp)⟩
    · next he =>
      rw [he] at hj hn
      cases h
      simp only [joinWith] at hj
      subst hj
      refine ⟨by simpa [List.append_assoc] using hs', ?_⟩
      simp only [List.mem_append, not_or]
      exact ⟨⟨hn _ (by simp), hn _ (by simp)⟩, hn _ (by simp)⟩
    · cases h

theorem blkImage_spec (h1 : b.star = false) (h2 : b.score = false)
    (hn : b.names = [c!"image", c!"=image", c!"<image", c!">image", c!"f<image", c!"f>image"]) : BSpec b (blkImage b) := by
  intro c s cons call h
  unfold blkImage
  refine star_bind (h.noStar h1) (score_bind (h.noScore h2) ?_)
  refine (getHeadNameMap_spec h.inv).bind fun args s1 hi1 hl1 hargs => ?_
  dsimp only
  refine orFail_bind hi1 fun src hsrc => ?_
  refine attrs_bind hi1 (hargs.1.get _) fun a ha => ?_
  refine leafK hi1 hl1 ⟨imageSource_from hsrc hargs.2, fun d hd => ?_⟩ ha (fun ns hb => blk_opens (hn ▸ h.opens) hb) (by intro h; cases h) noErrs
  obtain ⟨x, hx, rfl⟩ := Option.map_eq_some_iff.1 hd
  exact ⟨x, hargs.1.given hx, rfl⟩

theorem blkIncludeElements_spec (h1 : b.star = false) (h2 : b.score = false) (hn : b.names = [c!"include-elements"]) :
    BSpec b (blkIncludeElements b) := by
  intro c s cons call h
  unfold blkIncludeElements
  refine page_bind h.inv fun hp => ?_
  refine star_bind (h.noStar h1) (score_bind (h.noScore h2) ?_)
  refine (getHeadNameMap_spec h.inv).bind fun args s1 hi1 hl1 hargs => ?_
  dsimp only
  refine orFail_bind hi1 fun ref _ => ?_
  have ht : EsOk c s s1 [eText c!"<INCLUDED PAGE (ELEMENTS)>"] [] false :=
    EsOk.of_ru (RuOk.text hl1 (.inr (.inr (.inr (.inr (.inr (.inr ⟨rfl, hn ▸ h.opens⟩)))))) noErrs) (by simp [Elem.kind])
  refine okE_spec (ps' := false) hi1 (RuOk.node ht ?_ rfl rfl (attrOk_nil _) (fun _ => hp)
    (fun ns hb => blk_opens (hn ▸ h.opens) hb) ⟨rfl, hargs.1.names⟩ (by simp) ?_)
  · intro k' hk; simp [allowedKid, hk]
  · intro m; have := ht.cnt m; have := meas_zero (k := .include false args.2 ref) (by simp) (by simp) m; omega

theorem blkInclude_spec (h1 : b.star = false) (h2 : b.score = false) : BSpec b (blkInclude b) := by
  intro c s cons call h
  unfold blkInclude
  refine page_bind h.inv fun hp => ?_
  refine star_bind (h.noStar h1) (score_bind (h.noScore h2) ?_)
  exact fail_spec h.inv

theorem blkLater_spec (hn : b.names = [c!"later"]) : BSpec b (blkLater b) := by
  intro c s cons call h
  unfold blkLater
  refine (getHeadNone_spec h.inv).skip fun _ s1 hi1 hl1 => ?_
  exact okE_spec (ps' := false) hi1 (RuOk.text hl1 (.inr (.inr (.inr (.inr (.inr (.inl ⟨rfl, hn ▸ h.opens⟩)))))) noErrs)

theorem blkLines_spec (h1 : b.star = false) (h2 : b.score = false) (hn : b.names = [c!"lines", c!"newlines"]) :
    BSpec b (blkLines b) := by
  intro c s cons call h
  unfold blkLines
  refine star_bind (h.noStar h1) (score_bind (h.noScore h2) ?_)
  refine (getHeadValue_spec (Q := fun n => 1 ≤ n ∧ n ≤ 100) h.inv ?_).bind fun n s1 hi1 hl1 hx => ?_
  · intro arg s1 hi1 _
    refine orFail_bind hi1 fun a _ => ?_
    refine orFail_bind hi1 fun n hn => ?_
    split
    · exact fail_spec hi1
    · refine Tri.pure hi1 ⟨?_, by omega⟩
      unfold parseNonZeroU32 at hn
      split at hn
      · cases hn
      · rename_i hne
        cases n with
        | zero => exact (hne hn).elim
        | succ n => omega
  · exact leafK hi1 hl1 hx (attrOk_nil _) (fun ns hb => blk_opens (hn ▸ h.opens) hb) (by intro h; cases h) noErrs

theorem blkMath_spec (h1 : b.star = false) (h2 : b.score = false) (hn : b.names = [c!"math"]) : BSpec b (blkMath b) := by
  intro c s cons call h
  unfold blkMath
  refine star_bind (h.noStar h1) (score_bind (h.noScore h2) ?_)
  refine headValue_bind h.inv (Q := fun _ => True) (fun _ _ hi _ => Tri.pure hi trivial) fun a s1 hi1 hl1 _ => ?_
  refine (getBodyText_spec hi1).bind fun src s2 hi2 hl2 hs => ?_
  split
  · exact fail_spec hi2
  · rename_i hne
    exact leafK hi2 (hl1.trans hl2) ⟨by simpa using hne, infix_trim hs⟩ (attrOk_nil _)
      (fun ns hb => blk_opens (hn ▸ h.opens) hb) (by intro h; cases h) noErrs

theorem blkTarget_spec (h1 : b.star = false) (h2 : b.score = false) : BSpec b (blkTarget b) := by
  intro c s cons call h
  unfold blkTarget
  refine star_bind (h.noStar h1) (score_bind (h.noScore h2) ?_)
  refine headValue_bind h.inv (fun _ _ hi hx => trimmedArg_spec hi hx) fun a s1 hi1 hl1 hx => ?_
  split
  · exact fail_spec hi1
  · tri
    exact leafE hi1 hl1 ⟨a, hx, rfl⟩

theorem blkToc_spec (h1 : b.star = false) (h2 : b.score = false) (hn : b.names = [c!"toc", c!"f<toc", c!"f>toc"]) :
    BSpec b (blkToc b) := by
  intro c s cons call h
  unfold blkToc
  refine page_bind h.inv fun hp => ?_
  refine star_bind (h.noStar h1) (score_bind (h.noScore h2) ?_)
  refine (getHeadMap_spec h.inv).bind fun args s1 hi1 hl1 hargs => ?_
  refine attrs_bind hi1 hargs fun a ha => ?_
  exact leafF hi1 hl1 trivial ha (fun ns hb => blk_opens (hn ▸ h.opens) hb) (fun _ => hp) noErrs

theorem blkUser_spec (h2 : b.score = false) (hn : b.names = [c!"user"]) : BSpec b (blkUser b) := by
  intro c s cons call h
  unfold blkUser
  refine score_bind (h.noScore h2) ?_
  refine headValue_bind h.inv (fun _ _ hi hx => trimmedArg_spec hi hx) fun a s1 hi1 hl1 hx => ?_
  exact leafK hi1 hl1 hx (attrOk_nil _) (fun ns hb => blk_opens (hn ▸ h.opens) hb) (by intro h; cases h) noErrs

/-! ### Footnotes -/

theorem ShOk.pushFoot {env : Env} {sh : Shared} {es : List Elem} (h : ShOk env sh)
    (hes : ∀ e ∈ es, Good ⟨env, sh, true, true⟩ allParts e ∧ e.kind.isStruct = false)
    (ho : OpensBlock env.text c!"footnote") : ShOk env { sh with footnotes := sh.footnotes ++ [es] } := by
  have hle : ShLe sh { sh with footnotes := sh.footnotes ++ [es] } :=
    ⟨List.prefix_rfl, List.prefix_rfl, List.prefix_rfl, List.prefix_append .., List.prefix_rfl⟩
  refine ⟨?_, ?_, h.code, fun _ => ho, h.bibsB, h.codeB, h.htmlB⟩
  · intro f hf e he
    have : Good ⟨env, sh, true, true⟩ allParts e ∧ e.kind.isStruct = false := by
      rcases List.mem_append.1 hf with hf | hf
      · exact h.foot f hf e he
      · simp only [List.mem_singleton] at hf; subst hf; exact hes e he
    exact ⟨this.1.sh hle, this.2⟩
  · intro f hf y hy e he
    exact ⟨(h.bibs f hf y hy e he).1.sh hle, (h.bibs f hf y hy e he).2⟩

theorem unwrapParagraph_ok {g : Gam} {A : List PartKind} {es : List Elem}
    (h : ∀ e ∈ es, Good g A e ∧ e.kind.isStruct = false) :
    ∀ e ∈ unwrapParagraph es, Good g A e ∧ e.kind.isStruct = false := by
  unfold unwrapParagraph
  split
  · rename_i a ks
    have := (h _ (List.mem_singleton.2 rfl)).1
    cases this with
    | mk _ hn hk =>
      intro e he
      refine ⟨(hk e he).mono (Gam.Le.refl _) (by intro x hx; simpa [below, adds] using hx), ?_⟩
      have := hn.kids e he
      simpa [allowedKid] using this
  · exact h

theorem blkFootnote_spec (h1 : b.star = false) (h2 : b.score = false) (hn : b.names = [c!"footnote"]) :
    BSpec b (blkFootnote b) := by
  intro c s cons call h
  unfold blkFootnote
  tri
  split
  · exact fail_spec h.inv
  · rename_i hf
    have hfn : c.fn = false := by rw [← h.inv.fn]; simpa using hf
    refine withFootnote_spec (Q := fun r s' => r.item = [.mk .footnote []] ∧ (∀ x ∈ r.errors, ErrOk c.env x) ∧
      s.sh.footnotes.length < s'.sh.footnotes.length) h.inv hfn ?_ ?_
    · intro hi
      refine star_bind (h.noStar h1) (score_bind (h.noScore h2) ?_)
      refine (getHeadNone_spec hi).skip fun _ s1 hi1 hl1 => ?_
      refine (getBody_spec (c := { c with fn := true }) h.cons hi1).bind fun r s2 hi2 hl2 hr => ?_
      refine (modSh_spec hi2 ?_ (hi2.sh.pushFoot (unwrapParagraph_ok ?_) (opens_one (hn ▸ h.opens)))).bind ?_
      · exact ⟨List.prefix_rfl, List.prefix_rfl, List.prefix_rfl, List.prefix_append .., List.prefix_rfl⟩
      · intro e he
        exact ⟨(hr.goods e he).mono (gam_le_top (by simp)) (parts_sub _), hr.elem e he⟩
      · rintro _ s3 hi3 hl3 rfl
        refine Tri.pure hi3 ⟨rfl, hr.errs, ?_⟩
        have h1 := hl1.sh.foot.length_le
        have h2 := hl2.sh.foot.length_le
        simp only [List.length_append, List.length_singleton] at *
        omega
    · rintro ⟨item, errors, ps⟩ s' ⟨h3, h4, h5⟩ hl
      dsimp only at h3 h4 h5 ⊢
      subst h3
      refine ⟨?_, ?_, h4, ?_, ?_⟩
      · intro e he
        simp only [List.mem_singleton] at he
        subst he
        exact ⟨⟨by simp, fun _ => rfl, attrOk_nil _, (by intro h; cases h), fun ns hb => blk_opens (hn ▸ h.opens) hb,
          hfn⟩, by simp⟩
      · simp [Elem.kind, Kind.isStruct]
      · simp [Elem.inParagraph, Elem.kind, Kind.paragraphSafe?]
      · intro m
        have hm := m.size_mono hl.sh
        simp only [countIn_cons, count_mk, countIn_nil]
        cases m with
        | footnotes => simp only [Meas.ofKind, Meas.size]; omega
        | headings => simpa [Meas.ofKind] using hm

theorem blkFootnoteBlock_spec (h1 : b.star = false) (h2 : b.score = false) (hn : b.names = [c!"footnoteblock"]) :
    BSpec b (blkFootnoteBlock b) := by
  intro c s cons call h
  unfold blkFootnoteBlock
  refine star_bind (h.noStar h1) (score_bind (h.noScore h2) ?_)
  refine (getHeadMap_spec h.inv).bind fun args s1 hi1 hl1 hargs => ?_
  dsimp only
  refine bool_bind hi1 fun hide _ => ?_
  have ho : OpensBlock c.env.text c!"footnoteblock" := by
    obtain ⟨n, hn', ho⟩ := h.opens
    rw [hn, List.mem_singleton] at hn'
    exact hn' ▸ ho
  split
  · exact fail_spec hi1
  · refine Tri.bind (Q := fun _ s2 => s2 = { s1 with p := { s1.p with hasFootnoteBlock := true } }) ?_ ?_
    · exact ⟨⟨hi1.wf, hi1.sfx, hi1.dep, hi1.acc, hi1.fn, fun _ => ho, hi1.sh⟩,
        ⟨List.suffix_rfl, fun _ => rfl, ShLe.refl _⟩, rfl⟩
    · rintro _ s2 hi2 hl2 rfl
      exact leafK hi2 (hl1.trans hl2) ⟨rfl, fun v hv => hargs.given hv⟩ (attrOk_nil _) (fun ns hb => blk_opens (hn ▸ h.opens) hb)
        (by intro h; cases h) noErrs

/-! ### Conditions -/

theorem EsOk.guard {es : List Elem} {errs : List PErr} {ps : Bool} (p : Bool) (h : EsOk c s0 s es errs ps) :
    EsOk c s0 s (if p then es else []) errs ps := by
  split
  · exact h
  · exact h.sub (List.nil_sublist _)

theorem blkIfCategory_spec (h1 : b.star = false) (h2 : b.score = false) : BSpec b (blkIfCategory b) := by
  intro c s cons call h
  unfold blkIfCategory
  refine star_bind (h.noStar h1) (score_bind (h.noScore h2) ?_)
  refine headValue_bind (Q := fun _ => True) h.inv ?_ fun cs s1 hi1 hl1 _ => ?_
  · intro arg s1 hi1 _
    exact orFail_bind hi1 fun a _ => Tri.pure hi1 trivial
  · refine (getBody_spec h.cons hi1).bind fun r s2 hi2 hl2 hr => ?_
    tri
    exact okP_spec hi2 ((hr.le0 hl1).guard _).toRuOk

theorem blkIfTags_spec (h1 : b.star = false) (h2 : b.score = false) : BSpec b (blkIfTags b) := by
  intro c s cons call h
  unfold blkIfTags
  refine star_bind (h.noStar h1) (score_bind (h.noScore h2) ?_)
  refine headValue_bind (Q := fun _ => True) h.inv ?_ fun cs s1 hi1 hl1 _ => ?_
  · intro arg s1 hi1 _
    exact orFail_bind hi1 fun a _ => Tri.pure hi1 trivial
  · refine (getBody_spec h.cons hi1).bind fun r s2 hi2 hl2 hr => ?_
    tri
    exact okP_spec hi2 ((hr.le0 hl1).guard _).toRuOk

/-! ### Lists -/

/-- The nodes of lists. -/
def isListKind : Kind → Bool
  | .list .. | .subList | .item _ => true
  | _ => false

theorem list_drop {g : Gam} {A : List PartKind} {e : Elem} (h : Good g A e) (hA : A ⊆ [.listItem])
    (hk : isListKind e.kind = true) (B : List PartKind) : Good g B e := by
  induction h generalizing B with
  | @mk A k ks hp hn hks ih =>
    refine .mk ?_ hn ?_
    · rintro p rfl; cases hk
    · intro e he
      have hal := hn.kids e he
      cases k <;> first | (cases hk; done) | skip
      · refine ih e he (by simpa [below, adds] using hA) ?_ _
        revert hal
        cases e.kind <;> first | (intro _; rfl) | (intro h; cases h)
      · refine (hks e he).mono (Gam.Le.refl _) ?_
        simp only [below, adds]
        intro x hx
        rcases List.mem_append.1 hx with hx | hx
        · exact List.mem_append_left _ hx
        · exact List.mem_append_left _ (hA hx)
      · refine ih e he (by simpa [below, adds] using hA) ?_ _
        revert hal
        cases e.kind <;> first | (intro _; rfl) | (intro h; cases h)

theorem listItems_ok {g : Gam} {es items : List Elem} (h : ∀ e ∈ es, Good g [.listItem] e)
    (hi : listItems es = some items) (B : List PartKind) :
    (∀ e ∈ items, Good g B e ∧ ((∃ a, e.kind = .item a) ∨ e.kind = .subList)) ∧
      ∀ m, countIn m items ≤ countIn m es := by
  induction es generalizing items with
  | nil =>
    simp only [listItems, Option.some.injEq] at hi
    subst hi; exact ⟨by simp, by simp⟩
  | cons e es ih =>
    have hes : ∀ e ∈ es, Good g [.listItem] e := fun e he => h e (List.mem_cons_of_mem _ he)
    have he := h e (List.mem_cons_self ..)
    unfold listItems at hi
    split at hi
    · rename_i heq; cases heq
    · rename_i kids rest heq
      cases heq
      obtain ⟨its, h1, rfl⟩ := Option.map_eq_some_iff.1 hi
      obtain ⟨h2, h3⟩ := ih hes h1
      cases he with
      | mk _ hn hk =>
        refine ⟨?_, ?_⟩
        · intro e he
          rcases List.mem_append.1 he with he | he
          · have hal := hn.kids e he
            have hx : ∃ a, e.kind = .item a := by
              revert hal
              cases e.kind <;> first | (intro _; exact ⟨_, rfl⟩) | (intro h; cases h)
            refine ⟨list_drop (hk e he) (by simp [below, adds]) ?_ B, .inl hx⟩
            obtain ⟨a, ha⟩ := hx; rw [ha]; rfl
          · exact h2 e he
        · intro m
          have := h3 m
          simp only [countIn_append, countIn_cons, count_mk]
          omega
    · rename_i l a kids rest heq
      cases heq
      obtain ⟨its, h1, rfl⟩ := Option.map_eq_some_iff.1 hi
      obtain ⟨h2, h3⟩ := ih hes h1
      refine ⟨?_, ?_⟩
      · intro e he'
        rcases List.mem_cons.1 he' with rfl | he'
        · refine ⟨.mk (by simp) (NodeOk.plain (by simp [Elem.kind, allowedKid]) rfl) ?_, .inr rfl⟩
          intro e he'
          simp only [List.mem_singleton] at he'
          subst he'
          exact list_drop he (List.Subset.refl _) rfl _
        · exact h2 e he'
      · intro m
        have := h3 m
        simp only [countIn_cons, count_mk, countIn_nil]
        have : m.ofKind .subList = 0 := by cases m <;> rfl
        omega
    · rename_i heq
      cases heq
      split at hi
      · obtain ⟨h2, h3⟩ := ih hes hi
        exact ⟨h2, fun m => by have := h3 m; simp only [countIn_cons]; omega⟩
      · cases hi

/-- A node from its parts. -/
theorem RuOk.mkNode {k : Kind} {ks : List Elem} {errs : List PErr} (he : ∀ x ∈ errs, ErrOk c.env x)
    (hn : NodeOk (c.gam s) k ks) (hk : ∀ e ∈ ks, Good (c.gam s) (below k (partsOf c.accepts)) e)
    (hst : k.isStruct = false) (hcnt : ∀ m, countIn m ks + m.size s0.sh ≤ m.size s.sh)
    (h1 : k ≠ .footnote := by simp) (h2 : ∀ h a, k ≠ .container (.header h) a := by simp) :
    RuOk c s0 s [.mk k ks] errs false := by
  refine ⟨?_, ?_, he, by simp, ?_⟩
  · intro e he
    simp only [List.mem_singleton] at he
    subst he
    exact ⟨hn, hk⟩
  · intro e he
    simp only [List.mem_singleton] at he
    subst he
    exact hst
  · intro m
    have := hcnt m
    have := meas_zero h1 h2 m
    simp only [countIn_cons, count_mk, countIn_nil]; omega

/-- The conclusion of a block that runs under another `accepts_partial`. -/
theorem accepts_ru {a : Accepts} {m : M (PS Elements)} (h : Inv c s)
    (hm : Inv { c with accepts := a } { s with p := { s.p with accepts := a } } →
      Tri { c with accepts := a } { s with p := { s.p with accepts := a } } m
        fun r s' => RuOk c s s' r.item r.errors r.psafe) : RuleOk c s s (withAccepts a m) := by
  refine withAccepts_spec h hm ?_
  intro r s' hr hl
  exact ⟨hr.good, hr.elem, hr.errs, hr.safe, hr.cnt⟩

theorem blkList_spec {lt : ListType} (h1 : b.star = false) (hn : b.names = [c!"ul"] ∨ b.names = [c!"ol"]) :
    BSpec b (blkList b lt) := by
  intro c s cons call h
  have ho : OpensOne c.env.text [c!"ul", c!"ol"] := by
    obtain ⟨n, hn', ho⟩ := h.opens
    refine ⟨n, ?_, ho⟩
    rcases hn with hn | hn <;> rw [hn, List.mem_singleton] at hn' <;> simp [hn']
  unfold blkList
  refine accepts_ru h.inv fun hi => ?_
  refine star_bind (h.noStar h1) ?_
  refine (getHeadMap_spec hi).bind fun args s1 hi1 hl1 hargs => ?_
  refine attrs_bind hi1 hargs fun a ha => ?_
  refine (getBody_spec (c := { c with accepts := .listItem }) h.cons hi1).bind fun r s2 hi2 hl2 hr => ?_
  have hr := (hr.le0 hl1).strip call.score
  dsimp only
  generalize (if call.score then stripNewlines r.item else r.item) = es at hr
  split
  · exact fail_spec hi2
  · refine orFail_bind hi2 fun items hit => ?_
    obtain ⟨h3, h4⟩ := listItems_ok hr.goods hit (partsOf c.accepts)
    refine Tri.pure hi2 (RuOk.mkNode hr.errs ⟨?_, (fun h => by cases h), ha, (fun h => by cases h),
      (fun _ h => by cases h), .inr ho⟩ (fun e he => (h3 e he).1) rfl ?_)
    · intro e he
      rcases (h3 e he).2 with ⟨a, h⟩ | h <;> rw [h] <;> rfl
    · intro m
      have := h4 m
      have := hr.cnt m
      dsimp only at this
      omega

/-- The conclusion about a partial element that holds one structural node. -/
theorem RuOk.part {p : PartKind} {k : Kind} {es : List Elem} {errs : List PErr} {ps : Bool}
    (hes : ∀ e ∈ es, Good (c.gam s) (below k (below (.part p) (partsOf c.accepts))) e)
    (hst : ∀ e ∈ es, allowedKid k e.kind = true) (he : ∀ x ∈ errs, ErrOk c.env x)
    (hcnt : ∀ m, countIn m es + m.size s0.sh ≤ m.size s.sh)
    (hal : allowedKid (.part p) k = true) (hattr : AttrOk c.env.settings c.env.text k.attrs)
    (hblk : ∀ ns, k.blocks = some ns → OpensOne c.env.text ns) (hsp : Special (c.gam s) k es)
    (ho : OpensOne c.env.text (partBlocks p)) (hks : k.isStruct = true) :
    RuOk c s0 s [.mk (.part p) [.mk k es]] errs ps := by
  have hm0 : ∀ m : Meas, m.ofKind k = 0 := fun m => meas_zero (by rintro rfl; cases hks) (by rintro _ _ rfl; cases hks) m
  have := RuOk.mkNode (c := c) (s0 := s0) (s := s) (k := .part p) (ks := [.mk k es]) he
    ⟨by simpa [Elem.kind] using hal, (fun h => by cases h), attrOk_nil _, (fun h => by cases h),
      (fun ns hb => blk_opens ho hb), rfl⟩ ?_ rfl ?_
  · exact ⟨this.good, this.elem, he, by simp [Elem.inParagraph, Elem.kind, Kind.paragraphSafe?], this.cnt⟩
  · intro e he'
    simp only [List.mem_singleton] at he'
    subst he'
    refine .mk ?_ ⟨hst, ?_, hattr, ?_, hblk, hsp⟩ hes
    · rintro q rfl; cases hks
    · intro hl; cases k <;> first | (cases hks; done) | (cases hl; done)
    · intro hl; cases k <;> first | (cases hks; done) | (cases hl; done)
  · intro m
    have := hcnt m
    have := hm0 m
    simp only [countIn_cons, count_mk, countIn_nil]
    omega

theorem blkListItem_spec (h1 : b.star = false) (hn : b.names = [c!"li"]) : BSpec b (blkListItem b) := by
  intro c s cons call h
  unfold blkListItem
  refine star_bind (h.noStar h1) ?_
  refine (getHeadMap_spec h.inv).bind fun args s1 hi1 hl1 hargs => ?_
  refine attrs_bind hi1 hargs fun a ha => ?_
  refine (getBody_spec h.cons hi1).bind fun r s2 hi2 hl2 hr => ?_
  have hr := (hr.le0 hl1).strip call.score
  refine okP_spec hi2 (RuOk.part ?_ ?_ hr.errs hr.cnt rfl ha (by intro _ h; cases h) trivial ?_ rfl)
  · intro e he
    exact (hr.goods e he).mono (Gam.Le.refl _) (by intro x hx; simp [below, hx])
  · intro e he; simp [allowedKid, hr.elem e he]
  · exact names_opens hn h.opens

/-! ### Tables -/

theorem partItems_ok {g : Gam} {p : PartKind} {A : List PartKind} {es items : List Elem}
    (h : ∀ e ∈ es, Good g A e) (hi : partItems p es = some items) :
    (∀ e ∈ items, Good g (below (.part p) A) e ∧ allowedKid (.part p) e.kind = true) ∧
      ∀ m, countIn m items ≤ countIn m es := by
  induction es generalizing items with
  | nil =>
    simp only [partItems, Option.some.injEq] at hi
    subst hi; exact ⟨by simp, by simp⟩
  | cons e es ih =>
    have hes : ∀ e ∈ es, Good g A e := fun e he => h e (List.mem_cons_of_mem _ he)
    have he := h e (List.mem_cons_self ..)
    unfold partItems at hi
    split at hi
    · rename_i heq; cases heq
    · rename_i p' kids rest heq
      cases heq
      split at hi
      · rename_i hp
        subst hp
        obtain ⟨its, h1, rfl⟩ := Option.map_eq_some_iff.1 hi
        obtain ⟨h2, h3⟩ := ih hes h1
        cases he with
        | mk _ hn hk =>
          refine ⟨?_, ?_⟩
          · intro e he
            rcases List.mem_append.1 he with he | he
            · exact ⟨hk e he, hn.kids e he⟩
            · exact h2 e he
          · intro m
            have := h3 m
            simp only [countIn_append, countIn_cons, count_mk]
            omega
      · cases hi
    · rename_i heq
      cases heq
      split at hi
      · obtain ⟨h2, h3⟩ := ih hes hi
        exact ⟨h2, fun m => by have := h3 m; simp only [countIn_cons]; omega⟩
      · cases hi

theorem tableBlock_spec (h : BH b c s cons call) (h1 : b.star = false) (h2 : b.score = false) (hi : Inv c s) :
    Tri c s (tableBlock b cons call) fun r s' => EsOk c s s' r.1.item r.1.errors r.1.psafe ∧
      AttrOk c.env.settings c.env.text r.2 := by
  unfold tableBlock
  refine star_bind (h.noStar h1) (score_bind (h.noScore h2) ?_)
  refine (getHeadMap_spec hi).bind fun args s1 hi1 hl1 hargs => ?_
  refine attrs_bind hi1 hargs fun a ha => ?_
  refine (getBody_spec h.cons hi1).bind fun r s2 hi2 hl2 hr => ?_
  exact Tri.pure hi2 ⟨hr.le0 hl1, ha⟩

theorem BH.accepts {a : Accepts} (h : BH b c s cons call)
    (hi : Inv { c with accepts := a } { s with p := { s.p with accepts := a } }) :
    BH b { c with accepts := a } { s with p := { s.p with accepts := a } } cons call :=
  ⟨hi, h.cons, h.star, h.score, h.opens⟩

theorem blkTable_spec (h1 : b.star = false) (h2 : b.score = false) : BSpec b (blkTable b) := by
  intro c s cons call h
  unfold blkTable
  refine accepts_ru h.inv fun hi => ?_
  refine (tableBlock_spec (h.accepts hi) h1 h2 hi).bind ?_
  rintro ⟨r, a⟩ s2 hi2 hl2 ⟨hr, ha⟩
  dsimp only at hr ha ⊢
  refine orFail_bind hi2 fun rows hrows => ?_
  obtain ⟨h3, h4⟩ := partItems_ok hr.goods hrows
  refine Tri.pure hi2 (RuOk.mkNode hr.errs ⟨?_, (fun h => by cases h), ha, (fun h => by cases h),
    (fun _ h => by cases h), trivial⟩ ?_ rfl ?_)
  · intro e he
    have := (h3 e he).2
    revert this
    cases e.kind <;> first | (intro _; rfl) | (intro h; cases h)
  · intro e he
    exact (h3 e he).1.mono (Gam.Le.refl _) (by simp [below])
  · intro m
    have := h4 m
    have := hr.cnt m
    dsimp only at this
    omega

theorem blkTableRow_spec (h1 : b.star = false) (h2 : b.score = false) (hn : b.names = [c!"row"]) :
    BSpec b (blkTableRow b) := by
  intro c s cons call h
  unfold blkTableRow
  refine accepts_ru h.inv fun hi => ?_
  refine (tableBlock_spec (h.accepts hi) h1 h2 hi).bind ?_
  rintro ⟨r, a⟩ s2 hi2 hl2 ⟨hr, ha⟩
  dsimp only at hr ha ⊢
  refine orFail_bind hi2 fun cells hcells => ?_
  obtain ⟨h3, h4⟩ := partItems_ok hr.goods hcells
  have hcell : ∀ e ∈ cells, ∃ x y z w, e.kind = .cell x y z w := by
    intro e he
    have := (h3 e he).2
    revert this
    cases e.kind <;> first | (intro _; exact ⟨_, _, _, _, rfl⟩) | (intro h; cases h)
  refine Tri.pure hi2 (RuOk.part ?_ ?_ hr.errs ?_ rfl ha (by intro _ h; cases h) trivial (names_opens hn h.opens) rfl)
  · intro e he
    have hg := (h3 e he).1
    obtain ⟨x, y, z, w, hk⟩ := hcell e he
    cases hg with
    | mk hp hn' hks =>
      simp only [Elem.kind] at hk
      subst hk
      exact .mk (by simp) hn' fun e' he' => (hks e' he').mono (Gam.Le.refl _) (by simp [below, adds, partsOf])
  · intro e he
    obtain ⟨x, y, z, w, hk⟩ := hcell e he
    rw [hk]; rfl
  · intro m
    have := h4 m
    have := hr.cnt m
    dsimp only at this
    omega

theorem attrOk_remove {st : Settings} {t : Str} {m : AttrMap} {k : Str} (h : AttrOk st t m) :
    AttrOk st t (btRemove k m).2 := by
  refine ⟨List.Pairwise.sublist List.filter_sublist h.1, ?_⟩
  intro x v hx
  exact h.2 x v (List.mem_filter.1 hx).1

theorem span_pos (v : Option Str) : 1 ≤ (v.bind parseNonZeroU32).getD 1 := by
  cases hb : v.bind parseNonZeroU32 with
  | none => simp
  | some n =>
    obtain ⟨x, _, hx⟩ := Option.bind_eq_some_iff.1 hb
    unfold parseNonZeroU32 at hx
    split at hx
    · cases hx
    · rename_i hne
      cases n with
      | zero => exact (hne hx).elim
      | succ n => simp

theorem parseCell_ru {c' : Ctx} {r : PS (List Elem)} {attrs : AttrMap} {header : Bool} (hi : Inv c' s)
    (hes : ∀ e ∈ r.item, Good (c.gam s) ([.tableCell] ++ partsOf c.accepts) e)
    (hst : ∀ e ∈ r.item, e.kind.isStruct = false) (he : ∀ x ∈ r.errors, ErrOk c.env x)
    (hcnt : ∀ m, countIn m r.item + m.size s0.sh ≤ m.size s.sh) (ha : AttrOk c.env.settings c.env.text attrs)
    (ho : OpensOne c.env.text [c!"cell", c!"hcell"]) :
    Tri c' s (parseCell r attrs header) fun r s' => RuOk c s0 s' r.item r.errors r.psafe := by
  unfold parseCell
  have hsub : (stripWhitespace r.item).Sublist r.item := stripBoth_sublist ..
  refine Tri.pure hi (RuOk.part ?_ ?_ he ?_ rfl (attrOk_remove ha) (by intro _ h; cases h) (span_pos _) ho rfl)
  · intro e he
    exact hes e (hsub.subset he)
  · intro e he; simp [allowedKid, hst e (hsub.subset he)]
  · intro m
    have := hcnt m
    have : countIn m (stripWhitespace r.item) ≤ countIn m r.item := by
      clear this
      generalize stripWhitespace r.item = x at hsub
      generalize r.item = y at hsub
      induction hsub with
      | slnil => simp
      | cons _ _ ih => simp only [countIn_cons]; omega
      | cons_cons _ _ ih => simp only [countIn_cons]; omega
    omega

theorem blkCellRegular_spec (h1 : b.star = false) (h2 : b.score = false) (hn : b.names = [c!"cell"]) :
    BSpec b (blkCellRegular b) := by
  intro c s cons call h
  unfold blkCellRegular
  refine (tableBlock_spec h h1 h2 h.inv).bind ?_
  rintro ⟨r, a⟩ s2 hi2 hl2 ⟨hr, ha⟩
  dsimp only at hr ha ⊢
  refine parseCell_ru hi2 ?_ hr.elem hr.errs hr.cnt ha ?_
  · intro e he; exact (hr.goods e he).mono (Gam.Le.refl _) (by simp)
  · obtain ⟨n, hn', ho⟩ := h.opens
    rw [hn, List.mem_singleton] at hn'
    exact ⟨n, by simp [hn'], ho⟩

theorem blkCellHeader_spec (h1 : b.star = false) (h2 : b.score = false) (hn : b.names = [c!"hcell"]) :
    BSpec b (blkCellHeader b) := by
  intro c s cons call h
  unfold blkCellHeader
  refine accepts_ru h.inv fun hi => ?_
  refine (tableBlock_spec (h.accepts hi) h1 h2 hi).bind ?_
  rintro ⟨r, a⟩ s2 hi2 hl2 ⟨hr, ha⟩
  dsimp only at hr ha ⊢
  refine parseCell_ru hi2 ?_ hr.elem hr.errs hr.cnt ha ?_
  · intro e he; exact (hr.goods e he).mono (Gam.Le.refl _) (by simp [partsOf])
  · obtain ⟨n, hn', ho⟩ := h.opens
    rw [hn, List.mem_singleton] at hn'
    exact ⟨n, by simp [hn'], ho⟩

/-! ### Tabs -/

theorem blkTabView_spec (h1 : b.star = false) (h2 : b.score = false) (hn : b.names = [c!"tabview", c!"tabs"]) :
    BSpec b (blkTabView b) := by
  intro c s cons call h
  unfold blkTabView
  refine accepts_ru h.inv fun hi => ?_
  refine star_bind (h.noStar h1) (score_bind (h.noScore h2) ?_)
  refine (getHeadNone_spec hi).skip fun args s1 hi1 hl1 => ?_
  refine (getBody_spec (c := { c with accepts := .tab }) h.cons hi1).bind fun r s2 hi2 hl2 hr => ?_
  have hr := hr.le0 hl1
  refine orFail_bind hi2 fun tabs htabs => ?_
  obtain ⟨h3, h4⟩ := partItems_ok hr.goods htabs
  have htab : ∀ e ∈ tabs, ∃ x, e.kind = .tab x := by
    intro e he
    have := (h3 e he).2
    revert this
    cases e.kind <;> first | (intro _; exact ⟨_, rfl⟩) | (intro h; cases h)
  split
  · exact fail_spec hi2
  · rename_i hne
    refine Tri.pure hi2 (RuOk.mkNode hr.errs ⟨?_, (fun h => by cases h), attrOk_nil _, (fun h => by cases h),
      (fun ns hb => blk_opens (hn ▸ h.opens) hb), by simpa [Special] using hne⟩ ?_ rfl ?_)
    · intro e he
      obtain ⟨x, hk⟩ := htab e he
      rw [hk]; rfl
    · intro e he
      have hg := (h3 e he).1
      obtain ⟨x, hk⟩ := htab e he
      cases hg with
      | mk hp hn' hks =>
        simp only [Elem.kind] at hk
        subst hk
        exact .mk (by simp) hn' fun e' he' => (hks e' he').mono (Gam.Le.refl _) (by simp [below, adds, partsOf])
    · intro m
      have := h4 m
      have := hr.cnt m
      dsimp only at this
      omega

theorem blkTab_spec (h1 : b.star = false) (h2 : b.score = false) (hn : b.names = [c!"tab"]) :
    BSpec b (blkTab b) := by
  intro c s cons call h
  unfold blkTab
  refine star_bind (h.noStar h1) (score_bind (h.noScore h2) ?_)
  refine headValue_bind (Q := fun l => OnLine c.env.text l) h.inv
    (fun _ _ hi hx => (orFail_spec hi).mono fun _ _ _ _ h => hx _ h.2) fun label s1 hi1 hl1 hlabel => ?_
  refine (getBody_spec h.cons hi1).bind fun r s2 hi2 hl2 hr => ?_
  have hr := hr.le0 hl1
  refine okP_spec hi2 (RuOk.part ?_ ?_ hr.errs hr.cnt rfl (attrOk_nil _) (fun ns hb => blk_opens (hn ▸ h.opens) hb)
    hlabel (names_opens hn h.opens) rfl)
  · intro e he
    exact (hr.goods e he).mono (Gam.Le.refl _) (by intro x hx; simp [below, hx])
  · intro e he; simp [allowedKid, hr.elem e he]

/-! ### Ruby -/

theorem rubyMap_ok {es : List Elem} {errs : List PErr} {ps : Bool} (h : EsOk c s0 s es errs ps) :
    EsOk c s0 s (es.map rubyTextToContainer) errs ps := by
  have key : ∀ e, Good (c.gam s) (partsOf c.accepts) e → e.kind.isStruct = false →
      Good (c.gam s) (partsOf c.accepts) (rubyTextToContainer e) ∧ (rubyTextToContainer e).kind.isStruct = false ∧
      (e.inParagraph → (rubyTextToContainer e).inParagraph) ∧
      ∀ m, (rubyTextToContainer e).count m = e.count m := by
    intro e hg hs
    unfold rubyTextToContainer
    split
    · rename_i attrs ks
      cases hg with
      | mk _ hn hk =>
        have hrt := hk _ (List.mem_singleton.2 rfl)
        cases hrt with
        | mk _ hn' hk' =>
          refine ⟨.mk (by simp) ⟨?_, (fun h => by cases h), hn'.attrs, (fun h => by cases h), (fun _ h => by cases h),
            trivial⟩ ?_, rfl, fun _ => by simp [Elem.inParagraph, Elem.kind, Kind.paragraphSafe?, CType.paragraphSafe], ?_⟩
          · intro e he; simpa [allowedKid] using hn'.kids e he
          · intro e he; exact (hk' e he).mono (Gam.Le.refl _) (by simp [below, adds])
          · intro m; cases m <;> simp [Meas.ofKind]
    · exact ⟨hg, hs, id, fun _ => rfl⟩
  have hg := h.goods
  refine GsOk.toEs ⟨?_, ?_⟩ ?_ h.errs ?_
  · intro e he
    obtain ⟨x, hx, rfl⟩ := List.mem_map.1 he
    exact (key x (hg x hx) (h.elem x hx)).1
  · intro m
    have := h.cnt m
    have hc : countIn m (es.map rubyTextToContainer) = countIn m es := by
      have hel := h.elem
      clear this h
      induction es with
      | nil => rfl
      | cons e es ih =>
        simp only [List.map_cons, countIn_cons]
        rw [ih (fun e he => hg e (List.mem_cons_of_mem _ he)) (fun e he => hel e (List.mem_cons_of_mem _ he)),
          (key e (hg e (List.mem_cons_self ..)) (hel e (List.mem_cons_self ..))).2.2.2 m]
    omega
  · intro e he
    obtain ⟨x, hx, rfl⟩ := List.mem_map.1 he
    exact (key x (hg x hx) (h.elem x hx)).2.1
  · intro hp e he
    obtain ⟨x, hx, rfl⟩ := List.mem_map.1 he
    exact (key x (hg x hx) (h.elem x hx)).2.2.1 (h.safe hp x hx)

theorem blkRuby_spec (h1 : b.star = false) (h2 : b.score = false) : BSpec b (blkRuby b) := by
  intro c s cons call h
  unfold blkRuby
  refine star_bind (h.noStar h1) (score_bind (h.noScore h2) ?_)
  refine accepts_ru h.inv fun hi => ?_
  refine (getHeadMap_spec hi).bind fun args s1 hi1 hl1 hargs => ?_
  refine (getBody_spec (c := { c with accepts := .ruby }) h.cons hi1).bind fun r s2 hi2 hl2 hr => ?_
  have hr := (rubyMap_ok (hr.le0 hl1)).stripWs
  refine attrs_bind hi2 hargs fun a ha => ?_
  have := RuOk.mkNode (c := c) (s0 := s) (s := s2) (k := .container .ruby a)
    (ks := stripWhitespace (r.item.map rubyTextToContainer)) hr.errs
    ⟨(by intro e he; simp [allowedKid, hr.elem e he]), (fun h => by cases h), ha, (fun h => by cases h),
      (fun _ h => by cases h), trivial⟩ ?_ rfl ?_
  · exact Tri.pure hi2 ⟨this.good, this.elem, hr.errs,
      by simp [Elem.inParagraph, Elem.kind, Kind.paragraphSafe?, CType.paragraphSafe], this.cnt⟩
  · intro e he
    exact (hr.goods e he).mono (Gam.Le.refl _) (by simp [partsOf, below, adds])
  · intro m
    have := hr.cnt m
    dsimp only at this
    omega

theorem blkRubyText_spec (h1 : b.star = false) (h2 : b.score = false) (hn : b.names = [c!"rt", c!"rubytext"]) :
    BSpec b (blkRubyText b) := by
  intro c s cons call h
  unfold blkRubyText
  refine star_bind (h.noStar h1) (score_bind (h.noScore h2) ?_)
  refine (getHeadMap_spec h.inv).bind fun args s1 hi1 hl1 hargs => ?_
  refine (getBody_spec h.cons hi1).bind fun r s2 hi2 hl2 hr => ?_
  have hr := (hr.le0 hl1).stripWs
  refine attrs_bind hi2 hargs fun a ha => ?_
  refine okP_spec hi2 (RuOk.part ?_ ?_ hr.errs hr.cnt rfl ha (by intro _ h; cases h)
    trivial (names_opens hn h.opens) rfl)
  · intro e he
    exact (hr.goods e he).mono (Gam.Le.refl _) (by intro x hx; simp [below, hx])
  · intro e he; simp [allowedKid, hr.elem e he]

theorem blkRubyShort_spec (h1 : b.star = false) (h2 : b.score = false) : BSpec b (blkRubyShort b) := by
  intro c s cons call h
  unfold blkRubyShort
  refine star_bind (h.noStar h1) (score_bind (h.noScore h2) ?_)
  refine headValue_bind (Q := fun v => v.1 <:+: c.env.text ∧ v.2 <:+: c.env.text) h.inv ?_ fun v s1 hi1 hl1 hv => ?_
  · intro arg s1 hi1 hx
    refine orFail_bind hi1 fun a ha => ?_
    split
    · next base ruby hb =>
      have hj := joinWith_splitOn '|' a
      rw [hb] at hj
      simp only [joinWith] at hj
      refine Tri.pure hi1 ⟨infix_trim (List.IsInfix.trans ?_ (hx a ha).1), infix_trim (List.IsInfix.trans ?_ (hx a ha).1)⟩
      · exact ⟨[], c!"|" ++ ruby, by rw [← hj]; simp⟩
      · exact ⟨base ++ c!"|", [], by rw [← hj]; simp⟩
    · exact fail_spec hi1
  · obtain ⟨base, ruby⟩ := v
    dsimp only
    have ht : ∀ t s0, t <:+: c.env.text → Le s0 s1 → EsOk c s0 s1 [eText t] [] true := fun t s0 hx hl =>
      EsOk.of_ru (RuOk.text hl (.inl hx) noErrs) (by simp [Elem.kind])
    have hr : EsOk c s s1 ([eText base] ++ [eContainer .rubyText [eText ruby]]) ([] ++ []) (true && true) := by
      refine (ht base s hv.1 hl1).append (EsOk.of_ru (RuOk.container (ht ruby s1 hv.2 (Le.refl _)) (by simp) (by simp) (attrOk_nil _)
        fun _ => rfl) (by simp [Elem.kind])) (Le.refl _)
    exact okE_spec (ps' := false) hi1 (RuOk.container hr (by simp) (by simp) (attrOk_nil _) (by simp))

/-! ### Modules -/

theorem moduleParse_spec {rule : Str} {args : Args} (hi : Inv c s) (hargs : ArgsOk c.env.text args) (hl : Le s0 s)
    (hp : c.env.settings.enablePageSyntax = true) (ho : OpensOne c.env.text [c!"module", c!"module654"]) :
    RuleOk c s0 s (moduleParse b rule args) := by
  unfold moduleParse
  have leaf : ∀ m : Module, Special (c.gam s) (.module m) [] → AttrOk c.env.settings c.env.text (Kind.module m).attrs →
      RuleOk c s0 s (okP false [.mk (.module m) []]) := fun m hm ha =>
    leafF hi hl hm ha (fun ns hb => blk_opens ho hb) (fun _ => hp) noErrs
  split
  · exact leaf _ (fun v hv => hargs.given hv) (attrOk_nil _)
  · split
    · refine bool_bind hi fun _ _ => ?_
      exact leaf _ trivial (attrOk_nil _)
    · split
      · refine (getBodyText_spec hi).bind fun css s2 hi2 hl2 hs => ?_
        exact leafF hi2 (hl.trans hl2) hs (attrOk_nil _) (fun ns hb => blk_opens ho hb) (fun _ => hp) noErrs
      · split
        · dsimp only
          refine attrs_bind hi (hargs.get _) fun a ha => ?_
          exact leaf _ (fun v hv => hargs.given hv) ha
        · split
          · dsimp only
            refine (argNonZero_spec hi).bind ?_
            rintro _ _ _ _ ⟨rfl, hz⟩
            refine bool_bind hi fun _ _ => ?_
            exact leaf _ ⟨fun v hv => hargs.given hv, hz⟩ (attrOk_nil _)
          · exact leaf _ trivial (attrOk_nil _)

theorem blkModule_spec (h1 : b.star = false) (h2 : b.score = false) (hn : b.names = [c!"module", c!"module654"]) :
    BSpec b (blkModule b) := by
  intro c s cons call h
  unfold blkModule
  refine page_bind h.inv fun hp => ?_
  refine star_bind (h.noStar h1) (score_bind (h.noScore h2) ?_)
  refine (getHeadNameMap_spec h.inv).bind fun args s1 hi1 hl1 hargs => ?_
  obtain ⟨sub, args⟩ := args
  dsimp only
  split
  · exact fail_spec hi1
  · refine (setRule_spec hi1).skip fun _ s2 hi2 hl2 => ?_
    exact moduleParse_spec hi2 hargs.1 (hl1.trans hl2) hp (hn ▸ h.opens)

end
end Ftml
