import Verif.Lemmas.Hoare
/- Specifications of the parser core (src/parsing/{collect,paragraph,rule/mod}.rs). -/
namespace Ftml
open M

/-! ### Element lists -/

/-- Elements made by a rule between two states. -/
structure RuOk (c : Ctx) (s0 s : St) (es : List Elem) (errs : List PErr) (ps : Bool) : Prop where
  good : ∀ e ∈ es, GoodR (c.gam s) (partsOf c.accepts) e
  elem : ∀ e ∈ es, e.kind.isStruct = false
  errs : ∀ x ∈ errs, ErrOk c.env x
  safe : ps = true → ∀ e ∈ es, e.inParagraph
  cnt : ∀ m, countIn m es + m.size s0.sh ≤ m.size s.sh

/-- Elements returned by `consume`: also, only acceptable partial elements at the top. -/
structure EsOk (c : Ctx) (s0 s : St) (es : List Elem) (errs : List PErr) (ps : Bool) : Prop
    extends RuOk c s0 s es errs ps where
  top : ∀ e ∈ es, ∀ p, e.kind = .part p → p ∈ partsOf c.accepts

section
variable {c : Ctx} {s0 s s1 s2 : St} {es es' : List Elem} {errs errs' : List PErr} {ps ps' : Bool}

theorem EsOk.goods (h : EsOk c s0 s es errs ps) : ∀ e ∈ es, Good (c.gam s) (partsOf c.accepts) e :=
  fun e he => good_iff.2 ⟨h.good e he, h.top e he⟩

theorem EsOk.nil (hl : Le s0 s) : EsOk c s0 s [] [] ps :=
  ⟨⟨by simp, by simp, by simp, by simp, fun m => by simpa using m.size_mono hl.sh⟩, by simp⟩

theorem RuOk.le (h : RuOk c s0 s1 es errs ps) (hl : Le s1 s2) : RuOk c s0 s2 es errs ps :=
  ⟨fun e he => (h.good e he).mono (hl.gam c) (List.Subset.refl _), h.elem, h.errs, h.safe,
    fun m => Nat.le_trans (h.cnt m) (m.size_mono hl.sh)⟩
theorem RuOk.le0 (h : RuOk c s1 s es errs ps) (hl : Le s0 s1) : RuOk c s0 s es errs ps :=
  ⟨h.good, h.elem, h.errs, h.safe, fun m => by have := h.cnt m; have := m.size_mono hl.sh; omega⟩
theorem EsOk.le (h : EsOk c s0 s1 es errs ps) (hl : Le s1 s2) : EsOk c s0 s2 es errs ps :=
  ⟨h.toRuOk.le hl, h.top⟩
theorem EsOk.le0 (h : EsOk c s1 s es errs ps) (hl : Le s0 s1) : EsOk c s0 s es errs ps :=
  ⟨h.toRuOk.le0 hl, h.top⟩

theorem RuOk.append (h : RuOk c s0 s1 es errs ps) (h' : RuOk c s1 s2 es' errs' ps') (hl : Le s1 s2) :
    RuOk c s0 s2 (es ++ es') (errs ++ errs') (ps && ps') := by
  have h := h.le hl
  constructor
  · intro e he; rcases List.mem_append.1 he with he | he; exact h.good e he; exact h'.good e he
  · intro e he; rcases List.mem_append.1 he with he | he; exact h.elem e he; exact h'.elem e he
  · intro e he; rcases List.mem_append.1 he with he | he; exact h.errs e he; exact h'.errs e he
  · intro hp e he
    simp only [Bool.and_eq_true] at hp
    rcases List.mem_append.1 he with he | he
    exact h.safe hp.1 e he; exact h'.safe hp.2 e he
  · intro m
    rename_i h0
    have := h0.cnt m; have := h'.cnt m
    simp only [countIn_append]; omega

theorem EsOk.append (h : EsOk c s0 s1 es errs ps) (h' : EsOk c s1 s2 es' errs' ps') (hl : Le s1 s2) :
    EsOk c s0 s2 (es ++ es') (errs ++ errs') (ps && ps') := by
  refine ⟨h.toRuOk.append h'.toRuOk hl, ?_⟩
  intro e he
  rcases List.mem_append.1 he with he | he
  · exact h.top e he
  · exact h'.top e he

theorem EsOk.ps_of (h : EsOk c s0 s es errs ps) (hp : ps' = true → ps = true) : EsOk c s0 s es errs ps' :=
  ⟨⟨h.good, h.elem, h.errs, fun x => h.safe (hp x), h.cnt⟩, h.top⟩
theorem RuOk.ps_of (h : RuOk c s0 s es errs ps) (hp : ps' = true → ps = true) : RuOk c s0 s es errs ps' :=
  ⟨h.good, h.elem, h.errs, fun x => h.safe (hp x), h.cnt⟩
theorem EsOk.ps_false (h : EsOk c s0 s es errs ps) : EsOk c s0 s es errs false := h.ps_of (by simp)
theorem RuOk.ps_false (h : RuOk c s0 s es errs ps) : RuOk c s0 s es errs false := h.ps_of (by simp)
theorem EsOk.errs_of (h : EsOk c s0 s es errs ps) (h' : ∀ x ∈ errs', ErrOk c.env x) : EsOk c s0 s es errs' ps :=
  ⟨⟨h.good, h.elem, h', h.safe, h.cnt⟩, h.top⟩
theorem RuOk.errs_of (h : RuOk c s0 s es errs ps) (h' : ∀ x ∈ errs', ErrOk c.env x) : RuOk c s0 s es errs' ps :=
  ⟨h.good, h.elem, h', h.safe, h.cnt⟩

theorem EsOk.sub (h : EsOk c s0 s es errs ps) (hs : es'.Sublist es) : EsOk c s0 s es' errs ps := by
  refine ⟨⟨fun e he => h.good e (hs.subset he), fun e he => h.elem e (hs.subset he), h.errs,
    fun hp e he => h.safe hp e (hs.subset he), ?_⟩, fun e he => h.top e (hs.subset he)⟩
  intro m
  have := h.cnt m
  have : countIn m es' ≤ countIn m es := by
    clear h this
    induction hs with
    | slnil => simp
    | cons a _ ih => simp only [countIn_cons]; omega
    | cons_cons a _ ih => simp only [countIn_cons]; omega
  omega

theorem stripBoth_sublist (p : Elem → Bool) (es : List Elem) : (stripBoth p es).Sublist es := by
  unfold stripBoth
  have h1 : (es.dropWhile p).Sublist es := List.dropWhile_sublist p
  have h2 := (List.dropWhile_sublist (l := (es.dropWhile p).reverse) p).reverse
  rw [List.reverse_reverse] at h2
  exact h2.trans h1

/-- The attribute maps of every node kind without attributes. -/
theorem attrOk_nil (s : Settings) {t : Str} : AttrOk s t [] := ⟨by simp [SortedKeys], by intro k v h; cases h⟩

/-- A node above plain elements. -/
theorem RuOk.node {k : Kind} (h : EsOk c s0 s es errs ps)
    (hplain : ∀ k', k'.isStruct = false → allowedKid k k' = true) (hst : k.isStruct = false)
    (hleaf : k.isLeaf = false) (hattr : AttrOk c.env.settings c.env.text k.attrs)
    (hpage : k.pageOnly = true → c.env.settings.enablePageSyntax = true)
    (hblk : ∀ ns, k.blocks = some ns → OpensOne c.env.text ns)
    (hsp : Special (c.gam s) k es) (hps : ps' = true → k.paragraphSafe? ≠ some false)
    (hcnt : ∀ m, m.ofKind k + (countIn m es + m.size s0.sh) ≤ m.size s.sh) :
    RuOk c s0 s [.mk k es] errs ps' := by
  refine ⟨?_, by simpa [Elem.kind] using hst, h.errs, ?_, ?_⟩
  · intro e he
    simp only [List.mem_singleton] at he
    subst he
    refine ⟨⟨fun e he => hplain _ (h.elem e he), (fun hl => by rw [hleaf] at hl; cases hl), hattr, hpage, hblk,
      hsp⟩, fun e he => (h.goods e he).mono (Gam.Le.refl _) (sub_below (by rintro rfl; exact absurd (hplain .lineBreak rfl) (by decide)) _)⟩
  · intro hp e he
    simp only [List.mem_singleton] at he
    subst he
    exact hps hp
  · intro m
    have := hcnt m
    simp only [countIn_cons, count_mk, countIn_nil]; omega

/-- Kinds that are not counted and need no special facts. -/
theorem RuOk.container {ct : CType} {attrs : AttrMap} (h : EsOk c s0 s es errs ps)
    (h1 : ct ≠ .paragraph) (h2 : ∀ hd, ct ≠ .header hd) (hattr : AttrOk c.env.settings c.env.text attrs)
    (hps : ps' = true → ct.paragraphSafe = true) : RuOk c s0 s [eContainer ct es attrs] errs ps' := by
  apply RuOk.node h
  · intro k' hk; simp [allowedKid, hk]
  · rfl
  · rfl
  · exact hattr
  · intro h; cases h
  · intro ns h; cases h
  · unfold Special; split <;> simp_all
  · intro hp; simp [Kind.paragraphSafe?, hps hp]
  · intro m
    have := h.cnt m
    have : m.ofKind (.container ct attrs) = 0 := by
      unfold Meas.ofKind; split <;> simp_all
    omega

/-- A childless node. -/
theorem RuOk.leaf {k : Kind} (hl : Le s0 s) (he : ∀ x ∈ errs, ErrOk c.env x)
    (hleaf : k.isLeaf = true) (hattr : AttrOk c.env.settings c.env.text k.attrs)
    (hpage : k.pageOnly = true → c.env.settings.enablePageSyntax = true)
    (hblk : ∀ ns, k.blocks = some ns → OpensOne c.env.text ns)
    (hsp : Special (c.gam s) k []) (hps : ps' = true → k.paragraphSafe? ≠ some false)
    (hcnt : k ≠ .footnote) :
    RuOk c s0 s [.mk k []] errs ps' := by
  refine ⟨?_, ?_, he, ?_, ?_⟩
  · intro e he
    simp only [List.mem_singleton] at he
    subst he
    exact ⟨⟨by simp, fun _ => rfl, hattr, hpage, hblk, hsp⟩, by simp⟩
  · simp only [List.mem_singleton, forall_eq, Elem.kind]
    cases k <;> first | rfl | cases hleaf
  · intro hp e he
    simp only [List.mem_singleton] at he
    subst he
    exact hps hp
  · intro m
    have := m.size_mono hl.sh
    have : m.ofKind k = 0 := by
      unfold Meas.ofKind
      split
      · exact (hcnt rfl).elim
      · cases hleaf
      · rfl
    simp only [countIn_cons, count_mk, countIn_nil]; omega

/-- Leaves without attributes, block or page syntax. -/
theorem RuOk.simple {k : Kind} (hl : Le s0 s) (hleaf : k.isLeaf = true) (hattr : k.attrs = [])
    (hpage : k.pageOnly = false) (hblk : k.blocks = none) (hsp : Special (c.gam s) k [])
    (hps : ps' = true → k.paragraphSafe? ≠ some false) : RuOk c s0 s [.mk k []] [] ps' := by
  refine RuOk.leaf hl (by simp) hleaf (by rw [hattr]; exact attrOk_nil _) (by rw [hpage]; simp)
    (by rw [hblk]; simp) hsp hps ?_
  rintro rfl; cases hblk

theorem RuOk.text {t : Str} (hl : Le s0 s) (ht : TextFrom c.env.world c.env.text t) (he : ∀ x ∈ errs, ErrOk c.env x) :
    RuOk c s0 s [eText t] errs ps' :=
  RuOk.leaf hl he rfl (attrOk_nil _) (by intro h; cases h) (by intro ns h; cases h) ht (fun _ h => by cases h)
    (by simp)

theorem EsOk.of_ru (h : RuOk c s0 s es errs ps) (ht : ∀ e ∈ es, ∀ p, e.kind ≠ .part p) : EsOk c s0 s es errs ps :=
  ⟨h, fun e he p hp => (ht e he p hp).elim⟩

theorem RuOk.nil (hl : Le s0 s) : RuOk c s0 s [] [] ps := (EsOk.nil hl).toRuOk

/-! ### Paragraph safety -/

theorem safety_none {es : List Elem} (h : elementsParagraphSafe? es = none) :
    ∃ e ∈ es, e.kind.paragraphSafe? = none := by
  induction es with
  | nil => cases h
  | cons e es ih =>
    unfold elementsParagraphSafe? at h
    split at h
    · exact ⟨e, List.mem_cons_self .., by assumption⟩
    · cases h
    · obtain ⟨x, hx, h'⟩ := ih h; exact ⟨x, List.mem_cons_of_mem _ hx, h'⟩

theorem safety_true {es : List Elem} (h : elementsParagraphSafe? es = some true) : ∀ e ∈ es, e.inParagraph := by
  induction es with
  | nil => simp
  | cons e es ih =>
    unfold elementsParagraphSafe? at h
    split at h
    · cases h
    · cases h
    · rename_i h1
      intro x hx
      rcases List.mem_cons.1 hx with rfl | hx
      · unfold Elem.inParagraph; rw [h1]; simp
      · exact ih h x hx

theorem partBlocks_sub (p : PartKind) : partBlocks p ⊆ allPartBlocks := by
  cases p <;> simp [partBlocks, allPartBlocks]

theorem opens_part {text : Str} {p : PartKind} (h : OpensOne text (partBlocks p)) : OpensOne text allPartBlocks := by
  obtain ⟨n, hn, h⟩ := h; exact ⟨n, partBlocks_sub p hn, h⟩

theorem kind_safety_none {k : Kind} (h : k.paragraphSafe? = none) (hs : k.isStruct = false) : ∃ p, k = .part p := by
  cases k <;> first | exact ⟨_, rfl⟩ | (cases hs; done) | (cases h; done)

/-- `ok!` of a list of elements. -/
theorem safety_spec {α : Type} {Q : α → St → Prop} {f : Bool → M α} (h : RuOk c s0 s es errs ps')
    (hf : ∀ ps, RuOk c s0 s es errs ps → Tri c s (f ps) Q) :
    Tri c s (unwrap .partialSafety (elementsParagraphSafe? es) >>= f) Q := by
  cases hp : elementsParagraphSafe? es with
  | none =>
    obtain ⟨e, he, hk⟩ := safety_none hp
    obtain ⟨p, hp⟩ := kind_safety_none hk (h.elem e he)
    have hg := h.good e he
    cases e with
    | mk k ks =>
      simp only [Elem.kind] at hp
      subst hp
      exact .inr (.inl ⟨.inl rfl, opens_part (hg.1.block _ rfl)⟩)
  | some b =>
    refine hf b ⟨h.good, h.elem, h.errs, ?_, h.cnt⟩
    intro hb; subst hb
    exact safety_true hp

theorem okE_spec (hi : Inv c s) (h : RuOk c s0 s es errs ps') :
    Tri c s (okE es errs) fun r s' => RuOk c s0 s' r.item r.errors r.psafe := by
  unfold okE
  exact safety_spec h fun ps hps => Tri.pure hi hps

theorem okP_spec (hi : Inv c s) (h : RuOk c s0 s es errs ps) :
    Tri c s (okP ps es errs) fun r s' => RuOk c s0 s' r.item r.errors r.psafe := Tri.pure hi h

/-! ### collect -/

/-- What is known of `consume`. -/
def ConsSpec (D : Nat) (env : Env) (cons : M (PS Elements)) : Prop :=
  ∀ c s, c.env = env → c.D = D → Inv c s → Tri c s cons fun r s' =>
    EsOk c s s' r.item r.errors r.psafe ∧ s'.p.rem.length < s.p.rem.length

theorem collect_spec {σ : Type} {close invalid : List Cond} {ek : Option EKind} {process : σ → M (PS σ)} {a : σ}
    {I : σ → List PErr → Bool → St → Prop} (hi : Inv c s) (h0 : I a [] true s)
    (hp : ∀ a errs ps s', Inv c s' → Le s s' → I a errs ps s' → evalAny s'.p close = false → evalAny s'.p invalid = false →
      Tri c s' (process a) fun out s'' =>
      (s''.p.rem.length < s'.p.rem.length → I out.item (errs ++ out.errors) (ps && out.psafe) s'') ∧
      (s''.p.rem.length = s'.p.rem.length → ∀ s3, Le s'' s3 → s''.p.rem = s3.p.cur :: s3.p.rem →
        I out.item (errs ++ out.errors) (ps && out.psafe) s3)) :
    Tri c s (collect close invalid ek process a) fun r s' => ∃ sl, Inv c sl ∧ Le s sl ∧ Le sl s' ∧
      I r.item.1 r.errors r.psafe sl ∧ r.item.2 = sl.p.cur ∧ evalAny sl.p close = true ∧
      (sl.p.cur.token ≠ .inputEnd → sl.p.rem = s'.p.cur :: s'.p.rem) := by
  unfold collect
  refine loop_spec (I := fun acc s' => I acc.1 acc.2.1 acc.2.2 s') hi h0 ?_
  rintro ⟨a, errs, ps⟩ s' hi' hl hI
  dsimp only at hI ⊢
  tri
  split
  · rename_i hclose
    split
    · refine (step_spec hi').bind ?_
      intro x s'' hi'' hl'' h
      refine Tri.pure hi'' ⟨s', hi', hl, hl'', hI, rfl, hclose, fun _ => by rw [h.2.1, h.1]⟩
    · rename_i hne
      exact Tri.pure hi' ⟨s', hi', hl, Le.refl _, hI, rfl, hclose, fun h => (hne h).elim⟩
  · rename_i hclose
    split
    · exact fail_spec hi'
    · rename_i hinv
      split
      · exact fail_spec hi'
      · refine (hp a errs ps s' hi' hl hI (by simpa using hclose) (by simpa using hinv)).bind ?_
        intro out s'' hi'' hl'' hq
        tri
        split
        · rename_i heq
          refine (step_spec hi'').bind ?_
          intro x s3 hi3 hl3 h
          refine Tri.pure hi3 ⟨?_, ?_⟩
          · have := h.2.1; rw [← heq, this]; simp
          · exact hq.2 heq s3 hl3 (by rw [h.2.1, h.1])
        · rename_i hne
          have := hl''.len
          exact Tri.pure hi'' ⟨by omega, hq.1 (by omega)⟩

/-- The state where a `collect` found its closing token. -/
def Closed (c : Ctx) (s : St) (close : List Cond) (last : ETok) (s' : St) : Prop :=
  ∃ sl, Inv c sl ∧ Le s sl ∧ Le sl s' ∧ last = sl.p.cur ∧ evalAny sl.p close = true ∧
    (sl.p.cur.token ≠ .inputEnd → sl.p.rem = s'.p.cur :: s'.p.rem)

theorem collectConsumeKeep_spec {cons : M (PS Elements)} {close invalid : List Cond} {ek : Option EKind}
    (hc : ConsSpec c.D c.env cons) (hi : Inv c s) :
    Tri c s (collectConsumeKeep cons close invalid ek) fun r s' =>
      EsOk c s s' r.item.1 r.errors r.psafe ∧ Closed c s close r.item.2 s' := by
  unfold collectConsumeKeep
  refine (collect_spec (I := fun es errs ps s' => EsOk c s s' es errs ps) hi (EsOk.nil (Le.refl _)) ?_).mono ?_
  · intro a errs ps s' hi' hl hI _ _
    refine (hc c s' rfl rfl hi').bind ?_
    intro out s'' hi'' hl'' hq
    refine Tri.pure hi'' ⟨fun _ => hI.append hq.1 hl'', fun h => ?_⟩
    have := hq.2
    omega
  · rintro r s' _ _ ⟨sl, h1, h2, h3, h4, h5, h6, h7⟩
    exact ⟨h4.le h3, sl, h1, h2, h3, h5, h6, h7⟩

theorem collectConsume_spec {cons : M (PS Elements)} {close invalid : List Cond} {ek : Option EKind}
    (hc : ConsSpec c.D c.env cons) (hi : Inv c s) :
    Tri c s (collectConsume cons close invalid ek) fun r s' => EsOk c s s' r.item r.errors r.psafe := by
  unfold collectConsume
  refine (collectConsumeKeep_spec hc hi).bind ?_
  intro r s' hi' _ h
  exact Tri.pure hi' h.1

theorem collectContainer_spec {cons : M (PS Elements)} {ct : CType} {close invalid : List Cond} {ek : Option EKind}
    (hc : ConsSpec c.D c.env cons) (hi : Inv c s) (h1 : ct ≠ .paragraph) (h2 : ∀ h, ct ≠ .header h) :
    Tri c s (collectContainer cons ct close invalid ek) fun r s' => RuOk c s s' r.item r.errors r.psafe := by
  unfold collectContainer
  refine (collectConsume_spec hc hi).bind ?_
  intro r s' hi' _ h
  refine okP_spec hi' (RuOk.container h h1 h2 (attrOk_nil _) ?_)
  intro h; simp only [Bool.and_eq_true] at h; exact h.2

/-- No token of the list is among the tokens that a search stops at. -/
def PastAll (conds : List Cond) (m : List ETok) : Prop := ∀ x ∈ m, ∀ t, Cond.cur t ∈ conds → x.token ≠ t

theorem PastAll.snoc {close invalid : List Cond} {m : List ETok} {p : PState} (h : PastAll (close ++ invalid) m)
    (h1 : evalAny p close = false) (h2 : evalAny p invalid = false) : PastAll (close ++ invalid) (m ++ [p.cur]) := by
  intro x hx t ht e
  rcases List.mem_append.1 hx with hx | hx
  · exact h x hx t ht e
  · obtain rfl := List.mem_singleton.1 hx
    unfold evalAny at h1 h2
    rw [List.any_eq_false] at h1 h2
    rcases List.mem_append.1 ht with ht | ht
    · exact h1 _ ht (by simpa [evalCond] using e)
    · exact h2 _ ht (by simpa [evalCond] using e)

/-- The text between the current token and the closing token. -/
theorem collectTextKeep_spec {close invalid : List Cond} {ek : Option EKind} (hi : Inv c s) :
    Tri c s (collectTextKeep close invalid ek) fun r s' =>
      ∃ sl m, Inv c sl ∧ Le s sl ∧ Le sl s' ∧ r.2 = sl.p.cur ∧ evalAny sl.p close = true ∧
        (sl.p.cur.token ≠ .inputEnd → sl.p.rem = s'.p.cur :: s'.p.rem) ∧
        s.p.cur :: s.p.rem = m ++ sl.p.cur :: sl.p.rem ∧ PastAll (close ++ invalid) m ∧ r.1 = slicesOf m := by
  unfold collectTextKeep
  tri
  refine (collect_spec (I := fun o _ _ s' => match o with
    | none => s'.p.cur = s.p.cur ∧ s'.p.rem = s.p.rem
    | some stop => ∃ m, s.p.cur :: s.p.rem = m ++ stop :: s'.p.cur :: s'.p.rem ∧ PastAll (close ++ invalid) (m ++ [stop]))
    hi ⟨rfl, rfl⟩ ?_).bind ?_
  · intro a errs ps s' hi' hl hI hn1 hn2
    tri
    refine Tri.pure hi' ⟨fun h => absurd h (Nat.lt_irrefl _), fun _ s3 hl3 h3 => ?_⟩
    dsimp only
    cases a with
    | none => exact ⟨[], by rw [← hI.1, ← hI.2, h3]; rfl, PastAll.snoc (by intro x hx; cases hx) hn1 hn2⟩
    | some stop =>
      obtain ⟨m, hm, hq⟩ := hI
      exact ⟨m ++ [stop], by rw [hm, h3]; simp, hq.snoc hn1 hn2⟩
  · rintro ⟨⟨o, last⟩, errs, ps⟩ s' hi' hl ⟨sl, h1, h2, h3, h4, h5, h6, h7⟩
    dsimp only at h4 h5 ⊢
    cases o with
    | none =>
      refine Tri.pure hi' ⟨sl, [], h1, h2, h3, h5, h6, h7, by simp [h4.1, h4.2], (by intro x hx; cases hx), rfl⟩
    | some stop =>
      obtain ⟨m, hm, hq⟩ := h4
      have hs := hi.sfx
      rw [hi.wf] at hs
      refine Tri.bind (Q := fun a s'' => a = slicesOf (m ++ [stop]) ∧ s'' = s') ?_ ?_
      · unfold sliceText
        tri
        rw [slice_ok hs hm]
        exact Tri.pure hi' ⟨rfl, rfl⟩
      rintro _ s'' hi'' hl'' ⟨rfl, rfl⟩
      refine Tri.pure hi'' ⟨sl, m ++ [stop], h1, h2, h3, h5, h6, h7, by rw [hm]; simp, hq, rfl⟩

theorem collectText_spec {close invalid : List Cond} {ek : Option EKind} (hi : Inv c s) :
    Tri c s (collectText close invalid ek) fun r s' =>
      ∃ sl m, Inv c sl ∧ Le s sl ∧ Le sl s' ∧ evalAny sl.p close = true ∧
        (sl.p.cur.token ≠ .inputEnd → sl.p.rem = s'.p.cur :: s'.p.rem) ∧
        s.p.cur :: s.p.rem = m ++ sl.p.cur :: sl.p.rem ∧ PastAll (close ++ invalid) m ∧ r = slicesOf m := by
  unfold collectText
  refine (collectTextKeep_spec hi).bind ?_
  rintro r s' hi' _ ⟨sl, m, h1, h2, h3, _, h4, h5, h6, h7⟩
  exact Tri.pure hi' ⟨sl, m, h1, h2, h3, h4, h5, h6, h7⟩

/-! ### Paragraphs -/

/-- Invariant of `ParagraphStack`. -/
structure StOk (c : Ctx) (s0 s : St) (st : PStack) : Prop where
  es : EsOk c s0 s (st.finished ++ st.current) st.errors false
  cur : ∀ e ∈ st.current, e.inParagraph

theorem StOk.new (hl : Le s0 s) : StOk c s0 s PStack.new := ⟨EsOk.nil hl, by simp [PStack.new]⟩
theorem StOk.le {st : PStack} (h : StOk c s0 s1 st) (hl : Le s1 s2) : StOk c s0 s2 st := ⟨h.es.le hl, h.cur⟩

theorem StOk.endParagraph {st : PStack} (h : StOk c s0 s st) : StOk c s0 s st.endParagraph := by
  unfold PStack.endParagraph
  split
  · exact h
  · rename_i hne
    refine ⟨?_, by simp⟩
    simp only [List.append_nil]
    have hfin : EsOk c s0 s st.finished st.errors false := h.es.sub (List.sublist_append_left ..)
    refine ⟨⟨?_, ?_, h.es.errs, by simp, ?_⟩, ?_⟩
    · intro e he
      rcases List.mem_append.1 he with he | he
      · exact hfin.good e he
      · simp only [List.mem_singleton] at he
        subst he
        refine ⟨⟨?_, (by intro h; cases h), attrOk_nil _, (by intro h; cases h), (by intro ns h; cases h), ?_⟩, ?_⟩
        · intro e he
          have := h.es.elem e (List.mem_append_right _ he)
          simp [allowedKid, this]
        · exact ⟨by simpa using hne, h.cur⟩
        · intro e he
          exact h.es.goods e (List.mem_append_right _ he)
    · intro e he
      rcases List.mem_append.1 he with he | he
      · exact hfin.elem e he
      · simp only [List.mem_singleton] at he; subst he; rfl
    · intro m
      have := h.es.cnt m
      have h0 : m.ofKind (.container .paragraph []) = 0 := by cases m <;> rfl
      simp only [countIn_append, countIn_cons, count_mk, countIn_nil, h0] at *
      omega
    · intro e he p hp
      rcases List.mem_append.1 he with he | he
      · exact hfin.top e he p hp
      · simp only [List.mem_singleton] at he; subst he; cases hp

theorem endParagraph_current (st : PStack) : st.endParagraph.current = [] := by
  unfold PStack.endParagraph
  split
  · rename_i h; simpa using h
  · rfl

theorem StOk.pushElement {st : PStack} {e : Elem} {safe : Bool} (h : StOk c s0 s1 st)
    (he : EsOk c s1 s2 [e] [] safe) (hl : Le s1 s2) : StOk c s0 s2 (st.pushElement e safe) := by
  unfold PStack.pushElement
  split
  · rename_i hs
    refine ⟨?_, ?_⟩
    · have := h.es.append he hl
      simp only [List.append_nil, Bool.false_and, List.append_assoc] at this
      exact this
    · intro x hx
      rcases List.mem_append.1 hx with hx | hx
      · exact h.cur x hx
      · exact he.safe hs x hx
  · have h1 := h.endParagraph
    have h2 := endParagraph_current st
    refine ⟨?_, by simp [h2]⟩
    have := h1.es.append he hl
    rw [h2] at this
    simpa [h2] using this

theorem StOk.popLineBreak {st : PStack} (h : StOk c s0 s st) : StOk c s0 s st.popLineBreak := by
  unfold PStack.popLineBreak
  split
  · refine ⟨h.es.sub ?_, fun e he => h.cur e ((List.dropLast_sublist _).subset he)⟩
    exact (List.Sublist.refl _).append (List.dropLast_sublist _)
  · exact h

/-- Pushing one after the other. -/
theorem EsOk.uncons {e : Elem} (h : EsOk c s0 s (e :: es) errs ps) :
    EsOk c s0 s es errs ps := h.sub (List.sublist_cons_self ..)

theorem StOk.foldPush {st : PStack} {safe : Bool} (h : StOk c s0 s1 st) (hl : Le s1 s2)
    (hes : EsOk c s1 s2 es [] safe) :
    (∀ f : List Elem → PStack → PStack, (∀ st, f [] st = st) →
      (∀ e es st, f (e :: es) st = f es st ∨ f (e :: es) st = f es (st.pushElement e safe)) →
      StOk c s0 s2 (f es st)) := by
  intro f f0 f1
  -- strengthen: what has been pushed plus what is left is accounted for
  suffices H : ∀ (es : List Elem) (st : PStack), (∀ e ∈ es, Good (c.gam s2) (partsOf c.accepts) e) →
      (∀ e ∈ es, e.kind.isStruct = false) → (safe = true → ∀ e ∈ es, e.inParagraph) →
      (∀ e ∈ es, ∀ p, e.kind = .part p → p ∈ partsOf c.accepts) →
      (∀ e ∈ st.finished ++ st.current, Good (c.gam s2) (partsOf c.accepts) e ∧ e.kind.isStruct = false ∧
        ∀ p, e.kind = .part p → p ∈ partsOf c.accepts) → (∀ e ∈ st.current, e.inParagraph) →
      (∀ x ∈ st.errors, ErrOk c.env x) →
      (∀ m, countIn m (st.finished ++ st.current) + countIn m es + m.size s0.sh ≤ m.size s2.sh) →
      StOk c s0 s2 (f es st) by
    refine H es st hes.goods hes.elem hes.safe hes.top ?_ h.cur h.es.errs ?_
    · intro e he
      have h' := h.es.le hl
      exact ⟨h'.goods e he, h'.elem e he, h'.top e he⟩
    · intro m
      have := h.es.cnt m
      have := hes.cnt m
      omega
  intro es
  induction es with
  | nil =>
    intro st _ _ _ _ h1 h2 h3 h4
    rw [f0]
    exact ⟨⟨⟨fun e he => (good_iff.1 (h1 e he).1).1, fun e he => (h1 e he).2.1, h3, by simp,
      fun m => by have := h4 m; simpa using this⟩, fun e he => (h1 e he).2.2⟩, h2⟩
  | cons e es ih =>
    intro st g1 g2 g3 g4 h1 h2 h3 h4
    rcases f1 e es st with hf | hf
    · rw [hf]
      refine ih st (fun x hx => g1 x (List.mem_cons_of_mem _ hx)) (fun x hx => g2 x (List.mem_cons_of_mem _ hx))
        (fun hs x hx => g3 hs x (List.mem_cons_of_mem _ hx)) (fun x hx => g4 x (List.mem_cons_of_mem _ hx))
        h1 h2 h3 ?_
      intro m; have := h4 m; simp only [countIn_cons] at this; omega
    · rw [hf]
      -- the invariant after the push
      have hst : StOk c s0 s2 st := ⟨⟨⟨fun e he => (good_iff.1 (h1 e he).1).1, fun e he => (h1 e he).2.1, h3,
        by simp, fun m => by have := h4 m; simp only [countIn_cons] at this; omega⟩,
        fun e he => (h1 e he).2.2⟩, h2⟩
      have hep := hst.endParagraph
      have hec := endParagraph_current st
      have hcount : ∀ m, countIn m st.endParagraph.finished = countIn m (st.finished ++ st.current) := by
        intro m
        unfold PStack.endParagraph
        split
        · rename_i hne
          have : st.current = [] := by simpa using hne
          simp [this]
        · have h0 : m.ofKind (.container .paragraph []) = 0 := by cases m <;> rfl
          simp [h0]
      have herr : st.endParagraph.errors = st.errors := by unfold PStack.endParagraph; split <;> rfl
      have tail := ih (st.pushElement e safe) (fun x hx => g1 x (List.mem_cons_of_mem _ hx))
        (fun x hx => g2 x (List.mem_cons_of_mem _ hx))
        (fun hs x hx => g3 hs x (List.mem_cons_of_mem _ hx)) (fun x hx => g4 x (List.mem_cons_of_mem _ hx))
      have gE : Good (c.gam s2) (partsOf c.accepts) e ∧ e.kind.isStruct = false ∧
        ∀ p, e.kind = .part p → p ∈ partsOf c.accepts :=
        ⟨g1 e (List.mem_cons_self ..), g2 e (List.mem_cons_self ..), g4 e (List.mem_cons_self ..)⟩
      unfold PStack.pushElement at tail ⊢
      cases hsafe : safe with
      | true =>
        simp only [hsafe, if_true] at tail ⊢
        refine tail ?_ ?_ h3 ?_
        · intro x hx
          simp only [List.mem_append, List.mem_singleton] at hx
          rcases hx with hx | hx | hx
          · exact h1 x (List.mem_append_left _ hx)
          · exact h1 x (List.mem_append_right _ hx)
          · rw [hx]; exact gE
        · intro x hx
          simp only [List.mem_append, List.mem_singleton] at hx
          rcases hx with hx | hx
          · exact h2 x hx
          · rw [hx]; exact g3 hsafe e (List.mem_cons_self ..)
        · intro m; have := h4 m
          simp only [countIn_cons, countIn_append, countIn_nil] at this ⊢; omega
      | false =>
        simp only [hsafe, Bool.false_eq_true, if_false] at tail ⊢
        refine tail ?_ ?_ (by rw [herr]; exact h3) ?_
        · intro x hx
          simp only [hec, List.append_nil, List.mem_append, List.mem_singleton] at hx
          rcases hx with hx | hx
          · have hm : x ∈ st.endParagraph.finished ++ st.endParagraph.current := List.mem_append_left _ hx
            exact ⟨hep.es.goods x hm, hep.es.elem x hm, hep.es.top x hm⟩
          · rw [hx]; exact gE
        · intro x hx
          simp only [hec] at hx; cases hx
        · intro m; have := h4 m; have := hcount m
          simp only [hec, countIn_cons, countIn_append, countIn_nil, List.append_nil] at *; omega

theorem ite_either {α : Type} {p : Prop} [Decidable p] (x y : α) :
    (if p then x else y) = x ∨ (if p then x else y) = y := by
  split
  · exact .inl rfl
  · exact .inr rfl

theorem StOk.pushElements {st : PStack} {safe : Bool} (h : StOk c s0 s1 st) (hl : Le s1 s2)
    (hes : EsOk c s1 s2 es [] safe) : StOk c s0 s2 (PStack.pushElements safe es st) := by
  refine h.foldPush hl hes (fun es st => PStack.pushElements safe es st) (fun _ => rfl) ?_
  intro e es st
  simp only [PStack.pushElements]
  exact ite_either _ _

theorem StOk.foldl {st : PStack} {safe : Bool} (h : StOk c s0 s1 st) (hl : Le s1 s2)
    (hes : EsOk c s1 s2 es [] safe) : StOk c s0 s2 (es.foldl (fun s e => s.pushElement e safe) st) :=
  h.foldPush hl hes (fun es st => es.foldl (fun s e => s.pushElement e safe) st) (fun _ => rfl)
    (fun _ _ _ => .inr rfl)

theorem StOk.finish {st : PStack} (h : StOk c s0 s st) :
    EsOk c s0 s st.endParagraph.finished st.errors false := by
  have h1 := h.endParagraph
  have h2 := endParagraph_current st
  have herr : st.endParagraph.errors = st.errors := by unfold PStack.endParagraph; split <;> rfl
  have := h1.es
  rw [h2, herr] at this
  simpa using this

theorem StOk.addErrs {st : PStack} (h : StOk c s0 s st) (h' : ∀ x ∈ errs, ErrOk c.env x) :
    StOk c s0 s { st with errors := st.errors ++ errs } := by
  refine ⟨h.es.errs_of ?_, h.cur⟩
  intro x hx
  rcases List.mem_append.1 hx with hx | hx
  · exact h.es.errs x hx
  · exact h' x hx

theorem gatherParagraphs_spec {cons : M (PS Elements)} {r : RuleId} {close : Option (Bool → M Bool)}
    (hc : ConsSpec c.D c.env cons) (hi : Inv c s)
    (hclose : ∀ f b s', close = some f → Inv c s' → Le s s' → Tri c s' (f b) fun _ _ => True) :
    Tri c s (gatherParagraphs cons r close) fun r s' => EsOk c s s' r.item r.errors r.psafe := by
  unfold gatherParagraphs
  refine (setRule_spec hi).bind ?_
  intro _ s1 hi1 hl1 e1
  refine Tri.bind (Q := fun st s' => StOk c s s' st) (loop_spec (I := fun acc s' => StOk c s s' acc.1) hi1
    (StOk.new hl1) ?_) ?_
  · rintro ⟨st, first⟩ s' hi' hl' hI
    dsimp only at hI ⊢
    tri
    split
    · split
      · exact fail_spec hi'
      · exact Tri.pure hi' hI
    · split
      · refine (step_spec hi').bind ?_
        intro _ s2 hi2 hl2 h
        exact Tri.pure hi2 ⟨by rw [h.2.1]; simp, (hI.le hl2).endParagraph⟩
      · refine Tri.bind (Q := fun _ _ => True) ?_ ?_
        · cases close with
          | none => exact Tri.pure hi' trivial
          | some f =>
            refine (attempt_spec (hclose f first s' rfl hi' (hl1.trans hl'))).bind ?_
            intro o s2 hi2 _ _
            cases o with
            | ok b => exact Tri.pure hi2 trivial
            | error x => exact Tri.pure hi2 trivial
        · intro stop s2 hi2 hl2 _
          split
          · exact Tri.pure hi2 (hI.le hl2)
          · refine (hc c s2 rfl rfl hi2).bind ?_
            intro out s3 hi3 hl3 hq
            refine Tri.pure hi3 ⟨?_, ?_⟩
            · have := hq.2; have := hl2.len; omega
            · exact StOk.addErrs ((hI.le hl2).pushElements hl3 (hq.1.errs_of (by simp))) hq.1.errs
  · intro st s2 hi2 hl2 h
    unfold PStack.intoResult
    have hf := h.finish
    have herr : st.endParagraph.errors = st.errors := by unfold PStack.endParagraph; split <;> rfl
    refine safety_spec (ps' := false) hf.toRuOk ?_
    intro ps hps
    rw [herr]
    exact Tri.pure hi2 ⟨hps, hf.top⟩

/-! ### Rules -/

theorem firstBad_none {a : Accepts} {es : List Elem} (h : firstBadPartial a es = none) :
    ∀ e ∈ es, ∀ p, e.kind = .part p → p ∈ partsOf a := by
  induction es with
  | nil => simp
  | cons e es ih =>
    cases e with
    | mk k ks =>
      intro x hx p hp
      by_cases hk : ∃ q, k = .part q
      · obtain ⟨q, rfl⟩ := hk
        simp only [firstBadPartial] at h
        split at h
        · rename_i hm
          rcases List.mem_cons.1 hx with rfl | hx
          · simp only [Elem.kind, Kind.part.injEq] at hp
            subst hp
            exact (matches_iff _ _).1 hm
          · exact ih h x hx p hp
        · cases h
      · have h' : firstBadPartial a es = none := by
          cases k <;> first | exact h | exact (hk ⟨_, rfl⟩).elim
        rcases List.mem_cons.1 hx with rfl | hx
        · exact (hk ⟨p, hp⟩).elim
        · exact ih h' x hx p hp

theorem tryConsume_spec {r : RuleId} {f : M (PS Elements)} (hi : Inv c s)
    (hf : ∀ s1, Inv c s1 → s1.p.cur = s.p.cur → s1.p.rem = s.p.rem → s1.sh = s.sh →
      s1.p.hasFootnoteBlock = s.p.hasFootnoteBlock →
      Tri c s1 f fun out s' => RuOk c s1 s' out.item out.errors out.psafe) :
    Tri c s (tryConsume r f) fun out s' => EsOk c s s' out.item out.errors out.psafe := by
  unfold tryConsume
  tri
  split
  · exact fail_spec hi
  · have hfn : Tri c s (do setRule r; f) fun out s' => RuOk c s s' out.item out.errors out.psafe := by
      refine (setRule_spec hi).bind ?_
      rintro _ s1 hi1 hl1 rfl
      exact (hf _ hi1 rfl rfl rfl rfl).mono fun out s' _ _ h => h.le0 hl1
    refine (onClone_spec hi hfn).bind ?_
    rintro ⟨o, q⟩ s' hi' hl ⟨hp, h⟩
    cases o with
    | error x => exact throw_spec hi' h
    | ok out =>
      dsimp only at h ⊢
      split
      · exact fail_spec hi'
      · rename_i hb
        obtain ⟨s1, h1, h2, h3, h4, h5⟩ := h
        refine (updateP_spec (s0 := s) (s1 := s1) hi' hp h1 h2 h3 h4).bind ?_
        rintro _ s2 hi2 hl2 ⟨e1, e2, e3, e4⟩
        refine Tri.pure hi2 ⟨⟨?_, h5.elem, h5.errs, h5.safe, ?_⟩, ?_⟩
        · intro e he
          have := h5.good e he
          have hg : c.gam s2 = c.gam s1 := by simp [Ctx.gam, e1, e4]
          rw [hg]; exact this
        · rw [e1]; exact h5.cnt
        · intro e he p hk
          have := firstBad_none hb e he p hk
          rwa [hi.acc] at this

end

end Ftml
