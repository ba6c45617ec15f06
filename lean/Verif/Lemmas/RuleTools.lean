import Verif.Lemmas.Core
/- Tools for the specifications of the rules. -/
namespace Ftml
open M

/-! ### Tokens and text -/

theorem text_of_split {text : Str} {pre post : List ETok} (h : (tokenize text).tokens = pre ++ post) :
    text = slicesOf pre ++ slicesOf post := by
  have := tokens_text text
  rw [h] at this
  simpa using this.symm

section
variable {c : Ctx} {s : St}

theorem Inv.shape (hi : Inv c s) {t : ETok} (h : t ∈ c.env.tokens) : TokenShape t.token t.slice :=
  C57_token_shapes c.env.text t (hi.wf ▸ h)

/-- The text of tokens that are no line ends stands on one line. -/
theorem Inv.slices_line (hi : Inv c s) {m r : List ETok} (hm : s.p.cur :: s.p.rem = m ++ r)
    (h : ∀ x ∈ m, x.token ≠ .lineBreak ∧ x.token ≠ .paragraphBreak) : OnLine c.env.text (slicesOf m) := by
  obtain ⟨pre, hp⟩ := hi.sfx
  rw [hm, hi.wf] at hp
  refine ⟨⟨slicesOf pre, slicesOf r, ?_⟩, ?_⟩
  · rw [text_of_split hp.symm]; simp
  · intro hn
    obtain ⟨x, hx, hn⟩ := List.mem_flatMap.1 hn
    rcases C57_line_ends c.env.text x (hp ▸ List.mem_append_right _ (List.mem_append_left _ hx)) hn with e | e
    · exact (h x hx).1 e
    · exact (h x hx).2 e

theorem Inv.slices_past (hi : Inv c s) {m r : List ETok} {conds : List Cond} (hm : s.p.cur :: s.p.rem = m ++ r)
    (h : PastAll conds m) (h1 : Cond.cur .lineBreak ∈ conds) (h2 : Cond.cur .paragraphBreak ∈ conds) :
    OnLine c.env.text (slicesOf m) :=
  hi.slices_line hm fun x hx => ⟨h x hx _ h1, h x hx _ h2⟩

theorem OnLine.of_infix {text a b : Str} (h : OnLine text a) (hb : b <:+: a) : OnLine text b :=
  ⟨hb.trans h.1, fun hn => h.2 (hb.subset hn)⟩

theorem OnLine.trim {text a : Str} (h : OnLine text a) : OnLine text (trim a) := by
  obtain ⟨x, y, hxy, _⟩ := trim_decomp a
  exact h.of_infix ⟨x, y, hxy.symm⟩

theorem Inv.text_at (hi : Inv c s) {m r : List ETok} (h : s.p.cur :: s.p.rem = m ++ r) :
    ∃ a, c.env.text = a ++ slicesOf m ++ slicesOf r := by
  obtain ⟨pre, hp⟩ := hi.sfx
  rw [h, hi.wf] at hp
  refine ⟨slicesOf pre, ?_⟩
  have := text_of_split hp.symm
  rw [this]; simp

theorem Inv.contains (hi : Inv c s) : ∃ a b, c.env.text = a ++ s.p.cur.slice ++ b := by
  obtain ⟨a, ha⟩ := hi.text_at (m := [s.p.cur]) (r := s.p.rem) rfl
  exact ⟨a, slicesOf s.p.rem, by rw [ha]; simp [slicesOf]⟩

theorem Inv.cur_end (hi : Inv c s) : s.p.cur.token = .inputEnd ↔ s.p.rem = [] :=
  inputEnd_last (hi.wf ▸ hi.sfx)

/-- A binding whose result does not matter. -/
theorem Tri.skip {α β : Type} {m : M α} {f : α → M β} {Q : α → St → Prop} {R : β → St → Prop} (h : Tri c s m Q)
    (hf : ∀ a s', Inv c s' → Le s s' → Tri c s' (f a) R) : Tri c s (m >>= f) R :=
  h.bind fun a s' h1 h2 _ => hf a s' h1 h2

/-- A check. -/
theorem require_bind {β : Type} {b : Bool} {f : Unit → M β} {R : β → St → Prop} (hi : Inv c s)
    (hf : b = true → Tri c s (f ()) R) : Tri c s (require b >>= f) R := by
  refine (require_spec hi).bind ?_
  rintro _ s' _ _ ⟨rfl, hb⟩
  exact hf hb

end

/-! ### Shared lists -/

theorem ShOk.ext {env : Env} {sh sh' : Shared} (h : ShOk env sh) (hl : ShLe sh sh')
    (h1 : sh'.footnotes = sh.footnotes) (h2 : sh'.bibs = sh.bibs) (h3 : sh'.codeBlocks = sh.codeBlocks)
    (h4 : ∀ x ∈ sh'.htmlBlocks, x <:+: env.text ∧ OpensBlock env.text c!"html") :
    ShOk env sh' := by
  refine ⟨?_, ?_, by rw [h3]; exact h.code, by rw [h1]; exact h.footB, by rw [h2]; exact h.bibsB,
    by rw [h3]; exact h.codeB, h4⟩
  · rw [h1]
    intro f hf e he
    exact ⟨Good.mono (g := ⟨env, sh, true, true⟩) (g' := ⟨env, sh', true, true⟩) ⟨rfl, hl, id, id⟩ (List.Subset.refl _) (h.foot f hf e he).1, (h.foot f hf e he).2⟩
  · rw [h2]
    intro f hf x hx e he
    exact ⟨Good.mono (g := ⟨env, sh, true, false⟩) (g' := ⟨env, sh', true, false⟩) ⟨rfl, hl, id, id⟩ (List.Subset.refl _) (h.bibs f hf x hx e he).1, (h.bibs f hf x hx e he).2⟩

section
variable {c : Ctx} {s : St}

theorem modSh_spec {f : Shared → Shared} (hi : Inv c s) (hle : ShLe s.sh (f s.sh)) (hok : ShOk c.env (f s.sh)) :
    Tri c s (modSh f) fun _ s' => s' = { s with sh := f s.sh } :=
  ⟨⟨hi.wf, hi.sfx, hi.dep, hi.acc, hi.fn, hi.fb, hok⟩, ⟨List.suffix_rfl, id, hle⟩, rfl⟩

/-! ### The text renderer on parsed elements -/

theorem textGo_ok {w : World} {site : Str} {es : List Elem}
    (h : ∀ e ∈ es, ∀ ctx, ∃ ctx', textElem w site e ctx = some ctx' ∧ ctx'.scopes = ctx.scopes) (ctx : TCtx) :
    ∃ ctx', textElem.go w site es ctx = some ctx' ∧ ctx'.scopes = ctx.scopes := by
  induction es generalizing ctx with
  | nil => exact ⟨ctx, rfl, rfl⟩
  | cons e es ih =>
    obtain ⟨c1, h1, h2⟩ := h e (List.mem_cons_self ..) ctx
    obtain ⟨c2, h3, h4⟩ := ih (fun e he => h e (List.mem_cons_of_mem _ he)) c1
    exact ⟨c2, by simp [textElem.go, h1, h3], h4.trans h2⟩

theorem addNewlines_scopes (n : Nat) (ctx : TCtx) : (addNewlines n ctx).scopes = ctx.scopes := by
  induction n generalizing ctx with
  | zero => rfl
  | succ n ih => exact ih _

theorem freshLine_scopes (ctx : TCtx) : ctx.freshLine.scopes = ctx.scopes := by
  unfold TCtx.freshLine; split <;> rfl

/-- A well-formed element renders to text, unless it contains a partial element or a link without a
label. -/
theorem textElem_ok {g : Gam} {A : List PartKind} {e : Elem} (w : World) (site : Str) (h : Good g A e)
    (h1 : ¬ OpensOne g.env.text allPartBlocks) (h2 : ¬ HasBlankLabel g.env.text) :
    ∀ ctx, ∃ ctx', textElem w site e ctx = some ctx' ∧ ctx'.scopes = ctx.scopes := by
  induction h with
  | @mk A k ks hp hn _ ih =>
    intro ctx
    have go := fun ctx => textGo_ok (w := w) (site := site) (es := ks) ih ctx
    cases k with
    | part p => exact (h1 (opens_part (hn.block _ rfl))).elim
    | link lt loc ex label t =>
      have hs := hn.special
      simp only [Special] at hs
      have : getLinkLabel site loc label ≠ none := by
        intro hnone
        unfold getLinkLabel at hnone
        split at hnone
        · cases hnone
        · cases hnone
        · split at hnone <;> cases hnone
        · split at hnone
          · exact h2 (hs.2 _ rfl rfl)
          · cases hnone
      cases hl : getLinkLabel site loc label with
      | none => exact (this hl).elim
      | some t => exact ⟨ctx.pushStr t, by simp [textElem, hl], rfl⟩
    | container ct a =>
      unfold textElem
      dsimp only
      split
      · exact ⟨ctx, rfl, rfl⟩
      · generalize hx : (if ct.textNewlines then TCtx.addNewline
          (if ct = .rubyText then (if ct = .invisible then { ctx with invisible := ctx.invisible + 1 } else ctx).pushStr ['(']
            else if ct = .invisible then { ctx with invisible := ctx.invisible + 1 } else ctx)
          else (if ct = .rubyText then (if ct = .invisible then { ctx with invisible := ctx.invisible + 1 } else ctx).pushStr ['(']
            else if ct = .invisible then { ctx with invisible := ctx.invisible + 1 } else ctx)) = x
        have hsc : x.scopes = ctx.scopes := by
          rw [← hx]; split <;> split <;> split <;> rfl
        obtain ⟨c', e1, e2⟩ := go x
        rw [e1]
        refine ⟨_, rfl, ?_⟩
        rw [← hsc, ← e2]
        split <;> split <;> split <;> rfl
    | «variable» name =>
      unfold textElem
      dsimp only
      split <;> exact ⟨_, rfl, rfl⟩
    | «include» ps vars loc =>
      obtain ⟨c', e1, e2⟩ := go { ctx with scopes := ctx.scopes.push vars }
      refine ⟨{ c' with scopes := ctx.scopes }, ?_, rfl⟩
      simp only [textElem, e1, Option.bind_some, e2, (C19_push_pop ctx.scopes vars).1, Option.map_some]
    | lineBreaks n => exact ⟨_, rfl, addNewlines_scopes n ctx⟩
    | item a =>
      unfold textElem
      dsimp only
      split
      · exact ⟨ctx, rfl, rfl⟩
      · obtain ⟨c', e1, e2⟩ := go ctx
        rw [e1]
        exact ⟨_, rfl, e2⟩
    | table a =>
      obtain ⟨c', e1, e2⟩ := go ctx.freshLine
      unfold textElem
      dsimp only
      rw [e1]
      exact ⟨_, rfl, e2.trans (freshLine_scopes ctx)⟩
    | list a b =>
      obtain ⟨c', e1, e2⟩ := go ctx.freshLine
      unfold textElem
      dsimp only
      rw [e1]
      exact ⟨_, rfl, e2.trans (freshLine_scopes ctx)⟩
    | tab label =>
      obtain ⟨c', e1, e2⟩ := go (ctx.pushStr label).addNewline
      unfold textElem
      dsimp only
      rw [e1]
      exact ⟨_, rfl, e2⟩
    | _ => first
      | exact ⟨_, rfl, rfl⟩
      | (obtain ⟨c', e1, e2⟩ := go ctx
         unfold textElem
         dsimp only
         rw [e1]
         exact ⟨_, rfl, e2⟩)

theorem textRenderPartial_ok {g : Gam} {A : List PartKind} {es : List Elem} (w : World) (info : PageInfo)
    (h : ∀ e ∈ es, Good g A e) (h1 : ¬ OpensOne g.env.text allPartBlocks) (h2 : ¬ HasBlankLabel g.env.text) :
    textRenderPartial w info es ≠ none := by
  unfold textRenderPartial
  obtain ⟨x, hx, _⟩ := textGo_ok (w := w) (site := info.site) (es := es)
    (fun e he => textElem_ok w info.site (h e he) h1 h2) ⟨[], ⟨[]⟩, 0⟩
  rw [hx]; simp

theorem pushToc_spec {level : Nat} {es : List Elem} {A : List PartKind} (hi : Inv c s)
    (h : ∀ e ∈ es, Good (c.gam s) A e) :
    Tri c s (pushToc level es) fun _ s' => s'.p = s.p ∧ s'.sh.toc.length = s.sh.toc.length + 1 ∧
      s'.sh.footnotes = s.sh.footnotes := by
  unfold pushToc
  tri
  by_cases h1 : OpensOne c.env.text allPartBlocks
  · cases ht : textRenderPartial c.env.world c.env.info es with
    | none => exact .inr (.inl ⟨.inr rfl, h1⟩)
    | some name =>
      simp only [unwrap]
      tri
      refine (modSh_spec hi ?_ ?_).mono ?_
      · exact ⟨List.prefix_append .., List.prefix_rfl, List.prefix_rfl, List.prefix_rfl, List.prefix_rfl⟩
      · exact hi.sh.ext ⟨List.prefix_append .., List.prefix_rfl, List.prefix_rfl, List.prefix_rfl, List.prefix_rfl⟩
          rfl rfl rfl hi.sh.htmlB
      · rintro _ s' _ _ rfl
        exact ⟨rfl, by simp, rfl⟩
  · by_cases h2 : HasBlankLabel c.env.text
    · cases ht : textRenderPartial c.env.world c.env.info es with
      | none => exact .inr (.inr ⟨rfl, h2⟩)
      | some name =>
        simp only [unwrap]
        tri
        refine (modSh_spec hi ?_ ?_).mono ?_
        · exact ⟨List.prefix_append .., List.prefix_rfl, List.prefix_rfl, List.prefix_rfl, List.prefix_rfl⟩
        · exact hi.sh.ext ⟨List.prefix_append .., List.prefix_rfl, List.prefix_rfl, List.prefix_rfl, List.prefix_rfl⟩
            rfl rfl rfl hi.sh.htmlB
        · rintro _ s' _ _ rfl
          exact ⟨rfl, by simp, rfl⟩
    · have := textRenderPartial_ok c.env.world c.env.info h h1 h2
      refine Tri.bind (Q := fun _ s' => s' = s) (unwrap_spec hi this fun _ _ => rfl) ?_
      rintro name _ _ _ rfl
      refine (modSh_spec hi ?_ ?_).mono ?_
      · exact ⟨List.prefix_append .., List.prefix_rfl, List.prefix_rfl, List.prefix_rfl, List.prefix_rfl⟩
      · exact hi.sh.ext ⟨List.prefix_append .., List.prefix_rfl, List.prefix_rfl, List.prefix_rfl, List.prefix_rfl⟩
          rfl rfl rfl hi.sh.htmlB
      · rintro _ s' _ _ rfl
        exact ⟨rfl, by simp, rfl⟩

end

/-! ### Nodes of any kind -/

/-- Nodes made between two states. -/
structure GsOk (c : Ctx) (s0 s : St) (es : List Elem) : Prop where
  good : ∀ e ∈ es, Good (c.gam s) (partsOf c.accepts) e
  cnt : ∀ m, countIn m es + m.size s0.sh ≤ m.size s.sh

section
variable {c : Ctx} {s0 s s1 s2 : St} {es es' : List Elem} {errs errs' : List PErr} {ps ps' : Bool}

theorem EsOk.gs (h : EsOk c s0 s es errs ps) : GsOk c s0 s es := ⟨h.goods, h.cnt⟩
theorem GsOk.nil (hl : Le s0 s) : GsOk c s0 s [] := ⟨by simp, fun m => by simpa using m.size_mono hl.sh⟩
theorem GsOk.le (h : GsOk c s0 s1 es) (hl : Le s1 s2) : GsOk c s0 s2 es :=
  ⟨fun e he => (h.good e he).mono (hl.gam c) (List.Subset.refl _), fun m => Nat.le_trans (h.cnt m) (m.size_mono hl.sh)⟩
theorem GsOk.le0 (h : GsOk c s1 s es) (hl : Le s0 s1) : GsOk c s0 s es :=
  ⟨h.good, fun m => by have := h.cnt m; have := m.size_mono hl.sh; omega⟩
theorem GsOk.append (h : GsOk c s0 s1 es) (h' : GsOk c s1 s2 es') (hl : Le s1 s2) : GsOk c s0 s2 (es ++ es') := by
  have h1 := h.le hl
  refine ⟨?_, ?_⟩
  · intro e he; rcases List.mem_append.1 he with he | he; exact h1.good e he; exact h'.good e he
  · intro m
    have := h.cnt m; have := h'.cnt m
    simp only [countIn_append]; omega

theorem meas_zero {k : Kind} (h1 : k ≠ .footnote) (h2 : ∀ h a, k ≠ .container (.header h) a) (m : Meas) :
    m.ofKind k = 0 := by
  unfold Meas.ofKind
  split
  · exact (h1 rfl).elim
  · exact (h2 _ _ rfl).elim
  · rfl

/-- A structural node. -/
theorem GsOk.node {k : Kind} (h : GsOk c s0 s es) (hp : ∀ p, k = .part p → p ∈ partsOf c.accepts)
    (hn : NodeOk (c.gam s) k es) (h1 : k ≠ .footnote := by simp) (h2 : ∀ h a, k ≠ .container (.header h) a := by simp)
    (h3 : k ≠ .part .tableRow := by simp) : GsOk c s0 s [.mk k es] := by
  refine ⟨?_, ?_⟩
  · intro e he
    simp only [List.mem_singleton] at he
    subst he
    exact .mk hp hn fun e he => (h.good e he).mono (Gam.Le.refl _) (sub_below h3 _)
  · intro m
    have := h.cnt m
    have := meas_zero h1 h2 m
    simp only [countIn_cons, count_mk, countIn_nil]; omega

theorem GsOk.toEs (h : GsOk c s0 s es) (he : ∀ e ∈ es, e.kind.isStruct = false) (hx : ∀ x ∈ errs, ErrOk c.env x)
    (hs : ps = true → ∀ e ∈ es, e.inParagraph) : EsOk c s0 s es errs ps :=
  ⟨⟨fun e h' => (good_iff.1 (h.good e h')).1, he, hx, hs, h.cnt⟩, fun e h' => (good_iff.1 (h.good e h')).2⟩

/-- Local well-formedness of a node without attributes, block or page syntax. -/
theorem NodeOk.plain {g : Gam} {k : Kind} (h1 : ∀ e ∈ es, allowedKid k e.kind = true) (hsp : Special g k es)
    (hleaf : k.isLeaf = false := by rfl) (hattr : k.attrs = [] := by rfl) (hpage : k.pageOnly = false := by rfl)
    (hblk : k.blocks = none := by rfl) : NodeOk g k es := by
  refine ⟨h1, ?_, ?_, ?_, ?_, hsp⟩
  · rw [hleaf]; intro h; cases h
  · rw [hattr]; exact attrOk_nil _
  · rw [hpage]; intro h; cases h
  · rw [hblk]; intro ns h; cases h

/-- Payloads collected one after the other. -/
def Chain (c : Ctx) : St → List (List Elem × Bool) → St → Prop
  | s, [], s' => Le s s'
  | s, x :: xs, s' => ∃ s1, Le s s1 ∧ EsOk c s s1 x.1 [] x.2 ∧ Chain c s1 xs s'

theorem Chain.toLe {l : List (List Elem × Bool)} (h : Chain c s l s1) : Le s s1 := by
  induction l generalizing s with
  | nil => exact h
  | cons x xs ih => obtain ⟨s2, h1, _, h3⟩ := h; exact h1.trans (ih h3)

theorem Chain.le {l : List (List Elem × Bool)} (h : Chain c s l s1) (hl : Le s1 s2) : Chain c s l s2 := by
  induction l generalizing s with
  | nil => exact Le.trans h hl
  | cons x xs ih => obtain ⟨s3, h1, h2, h3⟩ := h; exact ⟨s3, h1, h2, ih h3⟩

theorem Chain.split {a b : List (List Elem × Bool)} (h : Chain c s (a ++ b) s2) :
    ∃ s1, Chain c s a s1 ∧ Chain c s1 b s2 := by
  induction a generalizing s with
  | nil => exact ⟨s, Le.refl _, h⟩
  | cons x xs ih =>
    obtain ⟨s3, h1, h2, h3⟩ := h
    obtain ⟨s4, h4, h5⟩ := ih h3
    exact ⟨s4, ⟨s3, h1, h2, h4⟩, h5⟩

theorem Chain.snoc {a : List (List Elem × Bool)} {x : List Elem × Bool} (h : Chain c s a s1)
    (hx : EsOk c s1 s2 x.1 [] x.2) (hl : Le s1 s2) : Chain c s (a ++ [x]) s2 := by
  induction a generalizing s with
  | nil => exact ⟨s2, Le.trans h hl, hx.le0 h, Le.refl _⟩
  | cons y ys ih => obtain ⟨s3, h1, h2, h3⟩ := h; exact ⟨s3, h1, h2, ih h3⟩

end

end Ftml
