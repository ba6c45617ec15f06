import Verif.Lemmas.HtmlCl
/- When rendering returns, and when it panics. -/
namespace Ftml
open HtmlSpec

/-! ### Citations -/

theorem getFrom_some {E : Type} {label : Str} {l : List (Str × List E)} {i n : Nat} {es : List E}
    (h : Bibl.getFrom label i l = some (n, es)) : ∃ p q, l = p ++ (label, es) :: q ∧ ∀ x, (label, x) ∉ p := by
  induction l generalizing i with
  | nil => cases h
  | cons e l ih =>
    obtain ⟨a, b⟩ := e
    simp only [Bibl.getFrom] at h
    split at h
    · next ha =>
      subst ha
      simp only [Option.some.injEq, Prod.mk.injEq] at h
      exact ⟨[], l, by rw [← h.2]; rfl, by simp⟩
    · next ha =>
      obtain ⟨p, q, rfl, hp⟩ := ih h
      refine ⟨(a, b) :: p, q, rfl, fun x hx => ?_⟩
      simp only [List.mem_cons, Prod.mk.injEq] at hx
      rcases hx with hx | hx
      · exact ha hx.1
      · exact hp x hx

theorem getFrom_none {E : Type} {label : Str} {l : List (Str × List E)} {i : Nat}
    (h : Bibl.getFrom label i l = none) : ∀ x, (label, x) ∉ l := by
  induction l generalizing i with
  | nil => simp
  | cons e l ih =>
    obtain ⟨a, b⟩ := e
    simp only [Bibl.getFrom] at h
    split at h
    · cases h
    · next ha =>
      intro x hx
      simp only [List.mem_cons, Prod.mk.injEq] at hx
      rcases hx with hx | hx
      · exact ha hx.1
      · exact ih h x hx

theorem getFrom_of {E : Type} {label : Str} {p q : List (Str × List E)} {es : List E} (hp : ∀ x, (label, x) ∉ p) (i : Nat) :
    ∃ n, Bibl.getFrom label i (p ++ (label, es) :: q) = some (n, es) := by
  induction p generalizing i with
  | nil => exact ⟨i + 1, by simp [Bibl.getFrom]⟩
  | cons e p ih =>
    obtain ⟨a, b⟩ := e
    have : label ≠ a := by rintro rfl; exact hp b (by simp)
    simp only [List.cons_append, Bibl.getFrom, if_neg this]
    exact ih (fun x hx => hp x (by simp [hx])) (i + 1)

theorem cited_of {bs : List (Bibl Elem)} {label : Str} {i : Nat} {es : List Elem}
    (h : bibReference bs label = some (i, es)) : Cited bs label es := by
  unfold bibReference at h
  induction bs with
  | nil => cases h
  | cons b bs ih =>
    simp only [List.findSome?_cons] at h
    split at h
    · next x hx =>
      cases h
      obtain ⟨p, q, e, hp⟩ := getFrom_some hx
      exact ⟨[], b, bs, p, q, rfl, e, by simp, hp⟩
    · next hx =>
      obtain ⟨pre, b', post, p, q, e, e', h1, h2⟩ := ih h
      refine ⟨b :: pre, b', post, p, q, by rw [e]; rfl, e', ?_, h2⟩
      intro b'' hb x
      rcases List.mem_cons.1 hb with rfl | hb
      · exact getFrom_none hx x
      · exact h1 _ hb x

theorem Cited.reference {bs : List (Bibl Elem)} {label : Str} {es : List Elem} (h : Cited bs label es) :
    ∃ i, bibReference bs label = some (i, es) := by
  obtain ⟨pre, b, post, p, q, rfl, e, h1, h2⟩ := h
  unfold bibReference
  induction pre with
  | nil =>
    obtain ⟨n, hn⟩ := getFrom_of (q := q) (es := es) h2 0
    refine ⟨n, ?_⟩
    simp only [List.nil_append, List.findSome?_cons, Bibl.get, e, hn]
  | cons b' pre ih =>
    obtain ⟨n, hn⟩ := ih fun b'' hb => h1 b'' (by simp [hb])
    refine ⟨n, ?_⟩
    simp only [List.cons_append, List.findSome?_cons, hn]
    have : b'.get label = none := by
      cases hg : b'.get label with
      | none => rfl
      | some r =>
        obtain ⟨a, c⟩ := r
        obtain ⟨p', q', e', _⟩ := getFrom_some hg
        exact (h1 b' (by simp) c (by rw [e']; simp)).elim
    rw [this]

/-! ### Monotonicity -/

/-- Wherever the first action returns, the second does the same. -/
def Follows (a a' : Act) : Prop := ∀ st, a st ≠ .hang → a' st = a st

theorem Follows.refl (a : Act) : Follows a a := fun _ _ => rfl

theorem follows_cl : Cl Follows where
  emit s := .refl _
  seq := by
    intro a a' b b' ha hb st h
    unfold Act.andThen at *
    cases e : a st with
    | hang => simp [e] at h
    | panic p => rw [ha st (by simp [e]), e]
    | ok s st1 =>
      rw [ha st (by simp [e]), e]
      simp only [e] at h
      dsimp only
      cases e' : b st1 with
      | hang => simp [e'] at h
      | panic p => rw [hb st1 (by simp [e']), e']
      | ok s st1 => rw [hb _ (by simp [e']), e']
  read f f' h st := h st st
  upd f _ := .refl _

theorem follows_include (vars : List (Str × Str)) (a a' : Act) (h : Follows a a') :
    Follows (renderInclude vars a) (renderInclude vars a') :=
  follows_cl.seq (.refl _) (follows_cl.seq h (.refl _))

theorem follows_footnote {env : HEnv} {ext ext' : List Elem → Act} (h : ∀ es, Follows (ext es) (ext' es)) :
    Follows (renderFootnote env ext) (renderFootnote env ext') := by
  unfold renderFootnote
  refine follows_cl.read _ _ fun st => follows_cl.seq (.refl _) ?_
  split
  · exact .refl _
  · exact follows_cl.tag _ _ (follows_cl.seq (.refl _) (follows_cl.tag _ _ (follows_cl.seq (.refl _) (follows_cl.tag _ _ (h _)))))

theorem follows_leaf {env : HEnv} {ext ext' : List Elem → Act} (h : ∀ es, Follows (ext es) (ext' es)) (k : Kind) :
    Follows (renderLeaf env ext k) (renderLeaf env ext' k) := by
  cases k
  case toc => exact follows_cl.renderToc (h _) _ _
  case footnote => exact follows_footnote h
  case footnoteBlock => exact follows_cl.renderFootnoteBlock (fun _ _ => h _) _ _
  case bibCite => exact follows_cl.renderBibCite (fun _ _ _ => h _) _
  case bibBlock => exact follows_cl.renderBibliography (fun _ _ _ _ => h _) _ _ (fun _ _ => .refl _)
  all_goals exact .refl _

theorem renderLevel_follows (env : HEnv) (n : Nat) (es : List Elem) : Follows (renderLevel env n es) (renderLevel env (n + 1) es) := by
  induction n generalizing es with
  | zero => intro st h; exact (h rfl).elim
  | succ n ih =>
    exact follows_cl.go follows_include fun k ks _ _ => follows_leaf ih k

theorem renderLevel_mono (env : HEnv) {n m : Nat} (h : n ≤ m) (es : List Elem) :
    Follows (renderLevel env n es) (renderLevel env m es) := by
  induction h with
  | refl => exact .refl _
  | step _ ih =>
    intro st hh
    have h1 := ih st hh
    rw [← h1]
    exact renderLevel_follows env _ es st (by rw [h1]; exact hh)

theorem htmlRender_mono {n m : Nat} (h : n ≤ m) (w : HWorld) (info : PageInfo) (settings : Settings) (t : Tree)
    (hh : htmlRender n w info settings t ≠ .hang) : htmlRender m w info settings t = htmlRender n w info settings t := by
  have := follows_cl.tag c!"wj-body" [kv c!"class" c!"wj-body"] (renderLevel_mono (.of w info settings t) h t.elements) HSt.init
  unfold htmlRender at *
  rw [this]
  intro e
  rw [e] at hh
  exact hh rfl

/-! ### Returning -/

/-- The action returns or panics. -/
def Returns (a _a' : Act) : Prop := ∀ st, a st ≠ .hang

theorem returns_cl : Cl Returns where
  emit s st := by simp [Ftml.emit]
  seq := by
    intro a a' b b' ha hb st h
    unfold Act.andThen at h
    cases e : a st with
    | hang => exact ha st e
    | panic p => simp [e] at h
    | ok s st1 =>
      simp only [e] at h
      cases e' : b st1 with
      | hang => exact hb _ e'
      | panic p => simp [e'] at h
      | ok s st1 => simp [e'] at h
  read f f' h st := h st st
  upd f _ st := by simp [modifySt]

theorem returns_include (vars : List (Str × Str)) (a a' : Act) (h : Returns a a') :
    Returns (renderInclude vars a) (renderInclude vars a') := by
  refine returns_cl.seq (a := modifySt _) (a' := modifySt _) (fun st => by simp [modifySt])
    (returns_cl.seq (b := fun st => _) (b' := fun st => _) h ?_)
  · intro st
    dsimp only
    split <;> simp

theorem returns_die (p : HPanic) : Returns (die p) (die p) := fun st => by simp [die]

theorem returns_leaf {env : HEnv} {ext : List Elem → Act} (k : Kind)
    (h0 : ∀ t, t.toc = env.toc → t.footnotes = env.footnotes → t.bibliographies = env.bibliographies →
      ∀ es', MayRenderIn t [.mk k []] es' → Returns (ext es') (ext es')) (hk : k.special = true) :
    Returns (renderLeaf env ext k) (renderLeaf env ext k) := by
  have h := h0 ⟨[], env.toc, [], [], env.footnotes, env.bibliographies, 0⟩ rfl rfl rfl
  have hp : Placed k [] [Elem.mk k []] := .here (List.mem_singleton.2 rfl)
  clear h0
  cases k
  case toc => exact returns_cl.renderToc (h _ (.sure (.toc hp))) _ _
  case footnote =>
    have : Returns (renderFootnote env ext) (renderFootnote env ext) := by
      unfold renderFootnote
      refine returns_cl.read _ _ fun st => returns_cl.seq (a' := modifySt _) (fun st => by simp [modifySt]) ?_
      split
      · exact returns_die _
      · next contents e =>
        have hc := h contents (.footnote hp (List.mem_of_getElem? e))
        exact returns_cl.tag _ _ (returns_cl.seq (returns_cl.tag _ _ (returns_cl.esc _))
          (returns_cl.tag _ _ (returns_cl.seq (returns_cl.tag _ _ (returns_cl.esc _)) (returns_cl.tag _ _ hc))))
    exact this
  case footnoteBlock t hide =>
    cases hide with
    | true => exact returns_cl.skip
    | false => exact returns_cl.renderFootnoteBlock (fun f hf => h _ (.sure (.footnoteBlock hp hf))) _ _
  case bibCite => exact returns_cl.renderBibCite (fun i es e => h _ (.sure (.cite hp (cited_of e)))) _
  case bibBlock i t hide =>
    cases hide with
    | true => exact returns_cl.skip
    | false =>
      exact returns_cl.renderBibliography (fun b hb p hm => h _ (.sure (.bibliography hp hb hm))) _ _
        (fun _ _ => returns_die _)
  case link => exact returns_cl.renderLink _ _ _ _ _ (fun st => by simp [modifySt]) (fun _ => returns_die _)
  case style => exact returns_cl.renderStyle _ (fun _ => returns_die _)
  all_goals first | exact returns_die _ | exact Bool.noConfusion hk

theorem placed_leaf {k k' : Kind} {ks' : List Elem} (hl : Placed k' ks' [.mk k []]) :
    k' = k := by
  cases hl with
  | here h => simp at h; exact h.1
  | inside h _ he => simp at h; rw [h.2] at he; simp at he

theorem renderIn_leaf {t : Tree} {k : Kind} {ks es es' : List Elem} (h : Placed k ks es)
    (h' : MayRenderIn t [.mk k []] es') : MayRenderIn t es es' := by
  cases h' with
  | sure h' =>
    cases h' with
    | cite hp hc => have := placed_leaf hp; subst this; exact .sure (.cite h hc)
    | bibliography hp hb hm => have := placed_leaf hp; subst this; exact .sure (.bibliography h hb hm)
    | footnoteBlock hp hf => have := placed_leaf hp; subst this; exact .sure (.footnoteBlock h hf)
    | toc hp => have := placed_leaf hp; subst this; exact .sure (.toc h)
  | footnote hp hf => have := placed_leaf hp; subst this; exact .footnote h hf

theorem mayRenderIn_congr {t t' : Tree} (h1 : t'.toc = t.toc) (h2 : t'.footnotes = t.footnotes)
    (h3 : t'.bibliographies = t.bibliographies) {es es' : List Elem} (h : MayRenderIn t es es') : MayRenderIn t' es es' := by
  cases h with
  | sure h =>
    cases h with
    | cite hp hc => exact .sure (.cite hp (h3 ▸ hc))
    | bibliography hp hb hm => exact .sure (.bibliography hp (h3 ▸ hb) hm)
    | footnoteBlock hp hf => exact .sure (.footnoteBlock hp (h2 ▸ hf))
    | toc hp => exact .sure (h1 ▸ .toc hp)
  | footnote hp hf => exact .footnote hp (h2 ▸ hf)

/-- Nesting at most `n` deep suffices. -/
theorem renderLevel_returns {w : HWorld} {info : PageInfo} {settings : Settings} {t : Tree} {n : Nat} {es : List Elem}
    (h : Shallow t n es) :
    Returns (renderLevel (.of w info settings t) (n + 1) es) (renderLevel (.of w info settings t) (n + 1) es) := by
  induction n generalizing es with
  | zero =>
    refine returns_cl.go returns_include fun k ks hp hk => returns_leaf k (fun t' h1 h2 h3 es' h' => ?_) hk
    exact (h es' (renderIn_leaf hp (mayRenderIn_congr h1.symm h2.symm h3.symm h'))).elim
  | succ n ih =>
    refine returns_cl.go returns_include fun k ks hp hk => returns_leaf k (fun t' h1 h2 h3 es' h' => ?_) hk
    exact ih (h es' (renderIn_leaf hp (mayRenderIn_congr h1.symm h2.symm h3.symm h')))

/-! ### Never returning -/

/-- The action does not return normally. -/
def Never (a : Act) : Prop := ∀ st s st', a st ≠ .ok s st'

theorem Never.left {a : Act} (h : Never a) (b : Act) : Never (a ;; b) := by
  intro st s st' e
  unfold Act.andThen at e
  split at e
  · cases e
  · cases e
  · next h' => exact h _ _ _ h'
theorem Never.right {b : Act} (h : Never b) (a : Act) : Never (a ;; b) := by
  intro st s st' e
  unfold Act.andThen at e
  split at e
  · cases e
  · cases e
  · split at e
    · cases e
    · cases e
    · next h' => exact h _ _ _ h'
theorem Never.tagA {b : Act} (h : Never b) (t : Str) (en : List AttrEntry) (m : AttrMap) : Never (tagA t en m b) :=
  (h.left _).right _
theorem Never.tag {b : Act} (h : Never b) (t : Str) (en : List AttrEntry) : Never (tag t en b) := h.tagA t en []
theorem never_read {f : HSt → Act} (h : ∀ st, Never (f st)) : Never (fun st => f st st) := fun st => h st st
theorem never_die (p : HPanic) : Never (die p) := fun st s st' h => by cases h

theorem never_forEach {α : Type} {f : Nat → α → Act} {l : List α} {x : α} (hx : x ∈ l) (h : ∀ i, Never (f i x)) (i : Nat) :
    Never (forEach f i l) := by
  induction l generalizing i with
  | nil => cases hx
  | cons y l ih =>
    rcases List.mem_cons.1 hx with rfl | hx
    · exact (h i).left _
    · exact (ih hx _).right _

theorem never_container {env : HEnv} (c : CType) (attrs : AttrMap) {b : Act} (h : Never b) :
    Never (renderContainer env c attrs b) := by
  cases c with
  | header hd =>
    unfold renderContainer
    dsimp only
    split
    · exact never_read (f := fun st => modifySt (fun st => { st with toc := st.toc + 1, rand := if env.settings.useTrueIds then st.rand else st.rand + 1 }) ;;
         Ftml.tagA (headingTag hd.level)
          [kv c!"id" (if env.settings.useTrueIds then c!"toc" ++ natToStr st.toc else htmlId env st.rand)] attrs b)
        fun st => (h.tagA _ _ _).right _
    · exact h.tagA _ _ _
  | rubyText => unfold renderContainer; exact ((h.tagA _ _ _).left _).right _
  | monospace | hidden | invisible | align a => exact h.tagA _ _ _
  | bold | italics | underline | superscript | subscript | strikethrough | span | div | mark | blockquote
    | insertion | deletion | size | ruby | paragraph => exact h.tagA _ _ _

theorem never_go {env : HEnv} {ext : List Elem → Act} {e : Elem} {es : List Elem} (he : e ∈ es)
    (h : Never (htmlElem env ext e)) : Never (htmlElem.go env ext es) := by
  induction es with
  | nil => cases he
  | cons x es ih =>
    rcases List.mem_cons.1 he with rfl | he
    · exact h.left _
    · exact (ih he).right _

theorem never_panels {env : HEnv} {ext : List Elem → Act} {l : Str} {xs : List Elem} {es : List Elem}
    (he : Elem.mk (.tab l) xs ∈ es) (h : Never (htmlElem env ext (.mk (.tab l) xs))) (b t i : Nat) :
    Never (htmlElem.panels env ext b t i es) := by
  induction es generalizing i with
  | nil => cases he
  | cons x es ih =>
    unfold htmlElem.panels
    rcases List.mem_cons.1 he with rfl | he
    · exact (h.tag _ _).left _
    · split
      · exact (ih he _).right _
      · exact ih he _

theorem never_inside {env : HEnv} {ext : List Elem → Act} {k : Kind} {e : Elem} {ks : List Elem} (hl : k.isLeaf = false)
    (he : e ∈ ks) (ht : k = .tabView → ∃ l xs, e = .mk (.tab l) xs) (h : Never (htmlElem env ext e)) :
    Never (htmlElem env ext (.mk k ks)) := by
  have hg := never_go he h
  unfold htmlElem
  cases k
  case container c a => exact never_container c a hg
  case table => exact (hg.tag _ _).tagA _ _ _
  case row => exact hg.tagA _ _ _
  case cell => exact hg.tagA _ _ _
  case tabView =>
    obtain ⟨l, xs, rfl⟩ := ht rfl
    exact never_read (f := fun st => modifySt (fun st => { st with rand := st.rand + ks.length + ks.length }) ;;
       Ftml.tag c!"wj-tabs" [kv c!"class" c!"wj-tabs"] (
        Ftml.tag c!"div" [kv c!"class" c!"wj-tabs-button-list", kv c!"role" c!"tablist"]
          (Ftml.tabButtons env st.rand (st.rand + ks.length) 0 ks) ;;
        Ftml.tag c!"div" [kv c!"class" c!"wj-tabs-panel-list"]
          (htmlElem.panels env ext st.rand (st.rand + ks.length) 0 ks)))
      fun st => ((((never_panels he h _ _ _).tag _ _).right _).tag _ _).right _
  case tab => exact hg
  case anchor => exact hg.tagA _ _ _
  case list => exact hg.tagA _ _ _
  case item => exact hg.tagA _ _ _
  case subList => exact hg
  case definitionList => exact hg.tag _ _
  case defItem => exact hg
  case defKey => exact hg.tag _ _
  case defValue => exact hg.tag _ _
  case collapsible => exact (((hg.tag _ _).left _).right _).tagA _ _ _
  case color => exact hg.tag _ _
  case «include» => exact (hg.left _).right _
  case part => exact never_die _
  case rubyText => exact never_die _
  all_goals exact Bool.noConfusion hl

theorem never_placed {env : HEnv} {ext : List Elem → Act} {k : Kind} {ks es : List Elem} (hp : Placed k ks es)
    (hk : k.isLeaf = true) (h : Never (renderLeaf env ext k)) : Never (htmlElem.go env ext es) := by
  induction hp with
  | here hm =>
    refine never_go hm ?_
    unfold htmlElem
    cases k <;> first | exact h | exact Bool.noConfusion hk
  | inside hm hl he ht _ ih =>
    refine never_go hm (never_inside hl he ht ?_)
    intro st s st' e
    refine ih st (s ++ []) st' ?_
    simp only [htmlElem.go, Act.andThen, e, skip, emit]

theorem never_leaf {w : HWorld} {info : PageInfo} {settings : Settings} {t : Tree} {ext : List Elem → Act} {es es' : List Elem}
    (h : RendersIn t es es') (hn : Never (ext es')) : Never (htmlElem.go (.of w info settings t) ext es) := by
  cases h with
  | cite hp hc =>
    obtain ⟨i, hi⟩ := Cited.reference hc
    refine never_placed hp rfl ?_
    show Never (renderBibCite _ _ _ _)
    unfold renderBibCite
    have hi : bibReference (HEnv.of w info settings t).bibliographies _ = _ := hi
    rw [hi]
    exact ((((((hn.tag _ _).right _).tag _ _).right _).right _).right _).tag _ _
  | bibliography hp hb hm =>
    refine never_placed hp rfl ?_
    show Never (renderBibliography _ _ _ _ _)
    unfold renderBibliography
    have hb : (HEnv.of w info settings t).bibliographies[_]? = _ := hb
    rw [hb]
    exact ((never_forEach hm (fun i => (hn.right _).tag _ _) 0).right _).tag _ _
  | footnoteBlock hp hf =>
    refine never_placed hp rfl ?_
    show Never (renderFootnoteBlock _ _ _ _)
    unfold renderFootnoteBlock
    have hf : es' ∈ (HEnv.of w info settings t).footnotes := hf
    split
    · next h =>
      simp only [Bool.false_or, List.isEmpty_iff] at h
      rw [h] at hf; cases hf
    · exact (((never_forEach hf (fun i => ((hn.tag _ _).right _).tag _ _) 0).tag _ _).right _).tag _ _
  | toc hp =>
    exact never_placed hp rfl ((((hn.tag _ _).right _).right _).tagA _ _ _)

theorem never_footnote {w : HWorld} {info : PageInfo} {settings : Settings} {t : Tree} {ext : List Elem → Act} {es ks : List Elem}
    (h : Placed .footnote ks es) (hn : ∀ f ∈ t.footnotes, Never (ext f)) : Never (htmlElem.go (.of w info settings t) ext es) := by
  refine never_placed h rfl ?_
  show Never (renderFootnote _ _)
  unfold renderFootnote
  refine never_read (f := fun st => _) fun st => Never.right ?_ _
  split
  · exact never_die _
  · next e => exact ((((hn _ (List.mem_of_getElem? e)).tag _ _).right _).tag _ _ |>.right _).tag _ _

/-- A set of forests each of which renders another: none of them is ever done. -/
theorem renderLevel_never {w : HWorld} {info : PageInfo} {settings : Settings} {t : Tree} (F : List Elem → Prop)
    (hF : ∀ es, F es → (∃ es', F es' ∧ RendersIn t es es') ∨ ((∃ ks, Placed .footnote ks es) ∧ ∀ f ∈ t.footnotes, F f))
    (n : Nat) (es : List Elem) (h : F es) : Never (renderLevel (.of w info settings t) n es) := by
  induction n generalizing es with
  | zero => intro st s st' h; cases h
  | succ n ih =>
    rcases hF es h with ⟨es', h1, h2⟩ | ⟨⟨ks, h1⟩, h2⟩
    · exact never_leaf h2 (ih es' h1)
    · exact never_footnote h1 fun f hf => ih f (h2 f hf)

theorem htmlRender_never {w : HWorld} {info : PageInfo} {settings : Settings} {t : Tree} (F : List Elem → Prop)
    (hF : ∀ es, F es → (∃ es', F es' ∧ RendersIn t es es') ∨ ((∃ ks, Placed .footnote ks es) ∧ ∀ f ∈ t.footnotes, F f))
    (h : F t.elements) (n : Nat) (o : HtmlOutput) : htmlRender n w info settings t ≠ .ok o := by
  intro e
  unfold htmlRender at e
  split at e
  · cases e
  · cases e
  · next h' => exact (renderLevel_never F hF n _ h).tag _ _ _ _ _ h'

/-! ### Counting footnote references; panics -/

/-- The action leaves the variable scopes alone and counts `c` footnote references; it panics only because
of the number of a footnote reference, and then there are too many. -/
def Ct (env : HEnv) (c : Nat) (a : Act) : Prop := ∀ st, 1 ≤ st.footnote →
  match a st with
  | .hang => True
  | .panic p => p = .footnoteIndex ∧ env.footnotes.length + 1 < st.footnote + c
  | .ok _ st' => st'.scopes = st.scopes ∧ st'.footnote = st.footnote + c ∧ (c = 0 ∨ st.footnote + c ≤ env.footnotes.length + 1)

theorem Ct.seq {env : HEnv} {a b : Act} {c d : Nat} (ha : Ct env c a) (hb : Ct env d b) : Ct env (c + d) (a ;; b) := by
  intro st hst
  have h1 := ha st hst
  unfold Act.andThen
  cases e : a st with
  | hang => trivial
  | panic p =>
    rw [e] at h1
    dsimp only at h1 ⊢
    exact ⟨h1.1, by omega⟩
  | ok s st1 =>
    rw [e] at h1
    dsimp only at h1 ⊢
    obtain ⟨h11, h12, h13⟩ := h1
    have h2 := hb st1 (by omega)
    cases e2 : b st1 with
    | hang => trivial
    | panic p =>
      rw [e2] at h2
      dsimp only at h2 ⊢
      exact ⟨h2.1, by omega⟩
    | ok s' st2 =>
      rw [e2] at h2
      dsimp only at h2 ⊢
      obtain ⟨h21, h22, h23⟩ := h2
      exact ⟨h21.trans h11, by omega, by omega⟩

theorem ct_emit (env : HEnv) (s : Str) : Ct env 0 (emit s) := fun _ _ => ⟨rfl, rfl, .inl rfl⟩
theorem ct_upd (env : HEnv) {f : HSt → HSt} (h : ∀ st, (f st).footnote = st.footnote ∧ (f st).scopes = st.scopes) :
    Ct env 0 (modifySt f) := fun st _ => ⟨(h st).2, (h st).1, .inl rfl⟩
theorem Ct.tagA {env : HEnv} {b : Act} {c : Nat} (h : Ct env c b) (t : Str) (en : List AttrEntry) (m : AttrMap) :
    Ct env c (tagA t en m b) := by
  have := (ct_emit env (c!"<" ++ t ++ attrsStr (attrList en m) ++ c!">")).seq (h.seq (ct_emit env (if soloTags.contains t then [] else c!"</" ++ t ++ c!">")))
  rw [Nat.zero_add, Nat.add_zero] at this
  exact this
theorem Ct.tag {env : HEnv} {b : Act} {c : Nat} (h : Ct env c b) (t : Str) (en : List AttrEntry) :
    Ct env c (tag t en b) := h.tagA t en []
theorem Ct.after {env : HEnv} {a b : Act} {c : Nat} (h : Ct env c b) (ha : Ct env 0 a) : Ct env c (a ;; b) := by
  have := ha.seq h
  rwa [Nat.zero_add] at this
theorem Ct.before {env : HEnv} {a b : Act} {c : Nat} (h : Ct env c a) (hb : Ct env 0 b) : Ct env c (a ;; b) := by
  have := h.seq hb
  rwa [Nat.add_zero] at this
theorem ct_read {env : HEnv} {c : Nat} {f : HSt → Act} (h : ∀ st, Ct env c (f st)) : Ct env c (fun st => f st st) := fun st => h st st

theorem ct_cl (env : HEnv) : Cl fun a _ => Ct env 0 a where
  emit := ct_emit env
  seq := fun ha hb => ha.seq hb
  read _ _ h := ct_read h
  upd _ h := ct_upd env fun st => ⟨(h st).1, (h st).2.1⟩

theorem Ct.container {env : HEnv} {b : Act} {c : Nat} (h : Ct env c b) (ty : CType) (attrs : AttrMap) :
    Ct env c (renderContainer env ty attrs b) := by
  cases ty with
  | header hd =>
    unfold renderContainer
    dsimp only
    split
    · exact ct_read (f := fun st => modifySt (fun st => { st with toc := st.toc + 1, rand := if env.settings.useTrueIds then st.rand else st.rand + 1 }) ;;
         Ftml.tagA (headingTag hd.level)
          [kv c!"id" (if env.settings.useTrueIds then c!"toc" ++ natToStr st.toc else htmlId env st.rand)] attrs b)
        fun st => (h.tagA _ _ _).after (ct_upd env fun st => ⟨rfl, rfl⟩)
    · exact h.tagA _ _ _
  | rubyText =>
    unfold renderContainer
    exact ((h.tagA _ _ _).before ((ct_emit env _).tag _ _)).after ((ct_emit env _).tag _ _)
  | monospace | hidden | invisible | align a => exact h.tagA _ _ _
  | bold | italics | underline | superscript | subscript | strikethrough | span | div | mark | blockquote
    | insertion | deletion | size | ruby | paragraph => exact h.tagA _ _ _

theorem scopes_pop_push (s : Scopes) (vars : List (Str × Str)) : (s.push vars).pop = some s := by
  simp [Scopes.push, Scopes.pop]

theorem Ct.include {env : HEnv} {b : Act} {c : Nat} (h : Ct env c b) (vars : List (Str × Str)) : Ct env c (renderInclude vars b) := by
  intro st hst
  have h1 := h { st with scopes := st.scopes.push vars } hst
  unfold renderInclude Act.andThen modifySt
  dsimp only
  cases e : b { st with scopes := st.scopes.push vars } with
  | hang => trivial
  | panic p => rw [e] at h1; exact h1
  | ok s st1 =>
    rw [e] at h1
    dsimp only at h1 ⊢
    rw [h1.1, scopes_pop_push]
    exact ⟨rfl, h1.2⟩

/-- What a node needs for rendering not to panic, apart from the numbers of footnotes. -/
structure FineNode (env : HEnv) (k : Kind) (ks : List Elem) : Prop where
  part : ∀ p, k ≠ .part p
  rubyText : ∀ a, k ≠ .rubyText a
  link : ∀ lt loc x label t, k = .link lt loc x label t → getLinkLabel env.info.site loc label ≠ none
  style : ∀ s, k = .style s → env.w.css env.settings.minifyCss s ≠ .panic
  bib : ∀ i t, k = .bibBlock i t false → i < env.bibliographies.length
  leaf : k.isLeaf = true → ks = []
  tabs : k = .tabView → ∀ e ∈ ks, ∃ l xs, e = .mk (.tab l) xs

theorem ct_ref {env : HEnv} {b : Act} (h : Ct env 0 b) {st : HSt} (hst : 1 ≤ st.footnote) (hlt : st.footnote - 1 < env.footnotes.length) :
    match (modifySt (fun s => { s with footnote := st.footnote + 1 }) ;; b) st with
    | .hang => True
    | .panic p => p = .footnoteIndex ∧ env.footnotes.length + 1 < st.footnote + 1
    | .ok _ st' => st'.scopes = st.scopes ∧ st'.footnote = st.footnote + 1 ∧ (1 = 0 ∨ st.footnote + 1 ≤ env.footnotes.length + 1) := by
  have h2 := h { st with footnote := st.footnote + 1 } (Nat.le_add_left 1 st.footnote)
  unfold Act.andThen modifySt
  dsimp only
  cases e : b { st with footnote := st.footnote + 1 } with
  | hang => trivial
  | panic p => rw [e] at h2; exact h2
  | ok s st1 => rw [e] at h2; exact ⟨h2.1, h2.2.1, .inr (by omega)⟩

theorem ct_leaf {env : HEnv} {ext : List Elem → Act} (he : ∀ es, (es = env.toc ∨ es ∈ env.footnotes ∨ ∃ b ∈ env.bibliographies,
    ∃ key, (key, es) ∈ b.entries) → Ct env 0 (ext es)) {k : Kind} {ks : List Elem} (hf : FineNode env k ks) (hk : k.isLeaf = true) :
    Ct env (Meas.footnotes.ofKind k) (renderLeaf env ext k) := by
  have hc := ct_cl env
  cases k
  case toc => exact hc.renderToc (ext' := ext) (he _ (.inl rfl)) _ _
  case footnote =>
    show Ct env 1 (renderFootnote env ext)
    intro st hst
    unfold renderFootnote
    dsimp only
    cases e : env.footnotes[st.footnote - 1]? with
    | none =>
      have : env.footnotes.length ≤ st.footnote - 1 := List.getElem?_eq_none_iff.1 e
      unfold Act.andThen modifySt die
      dsimp only
      exact ⟨rfl, by omega⟩
    | some contents =>
      have hlt : st.footnote - 1 < env.footnotes.length := (List.getElem?_eq_some_iff.1 e).1
      have h1 := he contents (.inr (.inl (List.mem_of_getElem? e)))
      exact ct_ref (((hc.tag (b' := skip) _ _ (hc.esc _)).seq (((hc.tag (b' := skip) _ _ (hc.esc _)).seq (h1.tag _ _)).tag _ _)).tag _ _) hst hlt
  case footnoteBlock => exact hc.renderFootnoteBlock (ext' := ext) (fun f hf => he _ (.inr (.inl hf))) _ _
  case bibCite =>
    refine hc.renderBibCite (ext' := ext) (fun i es h => he _ (.inr (.inr ?_))) _
    obtain ⟨pre, b, post, p, q, h1, h2, _, _⟩ := cited_of h
    exact ⟨b, by rw [h1]; simp, _, by rw [h2]; exact List.mem_append_right _ (List.mem_cons_self ..)⟩
  case bibBlock i t h =>
    refine hc.renderBibliography (ext' := ext) (fun b hb p hp => he _ (.inr (.inr ⟨b, List.mem_of_getElem? hb, p.1, hp⟩))) _ _ fun hh hn => ?_
    subst hh
    have := hf.bib i t rfl
    have := List.getElem?_eq_none_iff.1 hn
    omega
  case link lt loc x label t =>
    exact hc.renderLink _ _ _ _ _ (ct_upd env fun _ => ⟨rfl, rfl⟩) fun h => (hf.link _ _ _ _ _ rfl h).elim
  case style s => exact hc.renderStyle _ fun h => (hf.style s rfl h).elim
  all_goals first | exact Bool.noConfusion hk | exact hc.renderLeaf (ext := ext) (ext' := ext) _ rfl rfl

section
variable {env : HEnv} {ext : List Elem → Act} (he : ∀ es, (es = env.toc ∨ es ∈ env.footnotes ∨ ∃ b ∈ env.bibliographies,
    ∃ key, (key, es) ∈ b.entries) → Ct env 0 (ext es))
include he

mutual
theorem ct_elem (e : Elem) (hs : ∀ k ks, Occurs k ks [e] → FineNode env k ks) :
    Ct env (Elem.count .footnotes e) (htmlElem env ext e) := by
  cases e with
  | mk k ks =>
    have h0 := hs k ks (.here (List.mem_singleton.2 rfl))
    have hks : ∀ e ∈ ks, ∀ k' ks', Occurs k' ks' [e] → FineNode env k' ks' := fun e he k' ks' h =>
      hs k' ks' (.inside (k' := k) (ks' := ks) (List.mem_singleton.2 rfl) (by
        cases h with
        | here h => simp only [List.mem_singleton] at h; exact .here (h ▸ he)
        | inside h h' => simp only [List.mem_singleton] at h; exact .inside (h ▸ he) h'))
    have hgo := ct_go ks hks
    have hpan := fun b t i (hk : k = .tabView) => ct_panels b t i ks hks (h0.tabs hk)
    have hc : Elem.count .footnotes (.mk k ks) = Meas.footnotes.ofKind k + Elem.count.go .footnotes ks := by
      rw [Elem.count]
    cases hl : k.isLeaf with
    | true =>
      have hl' := ct_leaf he h0 hl
      rw [hc, h0.leaf hl]
      unfold htmlElem
      cases k <;> first | exact Bool.noConfusion hl | exact hl'
    | false =>
      have hz : Meas.footnotes.ofKind k = 0 := by cases k <;> first | rfl | exact Bool.noConfusion hl
      rw [hc, hz, Nat.zero_add]
      unfold htmlElem
      cases k
      case container c a => exact hgo.container c a
      case table => exact (hgo.tag _ _).tagA _ _ _
      case row => exact hgo.tagA _ _ _
      case cell => exact hgo.tagA _ _ _
      case tabView =>
        exact ct_read (f := fun st => modifySt (fun st => { st with rand := st.rand + ks.length + ks.length }) ;;
          Ftml.tag c!"wj-tabs" [kv c!"class" c!"wj-tabs"] (
            Ftml.tag c!"div" [kv c!"class" c!"wj-tabs-button-list", kv c!"role" c!"tablist"]
              (Ftml.tabButtons env st.rand (st.rand + ks.length) 0 ks) ;;
            Ftml.tag c!"div" [kv c!"class" c!"wj-tabs-panel-list"]
              (htmlElem.panels env ext st.rand (st.rand + ks.length) 0 ks)))
          fun st => ((((hpan _ _ _ rfl).tag _ _).after (((ct_cl env).tabButtons (env := env) _ _ _ _).tag _ _)).tag _ _).after
            (ct_upd env fun _ => ⟨rfl, rfl⟩)
      case tab => exact hgo
      case anchor => exact hgo.tagA _ _ _
      case list => exact hgo.tagA _ _ _
      case item => exact hgo.tagA _ _ _
      case subList => exact hgo
      case definitionList => exact hgo.tag _ _
      case defItem => exact hgo
      case defKey => exact hgo.tag _ _
      case defValue => exact hgo.tag _ _
      case collapsible a o s h t b =>
        unfold renderCollapsible
        dsimp only
        refine (((hgo.tag _ _).before ?_).after ?_).tagA _ _ _
        · split
          · exact ((ct_emit env _).tag _ _).tag _ _
          · exact ct_emit env _
        · exact (((ct_emit env _).tag _ _).seq ((ct_emit env _).tag _ _)).tag _ _
      case color => exact hgo.tag _ _
      case «include» => exact hgo.include _
      case part => exact (h0.part _ rfl).elim
      case rubyText => exact (h0.rubyText _ rfl).elim
      all_goals exact Bool.noConfusion hl
theorem ct_go (es : List Elem) (hs : ∀ e ∈ es, ∀ k ks, Occurs k ks [e] → FineNode env k ks) :
    Ct env (Elem.count.go .footnotes es) (htmlElem.go env ext es) := by
  cases es with
  | nil => exact ct_emit env _
  | cons e es =>
    have h1 := ct_elem e (hs e (by simp))
    have h2 := ct_go es fun e he => hs e (by simp [he])
    rw [Elem.count.go]
    exact h1.seq h2
theorem ct_panels (b t i : Nat) (es : List Elem) (hs : ∀ e ∈ es, ∀ k ks, Occurs k ks [e] → FineNode env k ks)
    (ht : ∀ e ∈ es, ∃ l xs, e = .mk (.tab l) xs) :
    Ct env (Elem.count.go .footnotes es) (htmlElem.panels env ext b t i es) := by
  cases es with
  | nil => exact ct_emit env _
  | cons e es =>
    have h1 := ct_elem e (hs e (by simp))
    have h2 := fun i => ct_panels b t i es (fun e he => hs e (by simp [he])) fun e he => ht e (by simp [he])
    rw [Elem.count.go]
    unfold htmlElem.panels
    split
    · exact (h1.tag _ _).seq (h2 _)
    · next h =>
      obtain ⟨l, xs, rfl⟩ := ht e (by simp)
      exact (h l rfl).elim
end
end

/-- A tree with fine nodes, whose footnotes, bibliographies and table of contents contain no footnote
reference. -/
structure FineTree (w : HWorld) (info : PageInfo) (settings : Settings) (t : Tree) : Prop where
  node : ∀ es k ks, t.Forest es → Occurs k ks es → FineNode (.of w info settings t) k ks
  toc : countIn .footnotes t.toc = 0
  footnotes : ∀ f ∈ t.footnotes, countIn .footnotes f = 0
  bibliographies : ∀ b ∈ t.bibliographies, ∀ key es, (key, es) ∈ b.entries → countIn .footnotes es = 0

theorem renderLevel_ct {w : HWorld} {info : PageInfo} {settings : Settings} {t : Tree} (h : FineTree w info settings t)
    (n : Nat) (es : List Elem) (hf : t.Forest es) :
    Ct (.of w info settings t) (countIn .footnotes es) (renderLevel (.of w info settings t) n es) := by
  induction n generalizing es with
  | zero => intro st _; trivial
  | succ n ih =>
    refine ct_go (fun es' he => ?_) es fun e he k ks ho => h.node es k ks hf ?_
    · rcases he with rfl | he | ⟨b, hb, key, hk⟩
      · have := ih _ .toc
        rw [h.toc] at this
        exact this
      · have := ih _ (.footnote he)
        rw [h.footnotes _ he] at this
        exact this
      · have := ih _ (.bibliography hb hk)
        rw [h.bibliographies _ hb _ _ hk] at this
        exact this
    · cases ho with
      | here h => simp only [List.mem_singleton] at h; exact .here (h ▸ he)
      | inside h h' => simp only [List.mem_singleton] at h; exact .inside (h ▸ he) h'

/-- The outcome of rendering such a tree: a page, no end, or the panic of a footnote reference without
footnote. -/
theorem htmlRender_fine {w : HWorld} {info : PageInfo} {settings : Settings} {t : Tree} (h : FineTree w info settings t) (n : Nat) :
    htmlRender n w info settings t = .hang ∨
    (∃ o, htmlRender n w info settings t = .ok o ∧ countIn .footnotes t.elements ≤ t.footnotes.length) ∨
    (htmlRender n w info settings t = .panic .footnoteIndex ∧ t.footnotes.length < countIn .footnotes t.elements) := by
  have := ((renderLevel_ct h n t.elements .body).tag c!"wj-body" [kv c!"class" c!"wj-body"]) HSt.init (by decide)
  have e1 : HSt.init.footnote = 1 := rfl
  have e2 : (HEnv.of w info settings t).footnotes = t.footnotes := rfl
  rw [e1, e2] at this
  unfold htmlRender
  split
  · exact .inl rfl
  · next e => rw [e] at this; obtain ⟨rfl, h2⟩ := this; exact .inr (.inr ⟨rfl, by omega⟩)
  · next e => rw [e] at this; obtain ⟨_, _, h2⟩ := this; exact .inr (.inl ⟨_, rfl, by omega⟩)

end Ftml
