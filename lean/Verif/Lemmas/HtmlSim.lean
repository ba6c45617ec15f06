import Verif.Lemmas.HtmlWalk
/- Rendering two trees that differ in their texts only. -/
namespace Ftml
open HtmlSpec

theorem tagsOf_append (a b : List Ev) : tagsOf (a ++ b) = tagsOf a ++ tagsOf b := by simp [tagsOf]
theorem tagsOf_chars (s : Str) : tagsOf (s.map .char) = [] := by
  induction s with
  | nil => rfl
  | cons c s ih => simpa [tagsOf] using ih

/-- Outcomes alike but for text. -/
inductive SimR : HR → HR → Prop where
  | hang : SimR .hang .hang
  | panic {p} : SimR (.panic p) (.panic p)
  | ok {s s' st evs evs'} : Frag s evs → Frag s' evs' → tagsOf evs = tagsOf evs' → SimR (.ok s st) (.ok s' st)

/-- Actions alike but for text. -/
def Sim (a a' : Act) : Prop := ∀ st, SimR (a st) (a' st)

theorem SimR.symm {a b : HR} (h : SimR a b) : SimR b a := by
  cases h with
  | hang => exact .hang
  | panic => exact .panic
  | ok h1 h2 h3 => exact .ok h2 h1 h3.symm

theorem SimR.trans {a b c : HR} (h : SimR a b) (h' : SimR b c) : SimR a c := by
  cases h with
  | hang => exact h'
  | panic => exact h'
  | ok h1 h2 h3 =>
    cases h' with
    | ok h4 h5 h6 =>
      unfold Frag at h2 h4
      rw [h2] at h4
      cases h4
      exact .ok h1 h5 (h3.trans h6)

theorem Sim.of_wr {env : HEnv} {A : Source} {H : Prop} {a : Act} (h : Wr env A H a) : Sim a a := by
  intro st
  cases e : a st with
  | hang => exact .hang
  | panic => exact .panic
  | ok s st' =>
    obtain ⟨evs, f, _⟩ := h _ _ _ e
    exact .ok f f rfl

theorem Sim.esc (x y : Str) : Sim (emitEsc x) (emitEsc y) := fun _ =>
  .ok (frag_escape x) (frag_escape y) (by rw [tagsOf_chars, tagsOf_chars])
theorem sim_skip : Sim skip skip := fun _ => .ok .nil .nil rfl
theorem sim_die (p : HPanic) : Sim (die p) (die p) := fun _ => .panic
theorem sim_modify (f : HSt → HSt) : Sim (modifySt f) (modifySt f) := fun _ => .ok .nil .nil rfl
theorem sim_emit {x : Str} (h : PlainText x) : Sim (emit x) (emit x) := by
  have : emitEsc x = Ftml.emit x := by unfold emitEsc; rw [escape_plain h]
  rw [← this]
  exact .esc x x

theorem Sim.seq {a a' b b' : Act} (ha : Sim a a') (hb : Sim b b') : Sim (a ;; b) (a' ;; b') := by
  intro st
  unfold Act.andThen
  have h1 := ha st
  generalize a st = r at h1
  generalize a' st = r' at h1
  cases h1 with
  | hang => exact .hang
  | panic => exact .panic
  | @ok s s' st1 e e' f f' t =>
    dsimp only
    have h2 := hb st1
    generalize b st1 = q at h2
    generalize b' st1 = q' at h2
    cases h2 with
    | hang => exact .hang
    | panic => exact .panic
    | ok g g' u => exact .ok (f.append g) (f'.append g') (by rw [tagsOf_append, tagsOf_append, t, u])

theorem sim_read {f f' : HSt → Act} (h : ∀ st, Sim (f st) (f' st)) : Sim (fun st => f st st) (fun st => f' st st) :=
  fun st => h st st

theorem sim_forEach {α : Type} {f f' : Nat → α → Act} {g : α → α} {l : List α}
    (h : ∀ i, ∀ x ∈ l, Sim (f i x) (f' i (g x))) (i : Nat) : Sim (forEach f i l) (forEach f' i (l.map g)) := by
  induction l generalizing i with
  | nil => exact sim_skip
  | cons x l ih => exact (h i x (by simp)).seq (ih (fun j y hy => h j y (by simp [hy])) (i + 1))

/-- A tag that may be written with these attributes. -/
def simCheck (t : Str) (ks : List Str) : Bool :=
  decide (t ∉ rawTags) && decide (TagName t) && decide (t ∉ voidTags) && ks.all fun k => decide (k ∈ outputAttrs)

theorem Sim.tagA {t : Str} {entries : List AttrEntry} {map : AttrMap} {b b' : Act} (ks : List Str)
    (hk : entries.map (·.1) = ks) (hc : simCheck t ks = true) (hm : PlainAttrs map) (hb : Sim b b') :
    Sim (tagA t entries map b) (tagA t entries map b') := by
  subst hk
  simp only [simCheck, Bool.and_eq_true, decide_eq_true_eq, List.all_eq_true] at hc
  obtain ⟨⟨⟨hr, hn⟩, hv⟩, ho⟩ := hc
  have hp : ∀ p ∈ attrList entries map, PlainName p.1 := by
    rintro ⟨k, v⟩ hp
    rcases mem_attrList hp with ⟨v0, h1, _⟩ | h1
    · exact outputAttrs_plain _ (ho k ((liveEntries_sub entries).subset (List.mem_map.2 ⟨_, h1, rfl⟩)))
    · exact hm.1 _ h1
  have hs : soloTags.contains t = false := by rw [soloTags_eq]; simpa using hv
  unfold Ftml.tagA
  rw [hs]
  exact .seq (fun _ => .ok (frag_start hn hr hp) (frag_start hn hr hp) rfl)
    (hb.seq fun _ => .ok (frag_stop hn) (frag_stop hn) rfl)

theorem plainAttrs_nil : PlainAttrs [] := ⟨by simp, by simp⟩

theorem Sim.tag {t : Str} {entries : List AttrEntry} {b b' : Act} (ks : List Str)
    (hk : entries.map (·.1) = ks) (hc : simCheck t ks = true) (hb : Sim b b') :
    Sim (tag t entries b) (tag t entries b') := .tagA ks hk hc plainAttrs_nil hb

section
variable {env env' : HEnv} {ext ext' : List Elem → Act}

/-- The environment with its texts emptied. -/
def blankEnv (env : HEnv) : HEnv :=
  { env with
    toc := blankElem.go env.toc
    footnotes := env.footnotes.map blankElem.go
    bibliographies := env.bibliographies.map fun b => ⟨b.entries.map fun p => (p.1, blankElem.go p.2)⟩ }

theorem sim_code (env : HEnv) (s s' : Str) (l : Option Str) : Sim (renderCode s l) (renderCode s' l) := by
  refine .seq (sim_modify _) (.tag [c!"class"] rfl (by decide +kernel) (.seq (.of_wr (env := env) (A := ⟨fun _ _ => True, fun _ => True, fun _ => True, fun _ _ => True, fun _ => True, fun _ => True⟩) (H := False) ?_) ?_))
  · refine tag_simple [c!"class"] rfl (by decide +kernel) (.andThen ?_ ?_)
    · exact tag_simple [c!"type", c!"class", c!"title"] rfl (by decide +kernel) (.andThen (sprite_wr _) (sprite_wr _))
    · exact tag_simple [c!"class"] rfl (by decide +kernel) (.esc _)
  · exact .tag [] rfl (by decide +kernel) (.tag [] rfl (by decide +kernel) (.esc _ _))

theorem blank_label (site : Str) (lt : LinkType) (loc : LinkLoc) (x : Option Str) (label : LinkLabel) (tg : Option AnchorTarget) :
    ∃ label', blankKind (.link lt loc x label tg) = .link lt loc x label' tg ∧
      (getLinkLabel site loc label).isSome = (getLinkLabel site loc label').isSome := by
  cases label with
  | text s => exact ⟨_, rfl, rfl⟩
  | url u => cases u with
    | none => exact ⟨_, rfl, rfl⟩
    | some u => exact ⟨_, rfl, rfl⟩
  | page => exact ⟨_, rfl, rfl⟩

theorem sim_link (loc : LinkLoc) (x : Option Str) (label label' : LinkLabel) (tg : Option AnchorTarget) (lt : LinkType)
    (h : (getLinkLabel env.info.site loc label).isSome = (getLinkLabel env.info.site loc label').isSome) :
    Sim (renderLink env loc x label tg lt) (renderLink (blankEnv env) loc x label' tg lt) := by
  unfold renderLink
  dsimp only
  refine .seq (sim_modify _) (.tag [c!"href", c!"target", c!"class", c!"data-link-type"] rfl (by decide +kernel) ?_)
  show Sim _ (match getLinkLabel env.info.site loc label' with
     | some t => emitEsc t
     | none => die .pageLabel)
  cases h1 : getLinkLabel env.info.site loc label with
  | none =>
    cases h2 : getLinkLabel env.info.site loc label' with
    | none => exact sim_die _
    | some => rw [h1, h2] at h; cases h
  | some =>
    cases h2 : getLinkLabel env.info.site loc label' with
    | none => rw [h1, h2] at h; cases h
    | some => exact .esc _ _

theorem sim_toc (he : Sim (ext env.toc) (ext' (blankElem.go env.toc))) {attrs : AttrMap} (hm : PlainAttrs attrs)
    (align : Option Alignment) : Sim (renderToc env ext attrs align) (renderToc (blankEnv env) ext' attrs align) := by
  refine .tagA [c!"id", c!"class"] rfl (by decide +kernel) hm (.seq ?_ (.seq ?_ ?_))
  · exact .tag [c!"id"] rfl (by decide +kernel) (.of_wr (foldToc_wr (env := env) (A := ⟨fun _ _ => True, fun _ => True, fun _ => True, fun _ _ => True, fun _ => True, fun _ => True⟩) (H := False)))
  · exact .tag [c!"class"] rfl (by decide +kernel) (.esc _ _)
  · exact .tag [c!"id"] rfl (by decide +kernel) he

theorem sim_footnote (he : ∀ f ∈ env.footnotes, Sim (ext f) (ext' (blankElem.go f))) :
    Sim (renderFootnote env ext) (renderFootnote (blankEnv env) ext') := by
  unfold renderFootnote
  refine sim_read (f := fun st => _ ;; _) (f' := fun st => _ ;; _) fun st => ?_
  refine .seq (sim_modify _) ?_
  have : (blankEnv env).footnotes[st.footnote - 1]? = (env.footnotes[st.footnote - 1]?).map blankElem.go := by
    simp [blankEnv]
  rw [this]
  cases hf : env.footnotes[st.footnote - 1]? with
  | none => exact sim_die _
  | some contents =>
    simp only [Option.map_some]
    refine .tag [c!"class"] rfl (by decide +kernel) (.seq ?_ ?_)
    · exact .tag [c!"class", c!"role", c!"aria-label", c!"data-id"] rfl (by decide +kernel) (.esc _ _)
    · refine .tag [c!"class", c!"aria-hidden"] rfl (by decide +kernel) (.seq ?_ ?_)
      · exact .tag [c!"class"] rfl (by decide +kernel) (.esc _ _)
      · exact .tag [c!"class"] rfl (by decide +kernel) (he _ (List.mem_of_getElem? hf))

theorem sim_footnoteBlock (he : ∀ f ∈ env.footnotes, Sim (ext f) (ext' (blankElem.go f))) (title title' : Option Str)
    (hide : Bool) : Sim (renderFootnoteBlock env ext title hide) (renderFootnoteBlock (blankEnv env) ext' title' hide) := by
  unfold renderFootnoteBlock
  have : (blankEnv env).footnotes.isEmpty = env.footnotes.isEmpty := by simp [blankEnv]
  rw [this]
  split
  · exact sim_skip
  · refine .tag [c!"class"] rfl (by decide +kernel) (.seq ?_ ?_)
    · exact .tag [c!"class"] rfl (by decide +kernel) (.esc _ _)
    · refine .tag [] rfl (by decide +kernel) (sim_forEach (g := blankElem.go) (fun i x hx => ?_) 0)
      refine .tag [c!"class", c!"data-id"] rfl (by decide +kernel) (.seq ?_ ?_)
      · refine .tag [c!"class", c!"type", c!"role"] rfl (by decide +kernel) (.seq (sim_emit (natDigit_plain _)) ?_)
        exact .tag [c!"class"] rfl (by decide +kernel) (.esc _ _)
      · exact .tag [c!"class"] rfl (by decide +kernel) (he x hx)

theorem getFrom_map {label : Str} (l : List (Str × List Elem)) (i : Nat) :
    Bibl.getFrom label i (l.map fun p => (p.1, blankElem.go p.2)) =
      (Bibl.getFrom label i l).map fun r => (r.1, blankElem.go r.2) := by
  induction l generalizing i with
  | nil => rfl
  | cons p l ih =>
    simp only [List.map_cons, Bibl.getFrom]
    split
    · rfl
    · exact ih _

theorem bibReference_blank (env : HEnv) (label : Str) : bibReference (blankEnv env).bibliographies label =
    (bibReference env.bibliographies label).map fun r => (r.1, blankElem.go r.2) := by
  unfold bibReference
  simp only [blankEnv]
  generalize env.bibliographies = bs
  induction bs with
  | nil => rfl
  | cons b bs ih =>
    simp only [List.map_cons, List.findSome?_cons]
    have : Bibl.get (E := Elem) ⟨b.entries.map fun p => (p.1, blankElem.go p.2)⟩ label =
        (b.get label).map fun r => (r.1, blankElem.go r.2) := getFrom_map _ _
    rw [this]
    cases b.get label with
    | none => exact ih
    | some => rfl

theorem sim_bibCite (he : ∀ b ∈ env.bibliographies, ∀ p ∈ b.entries, Sim (ext p.2) (ext' (blankElem.go p.2)))
    (label : Str) (br : Bool) : Sim (renderBibCite env ext label br) (renderBibCite (blankEnv env) ext' label br) := by
  unfold renderBibCite
  rw [bibReference_blank]
  cases hr : bibReference env.bibliographies label with
  | none => exact .tag [c!"class"] rfl (by decide +kernel) (.esc _ _)
  | some r =>
    obtain ⟨index, contents⟩ := r
    obtain ⟨b, hb, hm⟩ := bibReference_mem hr
    simp only [Option.map_some]
    refine .tag [c!"class"] rfl (by decide +kernel) (.seq ?_ (.seq ?_ (.seq ?_ ?_)))
    · split
      · exact sim_emit (by simp [PlainText]; decide)
      · exact sim_skip
    · exact .tag [c!"class", c!"role", c!"aria-label", c!"data-id"] rfl (by decide +kernel) (.esc _ _)
    · split
      · exact sim_emit (by simp [PlainText]; decide)
      · exact sim_skip
    · refine .tag [c!"class", c!"aria-hidden"] rfl (by decide +kernel) (.seq ?_ ?_)
      · exact .tag [c!"class"] rfl (by decide +kernel) (.esc _ _)
      · exact .tag [c!"class"] rfl (by decide +kernel) (he b hb _ hm)

theorem sim_bibBlock (he : ∀ b ∈ env.bibliographies, ∀ p ∈ b.entries, Sim (ext p.2) (ext' (blankElem.go p.2)))
    (i : Nat) (title title' : Option Str) (hide : Bool) :
    Sim (renderBibliography env ext i title hide) (renderBibliography (blankEnv env) ext' i title' hide) := by
  unfold renderBibliography
  split
  · exact sim_skip
  · have : (blankEnv env).bibliographies[i]? = (env.bibliographies[i]?).map fun b => ⟨b.entries.map fun p => (p.1, blankElem.go p.2)⟩ := by
      simp [blankEnv]
    rw [this]
    cases hb : env.bibliographies[i]? with
    | none => exact sim_die _
    | some b =>
      have hb : b ∈ env.bibliographies := List.mem_of_getElem? hb
      simp only [Option.map_some]
      refine .tag [c!"class"] rfl (by decide +kernel) (.seq ?_ ?_)
      · exact .tag [c!"class"] rfl (by decide +kernel) (.esc _ _)
      · refine sim_forEach (g := fun p => (p.1, blankElem.go p.2)) (fun i x hx => ?_) 0
        refine .tag [c!"class", c!"id"] rfl (by decide +kernel) (.seq ?_ (he b hb x hx))
        refine .tag [c!"class", c!"type", c!"role"] rfl (by decide +kernel) (.seq (sim_emit (natDigit_plain _)) ?_)
        exact .tag [c!"class"] rfl (by decide +kernel) (.esc _ _)

/-- A node rendered the same with and without its texts. -/
theorem sim_leaf {A : Source} {H : Prop} (hw : WorldOk env.w)
    (he : ∀ es, EnvForest env es → Sim (ext es) (ext' (blankElem.go es))) {k : Kind} (hk : KindOk env A H k)
    (hk' : KindOk env A H (blankKind k)) :
    Sim (renderLeaf env ext k) (renderLeaf (blankEnv env) ext' (blankKind k)) := by
  have wr : ∀ k', KindOk env A H k' → Wr env A H (renderLeaf env (fun _ => die .css) k') := fun k' h =>
    renderLeaf_wr hw (fun _ _ => .die _) h
  cases k
  case text s => exact .esc _ _
  case raw s => exact .tag [c!"class"] rfl (by decide +kernel) (.esc _ _)
  case email s => exact .tag [c!"class"] rfl (by decide +kernel) (.esc _ _)
  case link lt loc x label tg =>
    obtain ⟨label', e1, e2⟩ := blank_label env.info.site lt loc x label tg
    rw [e1]
    exact sim_link loc x label label' tg lt e2
  case toc a al => exact sim_toc (he _ .toc) hk.map.plain al
  case footnote => exact sim_footnote fun f hf => he _ (.footnote hf)
  case footnoteBlock => exact sim_footnoteBlock (fun f hf => he _ (.footnote hf)) _ _ _
  case bibCite => exact sim_bibCite (fun b hb p hp => he _ (.bibliography hb hp)) _ _
  case bibBlock => exact sim_bibBlock (fun b hb p hp => he _ (.bibliography hb hp)) _ _ _ _
  case code s l => exact sim_code env s [] l
  all_goals exact .of_wr (wr _ hk')

theorem blankKind_attrs (k : Kind) : (blankKind k).attrs = k.attrs := by
  cases k
  case link lt loc x label tg =>
    cases label with
    | url u => cases u <;> rfl
    | _ => rfl
  all_goals rfl

theorem blank_kindOk {A : Source} {H : Prop} {k : Kind} (h : KindOk env A H k) : KindOk env A H (blankKind k) where
  map := by rw [blankKind_attrs]; exact h.map
  noId hH hd a e := by
    refine h.noId hH hd a ?_
    cases k
    case container => exact e
    case link lt loc x label tg =>
      cases label with
      | url u => cases u <;> cases e
      | _ => cases e
    all_goals cases e
  extra lt loc x label tg e hl := by
    cases k
    case link lt' loc' x' label' tg' =>
      have : lt' = lt ∧ loc' = loc ∧ x' = some x := by
        cases label' with
        | url u => cases u <;> (cases e; exact ⟨rfl, rfl, rfl⟩)
        | _ => cases e; exact ⟨rfl, rfl, rfl⟩
      obtain ⟨rfl, rfl, rfl⟩ := this
      exact h.extra _ _ x label' tg' rfl hl
    all_goals cases e
  link lt loc x label tg e := by
    cases k
    case link lt' loc' x' label' tg' =>
      have : loc' = loc ∧ x' = x := by
        cases label' with
        | url u => cases u <;> (cases e; exact ⟨rfl, rfl⟩)
        | _ => cases e; exact ⟨rfl, rfl⟩
      obtain ⟨rfl, rfl⟩ := this
      exact h.link _ _ _ label' tg' rfl
    all_goals cases e
  frame a u e := by
    refine h.frame a u ?_
    cases k
    case iframe => exact e
    case link lt loc x label tg =>
      cases label with
      | url u => cases u <;> cases e
      | _ => cases e
    all_goals cases e
  name g e := by
    refine h.name g ?_
    cases k
    case anchorName => exact e
    case link lt loc x label tg =>
      cases label with
      | url u => cases u <;> cases e
      | _ => cases e
    all_goals cases e
  picture src link align a e := by
    refine h.picture src link align a ?_
    cases k
    case image => exact e
    case link lt loc x label tg =>
      cases label with
      | url u => cases u <;> cases e
      | _ => cases e
    all_goals cases e

theorem sim_container (c : CType) {attrs : AttrMap} {b b' : Act} (hm : PlainAttrs attrs) (hb : Sim b b') :
    Sim (renderContainer env c attrs b) (renderContainer (blankEnv env) c attrs b') := by
  cases c with
  | header h =>
    have hc : ∀ t ∈ headTags, simCheck t [] = true ∧ simCheck t [c!"id"] = true := by decide +kernel
    obtain ⟨h0, h1⟩ := hc _ (headingTag_mem h.level)
    unfold renderContainer
    dsimp only
    split
    · exact sim_read (f := fun st => _ ;; _) (f' := fun st => _ ;; _) fun st =>
        .seq (sim_modify _) (.tagA [c!"id"] rfl h1 hm hb)
    · exact .tagA [] rfl h0 hm hb
  | rubyText =>
    unfold renderContainer
    refine .seq ?_ (.seq ?_ ?_)
    · exact .tag [] rfl (by decide +kernel) (.esc _ _)
    · exact .tagA [] rfl (by decide +kernel) hm hb
    · exact .tag [] rfl (by decide +kernel) (.esc _ _)
  | monospace | hidden | invisible | align a => exact .tagA [c!"class"] rfl (by decide +kernel) hm hb
  | bold | italics | underline | superscript | subscript | strikethrough | span | div | mark | blockquote
    | insertion | deletion | size | ruby | paragraph => exact .tagA [] rfl (by decide +kernel) hm hb

theorem blank_tab (k : Kind) (l : Str) : blankKind k = .tab l ↔ k = .tab l := by
  cases k
  case link lt loc x label tg =>
    cases label with
    | url u => cases u <;> simp [blankKind]
    | _ => simp [blankKind]
  all_goals simp [blankKind]

theorem tabButtons_blank (b t i : Nat) (es : List Elem) :
    tabButtons (blankEnv env) b t i (blankElem.go es) = tabButtons env b t i es := by
  induction es generalizing i with
  | nil => rfl
  | cons e es ih =>
    obtain ⟨k, ks⟩ := e
    by_cases hk : ∃ l, k = .tab l
    · obtain ⟨l, rfl⟩ := hk
      simp only [blankElem.go, blankElem, blankKind, tabButtons]
      rw [ih]
      rfl
    · have h1 : ∀ l, k ≠ .tab l := fun l e => hk ⟨l, e⟩
      have h2 : ∀ l, blankKind k ≠ .tab l := fun l e => h1 l ((blank_tab k l).1 e)
      have e1 : ∀ (env : HEnv) (k : Kind) (ks es : List Elem), (∀ l, k ≠ .tab l) →
          tabButtons env b t i (.mk k ks :: es) = tabButtons env b t i es := by
        intro env k ks es h
        cases k
        case tab l => exact (h l rfl).elim
        all_goals rfl
      simp only [blankElem.go, blankElem]
      rw [e1 _ _ _ _ h2, e1 _ _ _ _ h1, ih]

theorem blankGo_length (es : List Elem) : (blankElem.go es).length = es.length := by
  induction es with
  | nil => rfl
  | cons e es ih => simp [blankElem.go, ih]

theorem sim_collapsible {attrs : AttrMap} (hm : PlainAttrs attrs) (o : Bool) (s h s' h' : Option Str) (t b : Bool)
    {x x' : Act} (hb : Sim x x') : Sim (renderCollapsible attrs o s h t b x) (renderCollapsible attrs o s' h' t b x') := by
  refine .tagA [c!"class", c!"open", c!"data-show-top", c!"data-show-bottom"] rfl (by decide +kernel) hm
    (.seq ?_ (.seq ?_ ?_))
  · refine .tag [c!"class"] rfl (by decide +kernel) (.seq ?_ ?_)
    · exact .tag [c!"class"] rfl (by decide +kernel) (.esc _ _)
    · exact .tag [c!"class"] rfl (by decide +kernel) (.esc _ _)
  · exact .tag [c!"class"] rfl (by decide +kernel) hb
  · split
    · exact .tag [c!"class"] rfl (by decide +kernel) (.tag [c!"class"] rfl (by decide +kernel) (.esc _ _))
    · exact sim_skip

theorem sim_include (vars : List (Str × Str)) {b b' : Act} (hb : Sim b b') :
    Sim (renderInclude vars b) (renderInclude vars b') := by
  refine .seq (sim_modify _) (.seq hb fun st => ?_)
  split
  · exact .ok .nil .nil rfl
  · exact .panic

set_option linter.unusedSectionVars false
section
variable {A : Source} {H : Prop} (hw : WorldOk env.w)
  (he : ∀ es, EnvForest env es → Sim (ext es) (ext' (blankElem.go es)))
include hw he

mutual
theorem sim_elem (e : Elem) (hk : ∀ k ks, Occurs k ks [e] → KindOk env A H k) :
    Sim (htmlElem env ext e) (htmlElem (blankEnv env) ext' (blankElem e)) := by
  cases e with
  | mk k ks =>
    have h0 : KindOk env A H k := hk k ks (.here (by simp))
    have hsub : ∀ k' ks', Occurs k' ks' ks → KindOk env A H k' := fun k' ks' h => hk k' ks' (.inside (k' := k) (ks' := ks) (List.mem_singleton.2 rfl) h)
    have hgo := sim_go ks hsub
    have hpan := fun b t i => sim_panels b t i ks hsub
    have hm := h0.map.plain
    have hleaf := sim_leaf hw he h0 (blank_kindOk h0)
    unfold blankElem htmlElem
    cases k
    case container c a => exact sim_container c hm hgo
    case table => exact .tagA [] rfl (by decide +kernel) hm (.tag [] rfl (by decide +kernel) hgo)
    case row => exact .tagA [] rfl (by decide +kernel) hm hgo
    case cell hd n al a =>
      cases hd
      · exact .tagA [c!"colspan", c!"class"] rfl (by decide +kernel) hm hgo
      · exact .tagA [c!"colspan", c!"class"] rfl (by decide +kernel) hm hgo
    case tabView =>
      simp only [blankKind]
      rw [blankGo_length]
      refine sim_read (f := fun st => _ ;; _) (f' := fun st => _ ;; _) fun st => .seq (sim_modify _) ?_
      refine .tag [c!"class"] rfl (by decide +kernel) (.seq ?_ ?_)
      · rw [tabButtons_blank]
        exact .tag [c!"class", c!"role"] rfl (by decide +kernel) (.of_wr (tabButtons_wr (env := env) (A := A) (H := H) hw _ _ _ _))
      · exact .tag [c!"class"] rfl (by decide +kernel) (hpan _ _ _)
    case tab => exact hgo
    case anchor => exact .tagA [c!"class", c!"target"] rfl (by decide +kernel) hm hgo
    case list t a =>
      cases t <;> exact .tagA [] rfl (by decide +kernel) hm hgo
    case item => exact .tagA [] rfl (by decide +kernel) hm hgo
    case subList => exact hgo
    case definitionList => exact .tag [] rfl (by decide +kernel) hgo
    case defItem => exact hgo
    case defKey => exact .tag [] rfl (by decide +kernel) hgo
    case defValue => exact .tag [] rfl (by decide +kernel) hgo
    case collapsible => exact sim_collapsible hm _ _ _ _ _ _ _ hgo
    case color => exact .tag [c!"style"] rfl (by decide +kernel) hgo
    case «include» => exact sim_include _ hgo
    case link lt loc x label tg =>
      cases label with
      | url u => cases u <;> exact hleaf
      | _ => exact hleaf
    all_goals exact hleaf
theorem sim_go (es : List Elem) (hk : ∀ k ks, Occurs k ks es → KindOk env A H k) :
    Sim (htmlElem.go env ext es) (htmlElem.go (blankEnv env) ext' (blankElem.go es)) := by
  cases es with
  | nil => exact sim_skip
  | cons e es =>
    refine .seq (sim_elem e fun k ks h => hk k ks ?_) (sim_go es fun k ks h => hk k ks ?_)
    · cases h with
      | here h => simp only [List.mem_singleton] at h; exact .here (by simp [h])
      | inside h h' => simp only [List.mem_singleton] at h; exact .inside (by rw [h]; simp) h'
    · cases h with
      | here h => exact .here (by simp [h])
      | inside h h' => exact .inside (List.mem_cons_of_mem _ h) h'
theorem sim_panels (b t i : Nat) (es : List Elem) (hk : ∀ k ks, Occurs k ks es → KindOk env A H k) :
    Sim (htmlElem.panels env ext b t i es) (htmlElem.panels (blankEnv env) ext' b t i (blankElem.go es)) := by
  cases es with
  | nil => exact sim_skip
  | cons e es =>
    have h1 := sim_elem e fun k ks h => hk k ks (by
      cases h with
      | here h => simp only [List.mem_singleton] at h; exact .here (by simp [h])
      | inside h h' => simp only [List.mem_singleton] at h; exact .inside (by rw [h]; simp) h')
    have h2 := fun i => sim_panels b t i es fun k ks h => hk k ks (by
      cases h with
      | here h => exact .here (by simp [h])
      | inside h h' => exact .inside (List.mem_cons_of_mem _ h) h')
    obtain ⟨k, ks⟩ := e
    simp only [blankElem.go]
    by_cases hk : ∃ l, k = .tab l
    · obtain ⟨l, rfl⟩ := hk
      unfold htmlElem.panels
      exact .seq (.tag [c!"class", c!"id", c!"role", c!"aria-labelledby", c!"tabindex", c!"hidden"] rfl (by decide +kernel) h1) (h2 _)
    · have g1 : ∀ l, k ≠ .tab l := fun l e => hk ⟨l, e⟩
      have g2 : ∀ l, blankKind k ≠ .tab l := fun l e => g1 l ((blank_tab k l).1 e)
      have e1 : ∀ (env : HEnv) (ext : List Elem → Act) (k : Kind) (ks es : List Elem), (∀ l, k ≠ .tab l) →
          htmlElem.panels env ext b t i (.mk k ks :: es) = htmlElem.panels env ext b t i es := by
        intro env ext k ks es h
        cases k
        case tab l => exact (h l rfl).elim
        all_goals rfl
      unfold blankElem
      rw [e1 _ _ _ _ _ g2, e1 _ _ _ _ _ g1]
      exact h2 _
end
end

theorem sim_level {A : Source} {H : Prop} (hw : WorldOk env.w)
    (hk : ∀ es k ks, EnvForest env es → Occurs k ks es → KindOk env A H k) (n : Nat) (es : List Elem)
    (hes : ∀ k ks, Occurs k ks es → KindOk env A H k) :
    Sim (renderLevel env n es) (renderLevel (blankEnv env) n (blankElem.go es)) := by
  induction n generalizing es with
  | zero => exact fun _ => .hang
  | succ n ih => exact sim_go hw (fun es' he => ih es' fun k ks h => hk es' k ks he h) es hes

end
end Ftml
