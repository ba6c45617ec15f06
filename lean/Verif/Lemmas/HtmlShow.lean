import Verif.Lemmas.HtmlSim
import Verif.Lemmas.HtmlRun
/- Texts of the tree that are found in the output. -/
namespace Ftml
open HtmlSpec

theorem chars_append (a b : List Ev) : chars (a ++ b) = chars a ++ chars b := by
  induction a with
  | nil => rfl
  | cons e a ih => cases e <;> simp [HtmlSpec.chars, ih]
theorem chars_map (s : Str) : chars (s.map .char) = s := by
  induction s with
  | nil => rfl
  | cons c s ih => simp [HtmlSpec.chars, ih]

/-- The text is part of what the action writes. -/
def Shows (x : Str) (a : Act) : Prop :=
  ∀ st s st', a st = .ok s st' → ∃ evs, Frag s evs ∧ x <:+: chars evs

/-- The action writes readable HTML. -/
def Reads (a : Act) : Prop := ∀ st s st', a st = .ok s st' → ∃ evs, Frag s evs

theorem Wr.reads {env : HEnv} {A : Source} {H : Prop} {a : Act} (h : Wr env A H a) : Reads a := fun st s st' e =>
  let ⟨evs, f, _⟩ := h st s st' e
  ⟨evs, f⟩

theorem reads_modify (f : HSt → HSt) : Reads (modifySt f) := by
  intro st s st' e
  cases e
  exact ⟨[], .nil⟩

/-- Anything. -/
abbrev anySource : Source := ⟨fun _ _ => True, fun _ => True, fun _ => True, fun _ _ => True, fun _ => True, fun _ => True⟩

section
variable {x : Str} {a b : Act}

theorem Shows.left (h : Shows x a) (hb : Reads b) : Shows x (a ;; b) := by
  intro st s st' e
  obtain ⟨s1, st1, s2, e1, e2, rfl⟩ := andThen_ok e
  obtain ⟨evs, f, i⟩ := h _ _ _ e1
  obtain ⟨evs', f'⟩ := hb _ _ _ e2
  refine ⟨_, f.append f', ?_⟩
  rw [chars_append]
  exact i.trans (List.prefix_append _ _).isInfix

theorem Shows.right (h : Shows x b) (ha : Reads a) : Shows x (a ;; b) := by
  intro st s st' e
  obtain ⟨s1, st1, s2, e1, e2, rfl⟩ := andThen_ok e
  obtain ⟨evs, f⟩ := ha _ _ _ e1
  obtain ⟨evs', f', i⟩ := h _ _ _ e2
  refine ⟨_, f.append f', ?_⟩
  rw [chars_append]
  exact i.trans (List.suffix_append _ _).isInfix

theorem Shows.tagA (h : Shows x b) {t : Str} {entries : List AttrEntry} {map : AttrMap} (ks : List Str)
    (hk : entries.map (·.1) = ks) (hc : simCheck t ks = true) (hm : PlainAttrs map) :
    Shows x (tagA t entries map b) := by
  subst hk
  simp only [simCheck, Bool.and_eq_true, decide_eq_true_eq, List.all_eq_true] at hc
  obtain ⟨⟨⟨hr, hn⟩, hv⟩, ho⟩ := hc
  have hp : ∀ p ∈ attrList entries map, PlainName p.1 := by
    rintro ⟨k, v⟩ hp
    rcases mem_attrList hp with ⟨v0, h1, _⟩ | h1
    · exact outputAttrs_plain _ (ho k ((liveEntries_sub entries).subset (List.mem_map.2 ⟨_, h1, rfl⟩)))
    · exact hm.1 _ h1
  have hs : soloTags.contains t = false := by rw [soloTags_eq]; simpa using hv
  unfold Ftml.tagA
  rw [hs]
  refine .right (.left h ?_) ?_
  · intro st s st' e
    cases e
    exact ⟨_, frag_stop hn⟩
  · intro st s st' e
    cases e
    exact ⟨_, frag_start hn hr hp⟩

theorem Shows.tag (h : Shows x b) {t : Str} {entries : List AttrEntry} (ks : List Str)
    (hk : entries.map (·.1) = ks) (hc : simCheck t ks = true) : Shows x (tag t entries b) :=
  h.tagA ks hk hc plainAttrs_nil

theorem Reads.tag {a : Act} (h : Reads a) {t : Str} {entries : List AttrEntry} (ks : List Str)
    (hk : entries.map (·.1) = ks) (hc : simCheck t ks = true) : Reads (Ftml.tag t entries a) := fun st s st' e =>
  let ⟨evs, f, _⟩ := Shows.tag (x := []) (b := a) (fun st s st' e => let ⟨evs, f⟩ := h st s st' e; ⟨evs, f, List.nil_infix⟩)
    ks hk hc st s st' e
  ⟨evs, f⟩

theorem shows_read {f : HSt → Act} (h : ∀ st, Shows x (f st)) : Shows x (fun st => f st st) := fun st => h st st
theorem shows_die (p : HPanic) : Shows x (die p) := fun st s st' h => by cases h
theorem shows_esc (x : Str) : Shows (noNul x) (emitEsc x) := by
  intro st s st' e
  cases e
  exact ⟨_, frag_escape x, by rw [chars_map]; exact List.infix_rfl⟩

theorem Reads.seq (ha : Reads a) (hb : Reads b) : Reads (a ;; b) := by
  intro st s st' e
  obtain ⟨s1, st1, s2, e1, e2, rfl⟩ := andThen_ok e
  obtain ⟨evs, f⟩ := ha _ _ _ e1
  obtain ⟨evs', f'⟩ := hb _ _ _ e2
  exact ⟨_, f.append f'⟩

theorem reads_forEach {α : Type} {f : Nat → α → Act} {l : List α} (h : ∀ i, ∀ y ∈ l, Reads (f i y)) (i : Nat) :
    Reads (forEach f i l) := by
  induction l generalizing i with
  | nil => intro st s st' e; cases e; exact ⟨[], .nil⟩
  | cons y l ih => exact (h i y (by simp)).seq (ih (fun j z hz => h j z (by simp [hz])) _)

theorem shows_forEach {α : Type} {f : Nat → α → Act} {l : List α} {y : α} (hy : y ∈ l) (h : ∀ i, Shows x (f i y))
    (hr : ∀ i, ∀ z ∈ l, Reads (f i z)) (i : Nat) : Shows x (forEach f i l) := by
  induction l generalizing i with
  | nil => cases hy
  | cons z l ih =>
    rcases List.mem_cons.1 hy with rfl | hy
    · exact (h i).left (reads_forEach (fun j w hw => hr j w (by simp [hw])) _)
    · exact (ih hy (fun j w hw => hr j w (by simp [hw])) _).right (hr i z (by simp))

end

section
variable {env : HEnv} {ext : List Elem → Act} {A : Source} {H : Prop} {x : Str}

theorem shows_container (c : CType) {attrs : AttrMap} {b : Act} (hm : PlainAttrs attrs) (h : Shows x b) :
    Shows x (renderContainer env c attrs b) := by
  cases c with
  | header hd =>
    have hc : ∀ t ∈ headTags, simCheck t [] = true ∧ simCheck t [c!"id"] = true := by decide +kernel
    obtain ⟨h0, h1⟩ := hc _ (headingTag_mem hd.level)
    unfold renderContainer
    dsimp only
    split
    · exact shows_read (f := fun st => _ ;; _) fun st => (h.tagA [c!"id"] rfl h1 hm).right (reads_modify _)
    · exact h.tagA [] rfl h0 hm
  | rubyText =>
    unfold renderContainer
    refine .right (.left (h.tagA [] rfl (by decide +kernel) hm) ?_) ?_
    · exact (tag_simple (env := env) (A := anySource) (H := False) [] rfl (by decide +kernel) (.esc _)).reads
    · exact (tag_simple (env := env) (A := anySource) (H := False) [] rfl (by decide +kernel) (.esc _)).reads
  | monospace | hidden | invisible | align a => exact h.tagA [c!"class"] rfl (by decide +kernel) hm
  | bold | italics | underline | superscript | subscript | strikethrough | span | div | mark | blockquote
    | insertion | deletion | size | ruby | paragraph => exact h.tagA [] rfl (by decide +kernel) hm

/-- The text of a node. -/
theorem shows_leaf {k : Kind} {s : Str} (hs : shownText k = some s) : Shows (noNul s) (renderLeaf env ext k) := by
  cases k
  case text => cases hs; exact shows_esc _
  case raw => cases hs; exact (shows_esc _).tag [c!"class"] rfl (by decide +kernel)
  case email => cases hs; exact (shows_esc _).tag [c!"class"] rfl (by decide +kernel)
  case code c l =>
    cases hs
    show Shows _ (renderCode s l)
    unfold renderCode
    refine .right (.tag (.right (.tag (.tag (shows_esc s) [] rfl ?_) [] rfl ?_) ?_) [c!"class"] rfl ?_) (reads_modify _)
    · decide +kernel
    · decide +kernel
    case refine_4 => decide +kernel
    refine Wr.reads (env := env) (A := anySource) (H := False) (tag_simple [c!"class"] rfl (by decide +kernel) (.andThen ?_ ?_))
    · exact tag_simple [c!"type", c!"class", c!"title"] rfl (by decide +kernel) (.andThen (sprite_wr _) (sprite_wr _))
    · exact tag_simple [c!"class"] rfl (by decide +kernel) (.esc _)
  case link lt loc ex label tg =>
    have hl : getLinkLabel env.info.site loc label = some s := by
      cases label with
      | text => exact hs
      | url u => cases u with
        | none => cases hs
        | some => exact hs
      | page => cases hs
    show Shows _ (renderLink env loc ex label tg lt)
    unfold renderLink
    dsimp only
    rw [hl]
    exact ((shows_esc s).tag [c!"href", c!"target", c!"class", c!"data-link-type"] rfl (by decide +kernel)).right (reads_modify _)
  all_goals cases hs

section
variable (hw : WorldOk env.w) (he : ∀ es, EnvForest env es → Wr env A H (ext es))
include hw he

theorem shows_go {e : Elem} {es : List Elem} (hm : e ∈ es) (hk : ∀ k ks, Occurs k ks es → KindOk env A H k)
    (h : Shows x (htmlElem env ext e)) : Shows x (htmlElem.go env ext es) := by
  induction es with
  | nil => cases hm
  | cons y es ih =>
    rcases List.mem_cons.1 hm with rfl | hm
    · exact h.left (htmlGo_wr hw he es fun k ks h => hk k ks (occurs_tail h)).reads
    · exact (ih hm fun k ks h => hk k ks (occurs_tail h)).right (htmlElem_wr hw he y fun k ks h => hk k ks (occurs_head h)).reads

theorem shows_panels {l : Str} {xs es : List Elem} (hm : Elem.mk (.tab l) xs ∈ es)
    (hk : ∀ k ks, Occurs k ks es → KindOk env A H k) (h : Shows x (htmlElem env ext (.mk (.tab l) xs))) (b t i : Nat) :
    Shows x (htmlElem.panels env ext b t i es) := by
  induction es generalizing i with
  | nil => cases hm
  | cons y es ih =>
    have hk' : ∀ k ks, Occurs k ks es → KindOk env A H k := fun k ks h => hk k ks (occurs_tail h)
    unfold htmlElem.panels
    rcases List.mem_cons.1 hm with rfl | hm
    · exact (h.tag [c!"class", c!"id", c!"role", c!"aria-labelledby", c!"tabindex", c!"hidden"] rfl (by decide +kernel)).left
        (htmlPanels_wr hw he _ _ _ es hk').reads
    · split
      · exact (ih hm hk' _).right (tabPanel_wr hw _ _ _ (htmlElem_wr hw he y fun k ks h => hk k ks (occurs_head h))).reads
      · exact ih hm hk' _

theorem shows_inside {k : Kind} {e : Elem} {ks : List Elem} (hl : k.isLeaf = false) (hm : e ∈ ks)
    (ht : k = .tabView → ∃ l xs, e = .mk (.tab l) xs) (h0 : KindOk env A H k)
    (hk : ∀ k ks', Occurs k ks' ks → KindOk env A H k) (h : Shows x (htmlElem env ext e)) :
    Shows x (htmlElem env ext (.mk k ks)) := by
  have hg := shows_go hw he hm hk h
  have hp := h0.map.plain
  unfold htmlElem
  cases k
  case container c a => exact shows_container c hp hg
  case table => exact (hg.tag [] rfl (by decide +kernel)).tagA [] rfl (by decide +kernel) hp
  case row => exact hg.tagA [] rfl (by decide +kernel) hp
  case cell hd n al a =>
    cases hd
    · exact hg.tagA [c!"colspan", c!"class"] rfl (by decide +kernel) hp
    · exact hg.tagA [c!"colspan", c!"class"] rfl (by decide +kernel) hp
  case tabView =>
    obtain ⟨l, xs, rfl⟩ := ht rfl
    refine shows_read (f := fun st => _ ;; _) fun st => .right (.tag (.right ?_ ?_) [c!"class"] rfl (by decide +kernel)) (reads_modify _)
    · exact (shows_panels hw he hm hk h _ _ _).tag [c!"class"] rfl (by decide +kernel)
    · exact (tag_simple (env := env) (A := A) (H := H) [c!"class", c!"role"] rfl (by decide +kernel) (tabButtons_wr hw _ _ _ _)).reads
  case tab => exact hg
  case anchor => exact hg.tagA [c!"class", c!"target"] rfl (by decide +kernel) hp
  case list t a => cases t <;> exact hg.tagA [] rfl (by decide +kernel) hp
  case item => exact hg.tagA [] rfl (by decide +kernel) hp
  case subList => exact hg
  case definitionList => exact hg.tag [] rfl (by decide +kernel)
  case defItem => exact hg
  case defKey => exact hg.tag [] rfl (by decide +kernel)
  case defValue => exact hg.tag [] rfl (by decide +kernel)
  case collapsible a o s hd t b =>
    refine .tagA (.right (.left (hg.tag [c!"class"] rfl (by decide +kernel)) ?_) ?_)
      [c!"class", c!"open", c!"data-show-top", c!"data-show-bottom"] rfl (by decide +kernel) hp
    · refine Wr.reads (env := env) (A := A) (H := H) ?_
      split
      · exact tag_simple [c!"class"] rfl (by decide +kernel) (tag_simple [c!"class"] rfl (by decide +kernel) (.esc _))
      · exact .skip
    · refine Wr.reads (env := env) (A := A) (H := H) (tag_simple [c!"class"] rfl (by decide +kernel) (.andThen ?_ ?_))
      · exact tag_simple [c!"class"] rfl (by decide +kernel) (.esc _)
      · exact tag_simple [c!"class"] rfl (by decide +kernel) (.esc _)
  case color => exact hg.tag [c!"style"] rfl (by decide +kernel)
  case «include» =>
    refine .right (.left hg ?_) (reads_modify _)
    intro st s st' e
    dsimp only at e
    split at e
    · cases e; exact ⟨[], .nil⟩
    · cases e
  case part => exact shows_die _
  case rubyText => exact shows_die _
  all_goals exact Bool.noConfusion hl

theorem shows_placed {k : Kind} {ks es : List Elem} (hp : Placed k ks es) (hl : k.isLeaf = true)
    (hk : ∀ k ks, Occurs k ks es → KindOk env A H k) (h : Shows x (renderLeaf env ext k)) :
    Shows x (htmlElem.go env ext es) := by
  induction hp with
  | here hm =>
    refine shows_go hw he hm hk ?_
    unfold htmlElem
    cases k <;> first | exact h | exact Bool.noConfusion hl
  | @inside es k' ks' e hm hl' hm' ht _ ih =>
    have hsub : ∀ k ks'', Occurs k ks'' ks' → KindOk env A H k := fun k ks h => hk k ks (.inside hm h)
    refine shows_go hw he hm hk (shows_inside hw he hl' hm' ht (hk k' ks' (.here hm)) hsub ?_)
    intro st s st' e'
    have := ih (fun k ks h => hsub k ks (by
      cases h with
      | here h => rw [List.mem_singleton] at h; exact .here (h ▸ hm')
      | inside h h' => rw [List.mem_singleton] at h; exact .inside (h ▸ hm') h')) st (s ++ []) st' (by
        simp only [htmlElem.go, Act.andThen, e', skip, emit])
    simpa using this
end


/-- What the special nodes render within them. -/
theorem shows_within {w : HWorld} {info : PageInfo} {settings : Settings} {t : Tree} (hw : WorldOk w)
    (he : ∀ es, EnvForest (.of w info settings t) es → Wr (.of w info settings t) A H (ext es)) {es es' : List Elem}
    (hr : RendersIn t es es') (hk : ∀ k ks, Occurs k ks es → KindOk (.of w info settings t) A H k) (h : Shows x (ext es')) :
    Shows x (htmlElem.go (.of w info settings t) ext es) := by
  have hbib : ∀ b ∈ t.bibliographies, ∀ p ∈ b.entries, Reads (ext p.2) := fun b hb p hp => (he _ (.bibliography hb hp)).reads
  cases hr with
  | @cite label br ks _ hp hc =>
    refine shows_placed hw he hp rfl hk ?_
    obtain ⟨i, hi⟩ := Cited.reference hc
    show Shows x (renderBibCite (.of w info settings t) ext label br)
    unfold renderBibCite
    have : bibReference (HEnv.of w info settings t).bibliographies label = some (i, es') := hi
    rw [this]
    dsimp only
    have rd : ∀ c : Char, escapeHtmlChar c = none → Reads (if br then emit [c] else Ftml.skip) := by
      intro c hc
      refine Wr.reads (env := .of w info settings t) (A := A) (H := H) ?_
      split
      · exact .emit fun d hd => by rw [List.mem_singleton.1 hd]; exact hc
      · exact .skip
    refine .tag (.right (.right (.right (.tag (.right ?_ ?_) [c!"class", c!"aria-hidden"] rfl ?_) ?_) ?_) ?_) [c!"class"] rfl ?_
    · exact h.tag [c!"class"] rfl (by decide +kernel)
    · exact (tag_simple (env := .of w info settings t) (A := A) (H := H) [c!"class"] rfl (by decide +kernel) (.esc _)).reads
    · decide +kernel
    · exact rd ']' (by decide)
    · exact (tag_simple (env := .of w info settings t) (A := A) (H := H) [c!"class", c!"role", c!"aria-label", c!"data-id"] rfl (by decide +kernel) (.esc _)).reads
    · exact rd '[' (by decide)
    · decide +kernel
  | @bibliography i title ks b p hp hb hm =>
    refine shows_placed hw he hp rfl hk ?_
    show Shows x (renderBibliography (.of w info settings t) ext i title false)
    unfold renderBibliography
    have e : (HEnv.of w info settings t).bibliographies[i]? = some b := hb
    have hbm : b ∈ t.bibliographies := List.mem_of_getElem? hb
    simp only [Bool.false_eq_true, if_false, e]
    have mark : ∀ i, Reads (tag c!"wj-bibliography-item-marker" [kv c!"class" c!"wj-bibliography-item-marker",
                kv c!"type" c!"button", kv c!"role" c!"link"]
              (emit (natToStr (i + 1)) ;; tag c!"span" [kv c!"class" c!"wj-bibliography-sep"] (emitEsc c!"."))) := by
      intro i
      refine Wr.reads (env := .of w info settings t) (A := A) (H := H) ?_
      refine tag_simple [c!"class", c!"type", c!"role"] rfl (by decide +kernel) (.andThen (.emit (natDigit_plain _)) ?_)
      exact tag_simple [c!"class"] rfl (by decide +kernel) (.esc _)
    refine .tag (.right (shows_forEach hm (fun i => ?_) (fun i z hz => ?_) 0) ?_) [c!"class"] rfl (by decide +kernel)
    · exact .tag (.right h (mark i)) [c!"class", c!"id"] rfl (by decide +kernel)
    · exact .tag ((mark i).seq (hbib _ hbm _ hz)) [c!"class", c!"id"] rfl (by decide +kernel)
    · exact (tag_simple (env := .of w info settings t) (A := A) (H := H) [c!"class"] rfl (by decide +kernel) (.esc _)).reads
  | @footnoteBlock title ks f hp hf =>
    refine shows_placed hw he hp rfl hk ?_
    show Shows x (renderFootnoteBlock (.of w info settings t) ext title false)
    unfold renderFootnoteBlock
    have hf' : es' ∈ (HEnv.of w info settings t).footnotes := hf
    have e : (HEnv.of w info settings t).footnotes.isEmpty = false := by
      cases hx : (HEnv.of w info settings t).footnotes with
      | nil => rw [hx] at hf'; cases hf'
      | cons => rfl
    simp only [e, Bool.or_false, Bool.false_eq_true, if_false]
    refine .tag (.right (.tag (shows_forEach hf' (fun i => ?_) (fun i z hz => ?_) 0) [] rfl (by decide +kernel)) ?_) [c!"class"] rfl (by decide +kernel)
    · refine .tag (.right (h.tag [c!"class"] rfl (by decide +kernel)) ?_) [c!"class", c!"data-id"] rfl (by decide +kernel)
      refine Wr.reads (env := .of w info settings t) (A := A) (H := H) ?_
      refine tag_simple [c!"class", c!"type", c!"role"] rfl (by decide +kernel) (.andThen (.emit (natDigit_plain _)) ?_)
      exact tag_simple [c!"class"] rfl (by decide +kernel) (.esc _)
    · refine Wr.reads (env := .of w info settings t) (A := A) (H := H) ?_
      refine tag_simple [c!"class", c!"data-id"] rfl (by decide +kernel) (.andThen ?_ ?_)
      · refine tag_simple [c!"class", c!"type", c!"role"] rfl (by decide +kernel) (.andThen (.emit (natDigit_plain _)) ?_)
        exact tag_simple [c!"class"] rfl (by decide +kernel) (.esc _)
      · exact tag_simple [c!"class"] rfl (by decide +kernel) (he _ (.footnote hz))
    · exact (tag_simple (env := .of w info settings t) (A := A) (H := H) [c!"class"] rfl (by decide +kernel) (.esc _)).reads
  | @toc attrs align ks hp =>
    refine shows_placed hw he hp rfl hk ?_
    have hm := (hk _ _ (placed_occurs hp)).map.plain
    refine .tagA (.right (.right (h.tag [c!"id"] rfl (by decide +kernel)) ?_) ?_) [c!"id", c!"class"] rfl (by decide +kernel) hm
    · exact (tag_simple (env := .of w info settings t) (A := A) (H := H) [c!"class"] rfl (by decide +kernel) (.esc _)).reads
    · exact .tag (foldToc_wr (env := .of w info settings t) (A := A) (H := H)).reads [c!"id"] rfl (by decide +kernel)

end
end Ftml
