import Verif.Props.Html
import Verif.Props.Text
import Verif.Lemmas.HtmlRun
/-
Properties of the HTML renderer: when it returns (C47, C69), when it panics, how many footnote references
it writes (C46).
-/
namespace Ftml
open HtmlSpec

section
variable {n : Nat} {w : HWorld} {info : PageInfo} {settings : Settings} {t : Tree} {o : HtmlOutput}

mutual
private theorem count_zero_elem (e : Elem) (h : ∀ ks, ¬ Occurs .footnote ks [e]) : Elem.count .footnotes e = 0 := by
  cases e with
  | mk k ks =>
    have hk : Meas.footnotes.ofKind k = 0 := by
      cases k <;> first | rfl | exact (h ks (.here (by simp))).elim
    rw [Elem.count, hk, count_zero ks fun ks' ho => h ks' (.inside (List.mem_singleton.2 rfl) ho)]
private theorem count_zero (es : List Elem) (h : ∀ ks, ¬ Occurs .footnote ks es) : Elem.count.go .footnotes es = 0 := by
  cases es with
  | nil => rfl
  | cons e es =>
    rw [Elem.count.go, count_zero_elem e fun ks ho => h ks (occurs_head ho), count_zero es fun ks ho => h ks (occurs_tail ho)]
end

private theorem soundTree_fine (h : SoundTree w settings t) (info : PageInfo) : FineTree w info settings t where
  node es k ks hf ho := by
    have hn := h.node es k ks hf ho
    refine ⟨?_, ?_, ?_, ?_, ?_, h.leaf es k ks hf ho, ?_⟩
    · rintro p rfl; exact hn .part
    · rintro p rfl; exact hn .rubyText
    · rintro lt loc x label tg rfl e
      unfold getLinkLabel at e
      split at e <;> try (cases e; done)
      · split at e <;> cases e
      · split at e
        · exact hn .label
        · cases e
    · rintro s rfl e; exact hn (.style e)
    · rintro i title rfl
      have : (HEnv.of w info settings t).bibliographies = t.bibliographies := rfl
      rw [this]
      exact Nat.lt_of_not_le fun hi => hn (.bibliography hi)
    · rintro rfl e he
      obtain ⟨label, hl⟩ := h.tabs es ks hf ho e he
      exact ⟨label, e.kids, by cases e; simp only [Elem.kind] at hl; rw [hl]; rfl⟩
  toc := count_zero _ h.toc
  footnotes f hf := count_zero _ (h.footnotes f hf)
  bibliographies b hb key es he := count_zero _ (h.bibliographies b hb key es he)

/-! ### C46 -/

/-- C46: if only the body has footnote references, the rendered page has exactly the references of the body,
numbered 1, 2, 3, …. -/
theorem C46_reference_count (hw : WorldOk w) (hp : PlainTree t) (hs : SoundTree w settings t)
    (h : htmlRender n w info settings t = .ok o) {evs : List Ev} (hr : readHtml o.body = some evs) :
    footnoteRefs evs = (List.range' 1 (countIn .footnotes t.elements)).map natToStr := by
  obtain ⟨evs', st, h1, h2, h3⟩ := render_reads hw hp h
  rw [hr] at h1
  cases h1
  have hc := ((renderLevel_ct (soundTree_fine hs info) n t.elements .body).tag c!"wj-body" [kv c!"class" c!"wj-body"]) HSt.init (by decide)
  rw [h3] at hc
  have e1 : HSt.init.footnote = 1 := rfl
  rw [h2.foot, hc.2.1, e1, upTo, Nat.add_sub_cancel_left]

/-- C46: when only the body has references, rendering that comes to an end gives a page if and only if there
are at least as many footnotes as references; otherwise it panics for want of a footnote. -/
theorem C46_outcome (hs : SoundTree w settings t) (hn : htmlRender n w info settings t ≠ .hang) :
    ((∃ o, htmlRender n w info settings t = .ok o) ↔ countIn .footnotes t.elements ≤ t.footnotes.length) ∧
    (htmlRender n w info settings t = .panic .footnoteIndex ↔ t.footnotes.length < countIn .footnotes t.elements) := by
  rcases htmlRender_fine (soundTree_fine hs info) n with h | ⟨o, h, hc⟩ | ⟨h, hc⟩
  · exact (hn h).elim
  · rw [h]
    exact ⟨⟨fun _ => hc, fun _ => ⟨o, rfl⟩⟩, ⟨fun h => (nomatch h), fun h => by omega⟩⟩
  · rw [h]
    exact ⟨⟨fun ⟨o, h⟩ => (nomatch h), fun h => by omega⟩, ⟨fun _ => hc, fun _ => rfl⟩⟩

/-! ### C47: rendering that never ends -/

/-- C47: if rendering the body renders some forest, and rendering that forest renders it again, there is
never a page, however deep the recursion. -/
theorem C47_cycle_never_renders {es es' : List Elem} (h1 : Reaches t t.elements es) (h2 : RendersIn t es es')
    (h3 : Reaches t es' es) : htmlRender n w info settings t ≠ .ok o := by
  refine htmlRender_never (fun x => Reaches t x es) (fun x hx => .inl ?_) h1 n o
  cases hx with
  | refl => exact ⟨es', h3, h2⟩
  | step ha hb => exact ⟨_, hb, ha⟩

/-- C47: so citing a bibliography entry whose contents cite the same label never renders. -/
theorem C47_self_citation {label : Str} {br br' : Bool} {ks ks' entry : List Elem}
    (h1 : Placed (.bibCite label br) ks t.elements) (h2 : Cited t.bibliographies label entry)
    (h3 : Placed (.bibCite label br') ks' entry) : htmlRender n w info settings t ≠ .ok o :=
  C47_cycle_never_renders (.step (.cite h1 h2) .refl) (.cite h3 h2) .refl

/-- C47: nor does a page whose footnotes contain the list of footnotes. -/
theorem C47_footnote_block_in_footnotes {ks : List Elem} (h1 : Placed .footnote ks t.elements)
    (h2 : ∀ f ∈ t.footnotes, ∃ title ks', Placed (.footnoteBlock title false) ks' f) :
    htmlRender n w info settings t ≠ .ok o := by
  refine htmlRender_never (fun x => x = t.elements ∨ x ∈ t.footnotes) (fun x hx => ?_) (.inl rfl) n o
  rcases hx with rfl | hx
  · exact .inr ⟨⟨ks, h1⟩, fun f hf => .inr hf⟩
  · obtain ⟨title, ks', hp⟩ := h2 x hx
    exact .inl ⟨x, .inr hx, .footnoteBlock hp hx⟩

/-- C47: no depth of recursion is enough. -/
theorem C47_hangs (hs : SoundTree w settings t) (hc : countIn .footnotes t.elements ≤ t.footnotes.length)
    (hn : ∀ o, htmlRender n w info settings t ≠ .ok o) : htmlRender n w info settings t = .hang := by
  rcases htmlRender_fine (soundTree_fine hs info) n with h | ⟨o, h, _⟩ | ⟨_, hc'⟩
  · exact h
  · exact (hn o h).elim
  · omega

/-! ### C69: rendering that ends -/

/-- C69: allowing more recursion does not change what rendering returns. -/
theorem C69_depth_irrelevant {m : Nat} (hnm : n ≤ m) (hn : htmlRender n w info settings t ≠ .hang) :
    htmlRender m w info settings t = htmlRender n w info settings t := htmlRender_mono hnm w info settings t hn

/-- C69: rendering ends if the forests rendered within each other nest to a bounded depth. -/
theorem C69_returns (h : Shallow t n t.elements) : htmlRender (n + 1) w info settings t ≠ .hang := by
  have := returns_cl.tag c!"wj-body" [kv c!"class" c!"wj-body"] (renderLevel_returns (w := w) (info := info) (settings := settings) h) HSt.init
  unfold htmlRender
  split
  · next e => exact (this e).elim
  · simp
  · simp

/-! ### Parsed pages -/

private theorem occurs_parent {k : Kind} {ks es : List Elem} (h : Occurs k ks es) :
    Elem.mk k ks ∈ es ∨ ∃ k' ks', Occurs k' ks' es ∧ Elem.mk k ks ∈ ks' := by
  induction h with
  | here h => exact .inl h
  | inside hm _ ih =>
    rcases ih with ih | ⟨k', ks', ih, hm'⟩
    · exact .inr ⟨_, _, .here hm, ih⟩
    · exact .inr ⟨k', ks', .inside hm ih, hm'⟩

private theorem kid_rubyText {k : Kind} {a : AttrMap} (h : allowedKid k (.rubyText a) = true) : k = .part .rubyText := by
  cases k
  case part p => cases p <;> first | rfl | exact Bool.noConfusion h
  all_goals exact Bool.noConfusion h

private theorem kid_tab {e : Elem} (h : allowedKid .tabView e.kind = true) : ∃ label, e.kind = .tab label := by
  cases hk : e.kind
  case tab l => exact ⟨l, rfl⟩
  all_goals rw [hk] at h; exact Bool.noConfusion h

/-- The nodes of a table of contents. -/
private def tocKind : Kind → Bool
  | .list .. | .item _ | .subList | .link .. => true
  | _ => false

mutual
private theorem toc_elem (d : Nat) (e : Elem) {r : List (Nat × Str × Str)} (h : readToc d e = some r) :
    ∀ k ks, Occurs k ks [e] → tocKind k = true := by
  intro k ks ho
  unfold readToc at h
  split at h
  · next ks' =>
    have := toc_go d ks' h
    cases ho with
    | here h => simp only [List.mem_singleton, Elem.mk.injEq] at h; rw [h.1]; rfl
    | inside h h' => simp only [List.mem_singleton, Elem.mk.injEq] at h; exact this _ _ (h.2 ▸ h')
  · cases ho with
    | here h => simp only [List.mem_singleton, Elem.mk.injEq] at h; rw [h.1]; rfl
    | inside h h' =>
      simp only [List.mem_singleton, Elem.mk.injEq] at h
      rw [h.2] at h'
      cases h' with
      | here h => simp only [List.mem_singleton, Elem.mk.injEq] at h; rw [h.1]; rfl
      | inside h h' =>
        simp only [List.mem_singleton, Elem.mk.injEq] at h
        rw [h.2] at h'
        cases h' with
        | here h => cases h
        | inside h => cases h
  · next ks' =>
    have := toc_go (d + 1) ks' h
    cases ho with
    | here h => simp only [List.mem_singleton, Elem.mk.injEq] at h; rw [h.1]; rfl
    | inside h h' =>
      simp only [List.mem_singleton, Elem.mk.injEq] at h
      rw [h.2] at h'
      cases h' with
      | here h => simp only [List.mem_singleton, Elem.mk.injEq] at h; rw [h.1]; rfl
      | inside h h' => simp only [List.mem_singleton, Elem.mk.injEq] at h; exact this _ _ (h.2 ▸ h')
  · cases h
private theorem toc_go (d : Nat) (es : List Elem) {r : List (Nat × Str × Str)} (h : readToc.go d es = some r) :
    ∀ k ks, Occurs k ks es → tocKind k = true := by
  cases es with
  | nil =>
    intro k ks ho
    cases ho with
    | here h => cases h
    | inside h => cases h
  | cons e es =>
    unfold readToc.go at h
    intro k ks ho
    split at h
    · next ha hb =>
      have h1 := toc_elem d e ha
      have h2 := toc_go d es hb
      cases ho with
      | here h =>
        rcases List.mem_cons.1 h with h | h
        · exact h1 k ks (.here (by simp [h]))
        · exact h2 k ks (.here h)
      | inside h h' =>
        rcases List.mem_cons.1 h with h | h
        · exact h1 k ks (.inside (by rw [h]; simp) h')
        · exact h2 k ks (.inside h h')
    · cases h
end

section
variable {text : Str} {w' : World} {info' : PageInfo} {settings' : Settings} {pr : Outcome}

private theorem toc_nodes (h : parse w' (tokenize text) info' settings' = some (.ok pr)) {k : Kind} {ks : List Elem}
    (ho : Occurs k ks pr.tree.toc) : tocKind k = true := by
  obtain ⟨hs, _, h2⟩ := C60_table_of_contents h
  exact toc_go 0 _ h2 k ks ho

/-- C69: a parsed tree is sound, up to left-over parts, blank labels, broken style sheets and footnotes in
bibliographies. -/
theorem C69_parsed_sound (h : parse w' (tokenize text) info' settings' = some (.ok pr))
    (h1 : ∀ es p ks, pr.tree.Forest es → ¬ Occurs (.part p) ks es)
    (h2 : ∀ es lt u x tg ks, pr.tree.Forest es → ¬ Occurs (.link lt (.url u) x .page tg) ks es)
    (h3 : ∀ es s ks, pr.tree.Forest es → Occurs (.style s) ks es → w.css settings.minifyCss s ≠ .panic)
    (h4 : ∀ b ∈ pr.tree.bibliographies, ∀ key es, (key, es) ∈ b.entries → ∀ ks, ¬ Occurs .footnote ks es) :
    SoundTree w settings pr.tree where
  node es k ks hf ho hp := by
    cases hp with
    | part => exact h1 es _ ks hf ho
    | rubyText =>
      rcases occurs_parent ho with hm | ⟨k', ks', ho', hm⟩
      · exact Bool.noConfusion (C61_top_level h hf _ hm)
      · have := (C61_structure h hf ho').1 _ hm
        have := kid_rubyText this
        subst this
        exact h1 es _ ks' hf ho'
    | label => exact h2 es _ _ _ _ ks hf ho
    | style e => exact h3 es _ ks hf ho e
    | bibliography hi =>
      have := C34_bibliography_index h hf ho
      omega
  leaf es k ks hf ho := (C61_structure h hf ho).2
  tabs es ks hf ho e he := kid_tab ((C61_structure h hf ho).1 e he)
  toc ks ho := Bool.noConfusion (toc_nodes h ho)
  footnotes f hf ks := C36_footnotes_do_not_nest h hf
  bibliographies := h4

/-- The entries of the bibliographies contain no citation, bibliography, footnote or list of footnotes. -/
def PlainEntries (t : Tree) : Prop := ∀ b ∈ t.bibliographies, ∀ key es, (key, es) ∈ b.entries → ∀ k ks, Occurs k ks es →
  (∀ label br, k ≠ .bibCite label br) ∧ (∀ i title hide, k ≠ .bibBlock i title hide) ∧ k ≠ .footnote ∧
    ∀ title hide, k ≠ .footnoteBlock title hide

private theorem shallow_mono {t : Tree} {n : Nat} {es : List Elem} (h : Shallow t n es) : Shallow t (n + 1) es := by
  induction n generalizing es with
  | zero => exact fun es' h' => (h es' h').elim
  | succ n ih => exact fun es' h' => ih (h es' h')

private theorem shallow_parsed (h : parse w' (tokenize text) info' settings' = some (.ok pr))
    (h1 : ¬ OpensBlock text c!"footnoteblock") (h2 : PlainEntries pr.tree) : Shallow pr.tree 3 pr.tree.elements := by
  have htoc : Shallow pr.tree 0 pr.tree.toc := by
    intro es' hr
    cases hr with
    | sure hr =>
      cases hr with
      | cite hp | bibliography hp | footnoteBlock hp | toc hp => exact Bool.noConfusion (toc_nodes h (placed_occurs hp))
    | footnote hp => exact Bool.noConfusion (toc_nodes h (placed_occurs hp))
  have hent : ∀ b ∈ pr.tree.bibliographies, ∀ key es, (key, es) ∈ b.entries → Shallow pr.tree 1 es := by
    intro b hb key es he es' hr
    have hk := fun k ks => h2 b hb key es he k ks
    cases hr with
    | sure hr =>
      cases hr with
      | cite hp => exact ((hk _ _ (placed_occurs hp)).1 _ _ rfl).elim
      | bibliography hp => exact ((hk _ _ (placed_occurs hp)).2.1 _ _ _ rfl).elim
      | footnoteBlock hp => exact ((hk _ _ (placed_occurs hp)).2.2.2 _ _ rfl).elim
      | toc hp => exact htoc
    | footnote hp => exact ((hk _ _ (placed_occurs hp)).2.2.1 rfl).elim
  have hcited : ∀ label es, Cited pr.tree.bibliographies label es → Shallow pr.tree 1 es := by
    rintro label es ⟨pre, b, post, p, q, e1, e2, _, _⟩
    exact hent b (by rw [e1]; simp) label es (by rw [e2]; simp)
  have hfb : ∀ f ∈ pr.tree.footnotes, ∀ title hide ks, ¬ Occurs (.footnoteBlock title hide) ks f := by
    intro f hf title hide ks ho
    rcases C38_footnote_block_appended h h1 with ⟨he, _⟩ | ⟨es, _, _, hb⟩
    · rcases C62_origin_of_elements h (.footnote hf) ho (names := [c!"footnoteblock"]) rfl with ⟨n, hn, hb⟩ | ⟨_, _, h3⟩
      · simp only [List.mem_singleton] at hn
        exact h1 (hn ▸ hb)
      · rw [he] at h3
        cases h3
    · exact hb f hf _ _ _ ho
  have hfoot : ∀ f ∈ pr.tree.footnotes, Shallow pr.tree 2 f := by
    intro f hf es' hr
    cases hr with
    | sure hr =>
      cases hr with
      | cite hp hc => exact hcited _ _ hc
      | bibliography hp hb hm => exact hent _ (List.mem_of_getElem? hb) _ _ hm
      | footnoteBlock hp => exact (hfb f hf _ _ _ (placed_occurs hp)).elim
      | toc hp => exact shallow_mono htoc
    | footnote hp => exact (C36_footnotes_do_not_nest h hf (placed_occurs hp)).elim
  intro es' hr
  cases hr with
  | sure hr =>
    cases hr with
    | cite hp hc => exact shallow_mono (hcited _ _ hc)
    | bibliography hp hb hm => exact shallow_mono (hent _ (List.mem_of_getElem? hb) _ _ hm)
    | footnoteBlock hp hf => exact hfoot _ hf
    | toc hp => exact shallow_mono (shallow_mono htoc)
  | footnote hp hf => exact hfoot _ hf

/-- C69: a parsed page renders to HTML if its text opens no block for a part of a list, table, tab view or ruby annotation,
and no footnote block, has no triple link with a blank label, its bibliography entries are plain, and the CSS
parser does not fail on its style sheets. -/
theorem C69_parsed_page_renders (h : parse w' (tokenize text) info' settings' = some (.ok pr))
    (h1 : ¬ OpensOne text allPartBlocks) (h2 : ¬ HasBlankLabel text) (h3 : ¬ OpensBlock text c!"footnoteblock")
    (h4 : PlainEntries pr.tree)
    (h5 : ∀ es s ks, pr.tree.Forest es → Occurs (.style s) ks es → w.css settings.minifyCss s ≠ .panic) :
    ∃ o, htmlRender 4 w info settings pr.tree = .ok o := by
  have hs : SoundTree w settings pr.tree := by
    refine C69_parsed_sound h ?_ ?_ h5 ?_
    · intro es p ks hf ho
      rcases C62_origin_of_elements h hf ho (names := partBlocks p) rfl with ⟨n, hn, hb⟩ | ⟨_, h, _⟩
      · exact (h1 (opens_part ⟨n, hn, hb⟩)).elim
      · cases h
    · intro es lt u x tg ks hf ho
      exact h2 (C65_page_label h hf ho)
    · intro b hb key es he ks ho
      exact (h4 b hb key es he _ _ ho).2.2.1 rfl
  have hn := C69_returns (w := w) (info := info) (settings := settings) (shallow_parsed h h3 h4)
  exact (C46_outcome hs hn).1.2 (C64_footnote_references h)

end

end

/-! ### Pages parsed from given texts -/

mutual
private theorem beq_elem {a b : Elem} (h : Elem.beq a b = true) : a = b := by
  cases a with
  | mk k ks =>
    cases b with
    | mk k' ks' =>
      simp only [Elem.beq, Bool.and_eq_true, beq_iff_eq] at h
      rw [h.1, beq_go h.2]
private theorem beq_go {as bs : List Elem} (h : Elem.beq.go as bs = true) : as = bs := by
  cases as with
  | nil =>
    cases bs with
    | nil => rfl
    | cons b bs => simp [Elem.beq.go] at h
  | cons a as =>
    cases bs with
    | nil => simp [Elem.beq.go] at h
    | cons b bs =>
      simp only [Elem.beq.go, Bool.and_eq_true] at h
      rw [beq_elem h.1, beq_go h.2]
end

/-- The text parses (as a page) to a tree of these elements, footnotes and bibliographies, without table of
contents. -/
def ParsesTo (text : Str) (es : List Elem) (foot : List (List Elem)) (bibs : List (List (Str × List Elem))) : Prop :=
  ∃ o, parsePage text = some (.ok o) ∧ o.tree.elements = es ∧ o.tree.toc = [] ∧ o.tree.footnotes = foot ∧
    o.tree.bibliographies = bibs.map Bibl.mk

/-- The same, computed. -/
private def parsesToB (text : Str) (es : List Elem) (foot : List (List Elem)) (bibs : List (List (Str × List Elem))) : Bool :=
  match parsePage text with
  | some (.ok o) => Elem.beq.go o.tree.elements es && o.tree.toc.isEmpty &&
      listEq Elem.beq.go o.tree.footnotes foot &&
      listEq (fun b l => listEq (fun p q => p.1 == q.1 && Elem.beq.go p.2 q.2) b.entries l) o.tree.bibliographies bibs
  | _ => false
where
  /-- two lists agree -/
  listEq {α β : Type} (f : α → β → Bool) : List α → List β → Bool
    | [], [] => true
    | a :: as, b :: bs => f a b && listEq f as bs
    | _, _ => false

private theorem listEq_map {α β : Type} {f : α → β → Bool} {g : β → α} (h : ∀ a b, f a b = true → a = g b) (as : List α) (bs : List β) :
    parsesToB.listEq f as bs = true → as = bs.map g := by
  induction as generalizing bs with
  | nil =>
    cases bs with
    | nil => intro _; rfl
    | cons b bs => intro h; cases h
  | cons a as ih =>
    cases bs with
    | nil => intro h; cases h
    | cons b bs =>
      simp only [parsesToB.listEq, Bool.and_eq_true, List.map_cons]
      rintro ⟨h1, h2⟩
      rw [h _ _ h1, ih _ h2]

private theorem parsesTo_of {text : Str} {es : List Elem} {foot : List (List Elem)} {bibs : List (List (Str × List Elem))}
    (h : parsesToB text es foot bibs = true) : ParsesTo text es foot bibs := by
  unfold parsesToB at h
  split at h
  · next o ho =>
    simp only [Bool.and_eq_true, List.isEmpty_iff] at h
    obtain ⟨⟨⟨h1, h2⟩, h3⟩, h4⟩ := h
    refine ⟨o, ho, beq_go h1, h2, ?_, ?_⟩
    · have := listEq_map (g := id) (fun a b h => beq_go h) _ _ h3
      simpa using this
    · refine listEq_map (fun a b h => ?_) _ _ h4
      have := listEq_map (g := id) (fun p q h => ?_) _ _ h
      · cases a; simp only [List.map_id] at this; rw [this]
      · simp only [Bool.and_eq_true, beq_iff_eq] at h
        exact Prod.ext h.1 (beq_go h.2)
  · cases h

/-- A page whose bibliography entry cites itself. -/
theorem selfCiting : ParsesTo c!"[[bibliography]]\n: a : ((bibcite a))\n[[/bibliography]]"
    [.mk (.bibBlock 0 none false) [], .mk (.footnoteBlock none false) []] []
    [[(c!"a", [.mk (.bibCite c!"a" false) []])]] := parsesTo_of (by decide +kernel)

/-- A page whose footnote contains the list of footnotes. -/
theorem blockInFootnote : ParsesTo c!"a[[footnote]][[footnoteblock]][[/footnote]]"
    [.mk (.container .paragraph []) [eText c!"a", .mk .footnote []]] [[.mk (.footnoteBlock none false) []]] [] :=
  parsesTo_of (by decide +kernel)

/-- A page with a footnote in a bibliography entry that is also cited. -/
theorem footnoteInEntry : ParsesTo c!"((bibcite a))\n[[bibliography]]\n: a : [[footnote]]n[[/footnote]]\n[[/bibliography]]"
    [.mk (.container .paragraph []) [.mk (.bibCite c!"a" false) []], .mk (.bibBlock 0 none false) [],
     .mk (.footnoteBlock none false) []] [[eText c!"n"]] [[(c!"a", [.mk .footnote []])]] := parsesTo_of (by decide +kernel)

/-- The node cannot make rendering panic, nor is it a footnote reference. -/
private def harmless : Kind → Bool
  | .part _ | .rubyText _ | .link .. | .style _ => false
  | _ => true

private theorem sound_of {o : Outcome} {text : Str} (h : parsePage text = some (.ok o))
    (hk : (o.tree.forests.all fun es => (Elem.allKinds.go es).all harmless) = true)
    (hb : ∀ b ∈ o.tree.bibliographies, ∀ key es, (key, es) ∈ b.entries → ∀ ks, ¬ Occurs .footnote ks es)
    (w : HWorld) (settings : Settings) : SoundTree w settings o.tree := by
  have hk := kinds_check harmless hk
  refine C69_parsed_sound h (fun es p ks hf ho => ?_) (fun es lt u x tg ks hf ho => ?_) (fun es s ks hf ho => ?_) hb
  · exact Bool.noConfusion (hk _ _ _ hf ho)
  · exact Bool.noConfusion (hk _ _ _ hf ho)
  · exact Bool.noConfusion (hk _ _ _ hf ho)

/-- C47: this page parses, and cannot be rendered: rendering recurses without end, whatever the settings, the page and the
external functions. -/
theorem C47_self_citing_page : ∃ o, parsePage c!"[[bibliography]]\n: a : ((bibcite a))\n[[/bibliography]]" = some (.ok o) ∧
    ∀ n w info settings, htmlRender n w info settings o.tree = .hang := by
  obtain ⟨o, h, h1, h2, h3, h4⟩ := selfCiting
  refine ⟨o, h, fun n w info settings => ?_⟩
  have hs : SoundTree w settings o.tree := by
    refine sound_of h (by simp only [Tree.forests, h1, h2, h3, h4]; decide) ?_ w settings
    intro b hb key es he ks ho
    rw [h4] at hb
    simp only [List.map_cons, List.map_nil, List.mem_singleton] at hb
    subst hb
    simp only [List.mem_singleton, Prod.mk.injEq] at he
    rw [he.2] at ho
    cases ho with
    | here h => simp at h
    | inside h h' => simp at h; rw [h.2] at h'; cases h' with | here h => cases h | inside h => cases h
  refine C47_hangs hs (by rw [h1, h3]; decide) fun o' => ?_
  have hcite : RendersIn o.tree [.mk (.bibCite c!"a" false) []] [.mk (.bibCite c!"a" false) []] := by
    refine .cite (.here (List.mem_singleton.2 rfl)) ?_
    rw [h4]
    exact ⟨[], _, [], [], [], rfl, rfl, by simp, by simp⟩
  refine C47_cycle_never_renders (es := [.mk (.bibCite c!"a" false) []]) (.step (b := [.mk (.bibCite c!"a" false) []]) ?_ .refl) hcite .refl
  have hb : o.tree.bibliographies[0]? = some ⟨[(c!"a", [.mk (.bibCite c!"a" false) []])]⟩ := by rw [h4]; rfl
  exact .bibliography (i := 0) (title := none) (ks := []) (p := (c!"a", [.mk (.bibCite c!"a" false) []]))
    (.here (by rw [h1]; simp)) hb (List.mem_singleton.2 rfl)

/-- C47: so does this one. -/
theorem C47_block_in_footnote_page : ∃ o, parsePage c!"a[[footnote]][[footnoteblock]][[/footnote]]" = some (.ok o) ∧
    ∀ n w info settings, htmlRender n w info settings o.tree = .hang := by
  obtain ⟨o, h, h1, h2, h3, h4⟩ := blockInFootnote
  refine ⟨o, h, fun n w info settings => ?_⟩
  have hs : SoundTree w settings o.tree := by
    refine sound_of h (by simp only [Tree.forests, h1, h2, h3, h4]; decide) ?_ w settings
    intro b hb
    rw [h4] at hb
    simp at hb
  refine C47_hangs hs (by rw [h1, h3]; decide) fun o' => ?_
  refine C47_footnote_block_in_footnotes (ks := []) ?_ ?_
  · rw [h1]
    exact .inside (List.mem_singleton.2 rfl) rfl (e := .mk .footnote []) (by simp) (fun h => by cases h)
      (.here (List.mem_singleton.2 rfl))
  · intro f hf
    rw [h3] at hf
    simp only [List.mem_singleton] at hf
    subst hf
    exact ⟨none, [], .here (List.mem_singleton.2 rfl)⟩

/-- C46: with a footnote in a bibliography entry, references can outnumber footnotes although each has one:
the entry is rendered for each citation.  Rendering this page panics. -/
theorem C46_footnote_in_entry_panics :
    (resultOf (parsePage c!"((bibcite a))\n[[bibliography]]\n: a : [[footnote]]n[[/footnote]]\n[[/bibliography]]")).map (fun o =>
      match htmlRender 4 plainHWorld somePage (Settings.fromMode .page .wikidot) o.tree with
      | .panic p => some p
      | _ => none) = some (some .footnoteIndex) := by decide +kernel

/-- The assumptions of `C46_reference_count` and `C46_outcome` hold of this page, with one reference. -/
example : ∃ o evs html, parsePage c!"a[[footnote]]n[[/footnote]]" = some (.ok o) ∧ countIn .footnotes o.tree.elements = 1 ∧
    SoundTree plainHWorld (Settings.fromMode .page .wikidot) o.tree ∧
    htmlRender 4 plainHWorld somePage (Settings.fromMode .page .wikidot) o.tree = .ok html ∧
    readHtml html.body = some evs ∧ footnoteRefs evs = [c!"1"] := by
  have hp : ParsesTo c!"a[[footnote]]n[[/footnote]]"
    [.mk (.container .paragraph []) [eText c!"a", .mk .footnote []], .mk (.footnoteBlock none false) []] [[eText c!"n"]] [] :=
    parsesTo_of (by decide +kernel)
  obtain ⟨o, h, h1, h2, h3, h4⟩ := hp
  have hs : SoundTree plainHWorld (Settings.fromMode .page .wikidot) o.tree :=
    sound_of h (by simp only [Tree.forests, h1, h2, h3, h4]; decide) (by rw [h4]; simp) _ _
  have key : (match htmlRender 4 plainHWorld somePage (Settings.fromMode .page .wikidot) o.tree with
     | .ok html => (match readHtml html.body with
       | some evs => decide (footnoteRefs evs = [c!"1"])
       | none => false)
     | _ => false) = true := by
    unfold htmlRender HEnv.of
    rw [h1, h2, h3, h4]
    decide +kernel
  split at key
  · next html e =>
    split at key
    · next evs e' => exact ⟨o, evs, html, h, by rw [h1]; rfl, hs, e, e', of_decide_eq_true key⟩
    · cases key
  · cases key

/-- The assumptions of `C69_parsed_page_renders` hold of any text without brackets and bibliography, such as this one. -/
example : ∃ o, parsePage c!"**a** b\n* c" = some (.ok o) ∧ ¬ OpensOne c!"**a** b\n* c" allPartBlocks ∧
    ¬ HasBlankLabel c!"**a** b\n* c" ∧ ¬ OpensBlock c!"**a** b\n* c" c!"footnoteblock" ∧ PlainEntries o.tree ∧
    (∀ es s ks, o.tree.Forest es → ¬ Occurs (.style s) ks es) := by
  have hb : '[' ∉ c!"**a** b\n* c" := by decide
  have hp : (match parsePage c!"**a** b\n* c" with
    | some (.ok o) => o.tree.bibliographies.isEmpty && o.tree.forests.all fun es => (Elem.allKinds.go es).all harmless
    | _ => false) = true := by decide +kernel
  split at hp
  · next o ho =>
    simp only [Bool.and_eq_true, List.isEmpty_iff] at hp
    refine ⟨o, ho, ?_, ?_, ?_, ?_, ?_⟩
    · rintro ⟨n, _, pre, star, ws, nm, post, e, _⟩
      rw [e] at hb
      simp at hb
    · rintro ⟨pre, t, ws, post, e, _⟩
      rw [e] at hb
      simp at hb
    · rintro ⟨pre, star, ws, nm, post, e, _⟩
      rw [e] at hb
      simp at hb
    · intro b hb
      rw [hp.1] at hb
      cases hb
    · intro es s ks hf ho
      exact Bool.noConfusion (kinds_check harmless hp.2 _ _ _ hf ho)
  · cases hp

end Ftml
