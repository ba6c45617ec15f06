import Verif.Props.MarkupMore
/-
C96: citations and bibliographies.
-/
namespace Ftml
open Markup Lexer

/-! ### C96: what is on a page -/

/-- A block and those in it. -/
def _root_.Ftml.Markup.Block.inside : Block → List Block
  | .within s body => .within s body :: go body
  | b => [b]
where
  /-- in a sequence -/
  go : List (Block × Bool) → List Block
    | [] => []
    | (b, _) :: bs => b.inside ++ go bs

/-- Inline markup and the inline markup in it, without the contents of footnotes. -/
def _root_.Ftml.Markup.Inline.inside : Inline → List Inline
  | .styled s body => .styled s body :: go body
  | .color c body => .color c body :: go body
  | .wrap w body => .wrap w body :: go body
  | i => [i]
where
  /-- in a sequence -/
  go : List Inline → List Inline
    | [] => []
    | i :: is => i.inside ++ go is

/-- The text of paragraphs, headings and centred lines. -/
def _root_.Ftml.Markup.Block.line : Block → List Inline
  | .para body | .heading _ _ _ body | .center _ body => body
  | _ => []

/-- A citation as shown: the number of the entry and its text, in brackets or not. -/
def citation (brackets : Bool) (number text : Str) : Str :=
  c!"<span class=\"wj-bibliography-ref\">" ++ (if brackets then c!"[" else []) ++
  c!"<wj-bibliography-ref-marker class=\"wj-bibliography-ref-marker\" role=\"link\" aria-label=\"Reference " ++ number ++
  c!".\" data-id=\"" ++ number ++ c!"\">" ++ number ++ c!"</wj-bibliography-ref-marker>" ++ (if brackets then c!"]" else []) ++
  c!"<span class=\"wj-bibliography-ref-tooltip\" aria-hidden=\"true\"><span class=\"wj-bibliography-ref-tooltip-label\">Reference " ++
  number ++ c!".</span><span class=\"wj-bibliography-ref-contents\">" ++ text ++ c!"</span></span></span>"

/-- What is shown instead of citations of unknown labels. -/
def unknownCitation : Str := c!"<span class=\"wj-error-inline\">Bibliography item not found</span>"

/-- The entry number `i` of the `j`-th bibliography as shown. -/
def listedEntry (j i : Str) (text : Str) : Str :=
  c!"<div class=\"wj-bibliography-item bibitem\" id=\"wj-bibliography-item-" ++ j ++ c!"-" ++ i ++ c!" bibitem-" ++ j ++ c!"-" ++ i ++
  c!"\"><wj-bibliography-item-marker class=\"wj-bibliography-item-marker\" type=\"button\" role=\"link\">" ++ i ++
  c!"<span class=\"wj-bibliography-sep\">.</span></wj-bibliography-item-marker>" ++ text ++ c!"</div>"

private theorem wrapAttrs_in (name : Str) (attrs : List (Str × Str)) (s : Str) : s <:+: wrapAttrs name attrs s :=
  ⟨c!"<" ++ name ++ attrs.flatMap attrHtml ++ c!">", c!"</" ++ name ++ c!">", by simp [wrapAttrs]⟩

private theorem wrap_in (name : Str) (s : Str) : s <:+: wrap name s :=
  ⟨c!"<" ++ name ++ c!">", c!"</" ++ name ++ c!">", by simp [wrap]⟩

private theorem wrapWith_in (name k v : Str) (s : Str) : s <:+: wrapWith name k v s :=
  ⟨c!"<" ++ name ++ c!" " ++ k ++ c!"=\"" ++ strHtml v ++ c!"\">", c!"</" ++ name ++ c!">", by simp [wrapWith]⟩

private theorem section_in (cx : Markup.Ctx) (s : Section) (body : Str) : body <:+: s.html cx body := by
  cases s with
  | box => exact wrapAttrs_in ..
  | align => exact wrapAttrs_in ..
  | collapsible name args close =>
    refine .trans ?_ (wrapAttrs_in ..)
    exact (wrapAttrs_in c!"div" [(c!"class", c!"wj-collapsible-content")] body).trans ⟨_, _, rfl⟩
  | tabs => exact List.infix_refl _
  | tab => exact List.infix_refl _

mutual
private theorem block_in (cx : ShowCtx) : ∀ (b : Block) (n : Tally), ∀ x ∈ b.inside, ∃ m, x.html cx m <:+: b.html cx n
  | .within s body, n, x, h => by
    rw [Block.inside, List.mem_cons] at h
    rcases h with rfl | h
    · exact ⟨n, List.infix_refl _⟩
    · cases s with
      | tabs name close =>
        obtain ⟨m, hm⟩ := panels_in cx body (n.generated cx) (n.generated cx + body.length) 0 { n with tabIds := n.tabIds + body.length + body.length } x h
        refine ⟨m, hm.trans ?_⟩
        rw [Block.html]
        refine .trans ?_ (wrapAttrs_in ..)
        refine .trans ?_ (List.suffix_append _ _).isInfix
        exact wrapAttrs_in ..
      | _ =>
        obtain ⟨m, hm⟩ := blocks_in cx body n x h
        refine ⟨m, hm.trans ?_⟩
        rw [Block.html]
        · exact section_in cx.toCtx _ _
        · intros; simp_all
  | .biblio _, n, x, h | .grid _, n, x, h | .para _, n, x, h | .rule _, n, x, h | .center _ _, n, x, h | .clear _ _, n, x, h | .list _ _, n, x, h
  | .quote _, n, x, h | .table _, n, x, h | .definitions _, n, x, h | .gadget _, n, x, h | .foreign _ _, n, x, h | .heading .., n, x, h => by
    rw [Block.inside, List.mem_singleton] at h
    · subst h
      exact ⟨n, List.infix_refl _⟩
    · intros; simp_all
private theorem blocks_in (cx : ShowCtx) : ∀ (d : List (Block × Bool)) (n : Tally), ∀ x ∈ Block.inside.go d, ∃ m, x.html cx m <:+: Block.html.go cx n d
  | [], n, x, h => by cases h
  | (b, t) :: d, n, x, h => by
    rw [Block.inside.go, List.mem_append] at h
    rw [Block.html.go]
    rcases h with h | h
    · obtain ⟨m, hm⟩ := block_in cx b n x h
      exact ⟨m, hm.trans (List.prefix_append _ _).isInfix⟩
    · obtain ⟨m, hm⟩ := blocks_in cx d _ x h
      exact ⟨m, hm.trans (List.suffix_append _ _).isInfix⟩
private theorem panels_in (cx : ShowCtx) : ∀ (d : List (Block × Bool)) (i j k : Nat) (n : Tally), ∀ x ∈ Block.inside.go d, ∃ m,
    x.html cx m <:+: Block.html.panels cx i j k n d
  | [], _, _, _, n, x, h => by cases h
  | (b, t) :: d, i, j, k, n, x, h => by
    rw [Block.inside.go, List.mem_append] at h
    rw [Block.html.panels]
    rcases h with h | h
    · obtain ⟨m, hm⟩ := block_in cx b n x h
      exact ⟨m, hm.trans ((wrapAttrs_in ..).trans (List.prefix_append _ _).isInfix)⟩
    · obtain ⟨m, hm⟩ := panels_in cx d _ _ _ _ x h
      exact ⟨m, hm.trans (List.suffix_append _ _).isInfix⟩
end

mutual
private theorem inline_in (cx : ShowCtx) : ∀ (i : Inline) (n : Nat), ∀ x ∈ i.inside, ∃ m, x.html cx m <:+: i.html cx n
  | .styled s body, n, x, h => by
    rw [Inline.inside, List.mem_cons] at h
    rcases h with rfl | h
    · exact ⟨n, List.infix_refl _⟩
    · obtain ⟨m, hm⟩ := inlines_in cx body n x h
      refine ⟨m, hm.trans ?_⟩
      rw [Inline.html]
      cases s <;> first | exact wrap_in .. | exact wrapWith_in ..
  | .color c body, n, x, h => by
    rw [Inline.inside, List.mem_cons] at h
    rcases h with rfl | h
    · exact ⟨n, List.infix_refl _⟩
    · obtain ⟨m, hm⟩ := inlines_in cx body n x h
      exact ⟨m, hm.trans (wrapWith_in ..)⟩
  | .wrap w body, n, x, h => by
    rw [Inline.inside, List.mem_cons] at h
    rcases h with rfl | h
    · exact ⟨n, List.infix_refl _⟩
    · obtain ⟨m, hm⟩ := inlines_in cx body n x h
      refine ⟨m, hm.trans ?_⟩
      rw [Inline.html]
      cases w <;> first | exact wrapAttrs_in .. | exact wrapWith_in ..
  | .plain _, n, x, h | .newline, n, x, h | .raw _, n, x, h | .comment _, n, x, h | .leaf _, n, x, h | .note .., n, x, h => by
    rw [Inline.inside, List.mem_singleton] at h
    · subst h
      exact ⟨n, List.infix_refl _⟩
    all_goals (intros; simp_all)
private theorem inlines_in (cx : ShowCtx) : ∀ (is : List Inline) (n : Nat), ∀ x ∈ Inline.inside.go is, ∃ m, x.html cx m <:+: Inline.html.go cx n is
  | [], n, x, h => by cases h
  | i :: is, n, x, h => by
    rw [Inline.inside.go, List.mem_append] at h
    rw [Inline.html.go]
    rcases h with h | h
    · obtain ⟨m, hm⟩ := inline_in cx i n x h
      exact ⟨m, hm.trans (List.prefix_append _ _).isInfix⟩
    · obtain ⟨m, hm⟩ := inlines_in cx is _ x h
      exact ⟨m, hm.trans (List.suffix_append _ _).isInfix⟩
end

private theorem gap_inside {i x : Inline} (hi : i.isGap = true) (h : x ∈ i.inside) : x = i := by
  cases i with
  | styled | color | wrap => cases hi
  | _ => simpa [Inline.inside] using h

private theorem trimmed_in (cx : ShowCtx) : ∀ (is : List Inline) (n : Nat), ∀ x ∈ Inline.inside.go is, x.isGap = false →
    ∃ m, x.html cx m <:+: Inline.html.trimmed cx n is
  | [], n, x, h, _ => by cases h
  | i :: is, n, x, h, hx => by
    rw [Inline.inside.go, List.mem_append] at h
    rw [Inline.html.trimmed]
    cases hi : i.isGap with
    | true =>
      rw [if_pos rfl]
      rcases h with h | h
      · rw [gap_inside hi h, hi] at hx
        cases hx
      · exact trimmed_in cx is n x h hx
    | false =>
      rw [if_neg (by simp)]
      rcases h with h | h
      · obtain ⟨m, hm⟩ := inline_in cx i n x h
        exact ⟨m, hm.trans (List.prefix_append _ _).isInfix⟩
      · obtain ⟨m, hm⟩ := inlines_in cx is _ x h
        exact ⟨m, hm.trans (List.suffix_append _ _).isInfix⟩

private theorem line_in (cx : ShowCtx) (b : Block) (n : Tally) : ∀ x ∈ Inline.inside.go b.line, x.isGap = false → x.html cx 0 ≠ [] → (∀ m, x.html cx m = x.html cx 0) →
    x.html cx 0 <:+: b.html cx n := by
  intro x h hx hne hm
  have key : ∀ s : Str, (∃ m, x.html cx m <:+: s) → x.html cx 0 <:+: s := by
    rintro s ⟨m, h⟩; rwa [hm] at h
  cases b with
  | para body =>
    have := key _ (trimmed_in cx body n.notes x h hx)
    rw [Block.html, paraHtml]
    split
    · rename_i e
      rw [e] at this
      exact absurd (List.infix_nil.1 this) hne
    · exact this.trans (wrap_in ..)
  | heading level toc gap body =>
    cases toc with
    | true => exact (key _ (inlines_in cx body n.notes x h)).trans (wrapWith_in ..)
    | false => exact (key _ (inlines_in cx body n.notes x h)).trans (wrap_in ..)
  | center gap body => exact (key _ (inlines_in cx body n.notes x h)).trans (wrapWith_in ..)
  | _ => cases h

private theorem page_in (cx : OutCtx) (d : Page) : Block.html.go (d.show cx) ⟨0, 0, 0, 0, 0⟩ d <:+: d.html cx :=
  (List.prefix_append _ _).isInfix.trans (wrapWith_in ..)

mutual
private theorem block_bibs_in : ∀ b : Block, ∀ x ∈ b.bibs, .biblio x ∈ b.inside
  | .within s body, x, h => by
    rw [Block.inside]
    exact List.mem_cons_of_mem _ (blocks_bibs_in body x h)
  | .biblio b, x, h => by
    simp only [Block.bibs, List.mem_singleton] at h
    subst h
    simp [Block.inside]
  | .grid _, x, h | .para _, x, h | .rule _, x, h | .center _ _, x, h | .clear _ _, x, h | .list _ _, x, h
  | .quote _, x, h | .table _, x, h | .definitions _, x, h | .gadget _, x, h | .foreign _ _, x, h | .heading .., x, h => by simp [Block.bibs] at h
private theorem blocks_bibs_in : ∀ d : List (Block × Bool), ∀ x ∈ Block.bibs.go d, .biblio x ∈ Block.inside.go d
  | [], x, h => by cases h
  | (b, t) :: d, x, h => by
    rw [Block.bibs.go, List.mem_append] at h
    rw [Block.inside.go, List.mem_append]
    rcases h with h | h
    · exact .inl (block_bibs_in b x h)
    · exact .inr (blocks_bibs_in d x h)
end

private theorem strHtml_app (a b : Str) : strHtml (a ++ b) = strHtml a ++ strHtml b := List.flatMap_append

private theorem attr_class (v : Str) (h : v ≠ []) (he : strHtml v = v) (k : Str) (hk : strHtml k = k) : attrHtml (k, v) = c!" " ++ k ++ c!"=\"" ++ v ++ c!"\"" := by
  unfold attrHtml
  rw [if_neg h, he, hk]
  simp

set_option maxRecDepth 20000 in
private theorem cite_shown (cx : ShowCtx) (brackets : Bool) (label : Str) :
    citeHtml cx brackets label = match cx.refs label with
      | none => unknownCitation
      | some (k, text, _) => citation brackets (natToStr k) text := by
  unfold citeHtml
  cases cx.refs label with
  | none => exact (by decide : wrapAttrs c!"span" [(c!"class", c!"wj-error-inline")] c!"Bibliography item not found" = unknownCitation)
  | some e =>
    obtain ⟨k, text, ls⟩ := e
    dsimp only
    have a1 : attrHtml (c!"aria-label", c!"Reference " ++ natToStr k ++ c!".") = c!" aria-label=\"Reference " ++ natToStr k ++ c!".\"" := by
      rw [attr_class _ (by simp) (by rw [strHtml_app, strHtml_app, strHtml_nat]; rfl) _ (by decide)]
      simp
    have hn : natToStr k ≠ [] := Nat.toDigits_ne_nil
    have a2 : attrHtml (c!"data-id", natToStr k) = c!" data-id=\"" ++ natToStr k ++ c!"\"" := by
      rw [attr_class _ hn (strHtml_nat k) _ (by decide)]
      simp
    have a3 : ∀ v : Str, v ≠ [] → strHtml v = v → attrHtml (c!"class", v) = c!" class=\"" ++ v ++ c!"\"" := by
      intro v h1 h2
      rw [attr_class _ h1 h2 _ (by decide)]
      simp
    have a4 : attrHtml (c!"role", c!"link") = c!" role=\"link\"" := by decide
    have a5 : attrHtml (c!"aria-hidden", c!"true") = c!" aria-hidden=\"true\"" := by decide
    simp only [wrapAttrs, List.flatMap_cons, List.flatMap_nil, a1, a2, a4, a5, a3 c!"wj-bibliography-ref" (by decide) (by decide),
      a3 c!"wj-bibliography-ref-marker" (by decide) (by decide), a3 c!"wj-bibliography-ref-tooltip" (by decide) (by decide),
      a3 c!"wj-bibliography-ref-tooltip-label" (by decide) (by decide), a3 c!"wj-bibliography-ref-contents" (by decide) (by decide), citation]
    simp only [List.append_assoc, List.cons_append, List.nil_append]

set_option maxRecDepth 20000 in
private theorem entry_shown (cx : OutCtx) (j : Nat) : ∀ (es : List (Str × List Inline)) (k i : Nat) (label : Str) (text : List Inline), es[i]? = some (label, text) →
    listedEntry (natToStr j) (natToStr (k + i)) (sourceHtml cx text) <:+: sourcesHtml cx j k es
  | [], k, i, label, text, h => by cases h
  | (l, t) :: es, k, 0, label, text, h => by
    simp only [List.getElem?_cons_zero, Option.some.injEq, Prod.mk.injEq] at h
    obtain ⟨rfl, rfl⟩ := h
    rw [sourcesHtml]
    refine .trans ?_ (List.prefix_append _ _).isInfix
    have a1 : attrHtml (c!"id", c!"wj-bibliography-item-" ++ natToStr j ++ c!"-" ++ natToStr k ++ c!" bibitem-" ++ natToStr j ++ c!"-" ++ natToStr k) =
        c!" id=\"wj-bibliography-item-" ++ natToStr j ++ c!"-" ++ natToStr k ++ c!" bibitem-" ++ natToStr j ++ c!"-" ++ natToStr k ++ c!"\"" := by
      rw [attr_class _ (by simp) (by simp only [strHtml_app, strHtml_nat]; rfl) _ (by decide)]
      simp
    have a2 : attrHtml (c!"class", c!"wj-bibliography-item bibitem") = c!" class=\"wj-bibliography-item bibitem\"" := by decide
    have a3 : attrHtml (c!"class", c!"wj-bibliography-item-marker") = c!" class=\"wj-bibliography-item-marker\"" := by decide
    have a4 : attrHtml (c!"type", c!"button") = c!" type=\"button\"" := by decide
    have a5 : attrHtml (c!"role", c!"link") = c!" role=\"link\"" := by decide
    have a6 : attrHtml (c!"class", c!"wj-bibliography-sep") = c!" class=\"wj-bibliography-sep\"" := by decide
    simp only [wrapAttrs, List.flatMap_cons, List.flatMap_nil, a1, a2, a3, a4, a5, a6, listedEntry, Nat.add_zero]
    simp only [List.append_assoc, List.cons_append, List.nil_append, List.append_nil]
    exact List.infix_refl _
  | (l, t) :: es, k, i + 1, label, text, h => by
    rw [sourcesHtml]
    have := entry_shown cx j es (k + 1) i label text h
    rw [show k + 1 + i = k + (i + 1) by omega] at this
    exact this.trans (List.suffix_append _ _).isInfix

/-! ### C96: which entry is cited -/

private theorem zipIdx_find (label : Str) : ∀ (es : List (Str × List Inline)) (s k : Nat) (text : List Inline),
    ((es.zipIdx s).find? (fun e => e.1.1 == label)).map (fun e => (e.2 + 1, e.1.2)) = some (k, text) →
    ∃ i, k = s + i + 1 ∧ es[i]? = some (label, text)
  | [], s, k, text, h => by cases h
  | (l, t) :: es, s, k, text, h => by
    rw [List.zipIdx_cons, List.find?_cons] at h
    by_cases hl : l = label
    · subst hl
      simp only [beq_self_eq_true, Option.map_some, Option.some.injEq, Prod.mk.injEq] at h
      exact ⟨0, by omega, by rw [← h.2]; rfl⟩
    · have h1 : (l == label) = false := by simpa using hl
      simp only [h1] at h
      obtain ⟨i, h2, h3⟩ := zipIdx_find label es (s + 1) k text h
      exact ⟨i + 1, by omega, h3⟩

private theorem find_none {label : Str} {b : Biblio} : b.find label = none ↔ ∀ e ∈ b.entries, e.1 ≠ label := by
  unfold Biblio.find
  rw [Option.map_eq_none_iff, List.find?_eq_none]
  constructor
  · intro h e he hl
    obtain ⟨i, hi, rfl⟩ := List.mem_iff_getElem.1 he
    exact h (b.entries[i], i) (by simp [List.mem_zipIdx_iff_getElem?, hi]) (by simpa using hl)
  · rintro h ⟨e, i⟩ he
    have := List.mem_zipIdx_iff_getElem?.1 he
    simpa using h e (List.mem_of_getElem? this)

private theorem firsts_mem' {α : Type} : ∀ {l : List (Str × α)} {e : Str × α}, e ∈ firsts l → e ∈ l
  | [], _, h => h
  | x :: l, e, h => by
    rw [firsts] at h
    rcases List.mem_cons.1 h with h | h
    · rw [h]; exact List.mem_cons_self ..
    · exact List.mem_cons_of_mem _ (firsts_mem' (List.mem_filter.1 h).1)

private theorem firsts_nodup {α : Type} : ∀ l : List (Str × α), ((firsts l).map (·.1)).Nodup
  | [] => List.nodup_nil
  | x :: l => by
    rw [firsts, List.map_cons, List.nodup_cons]
    refine ⟨?_, ?_⟩
    · intro h
      obtain ⟨e, he, h1⟩ := List.mem_map.1 h
      have := (List.mem_filter.1 he).2
      simp [h1] at this
    · exact (List.Sublist.map _ List.filter_sublist).nodup (firsts_nodup l)

private theorem firsts_iff {α : Type} (label : Str) (a : α) : ∀ l : List (Str × α), (label, a) ∈ firsts l ↔ l.lookup label = some a
  | [] => by simp [firsts]
  | (k, b) :: l => by
    rw [firsts, List.lookup_cons, List.mem_cons]
    by_cases h : label = k
    · subst h
      simp [eq_comm]
    · have h1 : (label == k) = false := by simpa using h
      simp [h1, List.mem_filter, firsts_iff label a l, h]

/-- C96: the entries of a bibliography are, for every label, the text of the first line with that label; there are not
two entries with the same label. -/
theorem C96_entries (b : Biblio) : (b.entries.map (·.1)).Nodup ∧
    ∀ label text, (label, text) ∈ b.entries ↔ (b.items.map fun i => (trim (Inline.pieces.go i.1).flatten, i.2)).lookup label = some text :=
  ⟨firsts_nodup _, fun label text => firsts_iff label text _⟩

/-- C96: the entry cited by a label is that of the first bibliography with such an entry, and its number is its
place in this bibliography, from one on. -/
theorem C96_cited (d : Page) (label : Str) : (∀ k text, d.cited label = some (k, text) ↔
      ∃ (j : Nat) (b : Biblio), d.bibs[j]? = some b ∧ (∃ i : Nat, k = i + 1 ∧ b.entries[i]? = some (label, text)) ∧
        ∀ j' < j, ∀ b' : Biblio, d.bibs[j']? = some b' → ∀ e ∈ b'.entries, e.1 ≠ label) ∧
    (d.cited label = none ↔ ∀ b ∈ d.bibs, ∀ e ∈ b.entries, e.1 ≠ label) := by
  unfold Page.cited
  generalize d.bibs = bs
  have uniq : ∀ {b : Biblio} {k : Nat} {text : List Inline} {i : Nat}, b.find label = some (k, text) → ∀ {t}, b.entries[i]? = some (label, t) → k = i + 1 ∧ t = text := by
    intro b k text i h t ht
    obtain ⟨i', e1, e2⟩ := zipIdx_find label b.entries 0 k text h
    have hn := firsts_nodup (b.items.map fun i => (trim (Inline.pieces.go i.1).flatten, i.2))
    have hn' : (b.entries.map (·.1)).Nodup := hn
    have x1 : (b.entries.map (·.1))[i]? = some label := by rw [List.getElem?_map, ht]; rfl
    have x2 : (b.entries.map (·.1))[i']? = some label := by rw [List.getElem?_map, e2]; rfl
    have : i = i' := by
      obtain ⟨h1, h1'⟩ := List.getElem?_eq_some_iff.1 x1
      obtain ⟨h2, h2'⟩ := List.getElem?_eq_some_iff.1 x2
      exact (List.getElem_inj hn').1 (h1'.trans h2'.symm)
    subst this
    rw [ht] at e2
    simp only [Option.some.injEq, Prod.mk.injEq, true_and] at e2
    exact ⟨by omega, e2⟩
  constructor
  · intro k text
    induction bs with
    | nil => simp
    | cons b bs ih =>
      rw [List.findSome?_cons]
      cases hf : b.find label with
      | some e =>
        dsimp only
        constructor
        · intro h
          cases h
          obtain ⟨i, h1, h2⟩ := zipIdx_find label b.entries 0 k text hf
          exact ⟨0, b, rfl, ⟨i, by omega, h2⟩, fun j hj => absurd hj (by omega)⟩
        · rintro ⟨j, b', h1, ⟨i, h2, h3⟩, h4⟩
          obtain ⟨k', text'⟩ := e
          cases j with
          | zero =>
            cases h1
            obtain ⟨e1, e2⟩ := uniq hf h3
            rw [e1, e2, h2]
          | succ j =>
            have := find_none.2 (h4 0 (by omega) b rfl)
            rw [hf] at this
            cases this
      | none =>
        dsimp only
        rw [ih]
        constructor
        · rintro ⟨j, b', h1, h2, h3⟩
          refine ⟨j + 1, b', h1, h2, ?_⟩
          intro j' hj b'' hb
          cases j' with
          | zero => cases hb; exact find_none.1 hf
          | succ j' => exact h3 j' (by omega) b'' hb
        · rintro ⟨j, b', h1, ⟨i, h2, h3⟩, h4⟩
          cases j with
          | zero =>
            cases h1
            exact absurd rfl (find_none.1 hf _ (List.mem_of_getElem? h3))
          | succ j => exact ⟨j, b', h1, ⟨i, h2, h3⟩, fun j' hj b'' hb => h4 (j' + 1) (by omega) b'' hb⟩
  · rw [List.findSome?_eq_none_iff]
    exact ⟨fun h b hb => find_none.1 (h b hb), fun h b hb => find_none.2 (h b hb)⟩

/-- C96: a citation in the text, a heading or a centred line of a page shows the number and text of the entry it
cites, or says that there is none; and every bibliography which is not hidden shows all its entries, under their numbers. -/
theorem C96_citations {d : Page} (hd : d.ok = true) (w : HWorld) (info : PageInfo) (settings : Settings)
    (hname : d.fits ⟨settings, w.toWorld, info⟩ = true) :
    ∃ o, parse w.toWorld (tokenize d.write) info settings = some (.ok o) ∧
      ∀ n ≥ 3, ∃ out, htmlRender n w info settings o.tree = .ok out ∧
        let cx : Markup.OutCtx := ⟨⟨settings, w.toWorld, info⟩, w.pageExists, w.mathml, dummyAvatar, d.toc, w.randomId⟩
        (∀ b ∈ Block.inside.go d, ∀ brackets label, ((∃ mark name, .leaf (.cite mark name) ∈ Inline.inside.go b.line ∧ brackets = false ∧ label = plainText name) ∨
            (∃ block name, .leaf (.citeBlock block name) ∈ Inline.inside.go b.line ∧ brackets = true ∧ label = trim (plainText name))) →
          match d.cited label with
          | none => unknownCitation <:+: out.body
          | some (k, text) => citation brackets (natToStr k) (sourceHtml cx text) <:+: out.body) ∧
        ∀ (j : Nat) b, d.bibs[j]? = some b → switchedOn b.tag.args c!"hide" = false → ∀ (i : Nat) label text, b.entries[i]? = some (label, text) →
          listedEntry (natToStr (j + 1)) (natToStr (i + 1)) (sourceHtml cx text) <:+: out.body := by
  obtain ⟨o, ho, h⟩ := C72_html hd w info settings hname
  refine ⟨o, ho, fun n hn => ?_⟩
  obtain ⟨out, h1, h2, -⟩ := h n hn
  refine ⟨out, h1, ?_⟩
  dsimp only at h2 ⊢
  rw [h2]
  generalize hcx : (⟨⟨settings, w.toWorld, info⟩, w.pageExists, w.mathml, dummyAvatar, d.toc, w.randomId⟩ : OutCtx) = cx
  constructor
  · intro b hb brackets label hl
    have key : ∀ l : Leaf, .leaf l ∈ Inline.inside.go b.line → l.html (d.show cx) = citeHtml (d.show cx) brackets label →
        citeHtml (d.show cx) brackets label ≠ [] → citeHtml (d.show cx) brackets label <:+: d.html cx := by
      intro l hl he hne
      obtain ⟨m, hm⟩ := blocks_in (d.show cx) d ⟨0, 0, 0, 0, 0⟩ b hb
      have hx : (Inline.leaf l).html (d.show cx) 0 = citeHtml (d.show cx) brackets label := he
      have := line_in (d.show cx) b m (.leaf l) hl rfl (by rw [hx]; exact hne) (fun _ => rfl)
      rw [hx] at this
      exact this.trans (hm.trans (page_in cx d))
    have hne : citeHtml (d.show cx) brackets label ≠ [] := by
      rw [cite_shown]
      split
      · exact List.cons_ne_nil _ _
      · exact List.cons_ne_nil _ _
    have hin : citeHtml (d.show cx) brackets label <:+: d.html cx := by
      rcases hl with ⟨mark, name, hm, rfl, rfl⟩ | ⟨block, name, hm, rfl, rfl⟩
      · exact key _ hm rfl hne
      · exact key _ hm rfl hne
    rw [cite_shown] at hin
    have hr : (d.show cx).refs label = (d.cited label).map fun e => (e.1, sourceHtml cx e.2, sourceLinks cx e.2) := rfl
    rw [hr] at hin
    cases hc : d.cited label with
    | none => rw [hc] at hin; exact hin
    | some e => rw [hc] at hin; exact hin
  · intro j b hb hhide i label text he
    have hnum : b.number = j := by
      simp only [Page.fits, Bool.and_eq_true] at hname
      have h3 : d.bibs.map (·.number) = List.range d.bibs.length := beq_iff_eq.1 hname.2
      have h4 : (d.bibs.map (·.number))[j]? = some b.number := by rw [List.getElem?_map, hb]; rfl
      rw [h3, List.getElem?_range (List.getElem?_eq_some_iff.1 hb).1] at h4
      exact (Option.some.inj h4).symm
    have hbi : .biblio b ∈ Block.inside.go d := blocks_bibs_in d b (by rw [bibs_go]; exact List.mem_of_getElem? hb)
    obtain ⟨m, hm⟩ := blocks_in (d.show cx) d ⟨0, 0, 0, 0, 0⟩ _ hbi
    refine .trans ?_ (hm.trans (page_in cx d))
    rw [Block.html, Biblio.html, if_neg (by rw [hhide]; simp)]
    refine .trans ?_ (wrapAttrs_in ..)
    refine .trans ?_ (List.suffix_append _ _).isInfix
    have := entry_shown cx (j + 1) b.entries 1 i label text he
    rw [hnum, Nat.add_comm i 1]
    exact this

/-- A page with citations and two bibliographies. -/
def bibPage : Page :=
  [(.para [.plain (.word c!"a"), .leaf (.cite c!"bibcite" [.word c!"y"]), .styled .bold [.leaf (.citeBlock c!"bibcite" [.word c!"x"])],
      .leaf (.cite c!"bibcite" [.word c!"q"])], true),
   (.within (.align .left) [(.biblio ⟨0, ⟨c!"bibliography", [⟨0, [.word c!"title"], c!"T<"⟩], c!"bibliography"⟩,
     [([.plain (.word c!"x")], [.plain (.word c!"one")]), ([.plain (.word c!"x")], [.plain (.word c!"two")]),
      ([.plain (.word c!"y")], [.styled .bold [.plain (.word c!"z")]])]⟩, true)], true),
   (.biblio ⟨1, ⟨c!"Bibliography", [], c!"bibliography"⟩, [([.plain (.word c!"y")], [.plain (.word c!"other")]),
     ([.plain (.word c!"w")], [.leaf (.address false (.web c!"https://a.b") 0 [.word c!"Y"])])]⟩, false)]

example : bibPage.ok = true := by decide +kernel
example : bibPage.fits ⟨Settings.fromMode .page .wikidot, plainWorld, somePage⟩ = true := by decide +kernel
example : bibPage.write = c!"a((bibcite y))**[[bibcite x]]**((bibcite q))\n[[<]]\n[[bibliography title=\"T<\"]]\n: x : one\n: x : two\n: y : **z**\n[[/bibliography]]\n[[/<]]\n[[Bibliography]]\n: y : other\n: w : [https://a.b Y]\n[[/bibliography]]" := by
  decide +kernel
example : bibPage.text = c!"a" := by decide +kernel
example : bibPage.bibs.map (fun b => b.entries.map (·.1)) = [[c!"x", c!"y"], [c!"y", c!"w"]] := by decide +kernel
example : (bibPage.cited c!"y").map (fun e => (e.1, Inline.text.go e.2)) = some (2, c!"z") ∧ (bibPage.cited c!"q").isNone = true := by decide +kernel
/-- The citation in the paragraph and the bibliography in the box are on the page. -/
example : (bibPage.any fun x => match x.1 with
    | .para body => (Inline.inside.go body).any (fun i => match i with | .leaf (.citeBlock _ name) => name == [.word c!"x"] | _ => false)
    | _ => false) = true := by decide +kernel
example : (bibPage.html ⟨⟨Settings.fromMode .page .wikidot, plainWorld, somePage⟩, fun _ _ => true, fun _ => .ok, [], [], fun _ => []⟩) =
    c!"<wj-body class=\"wj-body\"><p>a" ++ citation false c!"2" c!"<strong>z</strong>" ++ c!"<strong>" ++ citation true c!"1" c!"one" ++ c!"</strong>" ++
    unknownCitation ++ c!"</p><div class=\"wj-align-left\"><div class=\"wj-bibliography bibitems\"><div class=\"wj-bibliography-title title\">T&lt;</div>" ++
    listedEntry c!"1" c!"1" c!"one" ++ listedEntry c!"1" c!"2" c!"<strong>z</strong>" ++
    c!"</div></div><div class=\"wj-bibliography bibitems\"><div class=\"wj-bibliography-title title\">Bibliography</div>" ++
    listedEntry c!"2" c!"1" c!"other" ++
    listedEntry c!"2" c!"2" c!"<a href=\"https://a.b\" class=\"wj-link wj-link-external\" data-link-type=\"direct\">Y</a>" ++ c!"</div></wj-body>" := by
  decide +kernel
example : (bibPage.links ⟨⟨Settings.fromMode .page .wikidot, plainWorld, somePage⟩, fun _ _ => true, fun _ => .ok, [], [], fun _ => []⟩) = [.url c!"https://a.b"] := by
  decide +kernel

/-- C96: numbers are those in the bibliography of the entry, so citations of different entries may show the same
number: with two bibliographies on a page the number does not tell which entry is meant. -/
theorem C96_numbers_ambiguous : ∃ (d : Page) (a b : Str) (k : Nat) (s t : List Inline), d.ok = true ∧
    d.fits ⟨Settings.fromMode .page .wikidot, plainWorld, somePage⟩ = true ∧
    d.cited a = some (k, s) ∧ d.cited b = some (k, t) ∧ Inline.text.go s ≠ Inline.text.go t :=
  ⟨bibPage, c!"y", c!"w", 2, [.styled .bold [.plain (.word c!"z")]], [.leaf (.address false (.web c!"https://a.b") 0 [.word c!"Y"])],
    by decide +kernel, by decide +kernel, rfl, rfl, by decide⟩

end Ftml
