import Verif.Props.MarkupOut
import Verif.Props.Html
/-
C88: the table of contents leads to the headings.
-/
namespace Ftml
open Markup Lexer

/-! ### C88: tables of contents -/

/-- There is a table of contents in the block. -/
def _root_.Ftml.Markup.Block.hasContents : Block → Bool
  | .gadget (.contents ..) => true
  | .within _ body => go body
  | _ => false
where
  /-- in a sequence -/
  go : List (Block × Bool) → Bool
    | [] => false
    | (b, _) :: bs => b.hasContents || go bs

private theorem infix_mid (a b c : Str) : b <:+: a ++ b ++ c := ⟨a, c, rfl⟩

private theorem wrapAttrs_infix (name : Str) (attrs : List (Str × Str)) (s : Str) : s <:+: wrapAttrs name attrs s :=
  ⟨c!"<" ++ name ++ attrs.flatMap attrHtml ++ c!">", c!"</" ++ name ++ c!">", by simp [wrapAttrs]⟩

private theorem section_infix (cx : Markup.Ctx) (s : Section) (body : Str) : body <:+: s.html cx body := by
  cases s with
  | box => exact wrapAttrs_infix ..
  | align => exact wrapAttrs_infix ..
  | collapsible name args close =>
    refine .trans ?_ (wrapAttrs_infix ..)
    refine (wrapAttrs_infix c!"div" [(c!"class", c!"wj-collapsible-content")] body).trans ?_
    exact infix_mid ..
  | tabs => exact List.infix_refl _
  | tab => exact List.infix_refl _

mutual
private theorem count_headings : ∀ (b : Block) (n : Tally), (b.count n).headings = n.headings + b.toc.length
  | .within (.tabs ..) body, n => counts_headings body _
  | .within (.tab ..) body, n | .within (.box ..) body, n | .within (.align ..) body, n | .within (.collapsible ..) body, n => counts_headings body n
  | .heading level true gap body, n | .heading level false gap body, n => rfl
  | .biblio _, _ | .grid _, _ | .para _, _ | .rule _, _ | .center _ _, _ | .clear _ _, _ | .list _ _, _ | .quote _, _ | .table _, _ | .definitions _, _ | .gadget _, _ => rfl
  | .foreign (.code ..) _, _ | .foreign (.html ..) _, _ | .foreign (.math ..) _, _ => rfl
private theorem counts_headings : ∀ (d : List (Block × Bool)) (n : Tally), (Block.count.go n d).headings = n.headings + (Block.toc.go d).length
  | [], n => rfl
  | (b, t) :: d, n => by
    rw [Block.count.go, counts_headings d, count_headings b, Block.toc.go, List.length_append]; omega
end

/-- A heading with its id, which has this entry in the table of contents. -/
private def HeadingIn (cx : ShowCtx) (i : Nat) (entry : Nat × Str) (html : Str) : Prop :=
  ∃ level body k, entry = (level - 1, Inline.text.go body) ∧
    wrapWith (c!"h" ++ natToStr level) c!"id" (c!"toc" ++ natToStr i) (Inline.html.go cx k body) <:+: html

private theorem HeadingIn.mono {cx : ShowCtx} {i : Nat} {entry : Nat × Str} {a b : Str} (h : HeadingIn cx i entry a)
    (hab : a <:+: b) : HeadingIn cx i entry b := by
  obtain ⟨level, body, k, h1, h2⟩ := h
  exact ⟨level, body, k, h1, h2.trans hab⟩

private theorem tabs_infix (cx : ShowCtx) (n : Tally) (name close : Str) (body : List (Block × Bool)) :
    Block.html.panels cx (n.generated cx) (n.generated cx + body.length) 0 { n with tabIds := n.tabIds + body.length + body.length } body <:+:
      Block.html cx n (.within (.tabs name close) body) := by
  rw [Block.html]
  refine .trans ?_ (wrapAttrs_infix ..)
  refine .trans ?_ (List.suffix_append _ _).isInfix
  exact wrapAttrs_infix ..

mutual
private theorem block_headings (cx : ShowCtx) (hids : cx.settings.useTrueIds = true) : ∀ (b : Block) (n : Tally) (i : Nat) (e : Nat × Str), b.toc[i]? = some e →
    HeadingIn cx (n.headings + i) e (b.html cx n)
  | .within (.tabs name close) body, n, i, e, h => (panels_headings cx hids body _ _ _ { n with tabIds := n.tabIds + body.length + body.length } i e h).mono (tabs_infix ..)
  | .within (.tab a b c) body, n, i, e, h => (blocks_headings cx hids body n i e h).mono (section_infix cx.toCtx (.tab a b c) _)
  | .within (.box a b c) body, n, i, e, h => (blocks_headings cx hids body n i e h).mono (section_infix cx.toCtx (.box a b c) _)
  | .within (.align a) body, n, i, e, h => (blocks_headings cx hids body n i e h).mono (section_infix cx.toCtx (.align a) _)
  | .within (.collapsible a b c) body, n, i, e, h => (blocks_headings cx hids body n i e h).mono (section_infix cx.toCtx (.collapsible a b c) _)
  | .heading level true gap body, n, 0, e, h => by
    cases h
    refine ⟨level, body, n.notes, rfl, ?_⟩
    rw [Block.html, headingId, if_pos hids]
    exact List.infix_refl _
  | .heading level true gap body, n, i + 1, e, h => by cases h
  | .heading level false gap body, n, i, e, h => by cases h
  | .biblio _, n, i, e, h | .grid _, n, i, e, h | .para _, n, i, e, h | .rule _, n, i, e, h | .center _ _, n, i, e, h | .clear _ _, n, i, e, h | .list _ _, n, i, e, h | .quote _, n, i, e, h
  | .table _, n, i, e, h | .definitions _, n, i, e, h | .gadget _, n, i, e, h | .foreign _ _, n, i, e, h => by cases h
private theorem blocks_headings (cx : ShowCtx) (hids : cx.settings.useTrueIds = true) : ∀ (d : List (Block × Bool)) (n : Tally) (i : Nat) (e : Nat × Str),
    (Block.toc.go d)[i]? = some e → HeadingIn cx (n.headings + i) e (Block.html.go cx n d)
  | [], n, i, e, h => by cases h
  | (b, t) :: d, n, i, e, h => by
    rw [Block.toc.go, List.getElem?_append] at h
    rw [Block.html.go]
    split at h
    · exact (block_headings cx hids b n i e h).mono (List.prefix_append _ _).isInfix
    · rename_i hi
      have := blocks_headings cx hids d (b.count n) _ e h
      rw [count_headings, show n.headings + b.toc.length + (i - b.toc.length) = n.headings + i by omega] at this
      exact this.mono (List.suffix_append _ _).isInfix
private theorem panels_headings (cx : ShowCtx) (hids : cx.settings.useTrueIds = true) : ∀ (d : List (Block × Bool)) (x y z : Nat) (n : Tally) (i : Nat) (e : Nat × Str),
    (Block.toc.go d)[i]? = some e → HeadingIn cx (n.headings + i) e (Block.html.panels cx x y z n d)
  | [], x, y, z, n, i, e, h => by cases h
  | (b, t) :: d, x, y, z, n, i, e, h => by
    rw [Block.toc.go, List.getElem?_append] at h
    rw [Block.html.panels]
    split at h
    · exact (block_headings cx hids b n i e h).mono ((wrapAttrs_infix ..).trans (List.prefix_append _ _).isInfix)
    · rename_i hi
      have := panels_headings cx hids d x y (z + 1) (b.count n) _ e h
      rw [count_headings, show n.headings + b.toc.length + (i - b.toc.length) = n.headings + i by omega] at this
      exact this.mono (List.suffix_append _ _).isInfix
end

/-- A link of the table of contents. -/
def entryLink (i : Nat) (name : Str) : Str :=
  c!"<a href=\"#toc" ++ natToStr i ++ c!"\" class=\"wj-link wj-link-anchor\" data-link-type=\"table-of-contents\">" ++ strHtml name ++ c!"</a>"

private theorem strHtml_toc (n : Nat) : strHtml (c!"#toc" ++ natToStr n) = c!"#toc" ++ natToStr n := by
  have h : strHtml (c!"#toc" ++ natToStr n) = strHtml c!"#toc" ++ strHtml (natToStr n) := List.flatMap_append
  rw [h, strHtml_nat]
  rfl

private theorem entries_link (i : Nat) (name : Str) : ∀ (l : List (Nat × Str)) (depth k j : Nat) (d : Nat), l[j]? = some (d, name) → i = k + j →
    entryLink i name <:+: entriesHtml depth k l
  | [], _, _, _, _, h, _ => by cases h
  | (d, nm) :: l, depth, k, 0, d', h, e => by
    simp only [List.getElem?_cons_zero, Option.some.injEq, Prod.mk.injEq] at h
    obtain ⟨rfl, rfl⟩ := h
    obtain rfl : i = k := e
    rw [entriesHtml]
    refine .trans ?_ (List.prefix_append _ _).isInfix
    refine .trans ?_ (List.suffix_append _ _).isInfix
    refine ⟨c!"<li>", c!"</li>", ?_⟩
    have e1 : attrHtml (c!"href", c!"#toc" ++ natToStr i) = c!" href=\"#toc" ++ natToStr i ++ c!"\"" := by
      unfold attrHtml
      rw [if_neg (by simp), strHtml_toc]
      rfl
    have e2 : attrHtml (c!"class", c!"wj-link wj-link-anchor") = c!" class=\"wj-link wj-link-anchor\"" := by decide
    have e3 : attrHtml (c!"data-link-type", c!"table-of-contents") = c!" data-link-type=\"table-of-contents\"" := by decide
    simp only [entryLink, wrap, wrapAttrs, List.flatMap_cons, List.flatMap_nil, e1, e2, e3]
    simp
  | (d, nm) :: l, depth, k, j + 1, d', h, e => by
    have := entries_link i name l d (k + 1) j d' h (by omega)
    rw [entriesHtml]
    exact this.trans (List.suffix_append _ _).isInfix

private theorem gadget_link (cx : ShowCtx) {i : Nat} {d : Nat} {name : Str} (h : cx.entries[i]? = some (d, name)) (side : Option FloatAlign) (nm : Str)
    (args : List Arg) : entryLink i name <:+: gadgetHtml cx (.contents side nm args) := by
  have h1 := entries_link i name cx.entries 0 0 i d h (by omega)
  have hne : cx.entries ≠ [] := by rintro e; rw [e] at h; cases h
  unfold gadgetHtml
  refine .trans ?_ (wrapAttrs_infix ..)
  refine .trans ?_ (List.suffix_append _ _).isInfix
  refine .trans ?_ (wrapAttrs_infix ..)
  rw [if_neg hne]
  exact h1.trans (List.suffix_append _ _).isInfix

mutual
private theorem block_link (cx : ShowCtx) {i : Nat} {d : Nat} {name : Str} (h : cx.entries[i]? = some (d, name)) :
    ∀ (b : Block) (n : Tally), b.hasContents = true → entryLink i name <:+: b.html cx n
  | .gadget (.contents side nm args), n, _ => gadget_link cx h side nm args
  | .within (.tabs name close) body, n, hb => (panels_link cx h body _ _ _ _ hb).trans (tabs_infix ..)
  | .within (.tab a b c) body, n, hb => (blocks_link cx h body n hb).trans (section_infix cx.toCtx (.tab a b c) _)
  | .within (.box a b c) body, n, hb => (blocks_link cx h body n hb).trans (section_infix cx.toCtx (.box a b c) _)
  | .within (.align a) body, n, hb => (blocks_link cx h body n hb).trans (section_infix cx.toCtx (.align a) _)
  | .within (.collapsible a b c) body, n, hb => (blocks_link cx h body n hb).trans (section_infix cx.toCtx (.collapsible a b c) _)
private theorem blocks_link (cx : ShowCtx) {i : Nat} {d : Nat} {name : Str} (h : cx.entries[i]? = some (d, name)) :
    ∀ (l : List (Block × Bool)) (n : Tally), Block.hasContents.go l = true → entryLink i name <:+: Block.html.go cx n l
  | [], n, hb => by cases hb
  | (b, t) :: l, n, hb => by
    rw [Block.hasContents.go, Bool.or_eq_true] at hb
    rw [Block.html.go]
    rcases hb with hb | hb
    · exact (block_link cx h b n hb).trans (List.prefix_append _ _).isInfix
    · exact (blocks_link cx h l _ hb).trans (List.suffix_append _ _).isInfix
private theorem panels_link (cx : ShowCtx) {i : Nat} {d : Nat} {name : Str} (h : cx.entries[i]? = some (d, name)) :
    ∀ (l : List (Block × Bool)) (x y z : Nat) (n : Tally), Block.hasContents.go l = true → entryLink i name <:+: Block.html.panels cx x y z n l
  | [], _, _, _, n, hb => by cases hb
  | (b, t) :: l, x, y, z, n, hb => by
    rw [Block.hasContents.go, Bool.or_eq_true] at hb
    rw [Block.html.panels]
    rcases hb with hb | hb
    · exact (block_link cx h b n hb).trans ((wrapAttrs_infix ..).trans (List.prefix_append _ _).isInfix)
    · exact (panels_link cx h l _ _ _ _ hb).trans (List.suffix_append _ _).isInfix
end

/-- **C88** Every heading of a page that has an entry in the table of contents carries an id, and wherever the
page shows its table of contents, the entry of the heading is a link to just this id: the entry number `i` of the table, of
name `name`, links to `#toci`, and the HTML holds a heading with the id `toci` whose text is `name`. -/
theorem C88_contents_lead_to_headings {d : Page} (hd : d.ok = true) (w : HWorld) (info : PageInfo) (settings : Settings)
    (hname : d.fits ⟨settings, w.toWorld, info⟩ = true) (hids : settings.useTrueIds = true) :
    ∃ o, parse w.toWorld (tokenize d.write) info settings = some (.ok o) ∧
      ∀ n ≥ 3, ∃ out, htmlRender n w info settings o.tree = .ok out ∧
        ∀ i depth name, d.toc[i]? = some (depth, name) →
          (∃ level body k, (depth, name) = (level - 1, Inline.text.go body) ∧
            wrapWith (c!"h" ++ natToStr level) c!"id" (c!"toc" ++ natToStr i)
              (Inline.html.go (d.show ⟨⟨settings, w.toWorld, info⟩, w.pageExists, w.mathml, dummyAvatar, d.toc, w.randomId⟩) k body) <:+: out.body) ∧
          (Block.hasContents.go d = true → entryLink i name <:+: out.body) := by
  obtain ⟨o, ho, h⟩ := C72_html hd w info settings hname
  refine ⟨o, ho, fun n hn => ?_⟩
  obtain ⟨out, h1, h2, -⟩ := h n hn
  refine ⟨out, h1, fun i depth name hi => ?_⟩
  rw [h2]
  have hin : ∀ (cx : OutCtx), Block.html.go (d.show cx) ⟨0, 0, 0, 0, 0⟩ d <:+: d.html cx := fun cx =>
    (List.prefix_append _ _).isInfix.trans ⟨c!"<wj-body class=\"wj-body\">", c!"</wj-body>", by
      rw [Page.html, wrapWith]; simp [attrHtml]; first | done | rfl⟩
  constructor
  · obtain ⟨level, body, k, e1, e2⟩ := blocks_headings
      (d.show ⟨⟨settings, w.toWorld, info⟩, w.pageExists, w.mathml, dummyAvatar, d.toc, w.randomId⟩) hids d ⟨0, 0, 0, 0, 0⟩ i (depth, name) (by rw [toc_go]; exact hi)
    refine ⟨level, body, k, e1, ?_⟩
    have := e2.trans (hin _)
    simp only [Nat.zero_add] at this
    exact this
  · intro hc
    exact (blocks_link (d.show ⟨⟨settings, w.toWorld, info⟩, w.pageExists, w.mathml, dummyAvatar, d.toc, w.randomId⟩) (by exact hi) d ⟨0, 0, 0, 0, 0⟩ hc).trans (hin _)

example : gadgetPage.ok = true ∧ gadgetPage.fits ⟨Settings.fromMode .page .wikidot, plainWorld, somePage⟩ = true ∧
    (Settings.fromMode .page .wikidot).useTrueIds = true ∧ Block.hasContents.go gadgetPage = true ∧
    gadgetPage.toc[1]? = some (2, c!"B") := by decide +kernel

/-- Whether a text is part of another can be decided. -/
theorem infix_any (a b : Str) : a <:+: b ↔ (List.range (b.length + 1)).any (fun i => a.isPrefixOf (b.drop i)) = true := by
  simp only [List.any_eq_true, List.isPrefixOf_iff_prefix]
  constructor
  · rintro ⟨s, t, rfl⟩
    refine ⟨s.length, by simp; omega, ?_⟩
    rw [List.append_assoc, List.drop_left]
    exact List.prefix_append _ _
  · rintro ⟨i, -, h⟩
    exact h.isInfix.trans (List.drop_suffix _ _).isInfix

/-- **C88** Without true ids (as in the settings of a draft) the links of the table of contents lead nowhere: the entry
still links to `#toc0`, but the only ids in the HTML are generated ones. -/
theorem C88_draft_dangles :
    let settings := Settings.fromMode .draft .wikidot
    ∃ d : Page, d.ok = true ∧ d.fits ⟨settings, plainHWorld.toWorld, somePage⟩ = true ∧
      ∃ o out, parse plainHWorld.toWorld (tokenize d.write) somePage settings = some (.ok o) ∧
        htmlRender 3 plainHWorld somePage settings o.tree = .ok out ∧
        entryLink 0 c!"A" <:+: out.body ∧ ¬ c!"id=\"toc0\"" <:+: out.body := by
  let settings := Settings.fromMode .draft .wikidot
  let d : Page := [(.gadget (.contents none c!"toc" []), true), (.heading 1 true 0 [.plain (.word c!"A")], true)]
  have hd : d.ok = true := by decide +kernel
  have hf : d.fits ⟨settings, plainHWorld.toWorld, somePage⟩ = true := by decide +kernel
  obtain ⟨o, h1, h2⟩ := C72_html hd plainHWorld somePage settings hf
  obtain ⟨out, h3, h4, -⟩ := h2 3 (by omega)
  refine ⟨d, hd, hf, o, out, h1, h3, ?_⟩
  rw [h4]
  rw [infix_any, infix_any]
  decide +kernel

end Ftml
