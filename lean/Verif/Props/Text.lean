import Verif.Props.Parse
import Verif.Lemmas.TextSpec
/-
Properties of the text renderer (C49, C50, C66–C68) and losses of text in the parser (C40).
-/
namespace Ftml

/-! ### C40: markup that loses text -/

/-- C40: an unspaced list item after a spaced one loses its bullet. -/
theorem C40_list_bullet_lost : elementsAre (parsePage c!"* a\n*b")
    [.mk (.list .bullet []) [.mk (.item []) [eText c!"a"]], .mk (.container .paragraph []) [eText c!"b"],
     .mk (.footnoteBlock none false) []] = true := by decide +kernel

/-- C40: a heading without space after another heading loses its mark. -/
theorem C40_heading_mark_lost : elementsAre (parsePage c!"+ A\n+B")
    [.mk (.container (.header ⟨1, true⟩) []) [eText c!"A"], .mk (.container .paragraph []) [eText c!"B"],
     .mk (.footnoteBlock none false) []] = true := by decide +kernel

/-- C40: a definition without space after its second colon loses the first word of its value. -/
theorem C40_definition_value_lost : elementsAre (parsePage c!": k :value\n: a : b")
    [.mk .definitionList [
       .mk (.defItem c!"k") [.mk .defKey [eText c!"k"], .mk .defValue []],
       .mk (.defItem c!"a") [.mk .defKey [eText c!"a"], .mk .defValue [eText c!"b"]]],
     .mk (.footnoteBlock none false) []] = true := by decide +kernel

/-- C40: an unfinished last row of a table is lost. -/
theorem C40_table_row_lost : elementsAre (parsePage c!"||a||\n||b")
    [.mk (.table [(c!"class", c!"wj-table")]) [.mk (.row []) [.mk (.cell false 1 none []) [eText c!"a"]]],
     .mk (.footnoteBlock none false) []] = true := by decide +kernel

/-- C40: a row of a table with a blank after its last mark is lost, if it is not the first. -/
theorem C40_table_blank_row_lost : elementsAre (parsePage c!"||a||\n||b|| \nc")
    [.mk (.table [(c!"class", c!"wj-table")]) [.mk (.row []) [.mk (.cell false 1 none []) [eText c!"a"]]],
     .mk (.container .paragraph []) [eText c!"c"], .mk (.footnoteBlock none false) []] = true := by decide +kernel

/-- C40: a definition without a value takes the next definition for its value. -/
theorem C40_definition_taken : elementsAre (parsePage c!": a :\n: b : c")
    [.mk .definitionList [.mk (.defItem c!"a") [.mk .defKey [eText c!"a"], .mk .defValue [
       .mk .definitionList [.mk (.defItem c!"b") [.mk .defKey [eText c!"b"], .mk .defValue [eText c!"c"]]]]]],
     .mk (.footnoteBlock none false) []] = true := by decide +kernel

/-! ### Specification -/

/-- A node of the forest that the text renderer reaches: not below a hidden container, and not below an
element without contents. -/
inductive Shown (k : Kind) (ks : List Elem) : List Elem → Prop where
  | here {es} : Elem.mk k ks ∈ es → Shown k ks es
  | inside {es k' ks'} : Elem.mk k' ks' ∈ es → k'.isLeaf = false → (∀ a, k' ≠ .container .hidden a) →
      Shown k ks ks' → Shown k ks es

/-- A node that is shown and not below an invisible container either. -/
inductive Visible (k : Kind) (ks : List Elem) : List Elem → Prop where
  | here {es} : Elem.mk k ks ∈ es → Visible k ks es
  | inside {es k' ks'} : Elem.mk k' ks' ∈ es → k'.isLeaf = false → (∀ a, k' ≠ .container .hidden a) →
      (∀ a, k' ≠ .container .invisible a) → Visible k ks ks' → Visible k ks es

section
variable {w : World} {info : PageInfo}

/-! ### C49 -/

private theorem dropWhile_head {p : Char → Bool} (l : Str) : ∀ c, (l.dropWhile p).head? = some c → p c = false := by
  induction l with
  | nil => simp
  | cons x l ih =>
    intro c hc
    rw [List.dropWhile_cons] at hc
    split at hc
    · exact ih c hc
    · rename_i h
      simp only [List.head?_cons, Option.some.injEq] at hc
      subst hc
      simpa using h

/-- C49: rendered text neither starts nor ends with a newline. -/
theorem C49_no_outer_newlines {t : Tree} {s : Str} (h : textRender w info t = some s) :
    s.head? ≠ some '\n' ∧ s.getLast? ≠ some '\n' := by
  simp only [textRender, textRenderPartial, Option.map_eq_some_iff] at h
  obtain ⟨c, _, rfl⟩ := h
  refine ⟨fun hs => ?_, fun hs => ?_⟩
  · generalize hx : c.out.dropWhile (· == '\n') = x at hs
    have h1 : ((x.reverse.dropWhile (· == '\n')).reverse) <+: x := by
      have := List.dropWhile_suffix (l := x.reverse) (· == '\n')
      have := List.reverse_prefix.2 this
      simpa using this
    have h2 : x.head? = some '\n' := by
      obtain ⟨r, hr⟩ := h1
      rw [← hr, List.head?_append]
      simp [hs]
    have := dropWhile_head (p := (· == '\n')) c.out '\n' (by rw [hx]; exact h2)
    simp at this
  · rw [List.getLast?_reverse] at hs
    have := dropWhile_head (p := (· == '\n')) _ '\n' hs
    simp at this

/-- Throw away the contents of every hidden container. -/
def blankHidden : Elem → Elem
  | .mk (.container .hidden a) _ => .mk (.container .hidden a) []
  | .mk k ks => .mk k (go ks)
where
  /-- in a list -/
  go : List Elem → List Elem
    | [] => []
    | e :: es => blankHidden e :: go es

private theorem blank_isEmpty (ks : List Elem) : (blankHidden.go ks).isEmpty = ks.isEmpty := by
  cases ks <;> rfl

mutual
private theorem blank_elem (w : World) (site : Str) (e : Elem) :
    textElem w site (blankHidden e) = textElem w site e := by
  cases e with
  | mk k ks =>
    have ih := blank_list w site ks
    funext c
    cases k
    case container ct a =>
      cases ct <;> simp only [blankHidden, textElem, ih] <;> rfl
    all_goals simp only [blankHidden, textElem, ih, blank_isEmpty]
private theorem blank_list (w : World) (site : Str) (es : List Elem) :
    textElem.go w site (blankHidden.go es) = textElem.go w site es := by
  cases es with
  | nil => rfl
  | cons e es =>
    funext c
    simp only [blankHidden.go, textElem.go, blank_elem w site e, blank_list w site es]
end

/-- C49: the contents of hidden containers have no effect on the rendered text. -/
theorem C49_hidden_has_no_effect (t : Tree) :
    textRender w info { t with elements := blankHidden.go t.elements } = textRender w info t := by
  simp only [textRender, textRenderPartial, blank_list]

example : (resultOf (parsePage c!"a[[hidden]]secret[[/hidden]]b")).map (fun o => textRender plainWorld somePage o.tree) =
    some (some c!"ab") := by decide +kernel

/-! ### C50: panics of the text renderer -/

private theorem isCont_false {ct : CType} {k : Kind} (h : ∀ a, k ≠ .container ct a) : k.isCont ct = false := by
  unfold Kind.isCont
  split
  · rename_i c a
    simp only [decide_eq_false_iff_not]
    intro e
    exact h a (by rw [e])
  · rfl

private theorem isCont_ne {ct : CType} {k : Kind} (h : k.isCont ct = false) : ∀ a, k ≠ .container ct a := by
  rintro a rfl
  simp [Kind.isCont] at h

/-- The nodes on which the text renderer panics: partial elements, and links to a URL that are to be
labelled with the title of the page. -/
def TextPanics (k : Kind) : Prop := (∃ p, k = .part p) ∨ ∃ lt u x t, k = .link lt (.url u) x .page t

private theorem textBad_iff (k : Kind) : k.textBad = true ↔ TextPanics k := by
  unfold TextPanics Kind.textBad
  split
  · rename_i p
    exact ⟨fun _ => .inl ⟨p, rfl⟩, fun _ => rfl⟩
  · rename_i lt u x t
    exact ⟨fun _ => .inr ⟨lt, u, x, t, rfl⟩, fun _ => rfl⟩
  · rename_i h1 h2
    refine ⟨fun h => Bool.noConfusion h, ?_⟩
    rintro (⟨p, rfl⟩ | ⟨lt, u, x, t, rfl⟩)
    · exact (h1 p rfl).elim
    · exact (h2 lt u x t rfl).elim

private theorem go_none_of {site : Str} {es : List Elem} {e : Elem} (he : e ∈ es)
    (h : ∀ c, textElem w site e c = none) : ∀ c, textElem.go w site es c = none := by
  induction es with
  | nil => simp at he
  | cons x es ih =>
    intro c
    simp only [textElem.go]
    rcases List.mem_cons.1 he with rfl | he
    · rw [h c]; rfl
    · cases textElem w site x c with
      | none => rfl
      | some c1 => exact ih he c1

private theorem shown_none {site : Str} {k : Kind} {ks es : List Elem} (hs : Shown k ks es) (hk : TextPanics k) :
    ∀ c, textElem.go w site es c = none := by
  induction hs with
  | here hm => exact go_none_of hm fun c => textBad_none ((textBad_iff k).2 hk)
  | @inside es k' ks' hm hl hh _ ih =>
    refine go_none_of hm fun c => ?_
    by_cases hb : k'.textBad = true
    · exact textBad_none hb
    · simp only [Bool.not_eq_true] at hb
      obtain ⟨c1, fin, _, h2, _⟩ := textInner (w := w) (site := site) (ks := ks') (c := c) hl hb (isCont_false hh)
      exact h2 (ih c1)

mutual
private theorem elem_none {site : Str} (e : Elem) (c : TCtx) (h : textElem w site e c = none) :
    ∃ k ks, Shown k ks [e] ∧ TextPanics k := by
  cases e with
  | mk k ks =>
    have ih := fun c => go_none (site := site) ks c
    by_cases hb : k.textBad = true
    · exact ⟨k, ks, .here (by simp), (textBad_iff k).1 hb⟩
    · simp only [Bool.not_eq_true] at hb
      by_cases hl : k.isLeaf = true
      · obtain ⟨c1, e1, _⟩ := textLeaf (w := w) (site := site) (ks := ks) (c := c) hl hb
        rw [e1] at h; cases h
      · by_cases hh : k.isCont .hidden = true
        · rw [textHidden hh] at h; cases h
        · simp only [Bool.not_eq_true] at hl hh
          obtain ⟨c1, fin, h1, h2, h3, h4, h5⟩ := textInner (w := w) (site := site) (ks := ks) (c := c) hl hb hh
          cases hg : textElem.go w site ks c1 with
          | none =>
            obtain ⟨k', ks', hs, hp⟩ := ih c1 hg
            exact ⟨k', ks', .inside (by simp) hl (isCont_ne hh) hs, hp⟩
          | some c2 =>
            rw [h1 c2 hg (textGo_le ks c1 c2 hg).scopes] at h
            cases h
private theorem go_none {site : Str} (es : List Elem) (c : TCtx) (h : textElem.go w site es c = none) :
    ∃ k ks, Shown k ks es ∧ TextPanics k := by
  cases es with
  | nil => cases h
  | cons e es =>
    simp only [textElem.go] at h
    have mono : ∀ {k ks es es'}, (∀ x ∈ es, x ∈ es') → Shown k ks es → Shown k ks es' := by
      intro k ks es es' hs h
      cases h with
      | here hm => exact .here (hs _ hm)
      | inside hm a b c => exact .inside (hs _ hm) a b c
    cases he : textElem w site e c with
    | none =>
      obtain ⟨k, ks, h1, h2⟩ := elem_none e c he
      exact ⟨k, ks, mono (by simp) h1, h2⟩
    | some c1 =>
      rw [he] at h
      obtain ⟨k, ks, h1, h2⟩ := go_none es c1 h
      exact ⟨k, ks, mono (fun x hx => List.mem_cons_of_mem _ hx) h1, h2⟩
end

/-- C50: the text renderer panics exactly when it reaches a partial element or a link to a URL to be
labelled with a page title. -/
theorem C50_text_panics_iff (t : Tree) :
    textRender w info t = none ↔ ∃ k ks, Shown k ks t.elements ∧ TextPanics k := by
  simp only [textRender, textRenderPartial, Option.map_eq_none_iff]
  constructor
  · exact go_none _ _
  · rintro ⟨k, ks, h1, h2⟩
    exact shown_none h1 h2 _

/-- C50: `parse` returns such trees: a list item in a list item. -/
theorem C50_nested_items_panic :
    (resultOf (parsePage c!"[[ul]][[li]][[li]]x[[/li]][[/li]][[/ul]]")).map
      (fun o => textRender plainWorld somePage o.tree) = some none := by decide +kernel

/-- C50: and a link with a blank label. -/
theorem C50_blank_label_panics :
    (resultOf (parsePage c!"[[[https://example.com|]]]")).map
      (fun o => textRender plainWorld somePage o.tree) = some none := by decide +kernel

/-! ### C66 -/

private theorem shown_occurs {k : Kind} {ks es : List Elem} (h : Shown k ks es) : Occurs k ks es := by
  induction h with
  | here hm => exact .here hm
  | inside hm _ _ _ ih => exact .inside hm ih

/-- C66: the tree parsed from a text renders to text without panic, if the text opens no block for a part
of a list, table, tab view or ruby annotation, and has no triple link with a blank label. -/
theorem C66_parsed_text_renders {text : Str} {settings : Settings} {o : Outcome} {w' : World} {info' : PageInfo}
    (h : parse w' (tokenize text) info' settings = some (.ok o))
    (h1 : ¬ OpensOne text allPartBlocks)
    (h2 : ¬ HasBlankLabel text) : ∃ s, textRender w info o.tree = some s := by
  cases hr : textRender w info o.tree with
  | some s => exact ⟨s, rfl⟩
  | none =>
    obtain ⟨k, ks, hs, hp⟩ := (C50_text_panics_iff o.tree).1 hr
    have ho := shown_occurs hs
    rcases hp with ⟨p, rfl⟩ | ⟨lt, u, x, t, rfl⟩
    · rcases C62_origin_of_elements h .body ho (names := partBlocks p) rfl with ⟨n, hn, hb⟩ | ⟨_, h, _⟩
      · exact (h1 (opens_part ⟨n, hn, hb⟩)).elim
      · cases h
    · exact (h2 (C65_page_label h .body ho)).elim

/-- The hypotheses of C66 hold of any text without brackets, such as this one. -/
example : (∃ o, resultOf (parsePage c!"**a** b\n* c") = some o) ∧ ¬ OpensOne c!"**a** b\n* c" allPartBlocks ∧
    ¬ HasBlankLabel c!"**a** b\n* c" := by
  have hb : '[' ∉ c!"**a** b\n* c" := by decide
  refine ⟨Option.isSome_iff_exists.1 (by decide +kernel), ?_, ?_⟩
  · rintro ⟨n, _, pre, star, ws, nm, post, e, _⟩
    rw [e] at hb
    simp at hb
  · rintro ⟨pre, t, ws, post, e, _⟩
    rw [e] at hb
    simp at hb

/-! ### C67, C68 -/

private theorem visible_out {site : Str} {s : Str} {ks es : List Elem} {k : Kind} (hs : Visible k ks es)
    (hk : k = .text s ∨ k = .raw s) : ∀ c c', textElem.go w site es c = some c' → c.invisible = 0 → s <:+: c'.out := by
  have pick : ∀ {es : List Elem} {e : Elem}, e ∈ es → (∀ c c', textElem w site e c = some c' → c.invisible = 0 → s <:+: c'.out) →
      ∀ c c', textElem.go w site es c = some c' → c.invisible = 0 → s <:+: c'.out := by
    intro es e he h
    induction es with
    | nil => simp at he
    | cons x es ih =>
      intro c c' hg hi
      simp only [textElem.go] at hg
      cases hx : textElem w site x c with
      | none => rw [hx] at hg; cases hg
      | some c1 =>
        rw [hx] at hg
        rcases List.mem_cons.1 he with rfl | he
        · exact (h c c1 hx hi).trans (textGo_le es c1 c' hg).out.isInfix
        · exact ih he c1 c' hg ((textElem_le x c c1 hx).inv.trans hi)
  induction hs with
  | here hm =>
    refine pick hm ?_
    intro c c' h hi
    have : c' = c.pushStr s := by rcases hk with rfl | rfl <;> simpa [textElem] using h.symm
    rw [this]
    simp only [TCtx.pushStr, hi, Nat.lt_irrefl, if_false]
    exact (List.suffix_append ..).isInfix
  | @inside es k' ks' hm hl hh hv _ ih =>
    refine pick hm ?_
    intro c c' h hi
    by_cases hb : k'.textBad = true
    · rw [textBad_none hb] at h; cases h
    · simp only [Bool.not_eq_true] at hb
      obtain ⟨c1, fin, h1, h2, h3, h4, h5⟩ := textInner (w := w) (site := site) (ks := ks') (c := c) hl hb
        (isCont_false hh)
      rw [isCont_false hv, hi] at h4
      cases hg : textElem.go w site ks' c1 with
      | none => rw [h2 hg] at h; cases h
      | some c2 =>
        have hle := textGo_le ks' c1 c2 hg
        rw [h1 c2 hg hle.scopes] at h
        simp only [Option.some.injEq] at h
        rw [← h]
        exact (ih c1 c2 hg h4).trans (h5 c2 hle).1.pre.isInfix

private theorem infix_trimmed {s out : Str} (h : s <:+: out) (hn : '\n' ∉ s) :
    s <:+: ((out.dropWhile (· == '\n')).reverse.dropWhile (· == '\n')).reverse := by
  have left : ∀ {s out : Str}, s <:+: out → '\n' ∉ s → s <:+: out.dropWhile (· == '\n') := by
    intro s out h hn
    cases s with
    | nil => exact List.nil_infix
    | cons a s =>
      obtain ⟨x, y, e⟩ := h
      subst e
      induction x with
      | nil =>
        have : (a == '\n') = false := by
          simp only [beq_eq_false_iff_ne, ne_eq]
          rintro rfl; simp at hn
        simp only [List.nil_append, List.cons_append, List.dropWhile_cons, this, Bool.false_eq_true, if_false]
        exact ⟨[], y, by simp⟩
      | cons b x ih =>
        simp only [List.cons_append, List.dropWhile_cons]
        split
        · simpa using ih
        · exact ⟨b :: x, y, by simp⟩
  have h1 := left h hn
  have h2 : s.reverse <:+: ((out.dropWhile (· == '\n')).reverse) := List.reverse_infix.2 h1
  have h3 := left h2 (by simpa using hn)
  have := List.reverse_infix.2 h3
  simpa using this

/-- C67: every visible text of the tree is in the rendered text, character by character. -/
theorem C67_visible_text_kept {t : Tree} {out s : Str} {ks : List Elem} (h : textRender w info t = some out)
    (hs : Visible (.text s) ks t.elements ∨ Visible (.raw s) ks t.elements) (hn : '\n' ∉ s) : s <:+: out := by
  simp only [textRender, textRenderPartial, Option.map_eq_some_iff] at h
  obtain ⟨c, hg, rfl⟩ := h
  refine infix_trimmed ?_ hn
  rcases hs with hs | hs
  · exact visible_out hs (.inl rfl) _ c hg rfl
  · exact visible_out hs (.inr rfl) _ c hg rfl

example : (resultOf (parsePage c!"a//b **cd**//")).map (fun o => textRender plainWorld somePage o.tree) =
    some (some c!"ab cd") := by decide +kernel

example : Visible (.text c!"cd") [] [.mk (.container .italics []) [.mk (.container .bold []) [.mk (.text c!"cd") []]]] :=
  .inside (.head _) rfl (by simp) (by simp) (.inside (.head _) rfl (by simp) (by simp) (.here (.head _)))

mutual
private theorem quiet_elem {site : Str} (e : Elem) (c c' : TCtx) (h : textElem w site e c = some c')
    (hq : ∀ k ks, Occurs k ks [e] → k.loud = false) : TQ c c' := by
  cases e with
  | mk k ks =>
    have ih := fun c c' => quiet_go (site := site) ks c c'
    by_cases hb : k.textBad = true
    · rw [textBad_none hb] at h; cases h
    · simp only [Bool.not_eq_true] at hb
      by_cases hl : k.isLeaf = true
      · obtain ⟨c1, e1, h1, h2⟩ := textLeaf (w := w) (site := site) (ks := ks) (c := c) hl hb
        rw [e1] at h
        simp only [Option.some.injEq] at h
        exact h ▸ h2 (hq k ks (.here (by simp)))
      · by_cases hh : k.isCont .hidden = true
        · rw [textHidden hh] at h
          simp only [Option.some.injEq] at h
          exact h ▸ .refl c
        · simp only [Bool.not_eq_true] at hl hh
          obtain ⟨c1, fin, h1, h2, h3, h4, h5⟩ := textInner (w := w) (site := site) (ks := ks) (c := c) hl hb hh
          cases hg : textElem.go w site ks c1 with
          | none => rw [h2 hg] at h; cases h
          | some c2 =>
            have hle := textGo_le ks c1 c2 hg
            rw [h1 c2 hg hle.scopes] at h
            simp only [Option.some.injEq] at h
            obtain ⟨h6, h7, h8⟩ := h5 c2 hle
            have hk := ih c1 c2 hg (fun k' ks' ho => hq k' ks' (.inside (List.mem_cons_self ..) ho))
            rw [← h]
            exact (h3.trans (by omega) hk).trans (by rw [hle.inv]; omega) h6
private theorem quiet_go {site : Str} (es : List Elem) (c c' : TCtx) (h : textElem.go w site es c = some c')
    (hq : ∀ k ks, Occurs k ks es → k.loud = false) : TQ c c' := by
  cases es with
  | nil =>
    simp only [textElem.go, Option.some.injEq] at h
    exact h ▸ .refl c
  | cons e es =>
    simp only [textElem.go] at h
    cases he : textElem w site e c with
    | none => rw [he] at h; cases h
    | some c1 =>
      rw [he] at h
      have mono : ∀ {k ks es es'}, (∀ x ∈ es, x ∈ es') → Occurs k ks es → Occurs k ks es' := by
        intro k ks es es' hs h
        cases h with
        | here hm => exact .here (hs _ hm)
        | inside hm a => exact .inside (hs _ hm) a
      have hle := textElem_le e c c1 he
      exact (quiet_elem e c c1 he fun k ks ho => hq k ks (mono (by simp) ho)).trans (by rw [hle.inv]; exact id)
        (quiet_go es c1 c' h fun k ks ho => hq k ks (mono (fun x hx => List.mem_cons_of_mem _ hx) ho))
end

private theorem invisible_go {site : Str} : ∀ (es : List Elem) (c c' : TCtx), textElem.go w site es c = some c' →
    (∀ e ∈ es, ∃ a ks, e = .mk (.container .invisible a) ks) →
    (∀ k ks, Occurs k ks es → k.loud = false) →
    ∃ x, c'.out = c.out ++ x ∧ ∀ ch ∈ x, ch = ' ' ∨ ch = '\n'
  | [], c, c', h, _, _ => by
    simp only [textElem.go, Option.some.injEq] at h
    exact ⟨[], by simp [h], by simp⟩
  | e :: es, c, c', h, hi, hq => by
    simp only [textElem.go] at h
    obtain ⟨a, ks, rfl⟩ := hi e (by simp)
    cases he : textElem w site (.mk (.container .invisible a) ks) c with
    | none => rw [he] at h; cases h
    | some c1 =>
      rw [he] at h
      obtain ⟨y, e2, h2⟩ := invisible_go es c1 c' h (fun e he => hi e (by simp [he]))
        (fun k ks ho => hq k ks (by
          cases ho with
          | here hm => exact .here (by simp [hm])
          | inside hm a => exact .inside (List.mem_cons_of_mem _ hm) a))
      have h1 : ∃ x, c1.out = c.out ++ x ∧ ∀ ch ∈ x, ch = ' ' ∨ ch = '\n' := by
        have : textElem w site (.mk (.container .invisible a) ks) c =
            (textElem.go w site ks { c with invisible := c.invisible + 1 }).map
              fun c2 => { c2 with invisible := c2.invisible - 1 } := rfl
        rw [this, Option.map_eq_some_iff] at he
        obtain ⟨c2, hg, rfl⟩ := he
        obtain ⟨x, e, hx⟩ := quiet_go ks _ c2 hg (fun k' ks' ho => hq k' ks' (.inside (List.mem_cons_self ..) ho))
        exact ⟨x, e, hx (by simp)⟩
      obtain ⟨x, e1, h1⟩ := h1
      refine ⟨x ++ y, by rw [e2, e1]; simp, fun ch hc => ?_⟩
      rcases List.mem_append.1 hc with hc | hc
      · exact h1 ch hc
      · exact h2 ch hc

/-- C68: invisible containers leave only spaces and newlines in the rendered text, unless they hold a
date or a reference to an equation. -/
theorem C68_invisible_is_blank {t : Tree} {out : Str} (h : textRender w info t = some out)
    (ht : ∀ e ∈ t.elements, ∃ a ks, e = .mk (.container .invisible a) ks)
    (hq : ∀ k ks, Occurs k ks t.elements → (∀ v f b, k ≠ .date v f b) ∧ ∀ n, k ≠ .equationRef n) :
    ∀ ch ∈ out, ch = ' ' ∨ ch = '\n' := by
  simp only [textRender, textRenderPartial, Option.map_eq_some_iff] at h
  obtain ⟨c, hg, rfl⟩ := h
  obtain ⟨x, e, hx⟩ := invisible_go _ _ c hg ht (fun k ks ho => by
    have := hq k ks ho
    unfold Kind.loud
    split
    · exact (this.1 _ _ _ rfl).elim
    · exact (this.2 _ rfl).elim
    · rfl)
  intro ch hc
  rw [List.nil_append] at e
  rw [e] at hc
  rw [List.mem_reverse] at hc
  have hc := (List.dropWhile_suffix _).subset hc
  rw [List.mem_reverse] at hc
  exact hx ch ((List.dropWhile_suffix _).subset hc)

example : (resultOf (parsePage c!"a[[invisible]]b//c//[[/invisible]]d")).map
      (fun o => textRender plainWorld somePage o.tree) = some (some c!"a  d") := by decide +kernel

/-- C68: a reference to an equation is not invisible in an invisible container. -/
theorem C68_equation_reference_leaks :
    (resultOf (parsePage c!"[[invisible]]abc [[eref x]][[/invisible]] d")).map
      (fun o => textRender plainWorld somePage o.tree) = some (some c!"    [x] d") := by decide +kernel

end
end Ftml
