import Verif.Props.Safe
import Verif.Props.Includes
/-
C82: where the ids of a rendered page come from.  C83: where its images come from.  C84: what is kept out of drafts,
lists, posts and messages.
-/
namespace Ftml
open HtmlSpec

/-! ### Words of a string -/

private theorem splitWS_go_append (acc a b : Str) :
    splitWS.go acc (a ++ ' ' :: b) = splitWS.go acc a ++ splitWS.go [] b := by
  induction a generalizing acc with
  | nil =>
    have : isWS ' ' = true := by decide
    simp only [List.nil_append, splitWS.go, this, if_true]
    split <;> simp
  | cons c a ih =>
    rw [List.cons_append, splitWS.go, splitWS.go]
    split
    · split
      · exact ih _
      · rw [ih]; rfl
    · exact ih _

private theorem splitWS_append (a b : Str) : splitWS (a ++ ' ' :: b) = splitWS a ++ splitWS b :=
  splitWS_go_append [] a b

private theorem splitWS_go_word (acc w : Str) (hw : ∀ c ∈ w, isWS c = false) :
    splitWS.go acc w = if w.isEmpty && acc.isEmpty then [] else [acc.reverse ++ w] := by
  induction w generalizing acc with
  | nil => simp [splitWS.go]
  | cons c w ih =>
    simp only [List.mem_cons, forall_eq_or_imp] at hw
    rw [splitWS.go, if_neg (by simp [hw.1]), ih _ hw.2]
    simp

private theorem splitWS_word {w : Str} (hw : ∀ c ∈ w, isWS c = false) (hn : w ≠ []) : splitWS w = [w] := by
  rw [splitWS, splitWS_go_word [] w hw]
  cases w with
  | nil => exact (hn rfl).elim
  | cons => simp

private theorem noNul_id {s : Str} (h : ∀ c ∈ s, c.toNat ≠ 0) : noNul s = s := by
  unfold noNul
  induction s with
  | nil => rfl
  | cons c s ih =>
    simp only [List.mem_cons, forall_eq_or_imp] at h
    rw [List.map_cons, if_neg h.1, ih h.2]

/-! ### C82 -/

/-- An id the renderer makes up: of a heading, a tab, a part of the table of contents, or an entry of a
bibliography. -/
def OwnWord (x : Str) : Prop :=
  (∃ n, x = c!"toc" ++ natToStr n) ∨ (∃ r, (∀ c ∈ r, c.isAlphanum = true) ∧ x = c!"wj-id-" ++ r) ∨
  x ∈ [c!"wj-toc", c!"wj-toc-action-bar", c!"wj-toc-list"] ∨
  ∃ i j, x = c!"wj-bibliography-item-" ++ natToStr i ++ c!"-" ++ natToStr j ∨ x = c!"bibitem-" ++ natToStr i ++ c!"-" ++ natToStr j

/-- C82: an isolated id, which begins with `u-`, is never one that the renderer makes up. -/
theorem C82_prefixed_is_not_generated {x : Str} (h : c!"u-" <+: x) : ¬ OwnWord x := by
  obtain ⟨r, rfl⟩ := h
  rintro (⟨n, h⟩ | ⟨r, _, h⟩ | h | ⟨i, j, h | h⟩)
  all_goals simp at h

private theorem digit_plain {c : Char} (h : c.isDigit = true) : isWS c = false ∧ c.toNat ≠ 0 := by
  simp only [Char.isDigit, Bool.and_eq_true, decide_eq_true_eq] at h
  have h1 : 48 ≤ c.toNat := h.1
  have h2 : c.toNat ≤ 57 := h.2
  refine ⟨?_, by omega⟩
  simp [isWS]
  omega

private theorem alnum_plain {c : Char} (h : c.isAlphanum = true) : isWS c = false ∧ c.toNat ≠ 0 := by
  have h1 : 48 ≤ c.toNat ∧ c.toNat ≤ 122 := by
    simp only [Char.isAlphanum, Char.isAlpha, Char.isUpper, Char.isLower, Char.isDigit, Bool.or_eq_true,
      Bool.and_eq_true, decide_eq_true_eq] at h
    rcases h with (⟨h1, h2⟩ | ⟨h1, h2⟩) | ⟨h1, h2⟩
    · have a : 65 ≤ c.toNat := h1
      have b : c.toNat ≤ 90 := h2
      omega
    · have a : 97 ≤ c.toNat := h1
      have b : c.toNat ≤ 122 := h2
      omega
    · have a : 48 ≤ c.toNat := h1
      have b : c.toNat ≤ 57 := h2
      omega
  refine ⟨?_, by omega⟩
  simp [isWS]
  omega

private theorem nat_plain (n : Nat) : ∀ c ∈ natToStr n, isWS c = false ∧ c.toNat ≠ 0 := fun _ hc =>
  digit_plain (Nat.isDigit_of_mem_toDigits (by decide) (by decide) hc)

private theorem own_words {g : Str} {b : Bool} (h : OwnId b g) : (∀ c ∈ g, c.toNat ≠ 0) ∧ ∀ x ∈ splitWS g, OwnWord x := by
  have word : ∀ g : Str, (∀ c ∈ g, isWS c = false ∧ c.toNat ≠ 0) → g ≠ [] → OwnWord g →
      (∀ c ∈ g, c.toNat ≠ 0) ∧ ∀ x ∈ splitWS g, OwnWord x := by
    intro g h1 h2 h3
    refine ⟨fun c hc => (h1 c hc).2, fun x hx => ?_⟩
    rw [splitWS_word (fun c hc => (h1 c hc).1) h2, List.mem_singleton] at hx
    exact hx ▸ h3
  have lit : ∀ c ∈ c!"toc" ++ c!"wj-id-" ++ c!"wj-bibliography-item-" ++ c!"bibitem-" ++ c!"-",
      isWS c = false ∧ c.toNat ≠ 0 := by decide
  rcases h with ⟨_, n, rfl⟩ | ⟨r, hr, rfl⟩ | ⟨_, h⟩ | ⟨i, j, rfl⟩
  · refine word _ (fun c hc => ?_) (by simp) (.inl ⟨n, rfl⟩)
    rcases List.mem_append.1 hc with h | h
    · exact lit c (by revert h; simp; rintro (h | h | h) <;> simp [h])
    · exact nat_plain n c h
  · refine word _ (fun c hc => ?_) (by simp) (.inr (.inl ⟨r, hr, rfl⟩))
    rcases List.mem_append.1 hc with h | h
    · exact lit c (by revert h; simp; rintro (h | h | h | h | h | h) <;> simp [h])
    · exact alnum_plain (hr c h)
  · refine word _ ?_ ?_ (.inr (.inr (.inl h)))
    · simp only [List.mem_cons, List.not_mem_nil, or_false] at h
      rcases h with rfl | rfl | rfl <;> decide
    · rintro rfl; simp at h
  · have key : ∀ p : Str, (∀ c ∈ p, c ∈ c!"wj-bibliography-item-" ++ c!"bibitem-") →
        ∀ c ∈ p ++ natToStr i ++ c!"-" ++ natToStr j, isWS c = false ∧ c.toNat ≠ 0 := by
      intro p hp c hc
      simp only [List.mem_append] at hc
      rcases hc with ((h | h) | h) | h
      · refine lit c ?_
        have := hp c h
        simp only [List.mem_append] at this ⊢
        rcases this with h | h <;> simp [h]
      · exact nat_plain i c h
      · exact lit c (by simp only [List.mem_append]; exact .inr h)
      · exact nat_plain j c h
    have k1 := key c!"wj-bibliography-item-" (fun c hc => List.mem_append_left _ hc)
    have k2 := key c!"bibitem-" (fun c hc => List.mem_append_right _ hc)
    have e : c!"wj-bibliography-item-" ++ (natToStr i ++ '-' :: natToStr j) ++ c!" bibitem-" ++
        (natToStr i ++ '-' :: natToStr j) =
        (c!"wj-bibliography-item-" ++ natToStr i ++ c!"-" ++ natToStr j) ++ ' ' ::
          (c!"bibitem-" ++ natToStr i ++ c!"-" ++ natToStr j) := by simp [List.append_assoc]
    have h1 := word _ k1 (by simp) (.inr (.inr (.inr ⟨i, j, .inl rfl⟩)))
    have h2 := word _ k2 (by simp) (.inr (.inr (.inr ⟨i, j, .inr rfl⟩)))
    rw [e, splitWS_append]
    refine ⟨fun c hc => ?_, fun x hx => ?_⟩
    · rcases List.mem_append.1 hc with h | h
      · exact h1.1 c h
      · rcases List.mem_cons.1 h with rfl | h
        · decide
        · exact h2.1 c h
    · rcases List.mem_append.1 hx with h | h
      · exact h1.2 x h
      · exact h2.2 x h

private theorem splitWS_sub (s : Str) : ∀ x ∈ splitWS s, ∀ c ∈ x, c ∈ s := by
  have key : ∀ acc s, ∀ x ∈ splitWS.go acc s, ∀ c ∈ x, c ∈ acc ∨ c ∈ s := by
    intro acc s
    induction s generalizing acc with
    | nil =>
      intro x hx c hc
      unfold splitWS.go at hx
      split at hx
      · cases hx
      · rw [List.mem_singleton] at hx
        subst hx
        exact .inl (List.mem_reverse.1 hc)
    | cons d s ih =>
      intro x hx c hc
      unfold splitWS.go at hx
      split at hx
      · split at hx
        · rcases ih _ x hx c hc with h | h
          · cases h
          · exact .inr (by simp [h])
        · rcases List.mem_cons.1 hx with rfl | hx
          · exact .inl (List.mem_reverse.1 hc)
          · rcases ih _ x hx c hc with h | h
            · cases h
            · exact .inr (by simp [h])
      · rcases ih _ x hx c hc with h | h
        · rcases List.mem_cons.1 h with rfl | h
          · exact .inr (by simp)
          · exact .inl h
        · exact .inr (by simp [h])
  intro x hx c hc
  rcases key [] s x hx c hc with h | h
  · cases h
  · exact h

private theorem isolate_noNul {s : Str} (h : ∀ c ∈ s, c.toNat ≠ 0) : ∀ c ∈ isolateIds s, c.toNat ≠ 0 := by
  have key : ∀ (ws : List Str) (acc : Str), (∀ x ∈ ws, ∀ c ∈ x, c.toNat ≠ 0) → (∀ c ∈ acc, c.toNat ≠ 0) →
      ∀ c ∈ ws.foldl (fun acc cls =>
        let acc := if acc.isEmpty then acc else acc ++ c!" "
        let acc := if startsWith cls c!"u-" then acc else acc ++ c!"u-"
        acc ++ cls) acc, c.toNat ≠ 0 := by
    intro ws
    induction ws with
    | nil => intro acc _ h; exact h
    | cons x ws ih =>
      intro acc h1 h2
      refine ih _ (fun y hy => h1 y (by simp [hy])) ?_
      intro c hc
      dsimp only at hc
      have lit : ∀ c ∈ c!" " ++ c!"u-", c.toNat ≠ 0 := by decide
      have ha : ∀ c ∈ (if acc.isEmpty then acc else acc ++ c!" "), c.toNat ≠ 0 := by
        intro c hc
        split at hc
        · exact h2 c hc
        · rcases List.mem_append.1 hc with h | h
          · exact h2 c h
          · exact lit c (List.mem_append_left _ h)
      rcases List.mem_append.1 hc with h | h
      · split at h
        · exact ha c h
        · rcases List.mem_append.1 h with h | h
          · exact ha c h
          · exact lit c (List.mem_append_right _ h)
      · exact h1 x (by simp) c h
  unfold isolateIds
  exact key _ _ (fun x hx c hc => h c (splitWS_sub s x hx c hc)) (by simp)

private theorem unescape_noNul (s : Str) (b : Bool) (h : ∀ c ∈ s, c.toNat ≠ 0) : ∀ c ∈ unescapeLoop b s, c.toNat ≠ 0 := by
  induction s generalizing b with
  | nil => cases b <;> simp [unescapeLoop]
  | cons d s ih =>
    simp only [List.mem_cons, forall_eq_or_imp] at h
    cases b with
    | false =>
      unfold unescapeLoop
      split
      · exact ih _ h.2
      · intro c hc
        rcases List.mem_cons.1 hc with rfl | hc
        · exact h.1
        · exact ih _ h.2 c hc
    | true =>
      unfold unescapeLoop
      split
      · next r he =>
        intro c hc
        rcases List.mem_cons.1 hc with rfl | hc
        · unfold escapeChar at he
          repeat' split at he
          all_goals first | (cases he; decide) | cases he
        · exact ih _ h.2 c hc
      · intro c hc
        rcases List.mem_cons.1 hc with rfl | hc
        · decide
        · rcases List.mem_cons.1 hc with rfl | hc
          · exact h.1
          · exact ih _ h.2 c hc

private theorem parseString_noNul {s : Str} (h : ∀ c ∈ s, c.toNat ≠ 0) :
    ∀ c ∈ parseString (c!"\"" ++ s ++ c!"\""), c.toNat ≠ 0 := by
  have e : sliceMiddle (c!"\"" ++ s ++ c!"\"") = some s := by
    simp [sliceMiddle, List.cons_append]
  unfold parseString
  rw [e]
  dsimp only
  split
  · exact unescape_noNul s false h
  · exact h

section
variable {text : Str} {w' : World} {info' : PageInfo} {settings' : Settings} {pr : Outcome}
  {n : Nat} {w : HWorld} {info : PageInfo} {settings : Settings} {t : Tree} {o : HtmlOutput}

/-- C82: every id of the rendered body is that of an element or an anchor of the tree, or one the renderer makes up,
or one of the latter two followed by one of the first. -/
theorem C82_ids (hw : WorldOk w) (hp : PlainTree t) (h : htmlRender n w info settings t = .ok o)
    {evs : List Ev} (hr : readHtml o.body = some evs) {tg : Str} {as : List (Str × Str)} (hm : Ev.start tg as ∈ evs)
    (hmath : tg ∉ mathTags) {v : Str} (hv : (c!"id", v) ∈ as) :
    (∃ es k ks x, t.Forest es ∧ Occurs k ks es ∧ (c!"id", x) ∈ k.attrs ∧ v = noNul x) ∨
    ∃ g, (OwnId settings.useTrueIds g ∨ ∃ es ks, t.Forest es ∧ Occurs (.anchorName g) ks es) ∧
      (v = noNul g ∨ ∃ es k ks x, t.Forest es ∧ Occurs k ks es ∧ (c!"id", x) ∈ k.attrs ∧ v = noNul (g ++ c!" " ++ x)) := by
  rcases C44_tags_and_attributes hw hp h hr hm with h | h
  · exact (hmath h).elim
  · rcases h.id v hv with ⟨x, ⟨es, k, ks, h1, h2, h3⟩, h4⟩ | ⟨g, hg, h1⟩
    · exact .inl ⟨es, k, ks, x, h1, h2, h3, h4⟩
    · refine .inr ⟨g, hg, h1.imp id ?_⟩
      rintro ⟨x, ⟨es, k, ks, h1, h2, h3⟩, h4⟩
      exact ⟨es, k, ks, x, h1, h2, h3, h4⟩

/-- C82: if ids are isolated, then every id on a page rendered from a text (without NUL, which preprocessing replaces)
either begins with `u-` or is one that the renderer makes up; no id is both (`C82_prefixed_is_not_generated`). -/
theorem C82_isolated (hw : WorldOk w) (hn : ∀ c ∈ text, c.toNat ≠ 0)
    (hi : settings'.isolateUserIds = true) (h : parse w' (tokenize text) info' settings' = some (.ok pr))
    (hp : PlainTree pr.tree) (hr : htmlRender n w info settings pr.tree = .ok o) {evs : List Ev} (he : readHtml o.body = some evs)
    {tg : Str} {as : List (Str × Str)} (hm : Ev.start tg as ∈ evs) (hmath : tg ∉ mathTags) {v : Str}
    (hv : (c!"id", v) ∈ as) {x : Str} (hx : x ∈ splitWS v) : c!"u-" <+: x ∨ OwnWord x := by
  have attr : ∀ es k ks y, pr.tree.Forest es → Occurs k ks es → (c!"id", y) ∈ k.attrs →
      noNul y = y ∧ ∀ x ∈ splitWS y, c!"u-" <+: x := by
    intro es k ks y hf ho hy
    refine ⟨noNul_id ?_, ((C32_attributes_safe h hf ho).2 _ _ hy).2.2.2.1 hi rfl⟩
    rcases C80_attributes_written h hf ho hy with ⟨h, _⟩ | ⟨h, _⟩ | ⟨a, body, ⟨_, s1, s2, _, hb, _⟩, _, hval⟩
    · exact absurd h (by decide)
    · exact absurd h (by decide)
    · have hbody : ∀ c ∈ body, c.toNat ≠ 0 := fun c hc => hn c (hb.subset (by simp [hc]))
      rcases hval with ⟨h1, _⟩ | ⟨h1, _⟩ | ⟨_, _, h1⟩ | ⟨_, h1, _⟩
      · exact absurd h1 (by decide +kernel)
      · exact absurd h1 (by decide +kernel)
      · rw [h1]
        exact isolate_noNul (parseString_noNul hbody)
      · rw [h1 rfl] at hi; cases hi
  have name : ∀ es ks g, pr.tree.Forest es → Occurs (.anchorName g) ks es →
      (∀ c ∈ g, c.toNat ≠ 0) ∧ ∀ x ∈ splitWS g, c!"u-" <+: x := by
    intro es ks g hf ho
    obtain ⟨y, hy, rfl⟩ := (C81_other_strings h hf).2.2.2.2.2.2.2.2.2.2 g ho
    rw [if_pos hi]
    exact ⟨isolate_noNul fun c hc => hn c (hy.1.subset hc), (C13_all_prefixed y).2⟩
  rcases C82_ids hw hp hr he hm hmath hv with ⟨es, k, ks, y, hf, ho, hy, rfl⟩ | ⟨g, hg, h1⟩
  · have := attr es k ks y hf ho hy
    rw [this.1] at hx
    exact .inl (this.2 x hx)
  · have hg' : (∀ c ∈ g, c.toNat ≠ 0) ∧ ∀ x ∈ splitWS g, c!"u-" <+: x ∨ OwnWord x := by
      rcases hg with hg | ⟨es, ks, hf, ho⟩
      · exact ⟨(own_words hg).1, fun x hx => .inr ((own_words hg).2 x hx)⟩
      · exact ⟨(name es ks g hf ho).1, fun x hx => .inl ((name es ks g hf ho).2 x hx)⟩
    rcases h1 with rfl | ⟨es, k, ks, y, hf, ho, hy, rfl⟩
    · rw [noNul_id hg'.1] at hx
      exact hg'.2 x hx
    · have h2 := attr es k ks y hf ho hy
      have e : noNul (g ++ c!" " ++ y) = g ++ ' ' :: y := by
        have : noNul (g ++ c!" " ++ y) = noNul g ++ ' ' :: noNul y := by
          simp only [noNul, List.map_append, List.append_assoc]; rfl
        rw [this, noNul_id hg'.1, h2.1]
      rw [e, splitWS_append] at hx
      rcases List.mem_append.1 hx with hx | hx
      · exact hg'.2 x hx
      · exact .inl (h2.2 x hx)

/-! ### C83 -/

/-- C83: the address of every image of the rendered body is the fixed one of avatars, or that of an image of the tree:
a web address as given, or, only if local paths are allowed, that of a file of the wiki; a `src` attribute of the
image, which the renderer appends, may follow it. -/
theorem C83_images (hw : WorldOk w) (hp : PlainTree t) (h : htmlRender n w info settings t = .ok o)
    {evs : List Ev} (hr : readHtml o.body = some evs) {as : List (Str × Str)} (hm : Ev.start c!"img" as ∈ evs)
    {v : Str} (hv : (c!"src", v) ∈ as) :
    v = c!"data:image/png;base64,..." ∨
    ∃ es src link align attrs ks u, t.Forest es ∧ Occurs (.image src link align attrs) ks es ∧
      PictureAt info settings src u ∧
      (v = noNul u ∨ ∃ es k ks x, t.Forest es ∧ Occurs k ks es ∧ (c!"src", x) ∈ k.attrs ∧ v = noNul (u ++ c!" " ++ x)) := by
  rcases C44_tags_and_attributes hw hp h hr hm with h | h
  · exact absurd h (by decide +kernel)
  · rcases h.image rfl v hv with h | ⟨u, ⟨es, src, link, align, attrs, ks, hf, ho, hu⟩, h1⟩
    · exact .inl h
    · refine .inr ⟨es, src, link, align, attrs, ks, u, hf, ho, hu, h1.imp id ?_⟩
      rintro ⟨x, ⟨es, k, ks, h1, h2, h3⟩, h4⟩
      exact ⟨es, k, ks, x, h1, h2, h3, h4⟩

private theorem noNul_starts {u v x : Str} (h : v = noNul u ∨ v = noNul (u ++ c!" " ++ x)) : noNul u <+: v := by
  rcases h with rfl | rfl
  · exact List.prefix_rfl
  · exact ⟨noNul (c!" " ++ x), by simp [noNul, List.map_append]⟩

/-- C83: on a page rendered from a text, images are avatars, or begin with a web address that stands in the text, or,
if local paths are allowed, are files of a wiki whose name stands in the text or is the page's own. -/
theorem C83_text_images (hw : WorldOk w) (h : parse w' (tokenize text) info' settings' = some (.ok pr))
    (hp : PlainTree pr.tree) (hr : htmlRender n w info settings pr.tree = .ok o) {evs : List Ev} (he : readHtml o.body = some evs)
    {as : List (Str × Str)} (hm : Ev.start c!"img" as ∈ evs) {v : Str} (hv : (c!"src", v) ∈ as) :
    v = c!"data:image/png;base64,..." ∨
    (∃ u, u <:+: text ∧ isUrl u = true ∧ noNul u <+: v) ∨
    (settings.allowLocalPaths = true ∧ ∃ site, (site = info.site ∨ site <:+: text) ∧
      noNul (c!"https://" ++ site ++ c!".wjfiles.com/local--files/") <+: v) := by
  rcases C83_images hw hp hr he hm hv with h1 | ⟨es, src, link, align, attrs, ks, u, hf, ho, hu, h1⟩
  · exact .inl h1
  · have h2 : noNul u <+: v := by
      rcases h1 with h1 | ⟨_, _, _, x, _, _, _, h1⟩
      · exact noNul_starts (x := []) (.inl h1)
      · exact noNul_starts (.inr h1)
    have h3 := (C81_arguments h hf (ks := ks)).2.2.2.2.2.2.2.1 src link align attrs ho
    have cut : ∀ a b : Str, noNul (a ++ b) <+: v → noNul a <+: v := fun a b hab =>
      List.IsPrefix.trans ⟨noNul b, by simp [noNul, List.map_append]⟩ hab
    cases hu with
    | web => exact .inr (.inl ⟨_, h3.1.1, h3.2, h2⟩)
    | @here f hl =>
      refine .inr (.inr ⟨hl, info.site, .inl rfl, cut _ (info.page ++ c!"/" ++ f) ?_⟩)
      simpa only [List.append_assoc] using h2
    | @page p f hl =>
      refine .inr (.inr ⟨hl, info.site, .inl rfl, cut _ (p ++ c!"/" ++ f) ?_⟩)
      simpa only [List.append_assoc] using h2
    | @site s p f hl =>
      refine .inr (.inr ⟨hl, s, .inr (List.IsInfix.trans ⟨[], c!"/" ++ p ++ c!"/" ++ f, by simp⟩ h3.1.1), cut _ (p ++ c!"/" ++ f) ?_⟩)
      simpa only [List.append_assoc] using h2

/-! ### C84 -/

/-- C84: an id on a draft, in a list, in a post or in a message is written by its author (as an attribute, or as the
name of a link target), or random, or that of an entry of a bibliography, or one of the latter three followed by an
attribute of the author's: headings and tables of contents, of which a page that shows several such texts has many,
get no fixed ids. -/
theorem C84_ids {m : Mode} (hm : m ≠ .page) {l : Layout} (hw : WorldOk w) (hp : PlainTree t)
    (h : htmlRender n w info (Settings.fromMode m l) t = .ok o)
    {evs : List Ev} (hr : readHtml o.body = some evs) {tg : Str} {as : List (Str × Str)} (ht : Ev.start tg as ∈ evs)
    (hmath : tg ∉ mathTags) {v : Str} (hv : (c!"id", v) ∈ as) :
    (∃ es k ks x, t.Forest es ∧ Occurs k ks es ∧ (c!"id", x) ∈ k.attrs ∧ v = noNul x) ∨
    ∃ g, ((∃ es ks, t.Forest es ∧ Occurs (.anchorName g) ks es) ∨
        (∃ r, (∀ c ∈ r, c.isAlphanum = true) ∧ g = c!"wj-id-" ++ r) ∨
        ∃ i j, g = c!"wj-bibliography-item-" ++ natToStr i ++ c!"-" ++ natToStr j ++ c!" bibitem-" ++ natToStr i ++
          c!"-" ++ natToStr j) ∧
      (v = noNul g ∨ ∃ es k ks x, t.Forest es ∧ Occurs k ks es ∧ (c!"id", x) ∈ k.attrs ∧ v = noNul (g ++ c!" " ++ x)) := by
  have hf : (Settings.fromMode m l).useTrueIds = false := by
    cases m
    · exact absurd rfl hm
    all_goals rfl
  rcases C82_ids hw hp h hr ht hmath hv with h | ⟨g, hg, h⟩
  · exact .inl h
  · refine .inr ⟨g, ?_, h⟩
    rcases hg with (⟨hi, _⟩ | hg | ⟨hi, _⟩ | ⟨i, j, hg⟩) | hg
    · rw [hf] at hi; cases hi
    · exact .inr (.inl hg)
    · rw [hf] at hi; cases hi
    · exact .inr (.inr ⟨i, j, by rw [hg]; simp [List.append_assoc]⟩)
    · exact .inl hg

/-- C84: in a post or a message nothing is included, whatever the includer would do; the tree has no module, no style,
no table of contents and no included elements; and every image of the page rendered from it is an avatar or has an
address that begins with a web address standing in the text, so that no file of the wiki is shown. -/
theorem C84_posts {m : Mode} (hm : m = .forumPost ∨ m = .directMessage) {l l' : Layout} :
    (∀ {σ E : Type} (I : Includes.Includer σ E) (e : E) (s : σ) (input : Str),
      Includes.runInclude (Settings.fromMode m l).enablePageSyntax I e s input = .ok input []) ∧
    (parse w' (tokenize text) info' (Settings.fromMode m l) = some (.ok pr) →
      (∀ {es k ks}, pr.tree.Forest es → Occurs k ks es → k.pageOnly = false) ∧
      (WorldOk w → PlainTree pr.tree → htmlRender n w info (Settings.fromMode m l') pr.tree = .ok o →
        ∀ {evs : List Ev}, readHtml o.body = some evs → ∀ {as : List (Str × Str)}, Ev.start c!"img" as ∈ evs →
          ∀ {v : Str}, (c!"src", v) ∈ as →
            v = c!"data:image/png;base64,..." ∨ ∃ u, u <:+: text ∧ isUrl u = true ∧ noNul u <+: v)) := by
  have hs : ∀ l, (Settings.fromMode m l).enablePageSyntax = false ∧ (Settings.fromMode m l).allowLocalPaths = false := by
    intro l; rcases hm with rfl | rfl <;> exact ⟨rfl, rfl⟩
  refine ⟨fun I e s input => ?_, fun h => ⟨fun hf ho => C33_no_page_syntax h (hs l).1 hf ho, fun hw hp hr evs he as hm v hv => ?_⟩⟩
  · rw [(hs l).1]
    exact (Includes.C24_disabled I I e s s input).1
  · rcases C83_text_images hw h hp hr he hm hv with h | h | ⟨h, _⟩
    · exact .inl h
    · exact .inr h
    · rw [(hs l').2] at h; cases h

end

/-! ### Pages -/

/-- Ids of a rendered text, in order. -/
private def idsOf (text : Str) (s : Settings) : Option (List Str) :=
  (resultOf (parse plainWorld (tokenize text) somePage s)).bind fun o =>
    match htmlRender 2 plainHWorld somePage s o.tree with
    | .ok o => (readHtml o.body).map fun evs => evs.flatMap fun e => match e with
      | .start _ as => (as.lookup c!"id").toList
      | _ => []
    | _ => none

/-- Addresses of the images of a rendered text, in order. -/
private def imagesOf (text : Str) (s : Settings) : Option (List Str) :=
  (resultOf (parse plainWorld (tokenize text) somePage s)).bind fun o =>
    match htmlRender 2 plainHWorld somePage s o.tree with
    | .ok o => (readHtml o.body).map fun evs => evs.flatMap fun e => match e with
      | .start t as => if t = c!"img" then (as.lookup c!"src").toList else []
      | _ => []
    | _ => none

private def isolating : Settings := { Settings.fromMode .page .wikidot with isolateUserIds := true }

example : idsOf c!"[[div id=\"toc0 u-x\"]]\na\n[[/div]]\n[[# b]]\n+ c" isolating =
    some [c!"u-toc0 u-x", c!"u-b", c!"toc0"] := by decide +kernel

/-- C82: without isolation an author can write an id the renderer makes up, so that two elements have it. -/
theorem C82_clash_without_isolation :
    idsOf c!"[[div id=\"toc0\"]]\na\n[[/div]]\n+ c" (Settings.fromMode .page .wikidot) = some [c!"toc0", c!"toc0"] := by
  decide +kernel

/-- C82: a NUL escapes the isolation (the text must be without it, as preprocessing makes it). -/
theorem C82_nul_escapes :
    idsOf (c!"[[div id=\"x" ++ [Char.ofNat 0] ++ c!"toc0\"]]\na\n[[/div]]\n+ c") isolating = some [c!"u-x toc0", c!"toc0"] := by
  decide +kernel

example : imagesOf c!"[[image https://a.b/c]] [[image d]] [[image /e/f/g]]" (Settings.fromMode .page .wikidot) =
    some [c!"https://a.b/c", c!"https://site.wjfiles.com/local--files/page/d",
      c!"https://e.wjfiles.com/local--files/f/g"] := by decide +kernel

/-- The same text as a page and as a post. -/
example : idsOf c!"+ c\n[[# b]][[div id=\"d\"]]\na\n[[/div]]" (Settings.fromMode .page .wikidot) = some [c!"toc0", c!"b", c!"d"] ∧
    idsOf c!"+ c\n[[# b]][[div id=\"d\"]]\na\n[[/div]]" (Settings.fromMode .forumPost .wikidot) =
      some [c!"wj-id-0", c!"b", c!"d"] := by decide +kernel

example : imagesOf c!"[[image https://a.b/c]] [[image d]] [[image /e/f/g]]" (Settings.fromMode .forumPost .wikidot) =
    some [c!"https://a.b/c"] := by decide +kernel

/-- C84: the ids of bibliography entries are fixed in posts, too, so that two posts on a page clash; and authors can
write the fixed ids of the page that their post is shown on. -/
theorem C84_fixed_ids :
    idsOf c!"[[bibliography]]\n: a : b\n[[/bibliography]]" (Settings.fromMode .forumPost .wikidot) =
      some [c!"wj-bibliography-item-1-1 bibitem-1-1"] ∧
    idsOf c!"[[div id=\"toc0\"]]\na\n[[/div]]" (Settings.fromMode .forumPost .wikidot) = some [c!"toc0"] := by
  decide +kernel

/-- C83: a `src` attribute of an image is appended to its address, which then leads nowhere. -/
theorem C83_source_appended : imagesOf c!"[[image https://a.b/c src=\"/d\"]]" (Settings.fromMode .page .wikidot) =
    some [c!"https://a.b/c /d"] := by decide +kernel

end Ftml
