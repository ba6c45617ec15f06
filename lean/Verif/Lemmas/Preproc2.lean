import Verif.Lemmas.Preproc
/- Facts about the individual preprocessing passes. -/
namespace Ftml.Preproc
open Ftml

theorem surround_shrinks (op close b f) (h : op ≠ []) : Shrinks (surround op close b f) := by
  intro prev s k o r hm
  obtain ⟨c, rfl, _⟩ := surround_some hm
  cases op with
  | nil => exact absurd rfl h
  | cons => simp; omega

theorem doubleQuotes_shrinks : Shrinks doubleQuotes := surround_shrinks _ _ _ _ (by simp)
theorem lowDoubleQuotes_shrinks : Shrinks lowDoubleQuotes := surround_shrinks _ _ _ _ (by simp)
theorem singleQuotes_shrinks : Shrinks singleQuotes := surround_shrinks _ _ _ _ (by simp)
theorem ellipsis_shrinks : Shrinks ellipsis := by
  intro prev s k o r hm
  obtain ⟨_, d, rfl, hd | hd, _⟩ := ellipsis_some hm <;> subst hd <;> simp <;> omega
theorem dosMac_shrinks : Shrinks dosMac := by
  intro prev s k o r hm
  obtain ⟨_, _, rfl | rfl⟩ := dosMac_some hm <;> simp <;> omega
theorem leadingNonStd_shrinks : Shrinks leadingNonStd := by
  intro prev s k o r hm
  obtain ⟨_, w, rfl, hw, _⟩ := leadingNonStd_some hm
  have := List.length_pos_iff.2 hw
  simp; omega
theorem wsOnlyLine_shrinks : Shrinks wsOnlyLine := by
  intro prev s k o r hm
  obtain ⟨w, rfl, hw, _⟩ := wsLine_some (wsOnlyLine_some hm).2.2.2
  have := List.length_pos_iff.2 hw
  simp; omega
theorem concatLines_shrinks : Shrinks concatLines := by
  intro prev s k o r hm
  obtain ⟨_, _, rfl⟩ := concatLines_some hm; simp; omega
theorem tabs_shrinks : Shrinks tabs := by
  intro prev s k o r hm
  obtain ⟨_, _, rfl⟩ := tabs_some hm; simp
theorem nullSpace_shrinks : Shrinks nullSpace := by
  intro prev s k o r hm
  obtain ⟨_, _, rfl⟩ := nullSpace_some hm; simp
theorem leadingNewlines_shrinks : Shrinks leadingNewlines := by
  intro prev s k o r hm
  obtain ⟨_, _, _, _, w, rfl, hw, _⟩ := leadingNewlines_some hm
  have := List.length_pos_iff.2 hw
  simp; omega
theorem trailingNewlines_shrinks : Shrinks trailingNewlines := by
  intro prev s k o r hm
  obtain ⟨_, _, rfl, hw, _⟩ := trailingNewlines_some hm
  exact List.length_pos_iff.2 hw

/-- Unfolding of the whole preprocessor into its twelve passes. -/
theorem preprocess_some {s t : Str} (h : preprocess s = some t) :
    ∃ a b c d e f g w x y z, replace dosMac s = some a ∧ replace leadingNonStd a = some b ∧
      replace wsOnlyLine b = some c ∧ replace concatLines c = some d ∧ replace tabs d = some e ∧
      replace nullSpace e = some f ∧ replace leadingNewlines f = some g ∧
      replace trailingNewlines g = some w ∧ replace doubleQuotes w = some x ∧
      replace lowDoubleQuotes x = some y ∧ replace singleQuotes y = some z ∧ replace ellipsis z = some t := by
  simp only [preprocess, whitespaceSubst, typographySubst, Option.bind_eq_bind, Option.bind_eq_some_iff] at h
  obtain ⟨w, ⟨a, h1, b, h2, c, h3, d, h4, e, h5, f, h6, g, h7, h8⟩, x, h9, y, h10, z, h11, h12⟩ := h
  exact ⟨a, b, c, d, e, f, g, w, x, y, z, h1, h2, h3, h4, h5, h6, h7, h8, h9, h10, h11, h12⟩

theorem preprocess_total' (s : Str) : ∃ t, preprocess s = some t := by
  obtain ⟨a, h1⟩ := replace_total dosMac_shrinks s
  obtain ⟨b, h2⟩ := replace_total leadingNonStd_shrinks a
  obtain ⟨c, h3⟩ := replace_total wsOnlyLine_shrinks b
  obtain ⟨d, h4⟩ := replace_total concatLines_shrinks c
  obtain ⟨e, h5⟩ := replace_total tabs_shrinks d
  obtain ⟨f, h6⟩ := replace_total nullSpace_shrinks e
  obtain ⟨g, h7⟩ := replace_total leadingNewlines_shrinks f
  obtain ⟨w, h8⟩ := replace_total trailingNewlines_shrinks g
  obtain ⟨x, h9⟩ := replace_total doubleQuotes_shrinks w
  obtain ⟨y, h10⟩ := replace_total lowDoubleQuotes_shrinks x
  obtain ⟨z, h11⟩ := replace_total singleQuotes_shrinks y
  obtain ⟨t, h12⟩ := replace_total ellipsis_shrinks z
  exact ⟨t, by simp [preprocess, whitespaceSubst, typographySubst, h1, h2, h3, h4, h5, h6, h7, h8, h9, h10, h11, h12]⟩

/-! ### Preservation of character predicates -/

/-- `m` never produces a character outside `Q` from text inside `Q`. -/
def KeepsQ (Q : Char → Prop) (m : Matcher) : Prop :=
  ∀ prev s k o r, m prev s = some (k, o, r) → (∀ c ∈ s, Q c) →
      (∀ c ∈ k, Q c) ∧ (∀ c ∈ o, Q c) ∧ (∀ c ∈ r, Q c)

theorem surround_keeps {Q : Char → Prop} {op close b f} (hb : Q b) (hf : Q f) :
    KeepsQ Q (surround op close b f) := by
  intro prev s k o r hm hs
  obtain ⟨c, rfl, rfl, rfl, _⟩ := surround_some hm
  simp only [List.mem_append] at hs
  refine ⟨by simp, ?_, fun c hc => hs c (by simp [hc])⟩
  intro x hx
  simp only [List.mem_cons, List.mem_append] at hx
  rcases hx with rfl | hx | rfl | hx
  · exact hb
  · exact hs x (by simp [hx])
  · exact hf
  · simp at hx

theorem ellipsis_keeps {Q : Char → Prop} (h : Q '\u2026') : KeepsQ Q ellipsis := by
  intro prev s k o r hm hs
  obtain ⟨rfl, d, rfl, _, _, _⟩ := ellipsis_some hm
  simp only [List.mem_append] at hs
  exact ⟨fun c hc => hs c (by simp [hc]), by simpa using h, fun c hc => hs c (by simp [hc])⟩

theorem leadingNonStd_keeps {Q : Char → Prop} (h : Q ' ') : KeepsQ Q leadingNonStd := by
  intro prev s k o r hm hs
  obtain ⟨rfl, w, rfl, _, _, rfl⟩ := leadingNonStd_some hm
  simp only [List.mem_append] at hs
  refine ⟨by simp, ?_, fun c hc => hs c (by simp [hc])⟩
  intro c hc; simp at hc; obtain ⟨_, rfl⟩ := hc; exact h

theorem wsOnlyLine_keeps {Q : Char → Prop} : KeepsQ Q wsOnlyLine := by
  intro prev s k o r hm hs
  obtain ⟨rfl, rfl, _, h⟩ := wsOnlyLine_some hm
  obtain ⟨w, rfl, _⟩ := wsLine_some h
  simp only [List.mem_append] at hs
  exact ⟨by simp, by simp, fun c hc => hs c (by simp [hc])⟩

theorem concatLines_keeps {Q : Char → Prop} : KeepsQ Q concatLines := by
  intro prev s k o r hm hs
  obtain ⟨rfl, rfl, rfl⟩ := concatLines_some hm
  exact ⟨by simp, by simp, fun c hc => hs c (by simp [hc])⟩

theorem tabs_keeps {Q : Char → Prop} (h : Q ' ') : KeepsQ Q tabs := by
  intro prev s k o r hm hs
  obtain ⟨rfl, rfl, rfl⟩ := tabs_some hm
  exact ⟨by simp, by simpa using h, fun c hc => hs c (by simp [hc])⟩

theorem nullSpace_keeps {Q : Char → Prop} (h : Q ' ') : KeepsQ Q nullSpace := by
  intro prev s k o r hm hs
  obtain ⟨rfl, rfl, rfl⟩ := nullSpace_some hm
  exact ⟨by simp, by simpa using h, fun c hc => hs c (by simp [hc])⟩

theorem leadingNewlines_keeps {Q : Char → Prop} : KeepsQ Q leadingNewlines := by
  intro prev s k o r hm hs
  obtain ⟨rfl, rfl, _, _, w, rfl, _⟩ := leadingNewlines_some hm
  exact ⟨by simp, by simp, fun c hc => hs c (by simp [hc])⟩

theorem trailingNewlines_keeps {Q : Char → Prop} : KeepsQ Q trailingNewlines := by
  intro prev s k o r hm hs
  obtain ⟨rfl, rfl, rfl, _⟩ := trailingNewlines_some hm
  exact ⟨by simp, by simp, by simp⟩

/-! ### Sub-sequence of untouched characters -/

theorem surround_filter {p : Char → Bool} {op close b f} (h1 : ∀ c ∈ op, p c = false)
    (h2 : ∀ c ∈ close, p c = false) (hb : p b = false) (hf : p f = false) :
    ∀ prev s k o r, surround op close b f prev s = some (k, o, r) → s.filter p = (k ++ o ++ r).filter p := by
  intro prev s k o r hm
  obtain ⟨c, rfl, rfl, rfl, _⟩ := surround_some hm
  have e1 : op.filter p = [] := by simpa using h1
  have e2 : close.filter p = [] := by simpa using h2
  simp [List.filter_append, e1, e2, hb, hf]

theorem ellipsis_filter {p : Char → Bool} (h1 : p '.' = false) (h2 : p ' ' = false)
    (h3 : p '\u2026' = false) :
    ∀ prev s k o r, ellipsis prev s = some (k, o, r) → s.filter p = (k ++ o ++ r).filter p := by
  intro prev s k o r hm
  obtain ⟨rfl, d, rfl, hd, _, _⟩ := ellipsis_some hm
  have : d.filter p = [] := by rcases hd with rfl | rfl <;> simp [h1, h2]
  simp [List.filter_append, this, h3]

/-! ### Absence of an infix -/

theorem infix_split {P u v : Str} {x : Char} (hx : x ∉ P) (h : P <:+: u ++ x :: v) :
    P <:+: u ∨ P <:+: v := by
  obtain ⟨a, b, h⟩ := h
  rw [List.append_assoc, List.append_eq_append_iff] at h
  rcases h with ⟨c, rfl, h⟩ | ⟨c, rfl, h⟩
  · -- u = a ++ c, P ++ b = c ++ x :: v
    rw [List.append_eq_append_iff] at h
    rcases h with ⟨d, rfl, h⟩ | ⟨d, rfl, h⟩
    · left; exact ⟨a, d, by simp⟩
    · cases d with
      | nil => left; exact ⟨a, [], by simp⟩
      | cons y d => simp at h; obtain ⟨rfl, _⟩ := h; simp at hx
  · -- a = u ++ c
    cases c with
    | nil =>
      cases P with
      | nil => left; exact ⟨[], u, by simp⟩
      | cons p P => simp at h; obtain ⟨rfl, _⟩ := h; simp at hx
    | cons y c =>
      simp at h; right; exact ⟨c, b, by simp [h.2]⟩

theorem infix_mono {P u v w : Str} (h : P <:+: v) : P <:+: u ++ v ++ w := by
  obtain ⟨a, b, rfl⟩ := h; exact ⟨u ++ a, b ++ w, by simp⟩

theorem replace_noInfix {m : Matcher} {P : Str} {s t : Str}
    (hk : ∀ prev s k o r, m prev s = some (k, o, r) →
      ∃ mid, s = k ++ mid ++ r ∧ ∀ u, P <:+: u ++ o ++ r → P <:+: u ∨ P <:+: r ∨ P <:+: mid)
    (hs : ¬ P <:+: s) (h : replace m s = some t) : ¬ P <:+: t := by
  refine replace_inv (fun done rest => ¬ P <:+: done ++ rest) (fun t => ¬ P <:+: t) (by simpa using hs) ?_ ?_ h
  · intro done rest a mid k o r hI e _ hm _ hin
    obtain ⟨mm, e2, h2⟩ := hk _ _ _ _ _ hm
    subst e; subst e2
    rcases h2 _ hin with h | h | h
    · exact hI (by have := infix_mono (u := []) (w := mm ++ r) h; simpa using this)
    · exact hI (by have := infix_mono (u := done ++ a ++ k ++ mm) (w := []) h; simpa using this)
    · exact hI (by have := infix_mono (u := done ++ a ++ k) (w := r) h; simpa using this)
  · intro _ _ hI _; exact hI

theorem surround_noInfix {P : Str} {op close b f} (hb : b ∉ P) (hf : f ∉ P) :
    ∀ prev s k o r, surround op close b f prev s = some (k, o, r) →
      ∃ mid, s = k ++ mid ++ r ∧ ∀ u, P <:+: u ++ o ++ r → P <:+: u ∨ P <:+: r ∨ P <:+: mid := by
  intro prev s k o r hm
  obtain ⟨c, rfl, rfl, rfl, _⟩ := surround_some hm
  refine ⟨op ++ c ++ close, by simp, ?_⟩
  intro u h
  have e : u ++ b :: (c ++ [f]) ++ r = u ++ b :: (c ++ f :: r) := by simp
  rw [e] at h
  rcases infix_split hb h with h | h
  · exact Or.inl h
  · rcases infix_split hf h with h | h
    · exact Or.inr (Or.inr (infix_mono h))
    · exact Or.inr (Or.inl h)

theorem ellipsis_noInfix {P : Str} (hb : '\u2026' ∉ P) :
    ∀ prev s k o r, ellipsis prev s = some (k, o, r) →
      ∃ mid, s = k ++ mid ++ r ∧ ∀ u, P <:+: u ++ o ++ r → P <:+: u ∨ P <:+: r ∨ P <:+: mid := by
  intro prev s k o r hm
  obtain ⟨rfl, d, rfl, hd, _, _⟩ := ellipsis_some hm
  refine ⟨d, rfl, ?_⟩
  intro u h
  rw [List.append_assoc] at h
  rcases infix_split hb h with h | h
  · exact Or.inl h
  · exact Or.inr (Or.inl h)

theorem nullSpace_noInfix {P : Str} (hb : ' ' ∉ P) :
    ∀ prev s k o r, nullSpace prev s = some (k, o, r) →
      ∃ mid, s = k ++ mid ++ r ∧ ∀ u, P <:+: u ++ o ++ r → P <:+: u ∨ P <:+: r ∨ P <:+: mid := by
  intro prev s k o r hm
  obtain ⟨rfl, rfl, rfl⟩ := nullSpace_some hm
  refine ⟨_, rfl, ?_⟩
  intro u h
  rw [List.append_assoc] at h
  rcases infix_split hb h with h | h
  · exact Or.inl h
  · exact Or.inr (Or.inl h)

theorem tabs_noInfix {P : Str} (hb : ' ' ∉ P) :
    ∀ prev s k o r, tabs prev s = some (k, o, r) →
      ∃ mid, s = k ++ mid ++ r ∧ ∀ u, P <:+: u ++ o ++ r → P <:+: u ∨ P <:+: r ∨ P <:+: mid := by
  intro prev s k o r hm
  obtain ⟨rfl, rfl, rfl⟩ := tabs_some hm
  refine ⟨_, rfl, ?_⟩
  intro u h
  have nil : P <:+: [] → P <:+: u := by
    rintro ⟨a, b, e⟩; simp at e; rw [e.2.1]; exact ⟨[], u, by simp⟩
  rw [List.append_assoc] at h
  rcases infix_split hb h with h | h
  · exact Or.inl h
  · rcases infix_split (u := []) hb h with h | h
    · exact Or.inl (nil h)
    · rcases infix_split (u := []) hb h with h | h
      · exact Or.inl (nil h)
      · rcases infix_split (u := []) hb h with h | h
        · exact Or.inl (nil h)
        · exact Or.inr (Or.inl h)

/-! ### Exact results of the simple passes -/

theorem leadingNewlines_id {s : Str} (h : s.head? ≠ some '\n') : replace leadingNewlines s = some s := by
  apply replace_id
  intro a c b e
  cases hm : leadingNewlines (lastOr none a) (c :: b) with
  | none => rfl
  | some x =>
    obtain ⟨k, o, r⟩ := x
    obtain ⟨_, _, hp, _, w, hw, hw2, hw3⟩ := leadingNewlines_some hm
    have : a = [] := by
      cases a with
      | nil => rfl
      | cons x a =>
        simp [lastOr] at hp
    subst this; subst e
    cases w with
    | nil => exact absurd rfl hw2
    | cons y w =>
      simp at hw
      have := hw3 y (by simp)
      simp [hw.1, this] at h

theorem leadingNewlines_result {s t : Str} (h : replace leadingNewlines s = some t) :
    t.head? ≠ some '\n' ∧ t <:+ s := by
  by_cases hs : s.head? = some '\n'
  · cases s with
    | nil => simp at hs
    | cons c s =>
      simp at hs; subst hs
      unfold replace replaceLoop at h
      have hm : leadingNewlines none ('\n' :: s) = some ([], [], s.dropWhile (· = '\n')) := by
        simp [leadingNewlines]
      have hsrch : search leadingNewlines ([] : Str).getLast? ('\n' :: s) = some ([], [], s.dropWhile (· = '\n')) := by
        simp only [search, List.getLast?_nil, hm]
      rw [hsrch] at h
      simp only [List.append_nil] at h
      obtain ⟨_, _, _, hh, w, hw, _⟩ := leadingNewlines_some hm
      have h2 := leadingNewlines_id hh
      simp only [List.length_cons] at h
      unfold replaceLoop at h
      split at h
      · cases h; simpa using ⟨hh, ⟨w, hw.symm⟩⟩
      · rename_i hsome
        obtain ⟨a, mid, k, e1, e2, e3, e4, e5⟩ := search_some hsome
        obtain ⟨_, _, hp, _, w', hw', hw2, hw3⟩ := leadingNewlines_some e3
        have : a = [] := by
          cases a with
          | nil => rfl
          | cons x a => simp [lastOr] at hp
        subst this
        cases w' with
        | nil => exact absurd rfl hw2
        | cons y w' =>
          exfalso; apply hh
          simp at e1; rw [e1, hw']; simpa using hw3 y (by simp)
  · rw [leadingNewlines_id hs] at h; cases h; exact ⟨hs, List.suffix_refl _⟩

theorem trailingNewlines_result {s t : Str} (h : replace trailingNewlines s = some t) :
    t.getLast? ≠ some '\n' ∧ t <+: s := by
  have key : ∀ prev b, b ≠ [] → (∀ c ∈ b, c = '\n') → trailingNewlines prev b ≠ none := by
    intro prev b hb hall
    unfold trailingNewlines
    rw [if_pos]
    · simp
    · simpa using ⟨hb, hall⟩
  refine replace_inv
    (fun done rest => (done ++ rest) <+: s ∧ (done = [] ∨ rest = [] ∧ done.getLast? ≠ some '\n'))
    (fun t => t.getLast? ≠ some '\n' ∧ t <+: s) (by simp) ?_ ?_ h
  · intro done rest a mid k o r hI e hne hm hnone
    obtain ⟨rfl, rfl, rfl, _, hall⟩ := trailingNewlines_some hm
    subst e
    obtain ⟨hI1, rfl | ⟨h2, _⟩⟩ := hI
    · refine ⟨?_, Or.inr ⟨rfl, ?_⟩⟩
      · simp only [List.append_nil, List.nil_append] at *
        exact List.IsPrefix.trans ⟨mid, rfl⟩ hI1
      · simp only [List.append_nil, List.nil_append] at *
        intro hl
        rw [List.getLast?_eq_some_iff] at hl
        obtain ⟨ys, rfl⟩ := hl
        refine key _ _ ?_ ?_ (hnone ys '\n' [] rfl)
        · simp
        · simpa using hall
    · simp at h2; exact absurd h2.2 hne
  · intro done rest hI hnone
    refine ⟨?_, hI.1⟩
    obtain ⟨_, rfl | ⟨rfl, h2⟩⟩ := hI
    · intro hl
      simp only [List.nil_append] at hl
      rw [List.getLast?_eq_some_iff] at hl
      obtain ⟨ys, rfl⟩ := hl
      exact key _ _ (by simp) (by simp) (hnone ys '\n' [] rfl)
    · simpa using h2

theorem lastOr_getLast (u a : Str) : lastOr u.getLast? a = (u ++ a).getLast? := by
  simp [lastOr, List.getLast?_append]

theorem replace_noInfix' {m : Matcher} {P : Str} {s t : Str}
    (hk : ∀ u s k o r, m u.getLast? s = some (k, o, r) → P <:+: u ++ k ++ o ++ r → P <:+: u ++ s)
    (hs : ¬ P <:+: s) (h : replace m s = some t) : ¬ P <:+: t := by
  refine replace_inv (fun done rest => ¬ P <:+: done ++ rest) (fun t => ¬ P <:+: t) (by simpa using hs) ?_ ?_ h
  · intro done rest a mid k o r hI e _ hm _ hin
    rw [lastOr_getLast] at hm
    apply hI
    have := hk _ _ _ _ _ hm hin
    subst e; simpa using this
  · intro _ _ hI _; exact hI

theorem dosMac_noInfix {P : Str} (hb : '\n' ∉ P) :
    ∀ prev s k o r, dosMac prev s = some (k, o, r) →
      ∃ mid, s = k ++ mid ++ r ∧ ∀ u, P <:+: u ++ o ++ r → P <:+: u ∨ P <:+: r ∨ P <:+: mid := by
  intro prev s k o r hm
  obtain ⟨rfl, rfl, h⟩ := dosMac_some hm
  have : ∃ mid, s = [] ++ mid ++ r := by rcases h with rfl | rfl <;> exact ⟨_, rfl⟩
  obtain ⟨mid, e⟩ := this
  refine ⟨mid, e, ?_⟩
  intro u h
  rw [List.append_assoc] at h
  rcases infix_split hb h with h | h
  · exact Or.inl h
  · exact Or.inr (Or.inl h)

theorem leadingNonStd_noInfix {P : Str} (hP : P ≠ []) (hb : ' ' ∉ P) :
    ∀ prev s k o r, leadingNonStd prev s = some (k, o, r) →
      ∃ mid, s = k ++ mid ++ r ∧ ∀ u, P <:+: u ++ o ++ r → P <:+: u ∨ P <:+: r ∨ P <:+: mid := by
  intro prev s k o r hm
  obtain ⟨rfl, w, rfl, hne, hall, rfl⟩ := leadingNonStd_some hm
  refine ⟨w, rfl, ?_⟩
  clear hm hall
  intro u h
  cases w with
  | nil => exact absurd rfl hne
  | cons x w =>
    clear hne
    induction w generalizing x u with
    | nil =>
      rw [List.append_assoc] at h
      rcases infix_split hb h with h | h
      · exact Or.inl h
      · exact Or.inr (Or.inl h)
    | cons y w ih =>
      rw [List.append_assoc] at h
      rcases infix_split hb h with h | h
      · exact Or.inl h
      · rcases ih [] y (by simpa using h) with h | h | h
        · obtain ⟨a, b, e⟩ := h; simp at e; exact absurd e.2.1 hP
        · exact Or.inr (Or.inl h)
        · right; right
          have := infix_mono (u := [x]) (w := []) h
          simpa using this

theorem wsOnlyLine_noInfix {P : Str} (hb : '\n' ∉ P) :
    ∀ u s k o r, wsOnlyLine u.getLast? s = some (k, o, r) → P <:+: u ++ k ++ o ++ r → P <:+: u ++ s := by
  intro u s k o r hm h
  obtain ⟨rfl, rfl, hl, hw⟩ := wsOnlyLine_some hm
  obtain ⟨w, rfl, _⟩ := wsLine_some hw
  simp only [List.append_nil] at h
  cases hu : u.getLast? with
  | none =>
    simp at hu; subst hu
    have := infix_mono (u := w) (w := []) h
    simpa using this
  | some c =>
    rw [hu] at hl; simp [atLineStart] at hl; subst hl
    rw [List.getLast?_eq_some_iff] at hu
    obtain ⟨u', rfl⟩ := hu
    rw [List.append_assoc] at h
    rcases infix_split hb h with h | h
    · have := infix_mono (u := []) (w := '\n' :: (w ++ r)) h
      simpa using this
    · have := infix_mono (u := u' ++ ['\n'] ++ w) (w := []) h
      simpa using this

/-- After the white-space-line pass, `^\s+$` matches nowhere in the text. -/
theorem wsOnlyLine_result {s t : Str} (h : replace wsOnlyLine s = some t) :
    ∀ x y, t = x ++ y → atLineStart x.getLast? = true → wsLine y = none := by
  have fire : ∀ prev y, atLineStart prev = true → wsOnlyLine prev y = none → wsLine y = none := by
    intro prev y h1 h2
    simp [wsOnlyLine, h1] at h2; exact h2
  refine replace_inv
    (fun done rest => ∀ x y, done = x ++ y → y ≠ [] → atLineStart x.getLast? = true → wsLine (y ++ rest) = none)
    (fun t => ∀ x y, t = x ++ y → atLineStart x.getLast? = true → wsLine y = none) ?_ ?_ ?_ h
  · intro x y e hy; simp at e; exact absurd e.2 hy
  · intro done rest a0 mid k o r hI e hne hm hnone x y hxy hy hls
    obtain ⟨rfl, rfl, hl, hw⟩ := wsOnlyLine_some hm
    obtain ⟨w, rfl, hw1, hw2, hw3⟩ := wsLine_some hw
    subst e
    simp only [List.append_nil] at hxy
    have old : wsLine (y ++ (w ++ r)) = none := by
      rw [List.append_eq_append_iff] at hxy
      rcases hxy with ⟨c, rfl, rfl⟩ | ⟨c, rfl, rfl⟩
      · cases y with
        | nil => exact absurd rfl hy
        | cons d y =>
          have := hnone c d y rfl
          rw [lastOr_getLast] at this
          exact fire _ _ hls this
      · by_cases hc : c = []
        · subst hc
          cases a0 with
          | nil => exact absurd rfl hy
          | cons d y =>
            have := hnone [] d y rfl
            rw [lastOr_getLast] at this
            refine fire _ _ ?_ this
            simpa using hls
        · have := hI x c rfl hc hls
          simpa using this
    cases hn : wsLine (y ++ r) with
    | none => rfl
    | some r2 =>
      exfalso
      obtain ⟨w2, e2, hne2, hws2, hr2⟩ := wsLine_some hn
      rw [List.append_eq_append_iff] at e2
      rcases e2 with ⟨c, rfl, rfl⟩ | ⟨c, rfl, rfl⟩
      · refine wsLine_none old (y ++ w ++ c) r2 (by simp) (by simp [hy]) ?_ hr2
        intro z hz
        simp only [List.mem_append] at hz hws2
        rcases hz with (hz | hz) | hz
        · exact hws2 z (Or.inl hz)
        · exact hw2 z hz
        · exact hws2 z (Or.inr hz)
      · cases c with
        | nil =>
          refine wsLine_none old (w2 ++ w) r (by simp) (by simp [hne2]) ?_ hw3
          intro z hz
          simp only [List.mem_append] at hz
          rcases hz with hz | hz
          · exact hws2 z hz
          · exact hw2 z hz
        | cons d c =>
          refine wsLine_none old w2 (d :: c ++ (w ++ r)) (by simp) hne2 hws2 ?_
          simpa using hr2
  · intro done rest hI hnone x y hxy hls
    cases y with
    | nil => rfl
    | cons d y =>
      rw [List.append_eq_append_iff] at hxy
      rcases hxy with ⟨c, rfl, rfl⟩ | ⟨c, rfl, h2⟩
      · have := hnone c d y rfl
        rw [lastOr_getLast] at this
        exact fire _ _ hls this
      · by_cases hc : c = []
        · subst hc
          have := hnone [] d y (by simpa using h2.symm)
          rw [lastOr_getLast] at this
          refine fire _ _ ?_ this
          simpa using hls
        · have := hI x c rfl hc hls
          rwa [← h2] at this

theorem wsOnlyLine_noTriple {s t : Str} (h : replace wsOnlyLine s = some t) :
    ¬ ['\n', '\n', '\n'] <:+: t := by
  rintro ⟨a, b, e⟩
  have h1 := wsOnlyLine_result h (a ++ ['\n']) ('\n' :: '\n' :: b) (by simp [← e]) (by simp [atLineStart])
  exact wsLine_none h1 ['\n'] ('\n' :: b) rfl (by simp) (by simp [isWS]) (Or.inr rfl)

/-- A matcher without left context computes a simple recursive function. -/
theorem replace_eq {m : Matcher} (f : Str → Str) (hm : Shrinks m) (hnil : f [] = [])
    (h1 : ∀ prev s k o r, m prev s = some (k, o, r) → k = [] ∧ f s = o ++ f r)
    (h2 : ∀ prev c s, m prev (c :: s) = none → f (c :: s) = c :: f s) (s : Str) :
    replace m s = some (f s) := by
  obtain ⟨t, ht⟩ := replace_total hm s
  rw [ht]; congr 1
  have aux : ∀ prev mid a, (∀ a1 c a2, a = a1 ++ c :: a2 → m (lastOr prev a1) (c :: a2 ++ mid) = none) →
      f (a ++ mid) = a ++ f mid := by
    intro prev mid a
    induction a generalizing prev with
    | nil => intro _; rfl
    | cons c a ih =>
      intro h
      have h0 := h [] c a rfl
      have e0 := h2 _ _ _ h0
      have e1 : f (c :: a ++ mid) = c :: f (a ++ mid) := e0
      rw [e1, ih (some c)]
      · rfl
      · intro a1 d a2 e
        have := h (c :: a1) d a2 (by simp [e])
        rwa [lastOr_cons] at this
  refine replace_inv (fun done rest => done ++ f rest = f s) (fun t => t = f s) (by simp) ?_ ?_ ht
  · intro done rest a mid k o r hI e _ hm hnone
    obtain ⟨rfl, h3⟩ := h1 _ _ _ _ _ hm
    subst e
    rw [aux _ _ _ hnone, h3] at hI
    simpa using hI
  · intro done rest hI hnone
    have := aux done.getLast? [] rest (by
      intro a1 c a2 e
      have := hnone a1 c a2 e
      simpa using this)
    simp [hnil] at this
    rw [this] at hI; exact hI

/-! ### Lines -/

theorem line_mem {s a b : Str} (e : s = a ++ b) (h : atLineStart a.getLast? = true) :
    b.takeWhile (fun d => !(d == '\n')) ∈ splitOn '\n' s := by
  subst e
  cases ha : a.getLast? with
  | none => simp at ha; subst ha; exact takeWhile_mem_splitOn _ _
  | some c =>
    rw [ha] at h; simp [atLineStart] at h; subst h
    rw [List.getLast?_eq_some_iff] at ha
    obtain ⟨a', rfl⟩ := ha
    rw [List.append_assoc]
    show _ ∈ splitOn '\n' (a' ++ '\n' :: b)
    rw [splitOn_append]
    exact List.mem_append_right _ (takeWhile_mem_splitOn _ _)

end Ftml.Preproc
