import Verif.Lemmas.Preproc2
/-
Properties of `preprocess` (C01–C06, C51, C52). `preprocess s = some t` reads "`preprocess(&mut s)`
returns and leaves the text `t`"; `none` would be non-termination.
-/
namespace Ftml.Preproc
open Ftml

/-- C03: `preprocess` terminates on every input. -/
theorem C03_preprocess_total (s : Str) : ∃ t, preprocess s = some t := preprocess_total' s

example : preprocess c!"``a'' ...\r\n\r\n\r\nb\\\n\tc" = some c!"“a” …\n\nb    c" := by decide +kernel

/-- C01: the preprocessed text has no carriage return, tab or NUL. -/
theorem C01_no_control_chars (s t : Str) (h : preprocess s = some t) :
    '\r' ∉ t ∧ '\t' ∉ t ∧ '\x00' ∉ t := by
  obtain ⟨a, b, c, d, e, f, g, w, x, y, z, h1, h2, h3, h4, h5, h6, h7, h8, h9, h10, h11, h12⟩ :=
    preprocess_some h
  have lift : ∀ (Q : Char → Prop) (u v : Str) (m : Matcher), KeepsQ Q m → (∀ c ∈ u, Q c) →
      replace m u = some v → ∀ c ∈ v, Q c := fun Q u v m hk hu hv => replace_keeps hk hu hv
  have tail : ∀ Q : Char → Prop, Q '\u2018' → Q '\u2019' → Q '\u201c' → Q '\u201d' → Q '\u201e' →
      Q '\u2026' → (∀ c ∈ f, Q c) → ∀ c ∈ t, Q c := by
    intro Q q1 q2 q3 q4 q5 q6 hf
    have g1 := lift Q _ _ _ leadingNewlines_keeps hf h7
    have g2 := lift Q _ _ _ trailingNewlines_keeps g1 h8
    have g3 := lift Q _ _ _ (surround_keeps q3 q4) g2 h9
    have g4 := lift Q _ _ _ (surround_keeps q5 q4) g3 h10
    have g5 := lift Q _ _ _ (surround_keeps q1 q2) g4 h11
    exact lift Q _ _ _ (ellipsis_keeps q6) g5 h12
  refine ⟨?_, ?_, ?_⟩
  · have k1 : ∀ c ∈ a, c ≠ '\r' := by
      refine replace_makes ?_ (fun _ _ _ => dosMac_none) h1
      intro prev s k o r hm
      obtain ⟨rfl, rfl, _⟩ := dosMac_some hm
      simp
    have k2 := lift _ _ _ _ (leadingNonStd_keeps (Q := (· ≠ '\r')) (by decide)) k1 h2
    have k3 := lift _ _ _ _ (wsOnlyLine_keeps (Q := (· ≠ '\r'))) k2 h3
    have k4 := lift _ _ _ _ (concatLines_keeps (Q := (· ≠ '\r'))) k3 h4
    have k5 := lift _ _ _ _ (tabs_keeps (Q := (· ≠ '\r')) (by decide)) k4 h5
    have k6 := lift _ _ _ _ (nullSpace_keeps (Q := (· ≠ '\r')) (by decide)) k5 h6
    intro hc
    exact tail (· ≠ '\r') (by decide) (by decide) (by decide) (by decide) (by decide) (by decide) k6 _ hc rfl
  · have k5 : ∀ c ∈ e, c ≠ '\t' := by
      refine replace_makes ?_ (fun _ _ _ => tabs_none) h5
      intro prev s k o r hm
      obtain ⟨rfl, rfl, _⟩ := tabs_some hm
      simp
    have k6 := lift _ _ _ _ (nullSpace_keeps (Q := (· ≠ '\t')) (by decide)) k5 h6
    intro hc
    exact tail (· ≠ '\t') (by decide) (by decide) (by decide) (by decide) (by decide) (by decide) k6 _ hc rfl
  · have k6 : ∀ c ∈ f, c ≠ '\x00' := by
      refine replace_makes ?_ (fun _ _ _ => nullSpace_none) h6
      intro prev s k o r hm
      obtain ⟨rfl, rfl, _⟩ := nullSpace_some hm
      simp
    intro hc
    exact tail (· ≠ '\x00') (by decide) (by decide) (by decide) (by decide) (by decide) (by decide) k6 _ hc rfl

example : preprocess c!"a\r\n\tb\x00\r" = some c!"a\n    b " := by decide +kernel

/-- C02: the preprocessed text neither starts nor ends with a newline. -/
theorem C02_no_edge_newlines (s t : Str) (h : preprocess s = some t) :
    t.head? ≠ some '\n' ∧ t.getLast? ≠ some '\n' := by
  obtain ⟨a, b, c, d, e, f, g, w, x, y, z, h1, h2, h3, h4, h5, h6, h7, h8, h9, h10, h11, h12⟩ :=
    preprocess_some h
  have hg := leadingNewlines_result h7
  have hw := trailingNewlines_result h8
  have hw1 : w.head? ≠ some '\n' := by
    obtain ⟨v, hv⟩ := hw.2
    cases w with
    | nil => simp
    | cons q w => rw [← hv] at hg; simpa using hg.1
  have sur : ∀ op close bb ff, bb ≠ '\n' → ff ≠ '\n' → ∀ prev s k o r,
      surround op close bb ff prev s = some (k, o, r) →
      o ≠ [] ∧ o.head? ≠ some '\n' ∧ o.getLast? ≠ some '\n' ∧ ∃ mid, s = k ++ mid ++ r := by
    intro op close bb ff hb hf prev s k o r hm
    obtain ⟨cc, rfl, rfl, rfl, _⟩ := surround_some hm
    refine ⟨by simp, by simpa using hb, ?_, op ++ cc ++ close, by simp⟩
    rw [← List.cons_append, List.getLast?_append]; simpa using hf
  have e9 := replace_edges (sur _ _ _ _ (by decide) (by decide)) hw1 hw.1 h9
  have e10 := replace_edges (sur _ _ _ _ (by decide) (by decide)) e9.1 e9.2 h10
  have e11 := replace_edges (sur _ _ _ _ (by decide) (by decide)) e10.1 e10.2 h11
  refine replace_edges ?_ e11.1 e11.2 h12
  intro prev s k o r hm
  obtain ⟨rfl, dd, rfl, _⟩ := ellipsis_some hm
  exact ⟨by simp, by simp, by simp, dd, rfl⟩

example : preprocess c!"\n\n\\\n\nx\n\n" = some c!"x" := by decide +kernel

/-- Specification: remove every backslash-newline pair, in one left-to-right pass. -/
def joinLines : Str → Str
  | '\\' :: '\n' :: s => joinLines s
  | c :: s => c :: joinLines s
  | [] => []

/-- Specification: CRLF and lone CR become LF. -/
def unixNewlines : Str → Str
  | '\r' :: '\n' :: s => '\n' :: unixNewlines s
  | '\r' :: s => '\n' :: unixNewlines s
  | c :: s => c :: unixNewlines s
  | [] => []

/-- The newline pass is exactly `unixNewlines`. -/
theorem C04_newline_pass (s : Str) : replace dosMac s = some (unixNewlines s) := by
  refine replace_eq unixNewlines dosMac_shrinks rfl ?_ ?_ s
  · intro prev s k o r hm
    unfold dosMac at hm
    split at hm
    · cases hm; simp [unixNewlines]
    · cases hm
      refine ⟨rfl, ?_⟩
      rw [unixNewlines]
      · rfl
      · assumption
    · simp at hm
  · intro prev c s hm
    have hc := dosMac_none hm
    rw [unixNewlines] <;> simp_all

/-- C04: the line-joining pass removes exactly the backslash-newline pairs, in one left-to-right pass. -/
theorem C04_concat_pass (s : Str) : replace concatLines s = some (joinLines s) := by
  refine replace_eq joinLines concatLines_shrinks rfl ?_ ?_ s
  · intro prev s k o r hm
    obtain ⟨rfl, rfl, rfl⟩ := concatLines_some hm
    simp [joinLines]
  · intro prev c s hm
    rw [joinLines]
    rintro s' rfl rfl
    simp [concatLines] at hm

/-- The tab pass is exactly "every tab becomes four spaces". -/
theorem C04_tab_pass (s : Str) :
    replace tabs s = some (s.flatMap fun c => if c = '\t' then [' ', ' ', ' ', ' '] else [c]) := by
  refine replace_eq _ tabs_shrinks rfl ?_ ?_ s
  · intro prev s k o r hm
    obtain ⟨rfl, rfl, rfl⟩ := tabs_some hm
    simp
  · intro prev c s hm
    have := tabs_none hm
    simp [this]

/-- The NUL pass is exactly "every NUL becomes a space". -/
theorem C04_null_pass (s : Str) :
    replace nullSpace s = some (s.map fun c => if c = '\x00' then ' ' else c) := by
  refine replace_eq _ nullSpace_shrinks rfl ?_ ?_ s
  · intro prev s k o r hm
    obtain ⟨rfl, rfl, rfl⟩ := nullSpace_some hm
    simp
  · intro prev c s hm
    have := nullSpace_none hm
    simp [this]

/-- C04 (the claim of the project's own property test is false): the output can contain a
backslash-newline pair. -/
theorem C04_backslash_newline_can_remain :
    ∃ s t, preprocess s = some t ∧ ['\\', '\n'] <:+: t :=
  ⟨c!"a\\\\\n\nx", c!"a\\\nx", by decide +kernel, ⟨c!"a", c!"x", rfl⟩⟩

theorem joinLines_head (s : Str) : (joinLines s).head? = some '\n' → s.head? = some '\n' ∨ s.head? = some '\\' := by
  fun_cases joinLines s <;> simp_all

theorem joinLines_noPair (s : Str) (h : ¬ ['\\', '\\'] <:+: s) : ¬ ['\\', '\n'] <:+: joinLines s := by
  fun_induction joinLines s with
  | case1 s ih => exact ih fun hh => h (by have := infix_mono (u := ['\\', '\n']) (w := []) hh; simpa using this)
  | case2 c s hne ih =>
    have ih := ih fun hh => h (by have := infix_mono (u := [c]) (w := []) hh; simpa using this)
    rw [List.infix_cons_iff]
    rintro (h1 | h1)
    · simp only [List.cons_prefix_cons] at h1
      obtain ⟨rfl, h2⟩ := h1
      have : (joinLines s).head? = some '\n' := by
        cases hj : joinLines s with
        | nil => rw [hj] at h2; simp at h2
        | cons x l => rw [hj] at h2; simp at h2; simp [← h2]
      rcases joinLines_head s this with h3 | h3
      · cases s with
        | nil => simp at h3
        | cons x s => simp at h3; subst h3; exact hne s rfl rfl
      · cases s with
        | nil => simp at h3
        | cons x s => simp at h3; subst h3; exact h ⟨[], s, rfl⟩
    · exact ih h1
  | case3 => simp

/-- C04: if the text has no two adjacent backslashes, no backslash-newline pair remains. -/
theorem C04_no_backslash_newline (s t : Str) (hs : ¬ ['\\', '\\'] <:+: s) (h : preprocess s = some t) :
    ¬ ['\\', '\n'] <:+: t := by
  obtain ⟨a, b, c, d, e, f, g, w, x, y, z, h1, h2, h3, h4, h5, h6, h7, h8, h9, h10, h11, h12⟩ :=
    preprocess_some h
  have k1 := replace_noInfix (dosMac_noInfix (by decide)) hs h1
  have k2 := replace_noInfix (leadingNonStd_noInfix (by simp) (by decide)) k1 h2
  have k3 := replace_noInfix' (wsOnlyLine_noInfix (by decide)) k2 h3
  rw [C04_concat_pass] at h4; cases h4
  have k4 := joinLines_noPair _ k3
  have k5 := replace_noInfix (tabs_noInfix (by decide)) k4 h5
  have k6 := replace_noInfix (nullSpace_noInfix (by decide)) k5 h6
  have k7 : ¬ ['\\', '\n'] <:+: g := fun hh => k6 (hh.trans (leadingNewlines_result h7).2.isInfix)
  have k8 : ¬ ['\\', '\n'] <:+: w := fun hh => k7 (hh.trans (trailingNewlines_result h8).2.isInfix)
  have k9 := replace_noInfix (surround_noInfix (by decide) (by decide)) k8 h9
  have k10 := replace_noInfix (surround_noInfix (by decide) (by decide)) k9 h10
  have k11 := replace_noInfix (surround_noInfix (by decide) (by decide)) k10 h11
  exact replace_noInfix (ellipsis_noInfix (by decide)) k11 h12

example : ¬ ['\\', '\\'] <:+: c!"a\\\nb" ∧ preprocess c!"a\\\nb" = some c!"ab" :=
  ⟨by decide +kernel, by decide +kernel⟩

/-- C05 (the claim of the project's own property test is false): three dots in a row can remain. -/
theorem C05_dots_can_remain : ∃ s t, preprocess s = some t ∧ ['.', '.', '.'] <:+: t :=
  ⟨c!"....", c!"....", by decide +kernel, ⟨[], c!".", rfl⟩⟩

/-- C05: the typography passes leave text without backtick, adjacent commas and ellipses (three dots, or
three dots with blanks between them) unchanged. -/
theorem C05_typography_identity (s : Str) (h1 : '`' ∉ s) (h2 : ¬ [',', ','] <:+: s)
    (h3 : ¬ ['.', '.', '.'] <:+: s) (h3' : ¬ ['.', ' ', '.', ' ', '.'] <:+: s) :
    typographySubst s = some s := by
  have sur : ∀ op close b f, op ≠ [] → (¬ op <:+: s) → replace (surround op close b f) s = some s := by
    intro op close b f _ hs
    apply replace_id
    intro a c bb e
    cases hm : surround op close b f (lastOr none a) (c :: bb) with
    | none => rfl
    | some q =>
      obtain ⟨k, o, r⟩ := q
      obtain ⟨cc, e2, _⟩ := surround_some hm
      exact absurd ⟨a, cc ++ close ++ r, by rw [e, e2]; simp⟩ hs
  have mem : ∀ x l, x ∉ s → ¬ (x :: l) <:+: s := by
    intro x l hx hh; exact hx (hh.subset (by simp))
  have e1 : replace doubleQuotes s = some s := sur _ _ _ _ (by simp) (mem _ _ h1)
  have e2 : replace lowDoubleQuotes s = some s := sur _ _ _ _ (by simp) h2
  have e3 : replace singleQuotes s = some s := sur _ _ _ _ (by simp) (mem _ _ h1)
  have e4 : replace ellipsis s = some s := by
    apply replace_id
    intro a c b e
    cases hm : ellipsis (lastOr none a) (c :: b) with
    | none => rfl
    | some q =>
      obtain ⟨k, o, r⟩ := q
      obtain ⟨_, d, e2, hd, _⟩ := ellipsis_some hm
      exfalso
      rcases hd with rfl | rfl
      · exact h3 ⟨a ++ k, r, by rw [e, e2]; simp⟩
      · exact h3' ⟨a ++ k, r, by rw [e, e2]; simp⟩
  simp [typographySubst, e1, e2, e3, e4]

example : '`' ∉ c!"it's.. fine" ∧ ¬ [',', ','] <:+: c!"it's.. fine" ∧ ¬ ['.', '.', '.'] <:+: c!"it's.. fine" ∧
    ¬ ['.', ' ', '.', ' ', '.'] <:+: c!"it's.. fine" := by decide +kernel

/-- C06: clean text is left unchanged. The hypotheses: no backtick, CR, tab or NUL; no two adjacent
commas; no ellipsis; no backslash at the end of a line; no leading or trailing newline; no three newlines
in a row; every line is empty or has a non-white-space character and does not begin with U+00A0 or
U+2007. -/
theorem C06_preprocess_identity (s : Str)
    (h1 : ∀ c ∈ s, c ≠ '`' ∧ c ≠ '\r' ∧ c ≠ '\t' ∧ c ≠ '\x00')
    (h2 : ¬ [',', ','] <:+: s) (h3 : s.head? ≠ some '\n') (h4 : s.getLast? ≠ some '\n')
    (h5 : ¬ ['\n', '\n', '\n'] <:+: s)
    (h7 : ¬ ['\\', '\n'] <:+: s)
    (h8 : ¬ ['.', '.', '.'] <:+: s) (h9 : ¬ ['.', ' ', '.', ' ', '.'] <:+: s)
    (h6 : ∀ l ∈ splitOn '\n' s, l = [] ∨ (∃ c ∈ l, isWS c = false) ∧
      l.head? ≠ some '\u00a0' ∧ l.head? ≠ some '\u2007') :
    preprocess s = some s := by
  have e1 : replace dosMac s = some s := by
    apply replace_id; intro a c b e
    cases hm : dosMac (lastOr none a) (c :: b) with
    | none => rfl
    | some q =>
      obtain ⟨k, o, r⟩ := q
      obtain ⟨_, _, e2⟩ := dosMac_some hm
      have : '\r' ∈ s := by rw [e]; rcases e2 with e2 | e2 <;> rw [e2] <;> simp
      exact absurd rfl (h1 _ this).2.1
  have e2 : replace leadingNonStd s = some s := by
    apply replace_id; intro a c b e
    have ee := lastOr_getLast [] a
    simp only [List.getLast?_nil, List.nil_append] at ee
    rw [ee]
    cases hm : leadingNonStd a.getLast? (c :: b) with
    | none => rfl
    | some q =>
      exfalso
      unfold leadingNonStd at hm
      split at hm
      · rename_i hc
        simp only [Bool.and_eq_true] at hc
        have hl := h6 _ (line_mem e hc.1)
        have hc2 := hc.2
        rw [List.takeWhile_cons] at hc2
        split at hc2
        · rename_i hn
          have hcn : c ≠ '\n' := by rintro rfl; revert hn; decide
          rw [List.takeWhile_cons, if_pos (by simpa using hcn)] at hl
          simp only [List.head?_cons, ne_eq, Option.some.injEq, reduceCtorEq, false_or] at hl
          simp only [isNonStd, Bool.or_eq_true, decide_eq_true_eq] at hn
          rcases hn with hn | hn
          · exact hl.2.1 hn
          · exact hl.2.2 hn
        · simp at hc2
      · simp at hm
  have e3 : replace wsOnlyLine s = some s := by
    apply replace_id; intro a c b e
    have ee := lastOr_getLast [] a
    simp only [List.getLast?_nil, List.nil_append] at ee
    rw [ee]
    cases hm : wsOnlyLine a.getLast? (c :: b) with
    | none => rfl
    | some q =>
      exfalso
      obtain ⟨k, o, r⟩ := q
      obtain ⟨_, _, hls, hw⟩ := wsOnlyLine_some hm
      obtain ⟨w, ew, wne, wws, wr⟩ := wsLine_some hw
      -- a line covered by white space up to its end
      have cover : ∀ (l : Str) (w r : Str), (∀ x ∈ w, isWS x = true) → (r = [] ∨ r.head? = some '\n') →
          l = (w ++ r).takeWhile (fun d => !(d == '\n')) → ∀ x ∈ l, isWS x = true := by
        intro l w r hw hr e x hx
        subst e
        induction w with
        | nil =>
          rcases hr with rfl | hr
          · simp at hx
          · cases r with
            | nil => simp at hx
            | cons y r => simp at hr; subst hr; simp at hx
        | cons y w ih =>
          rw [List.cons_append, List.takeWhile_cons] at hx
          split at hx
          · rcases List.mem_cons.1 hx with rfl | hx
            · exact hw _ (by simp)
            · exact ih (fun z hz => hw z (by simp [hz])) hx
          · simp at hx
      by_cases hcn : c = '\n'
      · subst hcn
        -- the previous character is a newline as well
        have hprev : ∃ a', a = a' ++ ['\n'] := by
          cases ha : a.getLast? with
          | none => simp at ha; subst ha; subst e; simp at h3
          | some y =>
            rw [ha] at hls; simp [atLineStart] at hls; subst hls
            rwa [List.getLast?_eq_some_iff] at ha
        obtain ⟨a', rfl⟩ := hprev
        cases w with
        | nil => exact absurd rfl wne
        | cons y w =>
          simp at ew; obtain ⟨rfl, ew⟩ := ew
          cases w with
          | nil =>
            simp at ew; subst ew
            cases b with
            | nil => subst e; simp at h4
            | cons z b =>
              simp at wr; subst wr
              exact h5 ⟨a', b, by rw [e]; simp⟩
          | cons z w =>
            by_cases hz : z = '\n'
            · subst hz; exact h5 ⟨a', w ++ r, by rw [e, ew]; simp⟩
            · have e' : s = (a' ++ ['\n'] ++ ['\n']) ++ b := by rw [e]; simp
              have hl := h6 _ (line_mem e' (by simp [atLineStart]))
              have hcov := cover _ (z :: w) r (fun x hx => wws x (List.mem_cons_of_mem _ hx)) wr rfl
              rw [ew] at hl
              rcases hl with hl | ⟨⟨x, hx, hx2⟩, _⟩
              · rw [List.cons_append, List.takeWhile_cons, if_pos (by simpa using hz)] at hl; simp at hl
              · have := hcov x hx; rw [hx2] at this; simp at this
      · have hl := h6 _ (line_mem e hls)
        have hcov := cover _ w r wws wr rfl
        rw [← ew] at hcov
        rcases hl with hl | ⟨⟨x, hx, hx2⟩, _⟩
        · rw [List.takeWhile_cons, if_pos (by simpa using hcn)] at hl; simp at hl
        · have := hcov x hx; rw [hx2] at this; simp at this
  have e4 : replace concatLines s = some s := by
    apply replace_id; intro a c b e
    cases hm : concatLines (lastOr none a) (c :: b) with
    | none => rfl
    | some q =>
      obtain ⟨k, o, r⟩ := q
      obtain ⟨_, _, e2⟩ := concatLines_some hm
      exact absurd ⟨a, r, by rw [e, e2]; simp⟩ h7
  have e5 : replace tabs s = some s := by
    apply replace_id; intro a c b e
    cases hm : tabs (lastOr none a) (c :: b) with
    | none => rfl
    | some q =>
      obtain ⟨k, o, r⟩ := q
      obtain ⟨_, _, e2⟩ := tabs_some hm
      have : '\t' ∈ s := by rw [e, e2]; simp
      exact absurd rfl (h1 _ this).2.2.1
  have e6 : replace nullSpace s = some s := by
    apply replace_id; intro a c b e
    cases hm : nullSpace (lastOr none a) (c :: b) with
    | none => rfl
    | some q =>
      obtain ⟨k, o, r⟩ := q
      obtain ⟨_, _, e2⟩ := nullSpace_some hm
      have : '\x00' ∈ s := by rw [e, e2]; simp
      exact absurd rfl (h1 _ this).2.2.2
  have e7 := leadingNewlines_id h3
  have e8 : replace trailingNewlines s = some s := by
    apply replace_id; intro a c b e
    cases hm : trailingNewlines (lastOr none a) (c :: b) with
    | none => rfl
    | some q =>
      obtain ⟨k, o, r⟩ := q
      obtain ⟨_, _, _, _, hall⟩ := trailingNewlines_some hm
      exfalso; apply h4
      rw [e, List.getLast?_append]
      cases hl : (c :: b).getLast? with
      | none => simp at hl
      | some y => simp [hall y (List.mem_of_getLast? hl)]
  have e9 := C05_typography_identity s (fun hh => (h1 _ hh).1 rfl) h2 h8 h9
  simp [preprocess, whitespaceSubst, e1, e2, e3, e4, e5, e6, e7, e8, e9]

/-- The hypotheses of C06 are met by a two-paragraph text. -/
example : preprocess c!"Hello, world.\n\n  second \\ [[div]].." =
    some c!"Hello, world.\n\n  second \\ [[div]].." := by
  apply C06_preprocess_identity
  · decide +kernel
  · decide +kernel
  · decide
  · decide
  · decide +kernel
  · decide +kernel
  · decide +kernel
  · decide +kernel
  · decide +kernel

/-- A character the preprocessor never touches: not white space, NUL, backslash, quote marks, comma, dot
and not one of the characters it inserts. -/
def untouched (c : Char) : Bool :=
  !(isWS c || c = '\x00' || c = '\\' || c = '`' || c = '\'' || c = ',' || c = '.' || c = '\u2018' ||
    c = '\u2019' || c = '\u201c' || c = '\u201d' || c = '\u201e' || c = '\u2026')

/-- C51: preprocessing neither adds, drops nor reorders any other character: the sub-sequence of
untouched characters is the same before and after. -/
theorem C51_content_preserved (s t : Str) (h : preprocess s = some t) :
    t.filter untouched = s.filter untouched := by
  obtain ⟨a, b, c, d, e, f, g, w, x, y, z, h1, h2, h3, h4, h5, h6, h7, h8, h9, h10, h11, h12⟩ :=
    preprocess_some h
  have allWS : ∀ l : Str, (∀ x ∈ l, isWS x = true) → l.filter untouched = [] := by
    intro l hl; simp only [List.filter_eq_nil_iff]
    intro x hx; simp [untouched, hl x hx]
  have k1 : a.filter untouched = s.filter untouched := replace_filter (by
    intro prev s k o r hm
    obtain ⟨rfl, rfl, rfl | rfl⟩ := dosMac_some hm <;> simp [untouched, isWS]) h1
  have k2 : b.filter untouched = a.filter untouched := replace_filter (by
    intro prev s k o r hm
    obtain ⟨rfl, w, rfl, _, hw, rfl⟩ := leadingNonStd_some hm
    have e1 := allWS w (by
      intro x hx
      have := hw x hx
      simp only [isNonStd, Bool.or_eq_true, decide_eq_true_eq] at this
      rcases this with rfl | rfl <;> decide)
    have e2 := allWS (w.map fun _ => ' ') (by intro x hx; simp at hx; rw [← hx.2]; decide)
    simp [List.filter_append, e1, e2]) h2
  have k3 : c.filter untouched = b.filter untouched := replace_filter (by
    intro prev s k o r hm
    obtain ⟨rfl, rfl, _, hw⟩ := wsOnlyLine_some hm
    obtain ⟨w, rfl, _, hws, _⟩ := wsLine_some hw
    simp [List.filter_append, allWS w hws]) h3
  have k4 : d.filter untouched = c.filter untouched := replace_filter (by
    intro prev s k o r hm
    obtain ⟨rfl, rfl, rfl⟩ := concatLines_some hm
    simp [untouched, isWS]) h4
  have k5 : e.filter untouched = d.filter untouched := replace_filter (by
    intro prev s k o r hm
    obtain ⟨rfl, rfl, rfl⟩ := tabs_some hm
    simp [untouched, isWS]) h5
  have k6 : f.filter untouched = e.filter untouched := replace_filter (by
    intro prev s k o r hm
    obtain ⟨rfl, rfl, rfl⟩ := nullSpace_some hm
    simp [untouched, isWS]) h6
  have k7 : g.filter untouched = f.filter untouched := replace_filter (by
    intro prev s k o r hm
    obtain ⟨rfl, rfl, _, _, w, rfl, _, hw⟩ := leadingNewlines_some hm
    simp [List.filter_append, allWS w (fun x hx => by rw [hw x hx]; decide)]) h7
  have k8 : w.filter untouched = g.filter untouched := replace_filter (by
    intro prev s k o r hm
    obtain ⟨rfl, rfl, rfl, _, hw⟩ := trailingNewlines_some hm
    simp [allWS s (fun x hx => by rw [hw x hx]; decide)]) h8
  have k9 : x.filter untouched = w.filter untouched :=
    replace_filter (surround_filter (by decide) (by decide) (by decide) (by decide)) h9
  have k10 : y.filter untouched = x.filter untouched :=
    replace_filter (surround_filter (by decide) (by decide) (by decide) (by decide)) h10
  have k11 : z.filter untouched = y.filter untouched :=
    replace_filter (surround_filter (by decide) (by decide) (by decide) (by decide)) h11
  have k12 : t.filter untouched = z.filter untouched :=
    replace_filter (ellipsis_filter (by decide) (by decide) (by decide)) h12
  rw [k12, k11, k10, k9, k8, k7, k6, k5, k4, k3, k2, k1]

example : preprocess c!" \t``Hi''...[x]\n \n\n" = some c!"     “Hi”…[x]" := by decide +kernel

/-- C52: a text without backslashes has no three newlines in a row after preprocessing. -/
theorem C52_newlines_compressed (s t : Str) (hs : '\\' ∉ s) (h : preprocess s = some t) :
    ¬ ['\n', '\n', '\n'] <:+: t := by
  obtain ⟨a, b, c, d, e, f, g, w, x, y, z, h1, h2, h3, h4, h5, h6, h7, h8, h9, h10, h11, h12⟩ :=
    preprocess_some h
  have q0 : ∀ ch ∈ s, ch ≠ '\\' := by rintro ch hc rfl; exact hs hc
  have q1 : ∀ ch ∈ a, ch ≠ '\\' := replace_keeps (by
    intro prev s k o r hm hs
    obtain ⟨rfl, rfl, hh⟩ := dosMac_some hm
    refine ⟨by simp, by simp, ?_⟩
    rcases hh with rfl | rfl <;> exact fun c hc => hs c (by simp [hc])) q0 h1
  have q2 : ∀ ch ∈ b, ch ≠ '\\' := replace_keeps (leadingNonStd_keeps (Q := (· ≠ '\\')) (by decide)) q1 h2
  have q3 : ∀ ch ∈ c, ch ≠ '\\' := replace_keeps (wsOnlyLine_keeps (Q := (· ≠ '\\'))) q2 h3
  have k3 := wsOnlyLine_noTriple h3
  have hd : d = c := by
    have : replace concatLines c = some c := by
      apply replace_id; intro a c' b' e
      cases hm : concatLines (lastOr none a) (c' :: b') with
      | none => rfl
      | some q =>
        obtain ⟨k, o, r⟩ := q
        obtain ⟨_, _, e2⟩ := concatLines_some hm
        exact absurd rfl (q3 '\\' (by rw [e, e2]; simp))
    rw [this] at h4; cases h4; rfl
  subst hd
  have k5 := replace_noInfix (tabs_noInfix (by decide)) k3 h5
  have k6 := replace_noInfix (nullSpace_noInfix (by decide)) k5 h6
  have k7 : ¬ ['\n', '\n', '\n'] <:+: g := fun hh => k6 (hh.trans (leadingNewlines_result h7).2.isInfix)
  have k8 : ¬ ['\n', '\n', '\n'] <:+: w := fun hh => k7 (hh.trans (trailingNewlines_result h8).2.isInfix)
  have k9 := replace_noInfix (surround_noInfix (by decide) (by decide)) k8 h9
  have k10 := replace_noInfix (surround_noInfix (by decide) (by decide)) k9 h10
  have k11 := replace_noInfix (surround_noInfix (by decide) (by decide)) k10 h11
  exact replace_noInfix (ellipsis_noInfix (by decide)) k11 h12

example : '\\' ∉ c!"a\n\n \n\n\nb" ∧ preprocess c!"a\n\n \n\n\nb" = some c!"a\n\nb" := by decide +kernel

/-- C52 (the module documentation claims compression in general): with a backslash it fails. -/
theorem C52_newlines_not_compressed_in_general :
    ∃ s t, preprocess s = some t ∧ ['\n', '\n', '\n'] <:+: t :=
  ⟨c!"a\n\n\\\n\nb", c!"a\n\n\nb", by decide +kernel, ⟨c!"a", c!"b", rfl⟩⟩

/-- C53: preprocessing is not idempotent in general. -/
theorem C53_not_idempotent :
    ∃ s t u, preprocess s = some t ∧ preprocess t = some u ∧ t ≠ u :=
  ⟨c!"a\\\\\n\nx", c!"a\\\nx", c!"ax", by decide +kernel, by decide +kernel, by decide⟩

end Ftml.Preproc
