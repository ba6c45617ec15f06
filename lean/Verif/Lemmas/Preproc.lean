import Verif.Model.Preproc
import Verif.Lemmas.Str
/- Helper lemmas about the replacement loop of the preprocessor. -/
namespace Ftml.Preproc
open Ftml

/-- last character of `prev` followed by `a` -/
def lastOr (prev : Option Char) (a : Str) : Option Char := a.getLast?.or prev

@[simp] theorem lastOr_nil (p) : lastOr p [] = p := by simp [lastOr]
theorem lastOr_cons (p c a) : lastOr p (c :: a) = lastOr (some c) a := by
  cases a with
  | nil => simp [lastOr]
  | cons d a =>
    simp only [lastOr, List.getLast?_cons_cons]
    cases h : (d :: a).getLast? <;> simp_all

theorem search_some {m : Matcher} {prev s pre out rest} (h : search m prev s = some (pre, out, rest)) :
    ∃ a mid k, s = a ++ mid ∧ mid ≠ [] ∧ m (lastOr prev a) mid = some (k, out, rest) ∧ pre = a ++ k ∧
      ∀ a1 c a2, a = a1 ++ c :: a2 → m (lastOr prev a1) (c :: a2 ++ mid) = none := by
  induction s generalizing prev pre out rest with
  | nil => simp [search] at h
  | cons c s ih =>
    unfold search at h
    split at h
    · rename_i r hr
      cases h
      exact ⟨[], c :: s, pre, rfl, by simp, by simpa using hr, rfl, by simp⟩
    · rename_i hn
      split at h
      · rename_i pre' out' rest' hs
        cases h
        obtain ⟨a, mid, k, e1, e2, e3, e4, e5⟩ := ih hs
        refine ⟨c :: a, mid, k, by simp [e1], e2, by rw [lastOr_cons]; exact e3, by simp [e4], ?_⟩
        intro a1 d a2 e
        cases a1 with
        | nil => simp at e; obtain ⟨rfl, rfl⟩ := e; simpa [e1] using hn
        | cons x a1 =>
          simp at e; obtain ⟨rfl, e⟩ := e
          rw [lastOr_cons]; exact e5 _ _ _ e
      · simp at h

theorem search_none {m : Matcher} {prev s} (h : search m prev s = none) :
    ∀ a c b, s = a ++ c :: b → m (lastOr prev a) (c :: b) = none := by
  induction s generalizing prev with
  | nil => simp
  | cons x s ih =>
    unfold search at h
    split at h
    · simp at h
    · rename_i hn
      split at h
      · simp at h
      · rename_i hs
        intro a c b e
        cases a with
        | nil => simp at e; obtain ⟨rfl, rfl⟩ := e; simpa using hn
        | cons y a =>
          simp at e; obtain ⟨rfl, e⟩ := e
          rw [lastOr_cons]; exact ih hs _ _ _ e

theorem search_eq_none {m : Matcher} {prev s}
    (h : ∀ a c b, s = a ++ c :: b → m (lastOr prev a) (c :: b) = none) : search m prev s = none := by
  induction s generalizing prev with
  | nil => simp [search]
  | cons x s ih =>
    have h0 := h [] x s rfl
    simp at h0
    unfold search
    rw [h0, ih]
    intro a c b e
    have := h (x :: a) c b (by simp [e])
    rwa [lastOr_cons] at this

/-- every match leaves strictly less text to search -/
def Shrinks (m : Matcher) : Prop :=
  ∀ prev s k o r, m prev s = some (k, o, r) → r.length < s.length

theorem replaceLoop_total {m : Matcher} (hm : Shrinks m) :
    ∀ fuel done rest, rest.length < fuel → ∃ t, replaceLoop m fuel done rest = some t := by
  intro fuel
  induction fuel with
  | zero => intro _ _ h; omega
  | succ fuel ih =>
    intro done rest h
    unfold replaceLoop
    split
    · exact ⟨_, rfl⟩
    · rename_i pre out rest' hs
      obtain ⟨a, mid, k, e1, e2, e3, e4, e5⟩ := search_some hs
      have := hm _ _ _ _ _ e3
      apply ih
      subst e1; simp at h; omega

theorem replace_total {m : Matcher} (hm : Shrinks m) (s : Str) : ∃ t, replace m s = some t :=
  replaceLoop_total hm _ _ _ (by omega)

/-- Invariant principle for the replacement loop. -/
theorem replaceLoop_inv {m : Matcher} (I : Str → Str → Prop) (P : Str → Prop)
    (step : ∀ done rest a mid k o r, I done rest → rest = a ++ mid → mid ≠ [] →
      m (lastOr done.getLast? a) mid = some (k, o, r) →
      (∀ a1 c a2, a = a1 ++ c :: a2 → m (lastOr done.getLast? a1) (c :: a2 ++ mid) = none) →
      I (done ++ a ++ k ++ o) r)
    (fin : ∀ done rest, I done rest →
      (∀ a c b, rest = a ++ c :: b → m (lastOr done.getLast? a) (c :: b) = none) → P (done ++ rest)) :
    ∀ fuel done rest t, I done rest → replaceLoop m fuel done rest = some t → P t := by
  intro fuel
  induction fuel with
  | zero => intro _ _ _ _ h; simp [replaceLoop] at h
  | succ fuel ih =>
    intro done rest t hI h
    unfold replaceLoop at h
    split at h
    · rename_i hs
      cases h
      exact fin _ _ hI (search_none hs)
    · rename_i pre out rest' hs
      obtain ⟨a, mid, k, e1, e2, e3, e4, e5⟩ := search_some hs
      subst e4
      have := step done rest a mid k out rest' hI e1 e2 e3 e5
      rw [← List.append_assoc] at h
      exact ih _ _ _ this h

theorem replace_inv {m : Matcher} {s t : Str} (I : Str → Str → Prop) (P : Str → Prop) (h0 : I [] s)
    (step : ∀ done rest a mid k o r, I done rest → rest = a ++ mid → mid ≠ [] →
      m (lastOr done.getLast? a) mid = some (k, o, r) →
      (∀ a1 c a2, a = a1 ++ c :: a2 → m (lastOr done.getLast? a1) (c :: a2 ++ mid) = none) →
      I (done ++ a ++ k ++ o) r)
    (fin : ∀ done rest, I done rest →
      (∀ a c b, rest = a ++ c :: b → m (lastOr done.getLast? a) (c :: b) = none) → P (done ++ rest))
    (h : replace m s = some t) : P t :=
  replaceLoop_inv I P step fin _ _ _ _ h0 h

/-- Where nothing matches, the pass changes nothing. -/
theorem replace_id {m : Matcher} {s : Str}
    (h : ∀ a c b, s = a ++ c :: b → m (lastOr none a) (c :: b) = none) : replace m s = some s := by
  unfold replace replaceLoop
  rw [search_eq_none]
  · simp
  · simpa using h

/-- Matcher characters: a pass that only produces `Q` characters and stops only when every character
is `Q`. -/
theorem replace_makes {m : Matcher} {Q : Char → Prop} {s t : Str}
    (hk : ∀ prev s k o r, m prev s = some (k, o, r) → (∀ c ∈ k, Q c) ∧ (∀ c ∈ o, Q c))
    (hn : ∀ prev c s, m prev (c :: s) = none → Q c)
    (h : replace m s = some t) : ∀ c ∈ t, Q c := by
  refine replace_inv (fun done _ => ∀ c ∈ done, Q c) (fun t => ∀ c ∈ t, Q c) (by simp) ?_ ?_ h
  · intro done rest a mid k o r hI _ _ hm hnone c hc
    simp only [List.mem_append] at hc
    rcases hc with ((hc | hc) | hc) | hc
    · exact hI c hc
    · obtain ⟨a1, a2, rfl⟩ := List.append_of_mem hc
      exact hn _ _ _ (hnone a1 c a2 rfl)
    · exact (hk _ _ _ _ _ hm).1 c hc
    · exact (hk _ _ _ _ _ hm).2 c hc
  · intro done rest hI hnone c hc
    simp only [List.mem_append] at hc
    rcases hc with hc | hc
    · exact hI c hc
    · obtain ⟨a1, a2, rfl⟩ := List.append_of_mem hc
      exact hn _ _ _ (hnone a1 c a2 rfl)

/-- A pass whose output characters are `Q` when the input's are. -/
theorem replace_keeps {m : Matcher} {Q : Char → Prop} {s t : Str}
    (hk : ∀ prev s k o r, m prev s = some (k, o, r) → (∀ c ∈ s, Q c) →
      (∀ c ∈ k, Q c) ∧ (∀ c ∈ o, Q c) ∧ (∀ c ∈ r, Q c))
    (hs : ∀ c ∈ s, Q c) (h : replace m s = some t) : ∀ c ∈ t, Q c := by
  refine replace_inv (fun done rest => (∀ c ∈ done, Q c) ∧ ∀ c ∈ rest, Q c) (fun t => ∀ c ∈ t, Q c)
    ⟨by simp, hs⟩ ?_ ?_ h
  · intro done rest a mid k o r hI e _ hm _
    subst e
    simp only [List.mem_append] at hI
    have hh := hk _ _ _ _ _ hm (fun c hc => hI.2 c (Or.inr hc))
    refine ⟨?_, hh.2.2⟩
    intro c hc
    simp only [List.mem_append] at hc
    rcases hc with ((hc | hc) | hc) | hc
    · exact hI.1 c hc
    · exact hI.2 c (Or.inl hc)
    · exact hh.1 c hc
    · exact hh.2.1 c hc
  · intro done rest hI _ c hc
    simp only [List.mem_append] at hc
    rcases hc with hc | hc
    · exact hI.1 c hc
    · exact hI.2 c hc

/-- A pass that preserves the sub-sequence of `p` characters. -/
theorem replace_filter {m : Matcher} {p : Char → Bool} {s t : Str}
    (hk : ∀ prev s k o r, m prev s = some (k, o, r) → s.filter p = (k ++ o ++ r).filter p)
    (h : replace m s = some t) : t.filter p = s.filter p := by
  refine replace_inv (fun done rest => (done ++ rest).filter p = s.filter p)
    (fun t => t.filter p = s.filter p) (by simp) ?_ ?_ h
  · intro done rest a mid k o r hI e _ hm _
    have := hk _ _ _ _ _ hm
    subst e
    rw [← hI]
    simp only [List.filter_append, List.append_assoc] at *
    rw [this]
  · intro done rest hI _; exact hI

/-- A pass that cannot put a newline at either end. -/
theorem replace_edges {m : Matcher} {s t : Str}
    (hk : ∀ prev s k o r, m prev s = some (k, o, r) →
      o ≠ [] ∧ o.head? ≠ some '\n' ∧ o.getLast? ≠ some '\n' ∧ ∃ mid, s = k ++ mid ++ r)
    (h1 : s.head? ≠ some '\n') (h2 : s.getLast? ≠ some '\n') (h : replace m s = some t) :
    t.head? ≠ some '\n' ∧ t.getLast? ≠ some '\n' := by
  refine replace_inv
    (fun done rest => (done ++ rest).head? ≠ some '\n' ∧ (done ++ rest).getLast? ≠ some '\n')
    (fun t => t.head? ≠ some '\n' ∧ t.getLast? ≠ some '\n') ⟨by simpa using h1, by simpa using h2⟩ ?_ ?_ h
  · intro done rest a mid k o r hI e _ hm _
    obtain ⟨o1, o2, o3, mm, e2⟩ := hk _ _ _ _ _ hm
    subst e; subst e2
    constructor
    · cases hd : done ++ a ++ k with
      | nil =>
        rw [List.nil_append, List.head?_append]
        cases o with
        | nil => exact absurd rfl o1
        | cons x o => simpa using o2
      | cons x l =>
        have e2 : (done ++ (a ++ (k ++ mm ++ r))) = x :: (l ++ mm ++ r) := by
          have : (done ++ (a ++ (k ++ mm ++ r))) = done ++ a ++ k ++ mm ++ r := by simp
          rw [this, hd]; simp
        have := hI.1; rw [e2] at this; simpa using this
    · cases r with
      | nil =>
        simp only [List.append_nil]
        rw [List.getLast?_append]
        cases ho : o.getLast? with
        | none => simp at ho; exact absurd ho o1
        | some y => rw [ho] at o3; simpa using o3
      | cons x r =>
        have := hI.2
        simp only [← List.append_assoc] at this
        rw [List.getLast?_append] at this ⊢
        simpa using this
  · intro done rest hI _; exact hI

/-! ### String lemmas -/

theorem mem_takeWhile {p : Char → Bool} {s : Str} {c : Char} (h : c ∈ s.takeWhile p) : p c = true := by
  induction s with
  | nil => simp at h
  | cons x s ih =>
    rw [List.takeWhile_cons] at h
    split at h
    · rcases List.mem_cons.1 h with rfl | h
      · assumption
      · exact ih h
    · simp at h

theorem lazyTo_some {close s a r : Str} (h : lazyTo close s = some (a, r)) :
    s = a ++ close ++ r ∧ '\n' ∉ a := by
  induction s generalizing a r with
  | nil =>
    simp only [lazyTo, Option.map_eq_some_iff] at h
    obtain ⟨r', h1, h2⟩ := h
    cases h2
    rw [stripPfx_some] at h1; simp [h1.symm]
  | cons c s ih =>
    unfold lazyTo at h
    split at h
    · rename_i r' hr; cases h; rw [stripPfx_some] at hr; simp [hr]
    · split at h
      · simp at h
      · rename_i hc
        simp only [Option.map_eq_some_iff] at h
        obtain ⟨⟨a', r'⟩, h1, h2⟩ := h
        cases h2
        obtain ⟨h3, h4⟩ := ih h1
        refine ⟨by simp [h3], ?_⟩
        simp only [List.mem_cons, not_or]
        exact ⟨fun h => hc h.symm, h4⟩

theorem surround_some {op close : Str} {b f : Char} {prev s k o r}
    (h : surround op close b f prev s = some (k, o, r)) :
    ∃ content, s = op ++ content ++ close ++ r ∧ k = [] ∧ o = b :: (content ++ [f]) ∧ '\n' ∉ content := by
  unfold surround at h
  simp only [Option.bind_eq_bind, Option.bind_eq_some_iff] at h
  obtain ⟨r1, h1, ⟨c, r2⟩, h2, h3⟩ := h
  cases h3
  rw [stripPfx_some] at h1
  obtain ⟨h4, h5⟩ := lazyTo_some h2
  exact ⟨c, by simp [h1, h4], rfl, rfl, h5⟩

theorem dots_some {s r : Str} (h : dots s = some r) :
    (s = ['.', '.', '.'] ++ r ∨ s = ['.', ' ', '.', ' ', '.'] ++ r) ∧ r.head? ≠ some '.' := by
  unfold dots at h
  split at h
  · rename_i r' hr
    rw [stripPfx_some] at hr
    split at h
    · simp at h
    · cases h; exact ⟨Or.inl hr, by assumption⟩
  · split at h
    · rename_i r' hr
      rw [stripPfx_some] at hr
      split at h
      · simp at h
      · cases h; exact ⟨Or.inr hr, by assumption⟩
    · simp at h

theorem ellipsis_some {prev s k o r} (h : ellipsis prev s = some (k, o, r)) :
    o = ['\u2026'] ∧ ∃ d, s = k ++ d ++ r ∧ (d = ['.', '.', '.'] ∨ d = ['.', ' ', '.', ' ', '.']) ∧
      (k = [] ∧ prev = none ∨ ∃ c, k = [c] ∧ c ≠ '.') ∧ r.head? ≠ some '.' := by
  unfold ellipsis at h
  split at h
  · rename_i r' hr
    cases h
    split at hr
    · rename_i hp
      obtain ⟨h1 | h1, h2⟩ := dots_some hr
      · exact ⟨rfl, _, h1, Or.inl rfl, Or.inl ⟨rfl, by simpa using hp⟩, h2⟩
      · exact ⟨rfl, _, h1, Or.inr rfl, Or.inl ⟨rfl, by simpa using hp⟩, h2⟩
    · simp at hr
  · split at h
    · simp at h
    · split at h
      · simp at h
      · rename_i c t _ hc
        simp only [Option.map_eq_some_iff] at h
        obtain ⟨r', hr, he⟩ := h
        cases he
        obtain ⟨h1 | h1, h2⟩ := dots_some hr
        · exact ⟨rfl, _, by rw [h1]; rfl, Or.inl rfl, Or.inr ⟨c, rfl, hc⟩, h2⟩
        · exact ⟨rfl, _, by rw [h1]; rfl, Or.inr rfl, Or.inr ⟨c, rfl, hc⟩, h2⟩

theorem dosMac_some {prev s k o r} (h : dosMac prev s = some (k, o, r)) :
    k = [] ∧ o = ['\n'] ∧ (s = ['\r', '\n'] ++ r ∨ s = ['\r'] ++ r) := by
  unfold dosMac at h
  split at h
  · cases h; simp
  · cases h; simp
  · simp at h

theorem dosMac_none {prev c s} (h : dosMac prev (c :: s) = none) : c ≠ '\r' := by
  rintro rfl
  unfold dosMac at h
  split at h <;> simp_all

theorem leadingNonStd_some {prev s k o r} (h : leadingNonStd prev s = some (k, o, r)) :
    k = [] ∧ ∃ w, s = w ++ r ∧ w ≠ [] ∧ (∀ c ∈ w, isNonStd c) ∧ o = w.map (fun _ => ' ') := by
  unfold leadingNonStd at h
  split at h
  · rename_i hc
    cases h
    refine ⟨rfl, _, (List.takeWhile_append_dropWhile).symm, ?_, ?_, rfl⟩
    · simp at hc; simpa using hc.2
    · intro c hc; exact mem_takeWhile hc
  · simp at h

theorem wsLine_some {s r} (h : wsLine s = some r) :
    ∃ w, s = w ++ r ∧ w ≠ [] ∧ (∀ c ∈ w, isWS c = true) ∧ (r = [] ∨ r.head? = some '\n') := by
  induction s generalizing r with
  | nil => simp [wsLine] at h
  | cons c s ih =>
    unfold wsLine at h
    split at h
    · rename_i hc
      split at h
      · rename_i r' hr
        cases h
        obtain ⟨w, h1, h2, h3, h4⟩ := ih hr
        exact ⟨c :: w, by simp [h1], by simp, by simpa using ⟨hc, h3⟩, h4⟩
      · split at h
        · cases h; exact ⟨[c], by simp, by simp, by simpa using hc, by simp⟩
        · split at h
          · cases h; rename_i hd; exact ⟨[c], by simp, by simp, by simpa using hc, by simp [hd]⟩
          · simp at h
    · simp at h

theorem wsLine_none {s} (h : wsLine s = none) (w r) (e : s = w ++ r) (hw : w ≠ [])
    (hws : ∀ c ∈ w, isWS c = true) (hr : r = [] ∨ r.head? = some '\n') : False := by
  induction s generalizing w with
  | nil =>
    cases w with
    | nil => exact hw rfl
    | cons => simp at e
  | cons c s ih =>
    cases w with
    | nil => exact hw rfl
    | cons d w =>
      simp at e; obtain ⟨rfl, e⟩ := e
      have hc : isWS c = true := hws c (by simp)
      unfold wsLine at h
      rw [if_pos hc] at h
      split at h
      · simp at h
      · rename_i hn
        cases w with
        | nil =>
          simp at e; subst e
          split at h
          · simp at h
          · rename_i d' s' _
            rcases hr with hr | hr
            · simp at hr
            · simp at hr; simp [hr] at h
        | cons x w => exact ih hn (x :: w) e (by simp) (fun c hc => hws c (by simp at hc ⊢; right; exact hc))

theorem wsOnlyLine_some {prev s k o r} (h : wsOnlyLine prev s = some (k, o, r)) :
    k = [] ∧ o = [] ∧ atLineStart prev = true ∧ wsLine s = some r := by
  unfold wsOnlyLine at h
  split at h
  · simp only [Option.map_eq_some_iff] at h
    obtain ⟨r', h1, h2⟩ := h; cases h2; simp_all
  · simp at h

theorem concatLines_some {prev s k o r} (h : concatLines prev s = some (k, o, r)) :
    k = [] ∧ o = [] ∧ s = ['\\', '\n'] ++ r := by
  unfold concatLines at h; split at h <;> simp_all

theorem tabs_some {prev s k o r} (h : tabs prev s = some (k, o, r)) :
    k = [] ∧ o = [' ', ' ', ' ', ' '] ∧ s = ['\t'] ++ r := by
  unfold tabs at h; split at h <;> simp_all

theorem tabs_none {prev c s} (h : tabs prev (c :: s) = none) : c ≠ '\t' := by
  rintro rfl; simp [tabs] at h

theorem nullSpace_some {prev s k o r} (h : nullSpace prev s = some (k, o, r)) :
    k = [] ∧ o = [' '] ∧ s = ['\x00'] ++ r := by
  unfold nullSpace at h; split at h <;> simp_all

theorem nullSpace_none {prev c s} (h : nullSpace prev (c :: s) = none) : c ≠ '\x00' := by
  rintro rfl; simp [nullSpace] at h

theorem leadingNewlines_some {prev s k o r} (h : leadingNewlines prev s = some (k, o, r)) :
    k = [] ∧ o = [] ∧ prev = none ∧ r.head? ≠ some '\n' ∧
      ∃ w, s = w ++ r ∧ w ≠ [] ∧ (∀ c ∈ w, c = '\n') := by
  unfold leadingNewlines at h
  split at h
  · rename_i hc
    cases h
    simp at hc
    refine ⟨rfl, rfl, hc.1, ?_, _, (List.takeWhile_append_dropWhile).symm, by simpa using hc.2, ?_⟩
    · intro h
      have := List.head?_dropWhile_not (fun c => decide (c = '\n')) s
      rw [h] at this; simp at this
    · intro c hc; simpa using mem_takeWhile hc
  · simp at h

theorem trailingNewlines_some {prev s k o r} (h : trailingNewlines prev s = some (k, o, r)) :
    k = [] ∧ o = [] ∧ r = [] ∧ s ≠ [] ∧ ∀ c ∈ s, c = '\n' := by
  unfold trailingNewlines at h
  split at h
  · rename_i hc; cases h; simp at hc; simpa using hc
  · simp at h

end Ftml.Preproc
