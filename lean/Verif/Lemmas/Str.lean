import Verif.Model.Str
/- Helper lemmas about strings. -/
namespace Ftml

theorem stripPfx_some {p s r : Str} : stripPfx p s = some r ↔ s = p ++ r := by
  induction p generalizing s with
  | nil => simp [stripPfx, eq_comm]
  | cons x p ih =>
    cases s with
    | nil => simp [stripPfx]
    | cons c s =>
      simp only [stripPfx]
      split
      · subst_vars; simp [ih]
      · rename_i h; simp [Ne.symm h]

theorem splitOn_ne_nil (c : Char) (s : Str) : splitOn c s ≠ [] := by
  cases s with
  | nil => simp [splitOn]
  | cons x s => unfold splitOn; split <;> (try split) <;> simp

theorem splitOn_append (c : Char) (a b : Str) :
    splitOn c (a ++ c :: b) = splitOn c a ++ splitOn c b := by
  induction a with
  | nil => simp [splitOn]
  | cons x a ih =>
    simp only [List.cons_append, splitOn]
    split
    · rw [ih]; rfl
    · rw [ih]
      cases h : splitOn c a with
      | nil => exact absurd h (splitOn_ne_nil _ _)
      | cons p ps => simp

theorem takeWhile_mem_splitOn (c : Char) (s : Str) : s.takeWhile (fun d => !(d == c)) ∈ splitOn c s := by
  induction s with
  | nil => simp [splitOn]
  | cons x s ih =>
    have hd : ∀ s : Str, (splitOn c s).head? = some (s.takeWhile (fun d => !(d == c))) := by
      intro s
      induction s with
      | nil => simp [splitOn]
      | cons x s ih =>
        unfold splitOn
        split
        · simp [*]
        · rename_i hx
          cases h : splitOn c s with
          | nil => exact absurd h (splitOn_ne_nil _ _)
          | cons p ps =>
            rw [h] at ih; simp at ih
            simp [hx, ih]
    exact List.mem_of_mem_head? (hd (x :: s))

theorem startsWith_iff {s p : Str} : startsWith s p = true ↔ p <+: s := by
  unfold startsWith
  constructor
  · intro h
    obtain ⟨r, hr⟩ := Option.isSome_iff_exists.1 h
    exact ⟨r, (stripPfx_some.1 hr).symm⟩
  · rintro ⟨r, rfl⟩
    rw [stripPfx_some.2 rfl]; rfl

theorem splitOnce_some {c : Char} {s a b : Str} :
    splitOnce c s = some (a, b) ↔ s = a ++ c :: b ∧ c ∉ a := by
  induction s generalizing a with
  | nil => simp [splitOnce]
  | cons x s ih =>
    simp only [splitOnce]
    split
    · subst_vars
      constructor
      · rintro h; simp at h; obtain ⟨rfl, rfl⟩ := h; simp
      · rintro ⟨h1, h2⟩
        cases a with
        | nil => simp at h1; simp [h1]
        | cons y a => simp at h1; simp [h1.1] at h2
    · rename_i hx
      simp only [Option.map_eq_some_iff, Prod.exists]
      constructor
      · rintro ⟨a', b', h1, h2⟩
        simp at h2
        obtain ⟨rfl, rfl⟩ := h2
        obtain ⟨rfl, h⟩ := ih.1 h1
        exact ⟨rfl, by simp [h, Ne.symm hx]⟩
      · rintro ⟨h1, h2⟩
        cases a with
        | nil => simp at h1; exact absurd h1.1 hx
        | cons y a =>
          simp at h1 h2
          exact ⟨a, b, ih.2 ⟨h1.2, h2.2⟩, by simp [h1.1]⟩

theorem splitOnce_none {c : Char} {s : Str} : splitOnce c s = none ↔ c ∉ s := by
  induction s with
  | nil => simp [splitOnce]
  | cons x s ih =>
    simp only [splitOnce]
    split
    · subst_vars; simp
    · rename_i hx; simp [ih, Ne.symm hx]

theorem joinWith_cons_cons (sep a b : Str) (r : List Str) :
    joinWith sep (a :: b :: r) = a ++ sep ++ joinWith sep (b :: r) := rfl

theorem joinWith_splitOn (c : Char) (s : Str) : joinWith [c] (splitOn c s) = s := by
  induction s with
  | nil => simp [splitOn, joinWith]
  | cons x s ih =>
    unfold splitOn
    cases h : splitOn c s with
    | nil => exact absurd h (splitOn_ne_nil _ _)
    | cons p ps =>
      rw [h] at ih
      split
      · subst_vars; simp [joinWith]
      · cases ps with
        | nil => simp [joinWith] at ih ⊢; exact ih
        | cons q qs => simp [joinWith] at ih ⊢; exact ih

theorem splitOn_pieces (c : Char) (s : Str) : ∀ p ∈ splitOn c s, c ∉ p := by
  induction s with
  | nil => simp [splitOn]
  | cons x s ih =>
    unfold splitOn
    cases h : splitOn c s with
    | nil => exact absurd h (splitOn_ne_nil _ _)
    | cons p ps =>
      rw [h] at ih
      split
      · simpa using ih
      · rename_i hx
        simp at ih ⊢
        exact ⟨⟨Ne.symm hx, ih.1⟩, ih.2⟩

theorem splitOn_single {c : Char} {s : Str} (h : c ∉ s) : splitOn c s = [s] := by
  induction s with
  | nil => simp [splitOn]
  | cons x s ih =>
    simp at h
    unfold splitOn
    rw [ih h.2, if_neg (Ne.symm h.1)]

theorem splitOn_cons {c : Char} {a b : Str} (h : c ∉ a) :
    splitOn c (a ++ c :: b) = a :: splitOn c b := by
  rw [splitOn_append, splitOn_single h]; rfl

theorem head_splitOn (c : Char) (s : Str) :
    (splitOn c s).headD [] = match splitOnce c s with | some (a, _) => a | none => s := by
  cases h : splitOnce c s with
  | none => rw [splitOn_single (splitOnce_none.1 h)]; rfl
  | some x =>
    obtain ⟨a, b⟩ := x
    obtain ⟨rfl, ha⟩ := splitOnce_some.1 h
    rw [splitOn_cons ha]; rfl

/-! trim -/

theorem dropWhile_suffix (p : Char → Bool) (s : Str) : ∃ w, s = w ++ s.dropWhile p ∧ ∀ c ∈ w, p c = true :=
  ⟨s.takeWhile p, by simp, fun c hc => by
    have := List.all_takeWhile (p := p) (l := s)
    exact List.all_eq_true.1 this c hc⟩

theorem trim_decomp (s : Str) : ∃ a b, s = a ++ trim s ++ b ∧ (∀ c ∈ a, isWS c = true) ∧ ∀ c ∈ b, isWS c = true := by
  obtain ⟨a, h1, h2⟩ := dropWhile_suffix isWS s
  obtain ⟨b, h3, h4⟩ := dropWhile_suffix isWS (s.dropWhile isWS).reverse
  refine ⟨a, b.reverse, ?_, h2, by simpa using h4⟩
  have := congrArg List.reverse h3
  simp only [List.reverse_append, List.reverse_reverse] at this
  rw [List.append_assoc]
  unfold trim trimEnd trimStart
  rw [← this]; exact h1

theorem head_dropWhile (p : Char → Bool) (s : Str) (c : Char) (h : (s.dropWhile p).head? = some c) :
    p c = false := by
  induction s with
  | nil => simp at h
  | cons x s ih =>
    simp only [List.dropWhile_cons] at h
    split at h
    · exact ih h
    · rename_i hx
      simp at h; subst h; simpa using hx

theorem trim_head (s : Str) (c : Char) (h : (trim s).head? = some c) : isWS c = false := by
  have hp : trim s <+: trimStart s := by
    unfold trim trimEnd
    obtain ⟨b, h3, _⟩ := dropWhile_suffix isWS (trimStart s).reverse
    have := congrArg List.reverse h3
    simp only [List.reverse_append, List.reverse_reverse] at this
    exact ⟨b.reverse, this.symm⟩
  obtain ⟨r, hr⟩ := hp
  apply head_dropWhile isWS s c
  change (trimStart s).head? = some c
  rw [← hr]
  cases ht : trim s with
  | nil => simp [ht] at h
  | cons x t => simp [ht] at h; simp [h]

theorem trim_last (s : Str) (c : Char) (h : (trim s).getLast? = some c) : isWS c = false := by
  unfold trim trimEnd at h
  rw [List.getLast?_reverse] at h
  exact head_dropWhile _ _ _ h

/-- A string is trimmed when it has no whitespace at either end. -/
def Trimmed (s : Str) : Prop :=
  (∀ c, s.head? = some c → isWS c = false) ∧ ∀ c, s.getLast? = some c → isWS c = false

theorem trim_trimmed (s : Str) : Trimmed (trim s) := ⟨trim_head s, trim_last s⟩

theorem dropWhile_of_head {p : Char → Bool} {s : Str} (h : ∀ c, s.head? = some c → p c = false) :
    s.dropWhile p = s := by
  cases s with
  | nil => rfl
  | cons x s => simp [h x rfl]

theorem trim_of_trimmed {s : Str} (h : Trimmed s) : trim s = s := by
  unfold trim trimEnd trimStart
  rw [dropWhile_of_head h.1, dropWhile_of_head (by simpa using h.2), List.reverse_reverse]

theorem trim_sub (s : Str) : ∀ c ∈ trim s, c ∈ s := by
  obtain ⟨a, b, h, _, _⟩ := trim_decomp s
  intro c hc; rw [h]; simp [hc]

theorem trim_nil_iff (s : Str) : trim s = [] ↔ ∀ c ∈ s, isWS c = true := by
  constructor
  · intro h
    obtain ⟨a, b, hs, h1, h2⟩ := trim_decomp s
    rw [h] at hs
    rw [hs]; simp only [List.append_nil, List.mem_append]
    rintro c (hc | hc)
    · exact h1 c hc
    · exact h2 c hc
  · intro h
    have : trimStart s = [] := by
      have hd := head_dropWhile isWS s
      cases hs : s.dropWhile isWS with
      | nil => exact hs
      | cons x t =>
        have h1 := hd x (by simp [hs])
        have h2 := h x (by
          obtain ⟨w, hw, _⟩ := dropWhile_suffix isWS s
          rw [hw, hs]; simp)
        simp [h1] at h2
    simp [trim, trimEnd, this]

end Ftml
