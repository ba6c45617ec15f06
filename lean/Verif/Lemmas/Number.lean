import Verif.Spec.Markup
/-
What a positive number is, and that `parseNonZeroU32` accepts just these.
-/
namespace Ftml
open Markup

theorem digit_iff (c : Char) : (decide ('0' ≤ c) && decide (c ≤ '9')) = isDigitA c := by
  unfold isDigitA
  have h1 : ('0' ≤ c) = (48 ≤ c.toNat) := by
    rw [Char.le_def, UInt32.le_iff_toNat_le]; rfl
  have h2 : (c ≤ '9') = (c.toNat ≤ 57) := by
    rw [Char.le_def, UInt32.le_iff_toNat_le]; rfl
  simp only [h1, h2]

theorem digitsVal_all (acc : Nat) (s : Str) :
    digitsVal 10 acc s = if s.all (fun c => '0' ≤ c && c ≤ '9') then
      some (s.foldl (fun n c => 10 * n + (c.toNat - 48)) acc) else none := by
  induction s generalizing acc with
  | nil => rfl
  | cons c s ih =>
    simp only [digitsVal, List.all_cons, List.foldl_cons, digit_iff]
    unfold digitVal
    cases hd : isDigitA c with
    | true =>
      have : c.toNat - 48 < 10 := by
        simp only [isDigitA, Bool.and_eq_true, decide_eq_true_eq] at hd; omega
      simp only [if_true, if_pos this, Bool.true_and]
      rw [ih, Nat.mul_comm]
      simp only [digit_iff]
    | false =>
      simp only [Bool.false_and, Bool.false_eq_true, if_false]
      split
      · rename_i d h
        split
        · exfalso
          rename_i hlt
          cases hl : isLowerA c with
          | true =>
            simp only [hl, if_true, Option.some.injEq] at h
            simp only [isLowerA, Bool.and_eq_true, decide_eq_true_eq] at hl; omega
          | false =>
            simp only [hl, Bool.false_eq_true, if_false] at h
            cases hu : isUpperA c with
            | true =>
              simp only [hu, if_true, Option.some.injEq] at h
              simp only [isUpperA, Bool.and_eq_true, decide_eq_true_eq] at hu; omega
            | false => simp [hu] at h
        · rfl
      · rfl

theorem nonZero_positive (s : Str) : parseNonZeroU32 s = positiveOf s := by
  have key : ∀ t : Str, (match (if t.isEmpty then none else match digitsVal 10 0 t with
        | some n => if n < 2 ^ 32 then some n else none
        | none => none : Option Nat) with | some 0 => none | r => r) =
      if !t.isEmpty && t.all (fun c => '0' ≤ c && c ≤ '9') then
        (if 0 < t.foldl (fun n c => 10 * n + (c.toNat - 48)) 0 ∧ t.foldl (fun n c => 10 * n + (c.toNat - 48)) 0 < 2 ^ 32 then
          some (t.foldl (fun n c => 10 * n + (c.toNat - 48)) 0) else none) else none := by
    intro t
    rw [digitsVal_all]
    cases t.isEmpty with
    | true => rfl
    | false =>
      cases t.all (fun c => '0' ≤ c && c ≤ '9') with
      | false => rfl
      | true =>
        simp only [Bool.false_eq_true, if_false, if_true, Bool.not_false, Bool.and_self]
        generalize t.foldl (fun n c => 10 * n + (c.toNat - 48)) 0 = n
        cases n with
        | zero => rfl
        | succ n =>
          by_cases h : n + 1 < 2 ^ 32
          · simp only [if_pos h, if_pos (show 0 < n + 1 ∧ n + 1 < 2 ^ 32 from ⟨by omega, h⟩)]
          · simp only [if_neg h, if_neg (show ¬ (0 < n + 1 ∧ n + 1 < 2 ^ 32) from fun x => h x.2)]
  unfold parseNonZeroU32 parseU32 positiveOf
  refine (key _).trans ?_
  split
  · rename_i rest
    cases rest with
    | nil => rfl
    | cons c r => rfl
  · rename_i hn
    have : unsigned s = s := by
      unfold unsigned
      split
      · exact (hn _ rfl).elim
      · rfl
    rw [this]

end Ftml
