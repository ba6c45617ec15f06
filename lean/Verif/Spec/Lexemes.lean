import Verif.Model.Str
/-! What may stand between the quotes of a string, independent of the lexer. -/
namespace Ftml

/-- What may stand between two double quotes: characters other than quotes, backslashes and line ends, and
backslashes each followed by any character that ends no line (so a quote only after a backslash). -/
inductive StringBody : Str → Prop
  | nil : StringBody []
  | plain {c : Char} {s : Str} : c ≠ '"' → c ≠ '\\' → c ≠ '\n' → c ≠ '\r' → StringBody s → StringBody (c :: s)
  | escape {c : Char} {s : Str} : c ≠ '\n' → c ≠ '\r' → StringBody s → StringBody ('\\' :: c :: s)

theorem StringBody.line {s : Str} (h : StringBody s) : ∀ c ∈ s, c ≠ '\n' := by
  induction h with
  | nil => simp
  | plain _ _ h _ _ ih => exact List.forall_mem_cons.2 ⟨h, ih⟩
  | escape h _ _ ih => exact List.forall_mem_cons.2 ⟨by decide, List.forall_mem_cons.2 ⟨h, ih⟩⟩

/-- A string ends at the first quote that can end it: what stands between its quotes, and what follows, are determined. -/
theorem StringBody.unique {s t x y : Str} (hs : StringBody s) (ht : StringBody t) (h : s ++ '"' :: x = t ++ '"' :: y) : s = t ∧ x = y := by
  induction hs generalizing t with
  | nil =>
    cases ht with
    | nil => simpa using h
    | plain h1 => simp only [List.nil_append, List.cons_append, List.cons.injEq] at h; exact absurd h.1.symm h1
    | escape => simp at h
  | plain h1 h2 _ _ _ ih =>
    cases ht with
    | nil => simp only [List.nil_append, List.cons_append, List.cons.injEq] at h; exact absurd h.1 h1
    | plain _ _ _ _ ht =>
      simp only [List.cons_append, List.cons.injEq] at h
      obtain ⟨rfl, h⟩ := h
      obtain ⟨rfl, rfl⟩ := ih ht h
      exact ⟨rfl, rfl⟩
    | escape => simp only [List.cons_append, List.cons.injEq] at h; exact absurd h.1 h2
  | escape _ _ _ ih =>
    cases ht with
    | nil => simp at h
    | plain _ h2 => simp only [List.cons_append, List.cons.injEq] at h; exact absurd h.1.symm h2
    | escape _ _ ht =>
      simp only [List.cons_append, List.cons.injEq] at h
      obtain ⟨_, rfl, h⟩ := h
      obtain ⟨rfl, rfl⟩ := ih ht h
      exact ⟨rfl, rfl⟩

end Ftml
