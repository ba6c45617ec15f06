import Verif.Spec.Doc
import Verif.Props.LexerShape
/- Positions of tokens, slices between tokens. -/
namespace Ftml

/-- The text of a token list. -/
abbrev slicesOf (ts : List ETok) : Str := ts.flatMap ETok.slice

theorem tokens_text (text : Str) : slicesOf (tokenize text).tokens = text := by
  obtain ⟨mid, h, h2, _⟩ := C07_tokens_tile text
  rw [h]; simp [slicesOf, h2]

theorem token_pos {text : Str} {pre a post} (h : (tokenize text).tokens = pre ++ a :: post) :
    a.start = byteLen (slicesOf pre) ∧ a.stop = a.start + byteLen a.slice := by
  obtain ⟨mid, h1, h2, h3⟩ := C07_tokens_tile text
  rw [h1] at h
  cases pre with
  | nil =>
    simp only [List.nil_append, List.cons.injEq] at h
    rw [← h.1]; simp
  | cons p pre =>
    simp only [List.cons_append, List.cons.injEq] at h
    obtain ⟨rfl, h⟩ := h
    rcases List.append_eq_append_iff.1 h with ⟨as, e1, e2⟩ | ⟨cs, e1, e2⟩
    · -- a is the end marker
      cases as with
      | nil =>
        simp only [List.nil_append, List.cons.injEq] at e2
        rw [← e2.1, e1]; simp [slicesOf, h2]
      | cons x as => simp at e2
    · cases cs with
      | nil =>
        simp only [List.nil_append, List.cons.injEq] at e2
        rw [e2.1]
        have e1' : pre = mid := by simpa using e1.symm
        rw [e1']; simp [slicesOf, h2]
      | cons x cs =>
        simp only [List.cons_append, List.cons.injEq] at e2
        obtain ⟨rfl, e2⟩ := e2
        have := h3 pre a cs e1
        refine ⟨?_, this.2.2.2.2.1⟩
        rw [this.2.2.2.1]; simp [slicesOf]

/-- `slice_partial` between a token and a later (or the same) one. -/
theorem slicePartial_ok {text : Str} {a b : ETok} {r m r' : List ETok}
    (h : (a :: r) <:+ (tokenize text).tokens) (hm : a :: r = m ++ b :: r') :
    fullSlicePartial text a b = some (slicesOf m) := by
  obtain ⟨pre, h⟩ := h
  have ha := token_pos h.symm
  have hb := token_pos (text := text) (pre := pre ++ m) (a := b) (post := r') (by rw [← h, hm]; simp)
  have ht := tokens_text text
  rw [← h, hm] at ht
  unfold fullSlicePartial
  rw [ha.1, hb.1, ← ht]
  simp only [slicesOf, List.flatMap_append, List.flatMap_cons, byteLen_append]
  have := sliceBytes_append (pre.flatMap ETok.slice) (m.flatMap ETok.slice) (b.slice ++ r'.flatMap ETok.slice)
  rw [← this]; simp

/-- `slice` from a token to a later (or the same) one, inclusive. -/
theorem slice_ok {text : Str} {a b : ETok} {r m r' : List ETok}
    (h : (a :: r) <:+ (tokenize text).tokens) (hm : a :: r = m ++ b :: r') :
    fullSlice text a b = some (slicesOf (m ++ [b])) := by
  obtain ⟨pre, h⟩ := h
  have ha := token_pos h.symm
  have hb := token_pos (text := text) (pre := pre ++ m) (a := b) (post := r') (by rw [← h, hm]; simp)
  have ht := tokens_text text
  rw [← h, hm] at ht
  unfold fullSlice
  rw [hb.2, ha.1, hb.1, ← ht]
  simp only [slicesOf, List.flatMap_append, List.flatMap_cons, byteLen_append, List.flatMap_nil, List.append_nil]
  have := sliceBytes_append (pre.flatMap ETok.slice) (m.flatMap ETok.slice ++ b.slice) (r'.flatMap ETok.slice)
  rw [← this]; simp [Nat.add_assoc]

/-- Only the last token is `InputEnd`. -/
theorem inputEnd_last {text : Str} {a : ETok} {r : List ETok} (h : (a :: r) <:+ (tokenize text).tokens) :
    a.token = .inputEnd ↔ r = [] := by
  obtain ⟨pre, h⟩ := h
  obtain ⟨mid, h1, h2, h3⟩ := C07_tokens_tile text
  rw [h1] at h
  constructor
  · intro ht
    cases pre with
    | nil => simp at h; rw [h.1] at ht; cases ht
    | cons p pre =>
      simp only [List.cons_append, List.cons.injEq] at h
      obtain ⟨rfl, h⟩ := h
      rcases List.append_eq_append_iff.1 h with ⟨as, e1, e2⟩ | ⟨cs, e1, e2⟩
      · cases as with
        | nil => simp at e2; exact e2.2
        | cons x as =>
          simp only [List.cons_append, List.cons.injEq] at e2
          have e1' : mid = pre ++ a :: as := by rw [e1, ← e2.1]
          exact absurd ht (h3 pre a as e1').2.2.1
      · cases cs with
        | nil => simp at e2; exact e2.2
        | cons x cs => simp at e2
  · rintro rfl
    cases pre with
    | nil => simp at h
    | cons p pre =>
      simp only [List.cons_append, List.cons.injEq] at h
      have := List.append_inj_right' h.2 (by simp)
      simp at this; rw [this]

end Ftml
