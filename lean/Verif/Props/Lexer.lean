import Verif.Lemmas.Lexer
/-
Properties of `tokenize` and of the UTF-16 index conversion (C07–C11).
-/
namespace Ftml
open Ftml Lexer

/-- C07: the tokens of a text are `InputStart` at 0..0, then tokens with non-empty slices that tile the
text (each starts at the byte length of the slices before it, and the text at its span is its slice),
then `InputEnd` at len..len. -/
theorem C07_tokens_tile (text : Str) :
    ∃ mid, (tokenize text).tokens =
        ⟨.inputStart, [], 0, 0⟩ :: (mid ++ [⟨.inputEnd, [], byteLen text, byteLen text⟩]) ∧
      mid.flatMap ETok.slice = text ∧
      ∀ pre t post, mid = pre ++ t :: post →
        t.slice ≠ [] ∧ t.token ≠ .inputStart ∧ t.token ≠ .inputEnd ∧
        t.start = byteLen (pre.flatMap ETok.slice) ∧ t.stop = t.start + byteLen t.slice ∧
        sliceBytes text t.start t.stop = some t.slice := by
  obtain ⟨ts, h1, h2, h3⟩ := runDocument_spec text
  refine ⟨addSpans 0 ts, by simp [tokenize, extractAll, h1], by rw [addSpans_slices, h2], ?_⟩
  intro pre t post e
  obtain ⟨a, b, e1, e2, e3, e4⟩ := addSpans_split e
  have hm := h3 (t.token, t.slice) (by simp [e1])
  have htok : ∀ x, Prov alternatives x → x.1 ≠ .inputStart ∧ x.1 ≠ .inputEnd := by
    rintro ⟨tk, sl⟩ ⟨alt, ha, p, hp, _⟩
    have : alternatives.all (fun a => a.all fun x => x.1 != .inputStart && x.1 != .inputEnd) = true := by decide
    simp only [List.all_eq_true] at this
    have := this alt ha _ hp
    simpa using this
  refine ⟨hm.1, (htok _ hm.2).1, (htok _ hm.2).2, ?_, e4, ?_⟩
  · rw [e3, e2, addSpans_slices]; omega
  · have : text = slices a ++ t.slice ++ slices b := by rw [← h2, e1]; simp [slices]
    rw [this, e4, e3, Nat.zero_add]
    exact sliceBytes_append _ _ _

example : ((tokenize c!"[[x]] é").tokens.map fun t => (t.start, t.stop)) =
    [(0, 0), (0, 2), (2, 3), (3, 5), (5, 6), (6, 8), (8, 8)] := by decide +kernel

/-- C08: the pest parse succeeds on every text, so the single-token fallback is never taken. -/
theorem C08_lexer_never_falls_back (text : Str) : ∃ ts, runDocument text = some ts :=
  ⟨_, (runDocument_spec text).choose_spec.1⟩

/-- C08, observable form: the token list always begins with `InputStart`. -/
theorem C08_first_token (text : Str) :
    (tokenize text).tokens.head? = some ⟨.inputStart, [], 0, 0⟩ := by
  obtain ⟨mid, h, _⟩ := C07_tokens_tile text
  simp [h]

theorem gNonSpace_at (s : Str) : gNonSpace.run ('@' :: s) = some (['@'], s) := by
  simp [gNonSpace, Peg.run, Peg.newline, Peg.any, stripPfx]

theorem repeatUpTo_stops {f : Str → Option (Str × Str)} (hf : ∀ s m r, f s = some (m, r) → r.length < s.length) :
    ∀ n s, s.length ≤ n → f (repeatUpTo f n s).2 = none ∨ (repeatUpTo f n s).2 = [] := by
  intro n
  induction n with
  | zero =>
    intro s h
    have : s = [] := List.length_eq_zero_iff.1 (by omega)
    subst this; right; simp [repeatUpTo]
  | succ n ih =>
    intro s h
    unfold repeatUpTo
    split
    · left; simpa
    · rename_i m r h1
      have := hf _ _ _ h1
      exact ih r (by omega)

theorem gEmail_fails (s : Str) : gEmail.run s = none := by
  unfold gEmail
  simp only [Peg.run, Peg.plus]
  split
  · rfl
  · rename_i m r h
    have hshr : ∀ s m r, gNonSpace.run s = some (m, r) → r.length < s.length := by
      intro s m r h
      have h1 := Peg.run_append h
      have h2 := Peg.consumes_sound (p := gNonSpace) rfl h
      rw [h1, List.length_append]
      have := List.length_pos_iff.2 h2
      omega
    have hstop : gNonSpace.run r = none ∨ r = [] := by
      split at h
      · simp at h
      · rename_i m1 r1 h1
        have hs := repeatUpTo_stops hshr r1.length r1 (Nat.le_refl _)
        cases hh : repeatUpTo gNonSpace.run r1.length r1 with
        | mk m2 r2 =>
          rw [hh] at hs
          have : r2 = r := by
            have h3 : (match (some (repeatUpTo gNonSpace.run r1.length r1) : Option (Str × Str)) with
              | none => none
              | some (m', r') => some (m1 ++ m', r')) = some (m, r) := h
            rw [hh] at h3; simp at h3; exact h3.2
          subst this; exact hs
    have : (stripPfx ['@'] r).map (fun r => (['@'], r)) = none := by
      cases r with
      | nil => simp [stripPfx]
      | cons c r =>
        by_cases hc : c = '@'
        · subst hc
          rcases hstop with hs | hs
          · rw [gNonSpace_at] at hs; simp at hs
          · simp at hs
        · simp [stripPfx, Ne.symm hc]
    rw [this]

/-- C09: no token of any text is an `Email` token. -/
theorem C09_no_email_token (text : Str) : ∀ t ∈ (tokenize text).tokens, t.token ≠ .email := by
  obtain ⟨mid, h, _, _⟩ := C07_tokens_tile text
  obtain ⟨ts, h1, h2, h3⟩ := runDocument_spec text
  have he : (tokenize text).tokens =
      ⟨.inputStart, [], 0, 0⟩ :: (addSpans 0 ts ++ [⟨.inputEnd, [], byteLen text, byteLen text⟩]) := by
    simp [tokenize, extractAll, h1]
  intro t ht
  rw [he] at ht
  simp only [List.mem_cons, List.mem_append, List.not_mem_nil, or_false] at ht
  rcases ht with rfl | ht | rfl
  · simp
  · intro hem
    obtain ⟨pre, post, e⟩ := List.append_of_mem ht
    obtain ⟨a, b, e1, _⟩ := addSpans_split e
    obtain ⟨_, alt, ha, p, hp, s, r, hr⟩ := h3 (t.token, t.slice) (by simp [e1])
    have hall : ∀ alt ∈ alternatives, ∀ p, (Token.email, p) ∈ alt → p = gEmail := by
      intro alt ha p hp
      simp only [alternatives, List.mem_cons, List.not_mem_nil, or_false] at ha
      rcases ha with rfl | rfl | rfl | rfl | rfl | rfl | rfl | rfl | rfl | rfl | rfl | rfl | rfl | rfl | rfl |
        rfl | rfl | rfl | rfl | rfl | rfl | rfl | rfl | rfl | rfl | rfl | rfl | rfl | rfl | rfl | rfl | rfl |
        rfl | rfl | rfl | rfl | rfl | rfl | rfl | rfl | rfl | rfl | rfl | rfl | rfl | rfl | rfl | rfl | rfl |
        rfl | rfl | rfl | rfl | rfl | rfl | rfl | rfl | rfl | rfl | rfl <;>
        simp at hp <;> exact hp
    have hpe : p = gEmail := hall alt ha p (by simpa [hem] using hp)
    rw [hpe, gEmail_fails] at hr
    simp at hr
  · simp

example : ((tokenize c!"me@example.com").tokens.map (·.token)) =
    [.inputStart, .identifier, .other, .identifier, .other, .identifier, .inputEnd] := by decide +kernel

/-! ### UTF-16 -/

theorem prefix_eq_of_byteLen {a b a' b' : Str} (h : a ++ b = a' ++ b') (hl : byteLen a = byteLen a') :
    a = a' := by
  rw [List.append_eq_append_iff] at h
  rcases h with ⟨c, rfl, _⟩ | ⟨c, rfl, _⟩
  · simp only [byteLen_append] at hl
    have : byteLen c = 0 := by omega
    rw [byteLen_eq_zero] at this; simp [this]
  · simp only [byteLen_append] at hl
    have : byteLen c = 0 := by omega
    rw [byteLen_eq_zero] at this; simp [this]

theorem utf16Build_mem {i j : Nat} {s : Str} (k v : Nat) :
    (k, v) ∈ utf16Build i j s ↔ s ≠ [] ∧ ∃ a b, s = a ++ b ∧ k = i + byteLen a ∧ v = j + utf16Len a := by
  fun_induction utf16Build i j s with
  | case1 => simp
  | case2 i j c =>
    simp only [List.mem_cons, Prod.mk.injEq, List.not_mem_nil, or_false, ne_eq, reduceCtorEq,
      not_false_eq_true, true_and]
    constructor
    · rintro (⟨rfl, rfl⟩ | ⟨rfl, rfl⟩)
      · exact ⟨[], [c], by simp⟩
      · exact ⟨[c], [], by simp [byteLen, utf16Len]⟩
    · rintro ⟨a, b, h, rfl, rfl⟩
      cases a with
      | nil => simp
      | cons x a =>
        simp at h
        obtain ⟨rfl, rfl, rfl⟩ := h
        right; simp [byteLen, utf16Len]
  | case3 i j c d s ih =>
    simp only [List.mem_cons, Prod.mk.injEq, ih]
    constructor
    · rintro (⟨rfl, rfl⟩ | ⟨_, a, b, h, rfl, rfl⟩)
      · exact ⟨by simp, [], c :: d :: s, by simp⟩
      · refine ⟨by simp, c :: a, b, by simp [h], ?_, ?_⟩ <;> simp [byteLen, utf16Len] <;> omega
    · rintro ⟨_, a, b, h, rfl, rfl⟩
      cases a with
      | nil => left; simp
      | cons x a =>
        simp at h; obtain ⟨rfl, h⟩ := h
        right; refine ⟨by simp, a, b, h, ?_, ?_⟩ <;> simp [byteLen, utf16Len] <;> omega

theorem getIndex_spec {m : List (Nat × Nat)} {i : Nat} :
    (∀ v, getIndex m i = some v → (i, v) ∈ m) ∧ (getIndex m i = none → ∀ v, (i, v) ∉ m) := by
  unfold getIndex
  constructor
  · intro v h
    simp only [Option.map_eq_some_iff] at h
    obtain ⟨⟨k, w⟩, h1, h2⟩ := h
    have hk := List.find?_some h1
    have hm := List.mem_of_find?_eq_some h1
    simp at hk hm h2
    subst hk; subst h2; exact hm
  · intro h v hv
    simp only [Option.map_eq_none_iff, List.find?_eq_none, List.mem_reverse] at h
    simpa using h _ hv

/-- C10: in a non-empty text, the offset of every character boundary is mapped to the number of UTF-16
code units before it. -/
theorem C10_utf16_exact (a b : Str) (h : a ++ b ≠ []) :
    getIndex (utf16Map (a ++ b)) (byteLen a) = some (utf16Len a) := by
  cases hg : getIndex (utf16Map (a ++ b)) (byteLen a) with
  | none =>
    exfalso
    exact getIndex_spec.2 hg (utf16Len a) (by
      unfold utf16Map; rw [utf16Build_mem]; exact ⟨h, a, b, rfl, by simp, by simp⟩)
  | some v =>
    have := getIndex_spec.1 v hg
    unfold utf16Map at this
    rw [utf16Build_mem] at this
    obtain ⟨_, a', b', e, e2, e3⟩ := this
    have := prefix_eq_of_byteLen e (by omega)
    subst this; simp at e3; simp [e3]

example : getIndex (utf16Map c!"x💣yß") 5 = some 3 := by decide +kernel

/-- C10: every other offset panics (`none`). -/
theorem C10_utf16_panics (text : Str) (i : Nat) (h : ∀ a b, text = a ++ b → byteLen a ≠ i) :
    getIndex (utf16Map text) i = none := by
  cases hg : getIndex (utf16Map text) i with
  | none => rfl
  | some v =>
    exfalso
    have := getIndex_spec.1 v hg
    unfold utf16Map at this
    rw [utf16Build_mem] at this
    obtain ⟨_, a', b', e, e2, e3⟩ := this
    exact h a' b' e (by omega)

example : ∀ a b, c!"é" = a ++ b → byteLen a ≠ 1 := by
  intro a b h
  cases a with
  | nil => simp
  | cons x a => simp at h; obtain ⟨rfl, rfl, rfl⟩ := h; decide

/-- C10: the map of the empty text is empty, so even offset 0 panics. -/
theorem C10_utf16_empty (i : Nat) : getIndex (utf16Map []) i = none := rfl

/-- C11: in a non-empty text every token converts; token and slice are kept, and the new span is the
UTF-16 length of the text before the token and of the text up to its end. -/
theorem C11_tokens_to_utf16 (text : Str) (h : text ≠ []) (t : ETok) (ht : t ∈ (tokenize text).tokens) :
    ∃ a b, text = a ++ t.slice ++ b ∧ t.start = byteLen a ∧ t.stop = byteLen (a ++ t.slice) ∧
      toUtf16 (utf16Map text) t = some ⟨t.token, t.slice, utf16Len a, utf16Len (a ++ t.slice)⟩ := by
  obtain ⟨mid, h1, h2, h3⟩ := C07_tokens_tile text
  have key : ∀ a b, text = a ++ t.slice ++ b → t.start = byteLen a → t.stop = byteLen (a ++ t.slice) →
      toUtf16 (utf16Map text) t = some ⟨t.token, t.slice, utf16Len a, utf16Len (a ++ t.slice)⟩ := by
    intro a b e e1 e2
    have g1 := C10_utf16_exact a (t.slice ++ b) (by rw [← List.append_assoc, ← e]; exact h)
    have g2 := C10_utf16_exact (a ++ t.slice) b (by rw [← e]; exact h)
    rw [← List.append_assoc, ← e] at g1
    rw [← e] at g2
    simp only [toUtf16, e1, e2, g1, g2]
  rw [h1] at ht
  simp only [List.mem_cons, List.mem_append, List.not_mem_nil, or_false] at ht
  rcases ht with rfl | ht | rfl
  · exact ⟨[], text, by simp, by simp, by simp, key [] text (by simp) (by simp) (by simp)⟩
  · obtain ⟨pre, post, e⟩ := List.append_of_mem ht
    obtain ⟨_, _, _, e1, e2, _⟩ := h3 pre t post e
    have et : text = pre.flatMap ETok.slice ++ t.slice ++ post.flatMap ETok.slice := by
      rw [← h2, e]; simp
    have e2' : t.stop = byteLen (pre.flatMap ETok.slice ++ t.slice) := by
      rw [byteLen_append, e2, e1]
    exact ⟨_, _, et, e1, e2', key _ _ et e1 e2'⟩
  · exact ⟨text, [], by simp, by simp, by simp, key text [] (by simp) (by simp) (by simp)⟩

/-- C11: for the empty text every conversion panics. -/
theorem C11_empty_text_panics : ∀ t ∈ (tokenize []).tokens, toUtf16 (utf16Map []) t = none := by
  decide +kernel

private theorem utf8Size_eq (c : Char) : utf8Size c = c.utf8Size := by
  unfold utf8Size Char.utf8Size
  simp only [Char.toNat, UInt32.le_iff_toNat_le]
  have h (n : Nat) : c.val.toNat < n + 1 ↔ c.val.toNat ≤ n := Nat.lt_succ_iff
  simp only [show (0x80 : Nat) = 0x7F + 1 from rfl, show (0x800 : Nat) = 0x7FF + 1 from rfl, show (0x10000 : Nat) = 0xFFFF + 1 from rfl, h]
  rfl
/-- C07: positions count the bytes of the UTF-8 encoding. -/
theorem C07_positions_are_bytes (s : Str) : byteLen s = (String.ofList s).utf8ByteSize := by
  induction s with
  | nil => rfl
  | cons c s ih => 
    rw [byteLen, ih, utf8Size_eq, String.ofList_cons, String.utf8ByteSize_append, String.utf8ByteSize_singleton]

example : byteLen c!"aé€" = 6 := by decide +kernel

end Ftml
