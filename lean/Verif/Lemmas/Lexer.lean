import Verif.Model.Lexer
import Verif.Lemmas.Str
/- Helper lemmas about PEG expressions, tokens and byte offsets. -/
namespace Ftml
open Ftml

theorem repeatUpTo_append {f : Str → Option (Str × Str)} (hf : ∀ s m r, f s = some (m, r) → s = m ++ r) :
    ∀ n s, s = (repeatUpTo f n s).1 ++ (repeatUpTo f n s).2 := by
  intro n
  induction n with
  | zero => intro s; simp [repeatUpTo]
  | succ n ih =>
    intro s
    unfold repeatUpTo
    split
    · simp
    · rename_i m r h
      have := hf _ _ _ h
      have h2 := ih r
      simp only
      rw [List.append_assoc, ← h2, ← this]

/-- A PEG expression matches a prefix. -/
theorem Peg.run_append {p : Peg} {s m r : Str} (h : p.run s = some (m, r)) : s = m ++ r := by
  induction p generalizing s m r with
  | lit q =>
    simp only [Peg.run, Option.map_eq_some_iff] at h
    obtain ⟨r', h1, h2⟩ := h; cases h2; exact stripPfx_some.1 h1
  | cls p =>
    cases s with
    | nil => simp [Peg.run] at h
    | cons c s =>
      simp only [Peg.run] at h
      split at h
      · cases h; rfl
      · simp at h
  | seq a b iha ihb =>
    simp only [Peg.run] at h
    split at h
    · simp at h
    · rename_i m1 r1 h1
      split at h
      · simp at h
      · rename_i m2 r2 h2; cases h
        rw [iha h1, ihb h2]; simp
  | alt a b iha ihb =>
    simp only [Peg.run] at h
    split at h
    · rename_i x h1; cases h; exact iha h1
    · exact ihb h
  | star a iha =>
    simp only [Peg.run] at h
    have := repeatUpTo_append (fun s m r hh => iha hh) s.length s
    cases h2 : repeatUpTo a.run s.length s with
    | mk x y => rw [h2] at h this; cases h; exact this
  | notp a iha =>
    simp only [Peg.run] at h
    split at h
    · simp at h
    · cases h; rfl
  | opt a iha =>
    simp only [Peg.run] at h
    split at h
    · rename_i x h1; cases h; exact iha h1
    · cases h; rfl
  | upTo n a iha =>
    simp only [Peg.run] at h
    have := repeatUpTo_append (fun s m r hh => iha hh) n s
    cases h2 : repeatUpTo a.run n s with
    | mk x y => rw [h2] at h this; cases h; exact this

/-- Syntactic check that an expression cannot match the empty text. -/
def Peg.consumes : Peg → Bool
  | .lit s => !s.isEmpty
  | .cls _ => true
  | .seq a b => a.consumes || b.consumes
  | .alt a b => a.consumes && b.consumes
  | .star _ => false
  | .notp _ => false
  | .opt _ => false
  | .upTo _ _ => false

theorem Peg.consumes_sound {p : Peg} (hp : p.consumes = true) {s m r : Str} (h : p.run s = some (m, r)) :
    m ≠ [] := by
  induction p generalizing s m r with
  | lit q =>
    simp only [Peg.run, Option.map_eq_some_iff] at h
    obtain ⟨r', h1, h2⟩ := h; cases h2
    simpa [Peg.consumes] using hp
  | cls p =>
    cases s with
    | nil => simp [Peg.run] at h
    | cons c s =>
      simp only [Peg.run] at h
      split at h
      · cases h; simp
      · simp at h
  | seq a b iha ihb =>
    simp only [Peg.run] at h
    split at h
    · simp at h
    · rename_i m1 r1 h1
      split at h
      · simp at h
      · rename_i m2 r2 h2; cases h
        simp [Peg.consumes] at hp
        rcases hp with hp | hp
        · simp [iha hp h1]
        · simp [ihb hp h2]
  | alt a b iha ihb =>
    simp [Peg.consumes] at hp
    simp only [Peg.run] at h
    split at h
    · rename_i x h1; cases h; exact iha hp.1 h1
    · exact ihb hp.2 h
  | star a iha => simp [Peg.consumes] at hp
  | notp a iha => simp [Peg.consumes] at hp
  | opt a iha => simp [Peg.consumes] at hp
  | upTo n a iha => simp [Peg.consumes] at hp

/-! ### Byte offsets -/

theorem utf8Size_pos (c : Char) : 0 < utf8Size c := by unfold utf8Size; split <;> (try split) <;> (try split) <;> omega
theorem utf16Size_pos (c : Char) : 0 < utf16Size c := by unfold utf16Size; split <;> omega

@[simp] theorem byteLen_append (a b : Str) : byteLen (a ++ b) = byteLen a + byteLen b := by
  induction a with
  | nil => simp [byteLen]
  | cons c a ih => simp [byteLen, ih]; omega
@[simp] theorem byteLen_nil : byteLen [] = 0 := rfl
@[simp] theorem utf16Len_nil : utf16Len [] = 0 := rfl
@[simp] theorem utf16Len_append (a b : Str) : utf16Len (a ++ b) = utf16Len a + utf16Len b := by
  induction a with
  | nil => simp [utf16Len]
  | cons c a ih => simp [utf16Len, ih]; omega
theorem byteLen_eq_zero {a : Str} : byteLen a = 0 ↔ a = [] := by
  cases a with
  | nil => simp
  | cons c a => have := utf8Size_pos c; simp [byteLen]; omega

theorem dropBytes_append (a b : Str) : dropBytes (byteLen a) (a ++ b) = some b := by
  induction a with
  | nil => cases b <;> simp [dropBytes]
  | cons c a ih =>
    have := utf8Size_pos c
    simp only [List.cons_append, dropBytes, byteLen]
    rw [if_neg (by omega), if_pos (by omega)]
    rw [← ih]; congr 1; omega

theorem takeBytes_append (a b : Str) : takeBytes (byteLen a) (a ++ b) = some a := by
  induction a with
  | nil => cases b <;> simp [takeBytes]
  | cons c a ih =>
    have := utf8Size_pos c
    simp only [List.cons_append, takeBytes, byteLen]
    rw [if_neg (by omega), if_pos (by omega)]
    have e : utf8Size c + byteLen a - utf8Size c = byteLen a := by omega
    rw [e, ih]; rfl

theorem sliceBytes_append (a b c : Str) :
    sliceBytes (a ++ b ++ c) (byteLen a) (byteLen a + byteLen b) = some b := by
  unfold sliceBytes
  rw [if_pos (by omega), List.append_assoc, dropBytes_append]
  simp [takeBytes_append]

/-! ### The lexer -/

namespace Lexer

/-- Concatenation of the slices of (token, slice) pairs. -/
def slices (ts : List (Token × Str)) : Str := ts.flatMap (·.2)

theorem slices_append (a b) : slices (a ++ b) = slices a ++ slices b := by simp [slices]

theorem runAlt_append {ps : List (Token × Peg)} {s ts r} (h : runAlt ps s = some (ts, r)) :
    s = slices ts ++ r := by
  induction ps generalizing s ts r with
  | nil => simp [runAlt] at h; obtain ⟨rfl, rfl⟩ := h; simp [slices]
  | cons p ps ih =>
    obtain ⟨t, p⟩ := p
    simp only [runAlt] at h
    split at h
    · simp at h
    · rename_i m r1 h1
      split at h
      · simp at h
      · rename_i ts2 r2 h2; cases h
        rw [Peg.run_append h1, ih h2]; simp [slices]

/-- A (token, slice) pair was produced by its rule at some position. -/
def Prov (alts : List (List (Token × Peg))) (x : Token × Str) : Prop :=
  ∃ a ∈ alts, ∃ p, (x.1, p) ∈ a ∧ ∃ s r, p.run s = some (x.2, r)

theorem runAlt_prov {ps : List (Token × Peg)} {s ts r} (h : runAlt ps s = some (ts, r)) :
    ∀ x ∈ ts, ∃ p, (x.1, p) ∈ ps ∧ ∃ s r, p.run s = some (x.2, r) := by
  induction ps generalizing s ts r with
  | nil => simp [runAlt] at h; obtain ⟨rfl, rfl⟩ := h; simp
  | cons p ps ih =>
    obtain ⟨t, p⟩ := p
    simp only [runAlt] at h
    split at h
    · simp at h
    · rename_i m r1 h1
      split at h
      · simp at h
      · rename_i ts2 r2 h2; cases h
        intro x hx
        rcases List.mem_cons.1 hx with rfl | hx
        · exact ⟨p, by simp, _, _, h1⟩
        · obtain ⟨p', h3, h4⟩ := ih h2 x hx
          exact ⟨p', by simp [h3], h4⟩

theorem runToken_mem {alts} {s ts r} (h : runToken alts s = some (ts, r)) :
    ∃ a ∈ alts, runAlt a s = some (ts, r) := by
  induction alts with
  | nil => simp [runToken] at h
  | cons a as ih =>
    simp only [runToken] at h
    split at h
    · rename_i x h1; cases h; exact ⟨a, by simp, h1⟩
    · obtain ⟨b, h1, h2⟩ := ih h; exact ⟨b, by simp [h1], h2⟩

theorem runToken_none {alts} {s} (h : runToken alts s = none) : ∀ a ∈ alts, runAlt a s = none := by
  induction alts with
  | nil => simp
  | cons a as ih =>
    simp only [runToken] at h
    split at h
    · simp at h
    · rename_i h1
      intro b hb
      rcases List.mem_cons.1 hb with rfl | hb
      · exact h1
      · exact ih h b hb

/-- Every alternative is non-empty and all its rules consume text. -/
def altsOk (alts : List (List (Token × Peg))) : Bool :=
  alts.all fun a => !a.isEmpty && a.all fun x => x.2.consumes

theorem alternatives_ok : altsOk alternatives = true := by decide

theorem runToken_progress {alts} (ho : altsOk alts = true) {s ts r} (h : runToken alts s = some (ts, r)) :
    s = slices ts ++ r ∧ r.length < s.length ∧ ∀ x ∈ ts, x.2 ≠ [] ∧ Prov alts x := by
  obtain ⟨a, ha, h1⟩ := runToken_mem h
  have hp := runAlt_prov h1
  simp only [altsOk, List.all_eq_true, Bool.and_eq_true] at ho
  have hoa := ho a ha
  have hne : ∀ x ∈ ts, x.2 ≠ [] ∧ Prov alts x := by
    intro x hx
    obtain ⟨p, h2, s', r', h3⟩ := hp x hx
    exact ⟨Peg.consumes_sound (hoa.2 _ h2) h3, a, ha, p, h2, s', r', h3⟩
  have happ := runAlt_append h1
  refine ⟨happ, ?_, hne⟩
  cases ts with
  | nil =>
    exfalso
    cases a with
    | nil => simp at hoa
    | cons p ps =>
      obtain ⟨t, p⟩ := p
      simp only [runAlt] at h1
      split at h1
      · simp at h1
      · split at h1 <;> simp at h1
  | cons x ts =>
    have := (hne x (by simp)).1
    rw [happ]
    simp only [slices, List.flatMap_cons, List.length_append]
    have := List.length_pos_iff.2 this
    omega

theorem runTokens_spec {alts} (ho : altsOk alts = true) (hf : ∀ c s, runToken alts (c :: s) ≠ none) :
    ∀ n s, s.length ≤ n → ∃ ts, runTokens alts n s = (ts, []) ∧ slices ts = s ∧
      ∀ x ∈ ts, x.2 ≠ [] ∧ Prov alts x := by
  intro n
  induction n with
  | zero =>
    intro s h
    have : s = [] := List.length_eq_zero_iff.1 (by omega)
    subst this; exact ⟨[], by simp [runTokens], by simp [slices], by simp⟩
  | succ n ih =>
    intro s h
    unfold runTokens
    split
    · rename_i h1
      cases s with
      | nil => exact ⟨[], rfl, by simp [slices], by simp⟩
      | cons c s => exact absurd h1 (hf c s)
    · rename_i ts r h1
      obtain ⟨e1, e2, e3⟩ := runToken_progress ho h1
      obtain ⟨ts', e4, e5, e6⟩ := ih r (by omega)
      refine ⟨ts ++ ts', by simp [e4], by rw [slices_append, e5, ← e1], ?_⟩
      intro x hx
      rcases List.mem_append.1 hx with hx | hx
      · exact e3 x hx
      · exact e6 x hx

theorem fallback (c : Char) (s : Str) : runToken alternatives (c :: s) ≠ none := by
  intro h
  have := runToken_none h [(.other, Peg.any)] (by simp [alternatives])
  simp [runAlt, Peg.any, Peg.run] at this

theorem runDocument_spec (text : Str) : ∃ ts, runDocument text = some ts ∧ slices ts = text ∧
    ∀ x ∈ ts, x.2 ≠ [] ∧ Prov alternatives x := by
  obtain ⟨ts, h1, h2, h3⟩ := runTokens_spec alternatives_ok fallback text.length text (Nat.le_refl _)
  exact ⟨ts, by simp [runDocument, h1], h2, h3⟩

theorem addSpans_append (n : Nat) (a b) :
    addSpans n (a ++ b) = addSpans n a ++ addSpans (n + byteLen (slices a)) b := by
  induction a generalizing n with
  | nil => simp [addSpans, slices]
  | cons x a ih =>
    obtain ⟨t, s⟩ := x
    simp only [List.cons_append, addSpans, ih]
    simp [slices, Nat.add_assoc]

theorem addSpans_slices (n : Nat) (a) : (addSpans n a).flatMap ETok.slice = slices a := by
  induction a generalizing n with
  | nil => simp [addSpans, slices]
  | cons x a ih => obtain ⟨t, s⟩ := x; simp [addSpans, slices] at *; exact ih _

theorem addSpans_map (n : Nat) (a) : (addSpans n a).map (fun t => (t.token, t.slice)) = a := by
  induction a generalizing n with
  | nil => rfl
  | cons x a ih => obtain ⟨t, s⟩ := x; simp [addSpans, ih]

theorem addSpans_split {n : Nat} {ts} {pre : List ETok} {t post} (h : addSpans n ts = pre ++ t :: post) :
    ∃ a b, ts = a ++ (t.token, t.slice) :: b ∧ pre = addSpans n a ∧
      t.start = n + byteLen (slices a) ∧ t.stop = t.start + byteLen t.slice := by
  induction ts generalizing n pre with
  | nil => simp [addSpans] at h
  | cons x ts ih =>
    obtain ⟨tk, s⟩ := x
    simp only [addSpans] at h
    cases pre with
    | nil => simp at h; obtain ⟨rfl, rfl⟩ := h; exact ⟨[], ts, by simp, rfl, by simp [slices], rfl⟩
    | cons y pre =>
      simp at h; obtain ⟨rfl, h⟩ := h
      obtain ⟨a, b, h1, h2, h3, h4⟩ := ih h
      exact ⟨(tk, s) :: a, b, by simp [h1], by simp [addSpans, h2], by simp [slices] at *; omega, h4⟩

end Lexer
end Ftml
