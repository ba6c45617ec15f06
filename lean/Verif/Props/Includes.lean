import Verif.Model.Includes
import Verif.Lemmas.Lexer
import Verif.Lemmas.Str
/-
Properties of `include()` (C24–C28).
-/
namespace Ftml.Includes
open Ftml

/-! ### Specifications -/

/-- `{$name}` written out. -/
def varText (name : Str) : Str := c!"{$" ++ name ++ c!"}"

/-- A variable name: non-empty, letters, digits, `_` and `-`. -/
def VarName (name : Str) : Prop := name ≠ [] ∧ ∀ c ∈ name, c.isAlphanum ∨ c = '_' ∨ c = '-'

/-- One-pass substitution of variables: at each place, a variable that is defined is replaced by its
value (which is not looked at again), one that is not is kept, and any other character is kept. -/
inductive Subst (vars : List (Str × Str)) : Str → Str → Prop where
  | done : Subst vars [] []
  | known (name v rest out : Str) : VarName name → assocGet vars name = some v → Subst vars rest out →
      Subst vars (varText name ++ rest) (v ++ out)
  | unknown (name rest out : Str) : VarName name → assocGet vars name = none → Subst vars rest out →
      Subst vars (varText name ++ rest) (varText name ++ out)
  | char (c : Char) (rest out : Str) : (¬ ∃ name r, VarName name ∧ c :: rest = varText name ++ r) →
      Subst vars rest out → Subst vars (c :: rest) (c :: out)

/-- The ranges found do not overlap. -/
def Disjoint (found : List ((Nat × Nat) × IncludeRef)) : Prop :=
  found.Pairwise fun x y => x.1.2 ≤ y.1.1

/-! ### Byte range lemmas -/

theorem replaceRange_append (p m q w : Str) :
    replaceRange (p ++ m ++ q) (byteLen p) (byteLen p + byteLen m) w = some (p ++ w ++ q) := by
  unfold replaceRange
  rw [if_pos (by omega)]
  have h1 : takeBytes (byteLen p) (p ++ m ++ q) = some p := by
    rw [List.append_assoc]; exact takeBytes_append _ _
  have h2 : dropBytes (byteLen p + byteLen m) (p ++ m ++ q) = some q := by
    rw [← byteLen_append]; exact dropBytes_append _ _
  rw [h1, h2]

private theorem prefix_of_byteLen {p q d r : Str} (h : p ++ q = d ++ r) (hl : byteLen d ≤ byteLen p) :
    ∃ t, p = d ++ t := by
  rcases List.append_eq_append_iff.1 h with ⟨a, rfl, _⟩ | ⟨a, rfl, _⟩
  · simp at hl
    have : a = [] := byteLen_eq_zero.1 (by omega)
    exact ⟨[], by simp [this]⟩
  · exact ⟨a, rfl⟩

/-! ### C28: variables -/

private theorem takeWhile_append_drop (p : Char → Bool) (r : Str) :
    r = r.takeWhile p ++ r.dropWhile p := by simp

theorem varChar_iff (c : Char) : isVarChar c = true ↔ c.isAlphanum = true ∨ c = '_' ∨ c = '-' := by
  unfold isVarChar isAlnumA isAlphaA isLowerA isUpperA isDigitA Char.isAlphanum Char.isAlpha Char.isUpper Char.isLower Char.isDigit
  simp only [UInt32.le_iff_toNat_le, GE.ge, ← Char.toNat_val, Bool.or_eq_true, Bool.and_eq_true, decide_eq_true_eq, beq_iff_eq]
  have e1 : 'A'.val.toNat = 65 := by decide
  have e2 : 'Z'.val.toNat = 90 := by decide
  have e3 : 'a'.val.toNat = 97 := by decide
  have e4 : 'z'.val.toNat = 122 := by decide
  have e5 : '0'.val.toNat = 48 := by decide
  have e6 : '9'.val.toNat = 57 := by decide
  simp only [e1, e2, e3, e4, e5, e6]
  constructor
  · rintro ((h | h) | h)
    · exact .inl (by omega)
    · exact .inr (.inl h)
    · exact .inr (.inr h)
  · rintro (h | h | h)
    · exact .inl (.inl (by omega))
    · exact .inl (.inr h)
    · exact .inr h

theorem varAt_some {s name : Str} (h : varAt s = some name) :
    VarName name ∧ ∃ r, s = varText name ++ r := by
  unfold varAt at h
  split at h
  · rename_i r
    simp only at h
    split at h
    · cases h
    · rename_i hne
      split at h
      · rename_i r' hd
        injection h with h; subst h
        refine ⟨⟨by simpa using hne, ?_⟩, r', ?_⟩
        · intro c hc
          exact (varChar_iff c).1 (List.all_eq_true.1 (List.all_takeWhile (p := isVarChar) (l := r)) c hc)
        · have := takeWhile_append_drop isVarChar r
          rw [hd] at this
          conv => lhs; rw [this]
          simp [varText]
      · cases h
  · cases h

theorem varAt_text {name r : Str} (h : VarName name) : varAt (varText name ++ r) = some name := by
  have e : varText name ++ r = '{' :: '$' :: (name ++ ('}' :: r)) := by simp [varText]
  rw [e]
  have h1 : (name ++ '}' :: r).takeWhile isVarChar = name := by
    rw [List.takeWhile_append_of_pos fun c hc => (varChar_iff c).2 (h.2 c hc)]
    have : isVarChar '}' = false := by decide
    simp [this]
  have h2 : (name ++ '}' :: r).dropWhile isVarChar = '}' :: r := by
    rw [List.dropWhile_append_of_pos fun c hc => (varChar_iff c).2 (h.2 c hc)]
    have : isVarChar '}' = false := by decide
    simp [this]
  unfold varAt
  simp only [h1, h2]
  rw [if_neg (by simpa using h.1)]

theorem varAt_none {s : Str} : varAt s = none ↔ ¬ ∃ name r, VarName name ∧ s = varText name ++ r := by
  constructor
  · rintro h ⟨name, r, h1, rfl⟩
    rw [varAt_text h1] at h; cases h
  · intro h
    cases hv : varAt s with
    | none => rfl
    | some name =>
      obtain ⟨h1, r, h2⟩ := varAt_some hv
      exact absurd ⟨name, r, h1, h2⟩ h

private theorem varName_byteLen {name : Str} (h : VarName name) : byteLen name = name.length := by
  have : ∀ l : Str, (∀ c ∈ l, isVarChar c = true) → byteLen l = l.length := by
    intro l
    induction l with
    | nil => intro _; rfl
    | cons c l ih =>
      intro hl
      simp at hl
      have hc : utf8Size c = 1 := by
        unfold utf8Size
        rw [if_pos]
        have := hl.1
        simp only [isVarChar, isAlnumA, isAlphaA, isLowerA, isUpperA, isDigitA, Bool.or_eq_true,
          Bool.and_eq_true, decide_eq_true_eq, beq_iff_eq] at this
        rcases this with (((h | h) | h) | rfl) | rfl
        · omega
        · omega
        · omega
        · decide
        · decide
      simp [byteLen, hc, ih hl.2]; omega
  exact this name fun c hc => (varChar_iff c).2 (h.2 c hc)

private theorem varMatches_skip (vars : List (Str × Str)) (w r : Str) (off : Nat) :
    varMatches vars w.length off (w ++ r) = varMatches vars 0 (off + byteLen w) r := by
  induction w generalizing off with
  | nil => rfl
  | cons c w ih =>
    simp only [List.cons_append, List.length_cons, varMatches, ih, byteLen]
    congr 1; omega

/-- Unfolding of the scan at a variable. -/
private theorem varMatches_var (vars : List (Str × Str)) (name r : Str) (off : Nat) (h : VarName name) :
    varMatches vars 0 off (varText name ++ r) =
      (match assocGet vars name with
        | some v => (v, off, off + byteLen (varText name)) :: varMatches vars 0 (off + byteLen (varText name)) r
        | none => varMatches vars 0 (off + byteLen (varText name)) r) := by
  have hv := varAt_text (r := r) h
  have e : varText name ++ r = '{' :: ((c!"$" ++ name ++ c!"}") ++ r) := by simp [varText]
  have hb : byteLen (varText name) = byteLen name + 3 := by
    simp [varText, byteLen, utf8Size]; omega
  rw [e] at hv ⊢
  rw [varMatches, hv]
  have hlen : name.length + 2 = (c!"$" ++ name ++ c!"}").length := by simp
  simp only
  rw [hlen, varMatches_skip]
  have h1 : off + utf8Size '{' + byteLen (c!"$" ++ name ++ c!"}") = off + byteLen (varText name) := by
    simp [varText, byteLen, utf8Size]; omega
  rw [h1, hb, Nat.add_assoc]
  cases assocGet vars name <;> rfl

private theorem vars_fold (vars : List (Str × Str)) (n : Nat) : ∀ (s p : Str), s.length ≤ n →
    ∃ out, Subst vars s out ∧
      ((varMatches vars 0 (byteLen p) s).reverse.foldl
        (fun s (x : Str × Nat × Nat) => s.bind fun s => replaceRange s x.2.1 x.2.2 x.1) (some (p ++ s)))
        = some (p ++ out) := by
  induction n with
  | zero =>
    intro s p h
    have : s = [] := by cases s <;> simp_all
    subst this
    exact ⟨[], .done, by simp [varMatches]⟩
  | succ n ih =>
    intro s p h
    cases hv : varAt s with
    | some name =>
      obtain ⟨h1, r, rfl⟩ := varAt_some hv
      rw [varMatches_var vars name r _ h1]
      have hl : r.length ≤ n := by
        have : (varText name).length ≥ 1 := by simp [varText]
        simp at h; omega
      obtain ⟨out, h2, h3⟩ := ih r (p ++ varText name) hl
      rw [byteLen_append] at h3
      cases hg : assocGet vars name with
      | none =>
        refine ⟨varText name ++ out, .unknown _ _ _ h1 hg h2, ?_⟩
        simp only [List.append_assoc] at h3 ⊢
        exact h3
      | some v =>
        refine ⟨v ++ out, .known _ _ _ _ h1 hg h2, ?_⟩
        simp only [List.append_assoc] at h3
        simp only [List.reverse_cons, List.foldl_append, List.foldl_cons, List.foldl_nil]
        rw [h3]
        simp only [Option.bind_some]
        rw [← List.append_assoc, replaceRange_append, List.append_assoc]
    | none =>
      cases s with
      | nil => exact ⟨[], .done, by simp [varMatches]⟩
      | cons c s =>
        obtain ⟨out, h2, h3⟩ := ih s (p ++ [c]) (by simp at h; omega)
        refine ⟨c :: out, .char c s out (varAt_none.1 hv) h2, ?_⟩
        rw [varMatches, hv]
        simp only
        have : byteLen (p ++ [c]) = byteLen p + utf8Size c := by simp [byteLen]
        rw [this] at h3
        simpa using h3

/-- C28: `replace_variables` never panics and performs exactly the one-pass substitution. -/
theorem C28_one_pass (vars : List (Str × Str)) (content : Str) :
    ∃ out, replaceVariables vars content = some out ∧ Subst vars content out := by
  obtain ⟨out, h1, h2⟩ := vars_fold vars content.length content [] (Nat.le_refl _)
  exact ⟨out, by simpa [replaceVariables] using h2, h1⟩

/-- C28: the one-pass substitution has exactly one result, so C28 determines the output. -/
theorem C28_deterministic (vars : List (Str × Str)) {s a b : Str} (ha : Subst vars s a) (hb : Subst vars s b) :
    a = b := by
  have inj : ∀ {n m r r' : Str}, VarName n → VarName m → varText n ++ r = varText m ++ r' → n = m ∧ r = r' := by
    intro n m r r' h1 h2 h
    have := varAt_text (r := r) h1
    rw [h, varAt_text h2] at this
    simp at this; subst this
    exact ⟨rfl, List.append_cancel_left h⟩
  induction ha generalizing b with
  | done => 
    generalize hs : ([] : Str) = s at hb
    cases hb with
    | done => rfl
    | known name v rest out h1 => simp [varText] at hs
    | unknown name rest out h1 => simp [varText] at hs
    | char c rest out => cases hs
  | known name v rest out h1 h2 h3 ih =>
    generalize hs : varText name ++ rest = s at hb
    cases hb with
    | done => simp [varText] at hs
    | known n' v' r' o' k1 k2 k3 =>
      obtain ⟨rfl, rfl⟩ := inj h1 k1 hs
      rw [h2] at k2; injection k2 with k2; subst k2
      rw [ih k3]
    | unknown n' r' o' k1 k2 k3 =>
      obtain ⟨rfl, rfl⟩ := inj h1 k1 hs
      rw [h2] at k2; cases k2
    | char c r' o' k1 k2 => exact absurd ⟨name, rest, h1, hs.symm⟩ k1
  | unknown name rest out h1 h2 h3 ih =>
    generalize hs : varText name ++ rest = s at hb
    cases hb with
    | done => simp [varText] at hs
    | known n' v' r' o' k1 k2 k3 =>
      obtain ⟨rfl, rfl⟩ := inj h1 k1 hs
      rw [h2] at k2; cases k2
    | unknown n' r' o' k1 k2 k3 =>
      obtain ⟨rfl, rfl⟩ := inj h1 k1 hs
      rw [ih k3]
    | char c r' o' k1 k2 => exact absurd ⟨name, rest, h1, hs.symm⟩ k1
  | char c rest out h1 h2 ih =>
    generalize hs : c :: rest = s at hb
    cases hb with
    | done => cases hs
    | known n' v' r' o' k1 k2 k3 => exact absurd ⟨n', r', k1, hs⟩ h1
    | unknown n' r' o' k1 k2 k3 => exact absurd ⟨n', r', k1, hs⟩ h1
    | char c' r' o' k1 k2 =>
      injection hs with e1 e2; subst e1 e2
      rw [ih k2]

example : replaceVariables [(c!"x", c!"{$y}"), (c!"y", c!"2")] c!"a{$x}{$z}{$y}{$}" =
    some c!"a{$y}{$z}2{$}" := by decide +kernel

/-! ### Where blocks are found -/

private theorem dropWhile_sfx (p : Char → Bool) (s : Str) : s.dropWhile p <:+ s := List.dropWhile_suffix p

private theorem stripPfx_sfx {p s r : Str} (h : stripPfx p s = some r) : r <:+ s := by
  rw [stripPfx_some.1 h]; exact List.suffix_append _ _

private theorem stripCI_sfx {p s r : Str} (h : stripCI p s = some r) : r <:+ s := by
  induction p generalizing s with
  | nil => simp [stripCI] at h; subst h; exact List.suffix_refl _
  | cons x p ih =>
    cases s with
    | nil => simp [stripCI] at h
    | cons c s =>
      simp only [stripCI] at h
      split at h
      · exact (ih h).trans (List.suffix_cons _ _)
      · cases h

private theorem valueLoop_eq (s : Str) : s = (valueLoop s).1 ++ (valueLoop s).2 := by
  induction s with
  | nil => rfl
  | cons c s ih =>
    unfold valueLoop
    split
    · rfl
    · simpa using ih

private theorem value_sfx {s v r : Str} (h : value s = some (v, r)) : r <:+ s := by
  unfold value at h
  simp only at h
  split at h
  · cases h
  · simp at h
    have := valueLoop_eq s
    rw [← h.2]; exact ⟨(valueLoop s).1, this.symm⟩

private theorem argument_sfx {s k v r : Str} (h : argument s = some (k, v, r)) : r <:+ s := by
  unfold argument at h
  simp only at h
  split at h
  · cases h
  · split at h
    · cases h
    · rename_i r1 h1
      obtain ⟨⟨v', r'⟩, h2, h3⟩ := Option.map_eq_some_iff.1 h
      simp at h3
      obtain ⟨_, _, rfl⟩ := h3
      exact (value_sfx h2).trans ((dropWhile_sfx _ _).trans ((stripPfx_sfx h1).trans
        ((dropWhile_sfx _ _).trans (dropWhile_sfx _ _))))

private theorem argsLoop_sfx (n : Nat) (s : Str) : (argsLoop n s).2 <:+ s := by
  induction n generalizing s with
  | zero => exact List.suffix_refl _
  | succ n ih =>
    unfold argsLoop
    split
    · exact List.suffix_refl _
    · rename_i k v r h
      split
      · exact List.suffix_refl _
      · rename_i r1 h1
        exact (ih (spaceOpt r1)).trans ((dropWhile_sfx _ _).trans ((stripPfx_sfx h1).trans
          ((dropWhile_sfx _ _).trans (argument_sfx h))))

private theorem pageRef_sfx {s p r : Str} (h : pageRef s = some (p, r)) : r <:+ s := by
  unfold pageRef at h
  have key : ∀ x : Str × Str, x.2 <:+ s →
      (if (x.2.takeWhile isPage).isEmpty then none
        else some (x.1 ++ x.2.takeWhile isPage, x.2.dropWhile isPage)) = some (p, r) → r <:+ s := by
    intro x hx hh
    split at hh
    · cases hh
    · simp at hh
      rw [← hh.2]
      exact (dropWhile_sfx _ _).trans hx
  refine key _ ?_ h
  split
  · rename_i t
    split
    · rename_i u hu
      simp only
      split
      · exact List.suffix_refl _
      · have : (':' :: u) <:+ t := by rw [← hu]; exact dropWhile_sfx _ _
        exact (List.suffix_cons ':' u).trans (this.trans (List.suffix_cons ':' t))
    · exact List.suffix_refl _
  · exact List.suffix_refl _

private theorem space_sfx {s r : Str} (h : space s = some r) : r <:+ s := by
  unfold space at h
  split at h
  · rename_i c r0
    split at h
    · injection h with h; subst h
      exact (dropWhile_sfx _ _).trans (List.suffix_cons c r0)
    · cases h
  · cases h

private theorem includeEnd_eq {s r : Str} (h : includeEnd s = some r) :
    s = c!"]]" ++ r ∧ (r = [] ∨ r.head? = some '\n' ∨ r.head? = some '\r') := by
  unfold includeEnd at h
  split at h
  · cases h
  · rename_i r' h1
    have h1 := stripPfx_some.1 h1
    split at h
    · injection h with h; subst h; exact ⟨h1, Or.inl rfl⟩
    · rename_i c t
      split at h
      · rename_i hc
        injection h with h; subst h
        refine ⟨h1, Or.inr ?_⟩
        rcases hc with rfl | rfl <;> simp
      · cases h

/-- A parsed include block starts with `[[`, ends with `]]` and is followed by a line break or the end. -/
theorem block_shape {s page : Str} {args : List (Str × Str)} {rest : Str} (h : block s = some (page, args, rest)) :
    ∃ m, s = m ++ rest ∧ c!"[[" <+: m ∧ (∃ m0, m = m0 ++ c!"]]" ∧ 2 ≤ m0.length) ∧
      (rest = [] ∨ rest.head? = some '\n' ∨ rest.head? = some '\r') := by
  unfold block at h
  simp only [Option.bind_eq_bind, Option.bind_eq_some_iff, Prod.exists, Option.pure_def,
    Option.some.injEq, Prod.mk.injEq] at h
  obtain ⟨s1, h1, s2, h2, s3, h3, pg, s4, h4, s5, h5, _, _, rfl⟩ := h
  obtain ⟨h6, h7⟩ := includeEnd_eq h5
  have hs1 := stripPfx_some.1 h1
  have k1 : s4 <:+ s1 := (pageRef_sfx h4).trans ((space_sfx h3).trans ((stripCI_sfx h2).trans (dropWhile_sfx _ _)))
  have k2 : (c!"]]" ++ s5) <:+ s4 := by
    rw [← h6]
    refine (dropWhile_sfx _ _).trans ?_
    have kk : ∀ x : Str, x <:+ s4 → (match argument (argsLoop x.length x).2 with
        | some (k, v, r) => ((argsLoop x.length x).1 ++ [(k, v)], pipeOpt (spaceOpt r))
        | none => ((argsLoop x.length x).1, (argsLoop x.length x).2)).2 <:+ s4 := by
      intro x hx
      split
      · rename_i k v r ha
        refine List.IsSuffix.trans ?_ ((argument_sfx ha).trans ((argsLoop_sfx _ _).trans hx))
        unfold pipeOpt
        cases hp : stripPfx c!"|" (spaceOpt r) with
        | none => exact dropWhile_sfx _ _
        | some y => exact (stripPfx_sfx hp).trans (dropWhile_sfx _ _)
      · exact (argsLoop_sfx _ _).trans hx
    apply kk
    split
    · rename_i y hy
      exact (dropWhile_sfx _ _).trans ((stripPfx_sfx hy).trans (dropWhile_sfx _ _))
    · exact dropWhile_sfx _ _
  obtain ⟨u, hu⟩ := k2.trans k1
  refine ⟨c!"[[" ++ u ++ c!"]]", ?_, ⟨u ++ c!"]]", by simp⟩, ⟨c!"[[" ++ u, by simp, by simp⟩, h7⟩
  rw [hs1, ← hu]; simp

/-- `m` is the text of an include block denoting `inc`: it starts with `[[`, ends with `]]`, and it parses
as an include block wherever a line break or the end of the text follows. -/
def IsBlock (m : Str) (inc : IncludeRef) : Prop :=
  c!"[[" <+: m ∧ (∃ m0, m = m0 ++ c!"]]" ∧ 2 ≤ m0.length) ∧
  ∃ q page args r, block (m ++ q) = some (page, args, q) ∧ PageRef.parse page = some r ∧
    inc = ⟨r, processArgs args⟩ ∧ (q = [] ∨ q.head? = some '\n' ∨ q.head? = some '\r')

private theorem parseBlock_shape {s : Str} {inc : IncludeRef} {n : Nat} (h : parseBlock s = some (inc, n)) :
    ∃ m q, s = m ++ q ∧ n = byteLen m ∧ IsBlock m inc := by
  unfold parseBlock at h
  split at h
  · cases h
  · rename_i page args rest hb
    obtain ⟨m, h1, h2, h3, h5⟩ := block_shape hb
    obtain ⟨r, h6, h4⟩ := Option.map_eq_some_iff.1 h
    simp at h4
    refine ⟨m, rest, h1, ?_, h2, h3, rest, page, args, r, by rw [← h1, hb], h6, h4.1.symm, h5⟩
    rw [← h4.2, h1]; simp

private theorem findIter_mem {bol : Bool} {skip off : Nat} {s : Str} {x : Nat × Str}
    (h : x ∈ findIter bol skip off s) : ∃ u, s = u ++ x.2 ∧ x.1 = off + byteLen u := by
  induction s generalizing bol skip off with
  | nil => simp [findIter] at h
  | cons c s ih =>
    have lift : (∃ u, s = u ++ x.2 ∧ x.1 = off + utf8Size c + byteLen u) →
        ∃ u, c :: s = u ++ x.2 ∧ x.1 = off + byteLen u := by
      rintro ⟨u, rfl, h2⟩
      exact ⟨c :: u, rfl, by simp [byteLen]; omega⟩
    cases skip with
    | succ k => rw [findIter] at h; exact lift (ih h)
    | zero =>
      rw [findIter] at h
      split at h
      · rcases List.mem_cons.1 h with rfl | h
        · exact ⟨[], rfl, by simp⟩
        · exact lift (ih h)
      · exact lift (ih h)

private theorem regexLen_open {s : Str} {n : Nat} (h : regexLen s = some n) : c!"[[" <+: s := by
  unfold regexLen at h
  split at h
  · cases h
  · rename_i a ha
    exact ⟨a, (stripPfx_some.1 ha).symm⟩

/-- Later matches start after a line break that follows the earlier start. -/
private theorem findIter_order (s : Str) : ∀ (bol : Bool) (skip off : Nat),
    (findIter bol skip off s).Pairwise (fun x y => ∃ v, x.2 = v ++ '\n' :: y.2 ∧ y.1 = x.1 + byteLen v + 1) ∧
    (∀ x ∈ findIter bol skip off s, c!"[[" <+: x.2 ∧
      ((bol = true ∧ x.2 = s ∧ x.1 = off) ∨ ∃ v, s = v ++ '\n' :: x.2 ∧ x.1 = off + byteLen v + 1)) := by
  induction s with
  | nil => intros; simp [findIter]
  | cons c s ih =>
    intro bol skip off
    have lift : ∀ (b : Bool) (k : Nat), b = (c == '\n') →
        ∀ x ∈ findIter b k (off + utf8Size c) s, c!"[[" <+: x.2 ∧
          ∃ v, c :: s = v ++ '\n' :: x.2 ∧ x.1 = off + byteLen v + 1 := by
      intro b k hb x hx
      obtain ⟨h1, h2⟩ := (ih b k (off + utf8Size c)).2 x hx
      refine ⟨h1, ?_⟩
      rcases h2 with ⟨hb', h3, h4⟩ | ⟨v, h3, h4⟩
      · have hc : c = '\n' := by rw [hb] at hb'; simpa using hb'
        subst hc
        refine ⟨[], by simp [h3], ?_⟩
        rw [h4]; simp [utf8Size]
      · exact ⟨c :: v, by simp [h3], by simp [byteLen]; omega⟩
    cases skip with
    | succ k =>
      rw [findIter]
      exact ⟨(ih _ _ _).1, fun x hx => ⟨(lift _ _ rfl x hx).1, Or.inr (lift _ _ rfl x hx).2⟩⟩
    | zero =>
      rw [findIter]
      split
      · rename_i n hn
        have hbol : bol = true ∧ regexLen (c :: s) = some n := by
          split at hn
          · exact ⟨by assumption, hn⟩
          · cases hn
        constructor
        · rw [List.pairwise_cons]
          refine ⟨?_, (ih _ _ _).1⟩
          intro y hy
          exact (lift _ _ rfl y hy).2
        · intro x hx
          rcases List.mem_cons.1 hx with rfl | hx
          · exact ⟨regexLen_open hbol.2, Or.inl ⟨hbol.1, rfl, rfl⟩⟩
          · exact ⟨(lift _ _ rfl x hx).1, Or.inr (lift _ _ rfl x hx).2⟩
      · exact ⟨(ih _ _ _).1, fun x hx => ⟨(lift _ _ rfl x hx).1, Or.inr (lift _ _ rfl x hx).2⟩⟩

/-- A found include is a block of the input at its range. -/
theorem collect_mem {input : Str} {x : (Nat × Nat) × IncludeRef} (h : x ∈ collect input) :
    ∃ p m q, input = p ++ m ++ q ∧ x.1 = (byteLen p, byteLen p + byteLen m) ∧ IsBlock m x.2 := by
  unfold collect at h
  obtain ⟨⟨start, rest⟩, h1, h2⟩ := List.mem_filterMap.1 h
  obtain ⟨⟨inc, len⟩, h3, h4⟩ := Option.map_eq_some_iff.1 h2
  obtain ⟨u, h5, h6⟩ := findIter_mem h1
  obtain ⟨m, q, h7, h8, h9⟩ := parseBlock_shape h3
  simp at h5 h6
  subst h4
  refine ⟨u, m, q, by rw [h5, h7]; simp, ?_, h9⟩
  rw [h6, h8]

/-- A piece of the input: text kept, then an include block, the include it denotes, the page the includer
returned for it and the text it is replaced by. -/
structure Piece where
  text : Str
  block : Str
  inc : IncludeRef
  fetched : Fetched
  replacement : Str

/-- The replacement of a piece: the fetched content after variable substitution or, if the page does not
exist, a text the includer gave for the missing page. -/
def Piece.Correct {σ E : Type} (I : Includer σ E) (p : Piece) : Prop :=
  p.fetched.pageRef = p.inc.pageRef ∧
  match p.fetched.content with
  | some c => Subst p.inc.variables c p.replacement
  | none => ∃ st st', I.noSuchInclude st p.inc.pageRef = (.ok p.replacement, st')

/-- The byte ranges of the blocks of consecutive segments (text, block, include). -/
def layout (off : Nat) : List (Str × Str × IncludeRef) → List ((Nat × Nat) × IncludeRef)
  | [] => []
  | (t, m, inc) :: r =>
    ((off + byteLen t, off + byteLen t + byteLen m), inc) :: layout (off + byteLen t + byteLen m) r

/-- The text of consecutive segments. -/
def flat (segs : List (Str × Str × IncludeRef)) : Str := segs.flatMap fun x => x.1 ++ x.2.1

theorem layout_append (off : Nat) (a b : List (Str × Str × IncludeRef)) :
    layout off (a ++ b) = layout off a ++ layout (off + byteLen (flat a)) b := by
  induction a generalizing off with
  | nil => simp [layout, flat]
  | cons x a ih =>
    obtain ⟨t, m, inc⟩ := x
    simp only [List.cons_append, layout, ih, flat, List.flatMap_cons, byteLen_append, Nat.add_assoc]

theorem layout_length (off : Nat) (a : List (Str × Str × IncludeRef)) :
    (layout off a).length = a.length := by
  induction a generalizing off with
  | nil => rfl
  | cons x a ih => obtain ⟨t, m, inc⟩ := x; simp [layout, ih]

/-- The text cut at non-overlapping blocks. -/
private theorem segment {input : Str} (found : List ((Nat × Nat) × IncludeRef)) (hd : Disjoint found)
    (hm : ∀ x ∈ found, ∃ p m q, input = p ++ m ++ q ∧ x.1 = (byteLen p, byteLen p + byteLen m) ∧ IsBlock m x.2) :
    ∀ pre rest, input = pre ++ rest → (∀ x ∈ found, byteLen pre ≤ x.1.1) →
    ∃ (segs : List (Str × Str × IncludeRef)) (tail : Str),
      rest = flat segs ++ tail ∧ (∀ x ∈ segs, IsBlock x.2.1 x.2.2) ∧ found = layout (byteLen pre) segs := by
  induction found with
  | nil => intro pre rest h _; exact ⟨[], rest, by simp [flat], by simp, rfl⟩
  | cons x found ih =>
    intro pre rest hin hpre
    obtain ⟨p, m, q, h1, h2, h3⟩ := hm x (by simp)
    have hx := hpre x (by simp)
    rw [h2] at hx
    obtain ⟨t, rfl⟩ := prefix_of_byteLen (p := p) (q := m ++ q) (d := pre) (r := rest)
      (by rw [← hin, h1]; simp) hx
    have hrest : rest = t ++ m ++ q := by
      rw [hin] at h1
      have : pre ++ rest = pre ++ (t ++ m ++ q) := by rw [h1]; simp
      exact List.append_cancel_left this
    obtain ⟨hd1, hd2⟩ := List.pairwise_cons.1 hd
    obtain ⟨segs, tail, k1, k3, k4⟩ := ih hd2 (fun y hy => hm y (by simp [hy])) (pre ++ t ++ m) q
      (by rw [h1]) (by
        intro y hy
        have := hd1 y hy
        rw [h2] at this
        simpa [Nat.add_assoc] using this)
    refine ⟨(t, m, x.2) :: segs, tail, ?_, ?_, ?_⟩
    · rw [hrest, k1]; simp [flat]
    · intro y hy
      rcases List.mem_cons.1 hy with rfl | hy
      · exact h3
      · exact k3 y hy
    · obtain ⟨⟨a, b⟩, inc⟩ := x
      simp at h2
      simp [layout, k4, h2, Nat.add_assoc]

theorem splice_spec {σ E : Type} (I : Includer σ E) (invalid : E) (base : List (Str × Str × IncludeRef))
    (fs : List Fetched) (hl : base.length = fs.length) :
    ∀ (st : σ) (R : Str) (pages : List PageRef),
    (spliceLoop I invalid st ((layout 0 base).zip fs).reverse (flat base ++ R) pages ≠ .panic) ∧
    ∀ out ps, spliceLoop I invalid st ((layout 0 base).zip fs).reverse (flat base ++ R) pages = .ok out ps →
      ∃ pieces : List Piece,
        pieces.map (fun p => (p.text, p.block, p.inc)) = base ∧
        pieces.map (fun p => p.fetched) = fs ∧
        out = (pieces.flatMap fun p => p.text ++ p.replacement) ++ R ∧
        ps = pieces.map (fun p => p.inc.pageRef) ++ pages.reverse ∧
        (∀ p ∈ pieces, p.Correct I) := by
  generalize hn : base.length = n
  induction n generalizing base fs with
  | zero =>
    intro st R pages
    have : base = [] := List.length_eq_zero_iff.1 hn
    subst this
    have : fs = [] := List.length_eq_zero_iff.1 hl.symm
    subst this
    simp [layout, spliceLoop, flat]
  | succ n ih =>
    intro st R pages
    obtain ⟨base, x, rfl⟩ : ∃ b x, base = b ++ [x] := by
      refine ⟨base.dropLast, base.getLast (by intro h; simp [h] at hn), ?_⟩
      exact (List.dropLast_concat_getLast _).symm
    obtain ⟨fs, f, rfl⟩ : ∃ b x, fs = b ++ [x] := by
      refine ⟨fs.dropLast, fs.getLast (by intro h; simp [h] at hl), ?_⟩
      exact (List.dropLast_concat_getLast _).symm
    simp at hl hn
    obtain ⟨t, m, inc⟩ := x
    have ih' := ih base fs hl hn
    rw [layout_append, List.zip_append (by rw [layout_length]; exact hl)]
    simp only [layout, List.zip_cons_cons, List.zip_nil_right, List.reverse_append, List.reverse_cons,
      List.reverse_nil, List.nil_append, List.cons_append, Nat.zero_add]
    have hflat : flat (base ++ [(t, m, inc)]) ++ R = (flat base ++ t) ++ m ++ R := by simp [flat]
    rw [hflat]
    have hrr : ∀ w, replaceRange ((flat base ++ t) ++ m ++ R) (byteLen (flat base) + byteLen t)
        (byteLen (flat base) + byteLen t + byteLen m) w = some (flat base ++ (t ++ w ++ R)) := by
      intro w
      have := replaceRange_append (flat base ++ t) m R w
      rw [byteLen_append] at this
      rw [this]; simp
    rw [spliceLoop]
    split
    · simp
    · rename_i hpr
      have hpr : inc.pageRef = f.pageRef := by simpa using hpr
      have fin : ∀ (st : σ) (w : Str), (Piece.mk t m inc f w).Correct I →
          (spliceLoop I invalid st ((layout 0 base).zip fs).reverse (flat base ++ (t ++ w ++ R))
            (pages ++ [inc.pageRef]) ≠ .panic) ∧
          ∀ out ps, spliceLoop I invalid st ((layout 0 base).zip fs).reverse (flat base ++ (t ++ w ++ R))
            (pages ++ [inc.pageRef]) = .ok out ps →
          ∃ pieces : List Piece,
            pieces.map (fun p => (p.text, p.block, p.inc)) = base ++ [(t, m, inc)] ∧
            pieces.map (fun p => p.fetched) = fs ++ [f] ∧
            out = (pieces.flatMap fun p => p.text ++ p.replacement) ++ R ∧
            ps = pieces.map (fun p => p.inc.pageRef) ++ pages.reverse ∧
            (∀ p ∈ pieces, p.Correct I) := by
        intro st w hw
        obtain ⟨h1, h2⟩ := ih' st (t ++ w ++ R) (pages ++ [inc.pageRef])
        refine ⟨h1, ?_⟩
        intro out ps ho
        obtain ⟨pieces, k1, k2, k3, k4, k5⟩ := h2 out ps ho
        refine ⟨pieces ++ [⟨t, m, inc, f, w⟩], by simp [k1], by simp [k2], by simp [k3], by simp [k4], ?_⟩
        intro p hp
        rcases List.mem_append.1 hp with hp | hp
        · exact k5 p hp
        · simp at hp; subst hp; exact hw
      split
      · rename_i content hc
        obtain ⟨w, hw1, hw2⟩ := C28_one_pass inc.variables content
        simp only [hw1, hrr]
        exact fin st w ⟨hpr.symm, by simp [hc, hw2]⟩
      · rename_i hc
        split
        · simp
        · rename_i w st' hns
          simp only [hrr]
          exact fin st' w ⟨hpr.symm, by simp only [hc]; exact ⟨st, st', hns⟩⟩

/-! ### C24 -/

/-- C24: with includes disabled the text comes back unchanged, no page is reported and the includer is
not consulted: the result is the same for any two includers in any states. -/
theorem C24_disabled {σ τ E : Type} (I : Includer σ E) (J : Includer τ E) (e : E) (s : σ) (t : τ) (input : Str) :
    runInclude false I e s input = .ok input [] ∧ runInclude false J e t input = runInclude false I e s input :=
  ⟨rfl, rfl⟩

/-! ### C25–C27 -/

/-- The pages the includer is asked for: the includes of the text in document order. -/
def requested (input : Str) : List IncludeRef := (collect input).map (·.2)

private theorem disjoint_cut {input : Str} (hd : Disjoint (collect input)) :
    ∃ (segs : List (Str × Str × IncludeRef)) (tail : Str),
      input = flat segs ++ tail ∧ (∀ x ∈ segs, IsBlock x.2.1 x.2.2) ∧ collect input = layout 0 segs := by
  have := segment (input := input) (collect input) hd (fun x hx => collect_mem hx) [] input rfl (by simp)
  simpa using this

theorem layout_snd (off : Nat) (segs : List (Str × Str × IncludeRef)) :
    (layout off segs).map (·.2) = segs.map (fun x => x.2.2) := by
  induction segs generalizing off with
  | nil => rfl
  | cons x a ih => obtain ⟨t, m, inc⟩ := x; simp [layout, ih]

/-- C25: when the include blocks found do not overlap and `include` succeeds, the input is a sequence of
kept texts and include blocks (each a well-formed block denoting its include), the includer was asked for
those includes in document order, the output is the same sequence with every block replaced by its
fetched and variable-substituted content (or the includer's text for a missing page), and the reported
pages are the included pages in document order. -/
theorem C25_splice {σ E : Type} (I : Includer σ E) (e : E) (st : σ) (input out : Str) (ps : List PageRef)
    (hd : Disjoint (collect input)) (h : runInclude true I e st input = .ok out ps) :
    ∃ (pieces : List Piece) (tail : Str) (fetched : List Fetched) (st' : σ),
      input = (pieces.flatMap fun p => p.text ++ p.block) ++ tail ∧
      out = (pieces.flatMap fun p => p.text ++ p.replacement) ++ tail ∧
      ps = pieces.map (fun p => p.inc.pageRef) ∧
      requested input = pieces.map (fun p => p.inc) ∧
      I.includePages st (requested input) = (.ok fetched, st') ∧
      fetched = pieces.map (fun p => p.fetched) ∧
      ∀ p ∈ pieces, IsBlock p.block p.inc ∧ p.Correct I := by
  obtain ⟨segs, tail, h1, h2, h3⟩ := disjoint_cut hd
  unfold runInclude at h
  simp only [Bool.not_true, Bool.false_eq_true, if_false] at h
  unfold requested
  split at h
  · cases h
  · rename_i fetched st' hI
    split at h
    · cases h
    · rename_i hlen
      have hlen : segs.length = fetched.length := by
        have : (collect input).length = fetched.length := by simpa using hlen
        rw [← this, h3, layout_length]
      rw [h3, h1] at h
      obtain ⟨pieces, k1, k2, k3, k4, k5⟩ := (splice_spec I e segs fetched hlen st' tail []).2 out ps h
      refine ⟨pieces, tail, fetched, st', ?_, k3, by simpa using k4, ?_, hI, k2.symm, ?_⟩
      · rw [h1, ← k1]; simp [flat, List.flatMap_map]
      · rw [h3, layout_snd, ← k1]; simp
      · intro p hp
        refine ⟨?_, k5 p hp⟩
        exact h2 (p.text, p.block, p.inc) (by rw [← k1]; exact List.mem_map.2 ⟨p, hp, rfl⟩)

private theorem splice_succeeds {σ E : Type} (I : Includer σ E) (invalid : E)
    (hns : ∀ st r, ∃ t st', I.noSuchInclude st r = (.ok t, st')) :
    ∀ (l : List (((Nat × Nat) × IncludeRef) × Fetched)), (∀ x ∈ l, x.1.2.pageRef = x.2.pageRef) →
    ∀ (st : σ) (out : Str) (pages : List PageRef), spliceLoop I invalid st l out pages ≠ .panic →
    ∃ out' ps, spliceLoop I invalid st l out pages = .ok out' ps
  | [], _, st, out, pages, _ => ⟨_, _, rfl⟩
  | (((a, b), inc), f) :: l, hl, st, out, pages, hp => by
    have ih := splice_succeeds I invalid hns l fun x hx => hl x (by simp [hx])
    have h0 : inc.pageRef = f.pageRef := hl (((a, b), inc), f) (by simp)
    rw [spliceLoop, if_neg (by simpa using h0)] at hp ⊢
    split at hp
    · split at hp
      · exact absurd rfl hp
      · split at hp
        · exact absurd rfl hp
        · exact ih _ _ _ hp
    · obtain ⟨t, st', hr⟩ := hns st inc.pageRef
      rw [hr] at hp ⊢
      dsimp only at hp ⊢
      split at hp
      · exact absurd rfl hp
      · exact ih _ _ _ hp

/-- C25: `include` succeeds when the include blocks found do not overlap and the includer answers with the pages it
was asked for and has a text for missing pages. -/
theorem C25_succeeds {σ E : Type} (I : Includer σ E) (e : E) (st st' : σ) (input : Str) (fetched : List Fetched)
    (hd : Disjoint (collect input)) (hI : I.includePages st (requested input) = (.ok fetched, st'))
    (hr : fetched.map (·.pageRef) = (requested input).map (·.pageRef))
    (hns : ∀ st r, ∃ t st', I.noSuchInclude st r = (.ok t, st')) :
    ∃ out ps, runInclude true I e st input = .ok out ps := by
  obtain ⟨segs, tail, h1, h2, h3⟩ := disjoint_cut hd
  have hlen : (collect input).length = fetched.length := by
    have := congrArg List.length hr
    simpa [requested] using this.symm
  unfold requested at hI hr
  unfold runInclude
  simp only [Bool.not_true, Bool.false_eq_true, if_false, hI, hlen, ne_eq, not_true_eq_false]
  refine splice_succeeds I e hns _ ?_ _ _ _ ?_
  · intro x hx
    obtain ⟨i, hi⟩ := List.mem_iff_getElem?.1 (List.mem_reverse.1 hx)
    obtain ⟨g1, g2⟩ := List.getElem?_zip_eq_some.1 hi
    have := congrArg (·[i]?) hr
    simpa [List.getElem?_map, g1, g2, eq_comm] using this
  · rw [h3, h1]
    exact (splice_spec I e segs fetched (by rw [← hlen, h3, layout_length]) st' tail []).1

/-- C27: `include` never panics when the include blocks found do not overlap. -/
theorem C27_no_panic {σ E : Type} (b : Bool) (I : Includer σ E) (e : E) (st : σ) (input : Str)
    (hd : Disjoint (collect input)) : runInclude b I e st input ≠ .panic := by
  obtain ⟨segs, tail, h1, h2, h3⟩ := disjoint_cut hd
  cases b with
  | false => simp [runInclude]
  | true =>
    unfold runInclude
    simp only [Bool.not_true, Bool.false_eq_true, if_false]
    split
    · simp
    · rename_i fetched st' hI
      split
      · simp
      · rename_i hlen
        have hlen : segs.length = fetched.length := by
          have : (collect input).length = fetched.length := by simpa using hlen
          rw [← this, h3, layout_length]
        rw [h3, h1]
        exact (splice_spec I e segs fetched hlen st' tail []).1

/-- An includer that answers every request with the same text. -/
def constIncluder (text : Str) : Includer Unit Unit where
  includePages s incs := (.ok (incs.map fun i => ⟨i.pageRef, some text⟩), s)
  noSuchInclude s _ := (.ok [], s)

/-- C27: a text with an include block inside another one's argument makes `include` panic, although the
includer answers exactly what it was asked. -/
theorem C27_nested_panics :
    runInclude true (constIncluder []) () () c!"[[include a |x=\n[[include b]]" = .panic := by decide +kernel

/-- C26: the wrong number of pages gives the invalid-return error. -/
theorem C26_wrong_count {σ E : Type} (I : Includer σ E) (e : E) (st st' : σ) (input : Str) (fetched : List Fetched)
    (hI : I.includePages st (requested input) = (.ok fetched, st'))
    (hlen : fetched.length ≠ (requested input).length) : runInclude true I e st input = .err e := by
  unfold runInclude
  simp only [Bool.not_true, Bool.false_eq_true, if_false]
  unfold requested at hI hlen
  rw [hI]
  simp only
  rw [if_pos]
  simp at hlen
  exact fun h => hlen h.symm

private theorem splice_mismatch {σ E : Type} (I : Includer σ E) (e : E)
    (l : List (((Nat × Nat) × IncludeRef) × Fetched)) (x : ((Nat × Nat) × IncludeRef) × Fetched) (hx : x ∈ l)
    (hne : x.1.2.pageRef ≠ x.2.pageRef) : ∀ (st : σ) (out : Str) (pages ps : List PageRef) (o : Str),
    spliceLoop I e st l out pages ≠ .ok o ps := by
  induction l with
  | nil => cases hx
  | cons y l ih =>
    intro st out pages ps o
    obtain ⟨⟨⟨a, b⟩, inc⟩, f⟩ := y
    rw [spliceLoop]
    split
    · simp
    · rename_i hpr
      have hxl : x ∈ l := by
        rcases List.mem_cons.1 hx with rfl | h
        · simp at hpr; exact absurd hpr hne
        · exact h
      have ih := ih hxl
      split
      · split
        · simp
        · split
          · simp
          · exact ih _ _ _ _ _
      · split
        · simp
        · split
          · simp
          · exact ih _ _ _ _ _

/-- C26: if some returned page is not the page asked for at that place, `include` does not succeed. -/
theorem C26_wrong_page {σ E : Type} (I : Includer σ E) (e : E) (st st' : σ) (input : Str) (fetched : List Fetched)
    (hI : I.includePages st (requested input) = (.ok fetched, st'))
    (i : Nat) (inc : IncludeRef) (f : Fetched) (h1 : (requested input)[i]? = some inc) (h2 : fetched[i]? = some f)
    (hne : f.pageRef ≠ inc.pageRef) (out : Str) (ps : List PageRef) :
    runInclude true I e st input ≠ .ok out ps := by
  unfold runInclude
  simp only [Bool.not_true, Bool.false_eq_true, if_false]
  unfold requested at hI h1
  rw [hI]
  simp only
  split
  · simp
  · rw [List.getElem?_map] at h1
    obtain ⟨x, hx1, hx2⟩ := Option.map_eq_some_iff.1 h1
    refine splice_mismatch I e _ (x, f) ?_ (by rw [hx2]; exact fun h => hne h.symm) _ _ _ _ _
    rw [List.mem_reverse]
    refine List.mem_of_getElem? (i := i) ?_
    rw [List.getElem?_zip_eq_some]
    exact ⟨hx1, h2⟩

/-- C26: an includer error is returned as it is. -/
theorem C26_includer_error {σ E : Type} (I : Includer σ E) (e e' : E) (st st' : σ) (input : Str)
    (hI : I.includePages st (requested input) = (.error e', st')) : runInclude true I e st input = .err e' := by
  unfold runInclude
  simp only [Bool.not_true, Bool.false_eq_true, if_false]
  unfold requested at hI
  rw [hI]

/-! ### Which blocks are found; when they cannot overlap -/

theorem isWS_of_isSpace {c : Char} (h : isSpace c = true) : isWS c = true := by
  simp only [isSpace, Bool.or_eq_true, beq_iff_eq] at h
  rcases h with (rfl | rfl) | rfl <;> decide

private theorem dropWhile_space_ws (s : Str) (t : Str) (h : s.dropWhile isSpace = t)
    (ht : ∀ c ∈ t.head?, isWS c = false) : s.dropWhile isWS = t := by
  induction s with
  | nil => simpa using h
  | cons c s ih =>
    by_cases hc : isSpace c = true
    · rw [List.dropWhile_cons_of_pos hc] at h
      rw [List.dropWhile_cons_of_pos (isWS_of_isSpace hc)]
      exact ih h
    · rw [List.dropWhile_cons_of_neg hc] at h
      subst h
      have := ht c (by simp)
      rw [List.dropWhile_cons_of_neg (by simp [this])]

theorem stripCI_head {s r : Str} (h : stripCI c!"include" s = some r) : ∀ c ∈ s.head?, isWS c = false := by
  cases s with
  | nil => simp
  | cons c s =>
    simp only [stripCI] at h
    split at h
    · rename_i hc
      simp
      by_cases hu : isUpperA c = true
      · simp only [isUpperA, Bool.and_eq_true, decide_eq_true_eq] at hu
        unfold isWS
        simp
        omega
      · have : c = 'i' := by simpa [lowerC, hu] using hc
        subst this; decide
    · cases h

/-- A block is seen by the regular expression. -/
theorem regexLen_of_block {s page : Str} {args : List (Str × Str)} {rest : Str}
    (h : block s = some (page, args, rest)) : ∃ n, regexLen s = some n := by
  unfold block at h
  simp only [Option.bind_eq_bind, Option.bind_eq_some_iff, Prod.exists, Option.pure_def,
    Option.some.injEq, Prod.mk.injEq] at h
  obtain ⟨s1, h1, s2, h2, s3, h3, _⟩ := h
  unfold regexLen
  simp only [h1]
  rw [dropWhile_space_ws s1 (spaceOpt s1) rfl (stripCI_head h2)]
  simp only [h2]
  cases s2 with
  | nil => simp [space] at h3
  | cons c s2 =>
    simp only [space] at h3
    split at h3
    · rename_i hc
      simp [isWS_of_isSpace hc]
    · cases h3

private theorem takeWhile_all (p : Char → Bool) (s : Str) : ∀ y ∈ s.takeWhile p, p y = true :=
  fun y hy => List.all_eq_true.1 List.all_takeWhile y hy

private theorem stripCI_chars {p s r : Str} (h : stripCI p s = some r) (hp : ∀ c ∈ p, c ≠ '[') :
    ∃ u, s = u ++ r ∧ ∀ c ∈ u, c ≠ '[' := by
  induction p generalizing s with
  | nil => simp [stripCI] at h; subst h; exact ⟨[], rfl, by simp⟩
  | cons x p ih =>
    cases s with
    | nil => simp [stripCI] at h
    | cons c s =>
      simp only [stripCI] at h
      split at h
      · rename_i hc
        obtain ⟨u, rfl, h2⟩ := ih h (fun c hc => hp c (by simp [hc]))
        refine ⟨c :: u, rfl, ?_⟩
        intro y hy
        rcases List.mem_cons.1 hy with rfl | hy
        · rintro rfl
          exact hp x (by simp) (hc ▸ by decide)
        · exact h2 y hy
      · cases h

/-- A match of the regular expression is `[[` followed by text without `[`. -/
private theorem regexLen_shape {s : Str} {n : Nat} (h : regexLen s = some n) :
    ∃ u r, s = c!"[[" ++ u ++ r ∧ n = u.length + 2 ∧ u ≠ [] ∧ ∀ c ∈ u, c ≠ '[' := by
  unfold regexLen at h
  split at h
  · cases h
  · rename_i a ha
    split at h
    · cases h
    · rename_i b hb
      split at h
      · cases h
      · rename_i c b'
        split at h
        · rename_i hc
          injection h with h
          obtain ⟨u, h1, h2⟩ := stripCI_chars hb (by decide)
          have e1 := takeWhile_append_drop isWS a
          have e2 := takeWhile_append_drop isWS (c :: b')
          have hs : s = c!"[[" ++ (a.takeWhile isWS ++ u ++ (c :: b').takeWhile isWS) ++ (c :: b').dropWhile isWS := by
            rw [stripPfx_some.1 ha]
            conv => lhs; rw [e1, h1, e2]
            simp
          have hws : ∀ c, isWS c = true → c ≠ '[' := by
            rintro c h rfl; revert h; decide
          refine ⟨_, _, hs, ?_, ?_, ?_⟩
          · rw [← h]
            have := congrArg List.length hs
            simp only [List.length_append, List.length_cons, List.length_nil] at this ⊢
            omega
          · simp [hc]
          · intro y hy
            simp only [List.mem_append] at hy
            rcases hy with (hy | hy) | hy
            · exact hws _ (takeWhile_all _ _ _ hy)
            · exact h2 _ hy
            · exact hws _ (takeWhile_all _ _ _ hy)
        · cases h

private theorem findIter_complete (s : Str) : ∀ (bol : Bool) (skip off : Nat) (u t : Str) (n : Nat),
    (∀ k, k < skip → ¬ c!"[[" <+: s.drop k) → s = u ++ t → regexLen t = some n →
    ((u = [] ∧ bol = true) ∨ ∃ u0, u = u0 ++ ['\n']) → (off + byteLen u, t) ∈ findIter bol skip off s := by
  induction s with
  | nil =>
    intro bol skip off u t n _ h h2
    simp at h
    rw [h.2] at h2; simp [regexLen, stripPfx] at h2
  | cons c s ih =>
    intro bol skip off u t n hsk hs hr hu
    have ht := regexLen_open hr
    cases u with
    | nil =>
      simp at hs
      have hb : bol = true := by
        rcases hu with h | ⟨u0, h⟩
        · exact h.2
        · simp at h
      cases skip with
      | succ k => exact absurd (by simpa [hs] using ht) (hsk 0 (by omega))
      | zero =>
        rw [findIter]
        subst hs
        simp [hb, hr]
    | cons d u =>
      simp at hs
      obtain ⟨rfl, hs⟩ := hs
      have hu' : (u = [] ∧ (c == '\n') = true) ∨ ∃ u0, u = u0 ++ ['\n'] := by
        rcases hu with h | ⟨u0, h⟩
        · simp at h
        · cases u0 with
          | nil => simp at h; simp [h]
          | cons d u0 => simp at h; exact Or.inr ⟨u0, h.2⟩
      have e : off + byteLen (c :: u) = off + utf8Size c + byteLen u := by simp [byteLen]; omega
      rw [e]
      cases skip with
      | succ k =>
        rw [findIter]
        exact ih _ _ _ _ _ _ (fun j hj => by simpa using hsk (j + 1) (by omega)) hs hr hu'
      | zero =>
        rw [findIter]
        split
        · rename_i m hm
          refine List.mem_cons_of_mem _ (ih _ _ _ _ _ _ ?_ hs hr hu')
          have hm' : regexLen (c :: s) = some m := by
            split at hm
            · exact hm
            · cases hm
          obtain ⟨v, r, h1, h2, h3, h4⟩ := regexLen_shape hm'
          simp at h1
          obtain ⟨rfl, h1⟩ := h1
          intro k hk hpre
          subst h1
          obtain ⟨z, hz⟩ := hpre
          have hv : ∀ i, i < v.length → (v ++ r)[i]? ≠ some '[' := by
            intro i hi h
            rw [List.getElem?_append_left hi] at h
            exact h4 _ (List.mem_of_getElem? h) rfl
          cases k with
          | zero =>
            simp at hz
            cases v with
            | nil => exact h3 rfl
            | cons y v => simp at hz; exact h4 y (by simp) hz.1.symm
          | succ k =>
            simp at hz
            refine hv k (by omega) ?_
            have : (List.drop k (v ++ r))[0]? = some '[' := by rw [← hz]; rfl
            simpa using this
        · exact ih _ _ _ _ _ _ (by intro k hk; omega) hs hr hu'

/-- The place after `p` is the start of a line. -/
def LineStart (p : Str) : Prop := p = [] ∨ ∃ p0, p = p0 ++ ['\n']

/-- C25: every include block written at the start of a line is found at its place: the includer is asked
for it. -/
theorem C25_finds_all (p m q page : Str) (args : List (Str × Str)) (r : PageRef) (hp : LineStart p)
    (hb : block (m ++ q) = some (page, args, q)) (hr : PageRef.parse page = some r) :
    ((byteLen p, byteLen p + byteLen m), (⟨r, processArgs args⟩ : IncludeRef)) ∈ collect (p ++ m ++ q) := by
  obtain ⟨n, hn⟩ := regexLen_of_block hb
  have := findIter_complete (p ++ m ++ q) true 0 0 p (m ++ q) n (by intro k hk; omega) (by simp) hn
    (by rcases hp with h | h; exact Or.inl ⟨h, rfl⟩; exact Or.inr h)
  unfold collect
  refine List.mem_filterMap.2 ⟨_, this, ?_⟩
  simp [parseBlock, hb, hr]

/-- C25: if no include block of the text contains a line starting with `[[`, the blocks found do not
overlap (the hypothesis of `C25_splice` and `C27_no_panic`). -/
theorem C25_disjoint (input : Str)
    (h : ∀ p m q page args, input = p ++ m ++ q → LineStart p → block (m ++ q) = some (page, args, q) →
      ¬ c!"\n[[" <:+: m) : Disjoint (collect input) := by
  unfold Disjoint collect
  refine List.Pairwise.filterMap _ ?_ (List.Pairwise.imp_of_mem (S := fun x y =>
    ∃ v, x.2 = v ++ '\n' :: y.2 ∧ y.1 = x.1 + byteLen v + 1 ∧ c!"[[" <+: y.2 ∧
      ∃ p, input = p ++ x.2 ∧ LineStart p) ?_ (findIter_order input true 0 0).1)
  · rintro ⟨xs, xr⟩ ⟨ys, yr⟩ ⟨v, h1, h2, h3, p, h4, h5⟩ x' hx y' hy
    obtain ⟨⟨xi, xl⟩, k1, rfl⟩ := Option.map_eq_some_iff.1 hx
    obtain ⟨⟨yi, yl⟩, k2, rfl⟩ := Option.map_eq_some_iff.1 hy
    simp only at *
    unfold parseBlock at k1
    split at k1
    · cases k1
    · rename_i page args rest hb
      obtain ⟨m, e1, e2, ⟨m0, e3, e4⟩, _⟩ := block_shape hb
      obtain ⟨r, _, e6⟩ := Option.map_eq_some_iff.1 k1
      simp at e6
      have hl : xl = byteLen m := by rw [← e6.2, e1]; simp
      have hno := h p m rest page args (by rw [h4, e1]; simp) h5 (by rw [← e1]; exact hb)
      rw [h2, hl, Nat.add_assoc]
      refine Nat.add_le_add_left ?_ _
      apply Nat.le_of_not_lt
      intro hlt
      have hcut : m ++ rest = (v ++ ['\n']) ++ yr := by rw [← e1, h1]; simp
      have hbl : byteLen (v ++ ['\n']) = byteLen v + 1 := by simp [byteLen, utf8Size]
      obtain ⟨t, ht⟩ := prefix_of_byteLen hcut (by omega)
      have hyr : yr = t ++ rest := by
        rw [ht, List.append_assoc] at hcut
        exact (List.append_cancel_left hcut).symm
      obtain ⟨z, hz⟩ := h3
      rw [hyr] at hz
      match t, hz, ht with
      | [], _, ht => rw [ht] at hlt; simp [byteLen, utf8Size] at hlt
      | [a], hz, ht =>
        simp at hz
        rw [e3] at ht
        have : (m0 ++ c!"]]").getLast? = (v ++ ['\n'] ++ [a]).getLast? := by rw [ht]
        simp at this
        rw [← hz.1] at this
        exact absurd this (by decide)
      | a :: b :: t, hz, ht =>
        simp at hz
        obtain ⟨rfl, rfl, _⟩ := hz
        exact hno ⟨v, t, by rw [ht]; simp⟩
  · intro x y hx hy ⟨v, h1, h2⟩
    refine ⟨v, h1, h2, ((findIter_order input true 0 0).2 y hy).1, ?_⟩
    rcases ((findIter_order input true 0 0).2 x hx).2 with ⟨_, h3, h4⟩ | ⟨w, h3, h4⟩
    · exact ⟨[], by simp [h3], Or.inl rfl⟩
    · exact ⟨w ++ ['\n'], by rw [h3]; simp, Or.inr ⟨w, rfl⟩⟩

/-- The hypotheses are met by a text with two include blocks, one with arguments. -/
example : runInclude true (constIncluder c!"<{$x}>") () () c!"A\n[[include a |x=1]]\nB\n[[include :s:b]]\nC" =
    .ok c!"A\n<1>\nB\n<{$x}>\nC" [⟨none, c!"a"⟩, ⟨some c!"s", c!"b"⟩] := by decide +kernel
example : (collect c!"A\n[[include a |x=1]]\nB\n[[include :s:b]]\nC").map (·.1) = [(2, 20), (23, 39)] := by
  decide +kernel
example : block c!"[[include a |x=1]]\nB" = some (c!"a", [(c!"x", c!"1")], c!"\nB") := by decide +kernel

/-! ### C58: include arguments -/

/-- Specification of an argument that only names itself: `{$key}`. -/
def SelfRef (k v : Str) : Prop := v = c!"{$" ++ k ++ c!"}"

private theorem processArgs_fold (args m : List (Str × Str)) (hm : (m.map (·.1)).Nodup) :
    let r := args.foldl (fun m (x : Str × Str) =>
      if !(m.any fun p => p.1 == x.1) && x.2 != c!"{$" ++ x.1 ++ c!"}" then m ++ [(x.1, x.2)] else m) m
    (r.map (·.1)).Nodup ∧ ∀ k v, assocGet r k = some v ↔
      (assocGet m k = some v ∨ (assocGet m k = none ∧
        ∃ a b, args = a ++ (k, v) :: b ∧ ¬ SelfRef k v ∧ ∀ v', (k, v') ∈ a → SelfRef k v')) := by
  induction args generalizing m with
  | nil => exact ⟨hm, by simp⟩
  | cons x args ih =>
    obtain ⟨k0, v0⟩ := x
    simp only [List.foldl_cons]
    have hany : (m.any fun p => p.1 == k0) = true ↔ assocGet m k0 ≠ none := by
      unfold assocGet
      rw [Ne, Option.map_eq_none_iff, List.find?_eq_none]
      simp only [List.any_eq_true, beq_iff_eq]
      constructor
      · rintro ⟨p, hp, he⟩ h; exact h p hp he
      · intro h
        apply Classical.byContradiction
        intro hc
        exact h fun p hp he => hc ⟨p, hp, he⟩
    by_cases hc : (!(m.any fun p => p.1 == k0) && v0 != c!"{$" ++ k0 ++ c!"}") = true
    · rw [if_pos hc]
      simp only [Bool.and_eq_true, Bool.not_eq_true', bne_iff_ne] at hc
      have hnone : assocGet m k0 = none := by
        apply Classical.byContradiction
        intro h; rw [hany.2 h] at hc; exact absurd hc.1 (by simp)
      have hfind : ∀ p ∈ m, p.1 ≠ k0 := by
        intro p hp he
        have : (m.any fun p => p.1 == k0) = true := List.any_eq_true.2 ⟨p, hp, by simp [he]⟩
        rw [this] at hc; exact absurd hc.1 (by simp)
      have hget : ∀ k, assocGet (m ++ [(k0, v0)]) k = (assocGet m k).or (if k0 = k then some v0 else none) := by
        intro k
        unfold assocGet
        rw [List.find?_append]
        cases List.find? (fun p => p.1 == k) m with
        | some p => simp
        | none => by_cases hk : k0 = k <;> simp [hk]
      obtain ⟨h1, h2⟩ := ih (m ++ [(k0, v0)]) (by
        rw [List.map_append, List.nodup_append]
        refine ⟨hm, by simp, ?_⟩
        intro a ha b hb
        obtain ⟨p, hp, rfl⟩ := List.mem_map.1 ha
        simp at hb; subst hb
        exact hfind p hp)
      refine ⟨h1, ?_⟩
      intro k v
      rw [h2, hget]
      by_cases hk : k0 = k
      · subst hk
        rw [hnone]
        simp only [Option.none_or, if_true]
        constructor
        · rintro (h | ⟨h, _⟩)
          · cases h
            exact Or.inr ⟨trivial, [], args, rfl, hc.2, by simp⟩
          · cases h
        · rintro (h | ⟨_, a, b, he, hs, hall⟩)
          · cases h
          · cases a with
            | nil => simp at he; simp [he.1]
            | cons y a =>
              simp at he
              exact absurd (hall v0 (by simp [← he.1])) hc.2
      · simp only [if_neg hk, Option.or_none]
        constructor
        · rintro (h | ⟨h, a, b, he, hs, hall⟩)
          · exact Or.inl h
          · refine Or.inr ⟨h, (k0, v0) :: a, b, by simp [he], hs, ?_⟩
            intro v' hv'
            simp only [List.mem_cons, Prod.mk.injEq] at hv'
            rcases hv' with ⟨hh, _⟩ | hv'
            · exact absurd hh.symm hk
            · exact hall v' hv'
        · rintro (h | ⟨h, a, b, he, hs, hall⟩)
          · exact Or.inl h
          · cases a with
            | nil => simp at he; exact absurd he.1.1 hk
            | cons y a =>
              simp at he
              exact Or.inr ⟨h, a, b, he.2, hs, fun v' hv' => hall v' (by simp [hv'])⟩
    · rw [if_neg hc]
      obtain ⟨h1, h2⟩ := ih m hm
      refine ⟨h1, ?_⟩
      intro k v
      rw [h2]
      have hc' : assocGet m k0 ≠ none ∨ SelfRef k0 v0 := by
        rw [Bool.and_eq_true, Bool.not_eq_true', bne_iff_ne] at hc
        by_cases ha : assocGet m k0 = none
        · right
          apply Classical.byContradiction
          intro hs
          refine hc ⟨?_, hs⟩
          cases hb : (m.any fun p => p.1 == k0) with
          | false => rfl
          | true => exact absurd ha (hany.1 hb)
        · exact Or.inl ha
      constructor
      · rintro (h | ⟨h, a, b, he, hs, hall⟩)
        · exact Or.inl h
        · refine Or.inr ⟨h, (k0, v0) :: a, b, by simp [he], hs, ?_⟩
          intro v' hv'
          simp only [List.mem_cons, Prod.mk.injEq] at hv'
          rcases hv' with ⟨rfl, rfl⟩ | hv'
          · rcases hc' with hh | hh
            · exact absurd h hh
            · exact hh
          · exact hall v' hv'
      · rintro (h | ⟨h, a, b, he, hs, hall⟩)
        · exact Or.inl h
        · cases a with
          | nil =>
            simp at he
            obtain ⟨⟨rfl, rfl⟩, _⟩ := he
            rcases hc' with hh | hh
            · exact absurd h hh
            · exact absurd hh hs
          | cons y a =>
            simp at he
            exact Or.inr ⟨h, a, b, he.2, hs, fun v' hv' => hall v' (by simp [hv'])⟩

/-- C58: the variables handed to the includer have distinct names, and a name is bound to the value of
its first argument that is not just a reference to itself. -/
theorem C58_first_argument_wins (args : List (Str × Str)) :
    ((processArgs args).map (·.1)).Nodup ∧
    ∀ k v, assocGet (processArgs args) k = some v ↔
      ∃ a b, args = a ++ (k, v) :: b ∧ ¬ SelfRef k v ∧ ∀ v', (k, v') ∈ a → SelfRef k v' := by
  obtain ⟨h1, h2⟩ := processArgs_fold args [] (by simp)
  refine ⟨h1, ?_⟩
  intro k v
  rw [show processArgs args = args.foldl (fun m (x : Str × Str) =>
      if !(m.any fun p => p.1 == x.1) && x.2 != c!"{$" ++ x.1 ++ c!"}" then m ++ [(x.1, x.2)] else m) [] from rfl, h2]
  simp [assocGet]

example : processArgs [(c!"a", c!"{$a}"), (c!"a", c!"1"), (c!"b", c!"2"), (c!"a", c!"3")] =
    [(c!"a", c!"1"), (c!"b", c!"2")] := by decide +kernel

private theorem valueLoop_chars (s : Str) : ∀ c ∈ (valueLoop s).1, c ≠ '|' := by
  induction s with
  | nil => simp [valueLoop]
  | cons c s ih =>
    unfold valueLoop
    split
    · simp
    · rename_i h
      simp at h
      intro d hd
      simp only [List.mem_cons] at hd
      rcases hd with rfl | hd
      · exact h.2
      · exact ih d hd

private theorem argument_shape {s k v r : Str} (h : argument s = some (k, v, r)) :
    k ≠ [] ∧ (∀ c ∈ k, isIdent c = true) ∧ v ≠ [] ∧ '|' ∉ v := by
  unfold argument at h
  simp only at h
  split at h
  · cases h
  · rename_i hk
    split at h
    · cases h
    · rename_i r' _
      obtain ⟨⟨v', r''⟩, hv, he⟩ := Option.map_eq_some_iff.1 h
      simp at he
      obtain ⟨rfl, rfl, rfl⟩ := he
      unfold value at hv
      simp only at hv
      split at hv
      · cases hv
      · rename_i hne
        simp only [Option.some.injEq, Prod.mk.injEq] at hv
        refine ⟨by simpa using hk, takeWhile_all _ _, ?_, ?_⟩
        · rw [← hv.1]; simpa using hne
        · rw [← hv.1]; intro hc; exact valueLoop_chars _ _ hc rfl

private theorem argsLoop_shape (n : Nat) (s : Str) : ∀ p ∈ (argsLoop n s).1,
    p.1 ≠ [] ∧ (∀ c ∈ p.1, isIdent c = true) ∧ p.2 ≠ [] ∧ '|' ∉ p.2 := by
  induction n generalizing s with
  | zero => simp [argsLoop]
  | succ n ih =>
    unfold argsLoop
    split
    · simp
    · rename_i k v r h
      split
      · simp
      · intro p hp
        simp only [List.mem_cons] at hp
        rcases hp with rfl | hp
        · exact argument_shape h
        · exact ih _ p hp

/-- C58: every argument of an include block has a non-empty identifier as name and a non-empty value
without pipes. -/
theorem C58_argument_shape {s page rest : Str} {args : List (Str × Str)} (h : block s = some (page, args, rest)) :
    ∀ p ∈ args, p.1 ≠ [] ∧ (∀ c ∈ p.1, isIdent c = true) ∧ p.2 ≠ [] ∧ '|' ∉ p.2 := by
  unfold block at h
  simp only [Option.bind_eq_bind, Option.bind_eq_some_iff, Option.pure_def] at h
  obtain ⟨s1, _, s2, _, s3, _, ⟨pg, s4⟩, _, s5, _, h⟩ := h
  simp only [Option.some.injEq, Prod.mk.injEq] at h
  obtain ⟨_, rfl, _⟩ := h
  intro p hp
  revert hp
  split
  · rename_i k v r ha
    intro hp
    rcases List.mem_append.1 hp with hp | hp
    · exact argsLoop_shape _ _ p hp
    · simp at hp; subst hp
      exact argument_shape ha
  · exact argsLoop_shape _ _ p

example : block c!"[[include a |x=1|y=[b] | x = 2 ]]" =
    some (c!"a", [(c!"x", c!"1"), (c!"y", c!"[b] "), (c!"x", c!"2 ")], []) := by decide +kernel

end Ftml.Includes
