import Verif.Spec.Includes
import Verif.Props.Includes
import Verif.Props.Pipeline
import Verif.Props.MarkupMore
/-
Include blocks are read as they are written, and `include` replaces exactly them (C95).
-/
namespace Ftml.Includes

/-! ### One block -/

private theorem isSpace_iff (c : Char) : isSpace c = true ↔ c = ' ' ∨ c = '\t' ∨ c = '\n' := by
  simp [isSpace, or_assoc, or_comm, or_left_comm]

private theorem blanks_space {s : Str} (h : Blanks s) : ∀ c ∈ s, isSpace c = true := fun c hc => (isSpace_iff c).2 (h c hc)

private theorem drop_all {f : Char → Bool} {a b : Str} (h : ∀ c ∈ a, f c = true) : (a ++ b).dropWhile f = b.dropWhile f := by
  induction a with
  | nil => rfl
  | cons c a ih =>
    rw [List.cons_append, List.dropWhile_cons_of_pos (h c (by simp))]
    exact ih fun c hc => h c (by simp [hc])
private theorem take_all {f : Char → Bool} {a b : Str} (h : ∀ c ∈ a, f c = true) : (a ++ b).takeWhile f = a ++ b.takeWhile f := by
  induction a with
  | nil => rfl
  | cons c a ih =>
    rw [List.cons_append, List.takeWhile_cons_of_pos (h c (by simp)), ih fun c hc => h c (by simp [hc])]
    rfl

/-- The text does not start with such a character. -/
private def HeadNot (f : Char → Bool) : Str → Prop
  | [] => True
  | c :: _ => f c = false

private theorem drop_head {f : Char → Bool} {s : Str} (h : HeadNot f s) : s.dropWhile f = s := by
  cases s with
  | nil => rfl
  | cons c s => exact List.dropWhile_cons_of_neg (by simpa [HeadNot] using h)
private theorem take_head {f : Char → Bool} {s : Str} (h : HeadNot f s) : s.takeWhile f = [] := by
  cases s with
  | nil => rfl
  | cons c s => exact List.takeWhile_cons_of_neg (by simpa [HeadNot] using h)

private theorem spaceOpt_blanks {a b : Str} (h : Blanks a) (hb : HeadNot isSpace b) : spaceOpt (a ++ b) = b := by
  unfold spaceOpt
  rw [drop_all (blanks_space h), drop_head hb]

private theorem toLower_eq (c : Char) : c.toLower = lowerC c := by
  by_cases h : c.toNat < 128
  · have : ∀ n < 128, (Char.ofNat n).toLower = lowerC (Char.ofNat n) := by decide +kernel
    have := this c.toNat h
    rwa [Char.ofNat_toNat] at this
  · have h1 : isUpperA c = false := by simp [isUpperA]; omega
    unfold lowerC
    rw [h1]
    unfold Char.toLower
    split
    · rename_i h2
      have : c.toNat ≤ 'Z'.toNat := UInt32.le_iff_toNat_le.1 h2.2
      have h3 : 'Z'.toNat = 90 := rfl
      omega
    · rfl

private theorem lower_map {w : Str} : w.map Char.toLower = w.map lowerC := List.map_congr_left fun c _ => toLower_eq c

private theorem stripCI_lower {w r p : Str} (h : w.map lowerC = p) : stripCI p (w ++ r) = some r := by
  induction w generalizing p with
  | nil => cases h; rfl
  | cons c w ih =>
    cases h
    simp only [List.cons_append, List.map_cons, stripCI, if_true]
    exact ih rfl

private theorem ident_iff (c : Char) : isIdent c = true ↔ c.isAlphanum = true ∨ c = '-' ∨ c = '_' := by
  have := varChar_iff c
  simp only [isVarChar, isIdent, Bool.or_eq_true, beq_iff_eq] at this ⊢
  rw [or_right_comm, this]
  simp only [or_comm, or_left_comm]

/-- After a value: a pipe, or the end of the block. -/
private def AfterValue (s : Str) : Prop := (∃ r, s = '|' :: r) ∨ ∃ r, s = ']' :: ']' :: r

private theorem includeEnd_value {v rest : Str} (hv : v ≠ []) (h1 : ¬ c!"]]\n" <:+: v) (h2 : ¬ c!"]]\r" <:+: v) (hr : AfterValue rest) :
    includeEnd (v ++ rest) = none := by
  unfold includeEnd
  cases hs : stripPfx c!"]]" (v ++ rest) with
  | none => rfl
  | some r =>
    rw [stripPfx_some] at hs
    match v, hv with
    | [a], _ =>
      rcases hr with ⟨r', rfl⟩ | ⟨r', rfl⟩
      · simp at hs
      · simp at hs
        obtain ⟨_, rfl⟩ := hs
        simp
    | [a, b], _ =>
      rcases hr with ⟨r', rfl⟩ | ⟨r', rfl⟩ <;>
      · simp at hs
        obtain ⟨_, _, rfl⟩ := hs
        simp
    | a :: b :: c :: v, _ =>
      simp at hs
      obtain ⟨rfl, rfl, rfl⟩ := hs
      dsimp only
      rw [if_neg]
      rintro (rfl | rfl)
      · exact h1 (List.prefix_append c!"]]\n" v).isInfix
      · exact h2 (List.prefix_append c!"]]\r" v).isInfix

private theorem valueLoop_read {v rest : Str} (h1 : ¬ c!"]]\n" <:+: v) (h2 : ¬ c!"]]\r" <:+: v) (h3 : '|' ∉ v)
    (hr : AfterValue rest) (hend : ∀ r, rest = ']' :: ']' :: r → (includeEnd rest).isSome = true) : valueLoop (v ++ rest) = (v, rest) := by
  induction v with
  | nil =>
    rw [List.nil_append]
    rcases hr with ⟨r, rfl⟩ | ⟨r, rfl⟩
    · simp [valueLoop]
    · rw [valueLoop, if_pos (by rw [hend r rfl]; rfl)]
  | cons c v ih =>
    have h0 := includeEnd_value (by simp) h1 h2 hr
    rw [List.cons_append] at h0
    rw [List.cons_append, valueLoop, if_neg, ih]
    · exact fun h => h1 (h.trans (List.suffix_cons c v).isInfix)
    · exact fun h => h2 (h.trans (List.suffix_cons c v).isInfix)
    · exact fun h => h3 (by simp [h])
    · rw [h0]
      simp only [Option.isSome_none, Bool.false_or, beq_iff_eq]
      intro h
      exact h3 (by simp [h])

/-- A text after which a line ends. -/
private def LineEnd (s : Str) : Prop := s = [] ∨ Follows s

private theorem includeEnd_yes {R : Str} (h : LineEnd R) : includeEnd (c!"]]" ++ R) = some R := by
  unfold includeEnd
  rw [stripPfx_some.2 rfl]
  rcases h with rfl | ⟨c, r, rfl, h⟩
  · rfl
  · dsimp only
    rw [if_pos h]

private theorem argument_read {a : Argument} (ha : a.Ok) {rest : Str} (hr : AfterValue rest)
    (hend : ∀ r, rest = ']' :: ']' :: r → (includeEnd rest).isSome = true) : argument (a.write ++ rest) = some (a.name, a.value, rest) := by
  obtain ⟨hn, hb, haf, _, ⟨c, v, hv, hc⟩, hp, he⟩ := ha
  have e : a.write ++ rest = a.name ++ (a.before ++ ('=' :: (a.after ++ (a.value ++ rest)))) := by simp [Argument.write]
  have hi : ∀ c ∈ a.name, isIdent c = true := fun c hc => (ident_iff c).2 (hn.2 c hc)
  have hh : HeadNot isIdent (a.before ++ ('=' :: (a.after ++ (a.value ++ rest)))) := by
    cases hx : a.before with
    | nil => show isIdent '=' = false; decide
    | cons x xs =>
      have := hb x (by simp [hx])
      show isIdent x = false
      rcases this with rfl | rfl | rfl <;> decide
  unfold argument
  simp only [e]
  rw [take_all hi, take_head hh, List.append_nil, drop_all hi, drop_head hh]
  rw [if_neg (by simpa using hn.1), spaceOpt_blanks hb (by show isSpace '=' = false; decide)]
  rw [stripPfx_some.2 (show '=' :: (a.after ++ (a.value ++ rest)) = c!"=" ++ (a.after ++ (a.value ++ rest)) from rfl)]
  dsimp only
  rw [spaceOpt_blanks haf]
  · unfold value
    rw [valueLoop_read he.1 he.2 hp hr hend]
    simp [hv]
  · rw [hv]
    show isSpace c = false
    rw [← Bool.not_eq_true, isSpace_iff]
    simp [hc]

private theorem write_head {a : Argument} (ha : a.Ok) (rest : Str) : ∃ c s, a.write ++ rest = c :: s ∧ isIdent c = true := by
  obtain ⟨hn, _⟩ := ha
  cases h : a.name with
  | nil => exact absurd h hn.1
  | cons c s => exact ⟨c, s ++ a.before ++ c!"=" ++ a.after ++ a.value ++ rest, by simp [Argument.write, h], (ident_iff c).2 (hn.2 c (by simp [h]))⟩

private theorem ident_notSpace {c : Char} (h : isIdent c = true) : isSpace c = false ∧ c ≠ '|' := by
  constructor
  · rw [← Bool.not_eq_true, isSpace_iff]
    rintro (rfl | rfl | rfl) <;> exact absurd h (by decide)
  · rintro rfl; exact absurd h (by decide)

private theorem args_head {args : List Argument} (ha : ∀ a ∈ args, a.Ok) (closed : Bool) (R : Str) :
    ∃ c s, writeArgs closed args ++ (c!"]]" ++ R) = c :: s ∧ isSpace c = false ∧ c ≠ '|' ∧ (args = [] → c = ']') := by
  match args with
  | [] => exact ⟨']', ']' :: R, rfl, by decide, by decide, fun _ => rfl⟩
  | [a] =>
    obtain ⟨c, s, h1, h2⟩ := write_head (ha a (by simp)) ((if closed then c!"|" ++ a.sep else []) ++ (c!"]]" ++ R))
    exact ⟨c, s, by rw [← h1]; simp [writeArgs], (ident_notSpace h2).1, (ident_notSpace h2).2, by simp⟩
  | a :: b :: as =>
    obtain ⟨c, s, h1, h2⟩ := write_head (ha a (by simp)) (c!"|" ++ a.sep ++ writeArgs closed (b :: as) ++ (c!"]]" ++ R))
    exact ⟨c, s, by rw [← h1]; simp [writeArgs], (ident_notSpace h2).1, (ident_notSpace h2).2, by simp⟩

/-- The end of `block`. -/
private def lastArg (as : List (Str × Str)) (s : Str) : List (Str × Str) × Str :=
  match argument s with
  | some (k, v, r) => (as ++ [(k, v)], pipeOpt (spaceOpt r))
  | none => (as, s)

private theorem lastArg_cons (x : Str × Str) (as : List (Str × Str)) (s : Str) :
    lastArg (x :: as) s = (x :: (lastArg as s).1, (lastArg as s).2) := by
  unfold lastArg
  split <;> simp

/-- The arguments as name and value. -/
def pairs (args : List Argument) : List (Str × Str) := args.map fun a => (a.name, a.value)

private theorem args_read {closed : Bool} {R : Str} (hR : LineEnd R) : ∀ (args : List Argument), (∀ a ∈ args, a.Ok) → ∀ n, args.length ≤ n →
    ∃ as s, argsLoop n (writeArgs closed args ++ (c!"]]" ++ R)) = (as, s) ∧ lastArg as s = (pairs args, c!"]]" ++ R) := by
  have hnone : argument (c!"]]" ++ R) = none := rfl
  have hnil : ∀ n, argsLoop n (c!"]]" ++ R) = ([], c!"]]" ++ R) := by
    intro n
    cases n with
    | zero => rfl
    | succ n => simp only [argsLoop, hnone]
  have hlast : lastArg [] (c!"]]" ++ R) = ([], c!"]]" ++ R) := by simp only [lastArg, hnone]
  have hend : ∀ (r : Str), (']' :: ']' :: R) = ']' :: ']' :: r → (includeEnd (']' :: ']' :: R)).isSome = true := by
    intro r _
    have := includeEnd_yes hR
    rw [show ']' :: ']' :: R = c!"]]" ++ R from rfl, this]; rfl
  intro args
  induction args with
  | nil => intro _ n _; exact ⟨[], _, hnil n, hlast⟩
  | cons a as ih =>
    intro ha n hn
    obtain ⟨n, rfl⟩ : ∃ k, n = k + 1 := ⟨n - 1, by simp at hn; omega⟩
    have ha1 := ha a (by simp)
    have piped : ∀ (rest : Str) (c : Char) (s : Str), rest = c :: s → isSpace c = false →
        argsLoop (n + 1) (a.write ++ ('|' :: (a.sep ++ rest))) = ((a.name, a.value) :: (argsLoop n rest).1, (argsLoop n rest).2) := by
      intro rest c s hc hs
      rw [argsLoop, argument_read ha1 (.inl ⟨_, rfl⟩) (by simp)]
      dsimp only
      rw [show spaceOpt ('|' :: (a.sep ++ rest)) = '|' :: (a.sep ++ rest) from drop_head (by show isSpace '|' = false; decide)]
      rw [stripPfx_some.2 (show '|' :: (a.sep ++ rest) = c!"|" ++ (a.sep ++ rest) from rfl)]
      dsimp only
      rw [spaceOpt_blanks ha1.sep (by rw [hc]; exact hs)]
    cases as with
    | nil =>
      cases closed with
      | true =>
        have e : writeArgs true [a] ++ (c!"]]" ++ R) = a.write ++ ('|' :: (a.sep ++ (c!"]]" ++ R))) := by simp [writeArgs]
        rw [e, piped (c!"]]" ++ R) ']' (']' :: R) rfl (by decide), hnil]
        refine ⟨_, _, rfl, ?_⟩
        rw [lastArg_cons, hlast]
        rfl
      | false =>
        have e : writeArgs false [a] ++ (c!"]]" ++ R) = a.write ++ (']' :: ']' :: R) := by simp [writeArgs]
        have har := argument_read ha1 (rest := ']' :: ']' :: R) (.inr ⟨_, rfl⟩) hend
        refine ⟨[], a.write ++ (']' :: ']' :: R), ?_, ?_⟩
        · rw [e, argsLoop, har]
          dsimp only
          rw [show spaceOpt (']' :: ']' :: R) = ']' :: ']' :: R from drop_head (by show isSpace ']' = false; decide)]
          have : stripPfx c!"|" (']' :: ']' :: R) = none := rfl
          rw [this]
        · unfold lastArg
          rw [har]
          dsimp only
          rw [show spaceOpt (']' :: ']' :: R) = ']' :: ']' :: R from drop_head (by show isSpace ']' = false; decide)]
          rfl
    | cons b as =>
      have e : writeArgs closed (a :: b :: as) ++ (c!"]]" ++ R) = a.write ++ ('|' :: (a.sep ++ (writeArgs closed (b :: as) ++ (c!"]]" ++ R)))) := by
        simp [writeArgs]
      obtain ⟨c, s, h1, h2, _⟩ := args_head (args := b :: as) (fun x hx => ha x (by simp [hx])) closed R
      obtain ⟨as', s', i1, i2⟩ := ih (fun x hx => ha x (by simp [hx])) n (by simp at hn ⊢; omega)
      rw [e, piped _ c s h1 h2, i1]
      refine ⟨_, _, rfl, ?_⟩
      rw [lastArg_cons, i2]
      rfl

private theorem page_iff (c : Char) : isPage c = true ↔ c ∉ c!" \t\n[]|" := by
  simp [isPage, isSpace]
  constructor <;> (intro h; simp [h])

private theorem pageRef_read {page rest : Str} (hne : page ≠ []) (hp : ∀ c ∈ page, isPage c = true) (hr : HeadNot isPage rest)
    (hsite : ¬ ∃ s, s ≠ [] ∧ ':' ∉ s ∧ page = c!":" ++ s ++ c!":") : pageRef (page ++ rest) = some (page, rest) := by
  have plain : ∀ {q : Str} (pre : Str), q ≠ [] → (∀ c ∈ q, isPage c = true) →
      (if ((q ++ rest).takeWhile isPage).isEmpty then none else some (pre ++ (q ++ rest).takeWhile isPage, (q ++ rest).dropWhile isPage)) =
        some (pre ++ q, rest) := by
    intro q pre hq h
    rw [take_all h, take_head hr, drop_all h, drop_head hr, List.append_nil, if_neg (by simpa using hq)]
  have colon : ∀ t, page = ':' :: t → ∀ u, (t ++ rest).dropWhile isSite = ':' :: u → (t ++ rest).takeWhile isSite ≠ [] →
      ∃ site q, site ≠ [] ∧ t = site ++ ':' :: q ∧ (t ++ rest).takeWhile isSite = site ∧ u = q ++ rest ∧ q ≠ [] := by
    intro t ht u hu hs
    have hsplit := List.takeWhile_append_dropWhile (p := isSite) (l := t ++ rest)
    rw [hu] at hsplit
    generalize hsite' : (t ++ rest).takeWhile isSite = site at hs hsplit
    have hsc : ∀ c ∈ site, isSite c = true := by rw [← hsite']; exact fun c hc => List.all_eq_true.1 List.all_takeWhile c hc
    have hnc : ':' ∉ site := fun h => absurd (hsc _ h) (by decide)
    have h2 : site ++ ':' :: u = t ++ rest := hsplit
    rcases List.append_eq_append_iff.1 h2 with ⟨q, hq1, hq2⟩ | ⟨q, hq1, hq2⟩
    · cases q with
      | nil =>
        simp at hq2
        rw [← hq2] at hr
        exact absurd hr (by show ¬ isPage ':' = false; decide)
      | cons d q =>
        simp at hq2
        obtain ⟨rfl, rfl⟩ := hq2
        refine ⟨site, q, hs, hq1, rfl, rfl, ?_⟩
        rintro rfl
        exact hsite ⟨site, hs, hnc, by rw [ht, hq1]; simp⟩
    · cases q with
      | nil =>
        simp at hq2
        rw [hq2] at hr
        exact absurd hr (by show ¬ isPage ':' = false; decide)
      | cons d q =>
        rw [hq2] at hr
        have : isSite d = true := hsc d (by rw [hq1]; simp)
        have h3 : isPage d = true := by
          simp [isSite] at this
          simp [isPage, this]
        exact absurd (show isPage d = false from hr) (by simp [h3])
  unfold pageRef
  dsimp only
  split
  · rename_i t ht
    obtain ⟨t, rfl, rfl⟩ : ∃ t', page = ':' :: t' ∧ t = t' ++ rest := by
      cases page with
      | nil => exact absurd rfl hne
      | cons c t' => simp at ht; exact ⟨t', by rw [ht.1], ht.2.symm⟩
    split
    · rename_i u hd
      by_cases hs : (t ++ rest).takeWhile isSite = []
      · rw [hs]
        exact plain (q := ':' :: t) [] hne hp
      · obtain ⟨site, q, k1, k2, k3, k4, k5⟩ := colon t rfl u hd hs
        have k1' : site.isEmpty = false := by cases site with
          | nil => exact absurd rfl k1
          | cons => rfl
        simp only [k3, k4, k1', Bool.false_eq_true, if_false]
        rw [plain (q := q) (':' :: site ++ [':']) k5 (fun c hc => hp c (by rw [k2]; simp [hc])), k2]
        simp
    · exact plain (q := ':' :: t) [] hne hp
  · exact plain [] hne hp

/-- C95: an include block is read as it is written. -/
theorem block_written {i : Inc} (h : i.Ok) {R : Str} (hR : LineEnd R) : block (i.write ++ R) = some (i.page, pairs i.args, R) := by
  obtain ⟨hl, hw, ⟨hg, hgn⟩, ⟨hpn, hp⟩, hsite, hg2, hbar, hargs, hap, _⟩ := h
  let A := writeArgs i.closed i.args ++ (c!"]]" ++ R)
  let B := (match i.bar with | some b => c!"|" ++ b | none => []) ++ A
  have e : i.write ++ R = c!"[[" ++ (i.lead ++ (i.word ++ (i.gap ++ (i.page ++ (i.gap2 ++ B))))) := by
    cases hx : i.bar <;> simp [Inc.write, A, B, hx]
  rw [lower_map] at hw
  obtain ⟨ca, sa, a1, a2, a3, a4⟩ := args_head hargs i.closed R
  have a1 : A = ca :: sa := a1
  have hw1 : HeadNot isSpace (i.word ++ (i.gap ++ (i.page ++ (i.gap2 ++ B)))) := by
    cases hx : i.word with
    | nil => rw [hx] at hw; simp at hw
    | cons x xs =>
      rw [hx] at hw
      simp only [List.map_cons, List.cons.injEq] at hw
      show isSpace x = false
      rw [← Bool.not_eq_true, isSpace_iff]
      rintro (rfl | rfl | rfl) <;> exact absurd hw.1 (by decide)
  have hp' : ∀ c ∈ i.page, isPage c = true := fun c hc => (page_iff c).2 (hp c hc)
  have hpage : HeadNot isSpace (i.page ++ (i.gap2 ++ B)) := by
    cases hx : i.page with
    | nil => exact absurd hx hpn
    | cons x xs =>
      have := hp' x (by simp [hx])
      show isSpace x = false
      simp [isPage] at this
      simp [this]
  have hB : HeadNot isSpace B := by
    cases hx : i.bar with
    | none => simp only [B, hx, List.nil_append, a1]; exact a2
    | some b => simp only [B, hx]; show isSpace '|' = false; decide
  have hB2 : HeadNot isPage (i.gap2 ++ B) := by
    cases hx : i.gap2 with
    | cons x xs =>
      have := (isSpace_iff x).2 (hg2 x (by simp [hx]))
      show isPage x = false
      simp [isPage, this]
    | nil =>
      cases hy : i.bar with
      | some b => simp only [B, hy]; show isPage '|' = false; decide
      | none =>
        have : i.args = [] := by
          cases hz : i.args with
          | nil => rfl
          | cons => exact absurd hx (hap (by simp [hz]) hy)
        simp only [B, hy, List.nil_append, a1, a4 this]
        show isPage ']' = false
        decide
  have hspace : space (i.gap ++ (i.page ++ (i.gap2 ++ B))) = some (i.page ++ (i.gap2 ++ B)) := by
    cases hx : i.gap with
    | nil => exact absurd hx hgn
    | cons x xs =>
      have h1 := blanks_space hg
      rw [hx] at h1
      simp only [space, List.cons_append, h1 x (by simp), if_true]
      rw [drop_all (fun c hc => h1 c (by simp [hc])), drop_head hpage]
  have hbarA : (stripPfx c!"|" B = none ∧ B = A) ∨ ∃ s, stripPfx c!"|" B = some s ∧ spaceOpt s = A := by
    cases hx : i.bar with
    | none =>
      have : B = ca :: sa := by simp only [B, hx, List.nil_append, a1]
      have h2 : stripPfx c!"|" B = none := by
        cases h3 : stripPfx c!"|" B with
        | none => rfl
        | some r =>
          rw [stripPfx_some, this] at h3
          simp at h3
          exact absurd h3.1 a3
      exact .inl ⟨h2, by rw [this, a1]⟩
    | some b =>
      have : B = c!"|" ++ (b ++ A) := by simp only [B, hx]; simp
      exact .inr ⟨_, stripPfx_some.2 this, spaceOpt_blanks (hbar b hx) (by rw [a1]; exact a2)⟩
  have hlen : ∀ (args : List Argument), (∀ a ∈ args, a.Ok) → args.length ≤ (writeArgs i.closed args).length := by
    intro args
    induction args with
    | nil => simp
    | cons a as ih =>
      intro h
      have h1 := ih fun x hx => h x (by simp [hx])
      have h2 : 1 ≤ a.write.length := by
        obtain ⟨c, s, h3, _⟩ := write_head (h a (by simp)) []
        rw [List.append_nil] at h3
        rw [h3]; simp
      cases as with
      | nil => simp [writeArgs]; omega
      | cons b as => simp [writeArgs] at h1 ⊢; omega
  obtain ⟨as, s, r1, r2⟩ := args_read (closed := i.closed) hR i.args hargs A.length (by
    have := hlen i.args hargs
    simp only [A, List.length_append]; omega)
  have r1 : argsLoop A.length A = (as, s) := r1
  unfold block
  rw [e]
  simp only [stripPfx_some.2 rfl, Option.bind_eq_bind, Option.bind_some, spaceOpt_blanks hl hw1, stripCI_lower hw, hspace,
    pageRef_read hpn hp' hB2 hsite, spaceOpt_blanks hg2 hB]
  have fin : ∀ (x : Str), x = A → (Option.bind (includeEnd (spaceOpt (match argument (argsLoop x.length x).2 with
      | some (k, v, r) => ((argsLoop x.length x).1 ++ [(k, v)], pipeOpt (spaceOpt r))
      | none => ((argsLoop x.length x).1, (argsLoop x.length x).2)).2)) fun s => some (i.page, (match argument (argsLoop x.length x).2 with
      | some (k, v, r) => ((argsLoop x.length x).1 ++ [(k, v)], pipeOpt (spaceOpt r))
      | none => ((argsLoop x.length x).1, (argsLoop x.length x).2)).1, s)) = some (i.page, pairs i.args, R) := by
    rintro _ rfl
    have hl2 : (match argument s with | some (k, v, r) => (as ++ [(k, v)], pipeOpt (spaceOpt r)) | none => (as, s)) = (pairs i.args, c!"]]" ++ R) := r2
    rw [r1]
    dsimp only
    rw [hl2]
    dsimp only
    rw [show spaceOpt (c!"]]" ++ R) = c!"]]" ++ R from drop_head (by show isSpace ']' = false; decide), includeEnd_yes hR]
    rfl
  rcases hbarA with ⟨h1, h2⟩ | ⟨t, h1, h2⟩
  · simp only [h1]
    exact fin _ h2
  · simp only [h1]
    exact fin _ h2

/-! ### A text with blocks -/

/-- The start of a line after the text. -/
private def bolAfter (bol : Bool) (u : Str) : Bool := match u.getLast? with
  | some c => c == '\n'
  | none => bol

private theorem bolAfter_cons (bol : Bool) (c : Char) (u : Str) : bolAfter bol (c :: u) = bolAfter (c == '\n') u := by
  unfold bolAfter
  cases u with
  | nil => rfl
  | cons d u => rw [List.getLast?_cons_cons]; cases h : (d :: u).getLast? with
    | none => simp at h
    | some x => rfl

/-- The search goes past a text in which no match starts. -/
private theorem findIter_pass {rest : Str} : ∀ (u : Str) (bol : Bool) (skip off : Nat), skip ≤ u.length →
    (∀ a b, u = a ++ b → skip ≤ a.length → b ≠ [] → bolAfter bol a = true → regexLen (b ++ rest) = none) →
    findIter bol skip off (u ++ rest) = findIter (bolAfter bol u) 0 (off + byteLen u) rest := by
  intro u
  induction u with
  | nil => intro bol skip off h _; simp at h; subst h; rfl
  | cons c u ih =>
    intro bol skip off h hno
    rw [bolAfter_cons]
    have e : off + byteLen (c :: u) = off + utf8Size c + byteLen u := by simp [byteLen, Nat.add_assoc]
    rw [e]
    cases skip with
    | succ k =>
      rw [List.cons_append, findIter]
      refine ih _ _ _ (by simpa using h) ?_
      intro a b hab hk hb hl
      exact hno (c :: a) b (by simp [hab]) (by simpa using hk) hb (by rw [bolAfter_cons]; exact hl)
    | zero =>
      have h0 : (if bol then regexLen (c :: (u ++ rest)) else none) = none := by
        cases hb : bol with
        | false => rfl
        | true => exact hno [] (c :: u) rfl (by simp) (by simp) hb
      rw [List.cons_append, findIter, h0]
      refine ih _ _ _ (by simp) ?_
      intro a b hab hk hb hl
      exact hno (c :: a) b (by simp [hab]) (by simp) hb (by rw [bolAfter_cons]; exact hl)

private theorem noWord_mentions {s : Str} (h : NoWord s) : ¬ Mentions c!"include" s := by
  rintro ⟨w, h1, h2⟩
  exact h ⟨w, h1, by rw [lower_map]; exact h2⟩

private theorem drop_blank {x : Str} (r1 : Str) : ((r1 ++ ('\n' :: '[' :: x)).dropWhile isWS = '[' :: x) ∨
    ∃ y, (∃ z, r1 = z ++ y) ∧ y ≠ [] ∧ (r1 ++ ('\n' :: '[' :: x)).dropWhile isWS = y ++ ('\n' :: '[' :: x) := by
  induction r1 with
  | nil =>
    left
    rw [List.nil_append, List.dropWhile_cons_of_pos (by decide), List.dropWhile_cons_of_neg (by decide)]
  | cons c r1 ih =>
    by_cases hc : isWS c = true
    · rw [List.cons_append, List.dropWhile_cons_of_pos hc]
      rcases ih with h | ⟨y, ⟨z, hz⟩, h1, h2⟩
      · exact .inl h
      · exact .inr ⟨y, ⟨c :: z, by simp [hz]⟩, h1, h2⟩
    · right
      exact ⟨c :: r1, ⟨[], rfl⟩, by simp, by rw [List.cons_append, List.dropWhile_cons_of_neg hc]⟩

/-- No match starts within a text without the word, in front of a bracket. -/
private theorem regexLen_text {b X : Str} (hb : Leads b) (hw : NoWord b) (hX : ∃ r, X = '[' :: r) : regexLen (b ++ X) = none := by
  cases hr : regexLen (b ++ X) with
  | none => rfl
  | some n =>
  exfalso
  have hm := noWord_mentions hw
  obtain ⟨r0, rfl⟩ := hb
  obtain ⟨x, rfl⟩ := hX
  unfold regexLen at hr
  split at hr
  · cases hr
  · rename_i a ha
    split at hr
    · cases hr
    · rename_i t ht
      rw [stripPfx_some] at ha
      obtain ⟨r1, rfl⟩ : ∃ r1, r0 = c!"[[" ++ r1 := by
        match r0, ha with
        | [], ha => simp at ha
        | [c], ha => simp at ha
        | c :: d :: r1, ha => simp at ha; exact ⟨r1, by simp [ha]⟩
      have ha : a = r1 ++ ('\n' :: '[' :: x) := by
        have := ha
        simp at this
        exact this.symm
      obtain ⟨w, e, hw⟩ := stripCI_word ht
      have hsplit : (a.dropWhile isWS = '[' :: x) ∨ ∃ y, (∃ z, r1 = z ++ y) ∧ y ≠ [] ∧ a.dropWhile isWS = y ++ ('\n' :: '[' :: x) := by
        rw [ha]
        exact drop_blank r1
      rcases hsplit with h | ⟨y, ⟨z, hz⟩, _, h⟩
      · rw [h] at e
        cases w with
        | nil => simp at hw
        | cons c w =>
          simp at e hw
          rw [← e.1] at hw
          exact absurd hw.1 (by decide)
      · rw [h] at e
        rcases List.append_eq_append_iff.1 e with ⟨q, h1, h2⟩ | ⟨q, h1, h2⟩
        · -- the word reaches past `y`
          cases q with
          | nil =>
            rw [List.append_nil] at h1
            subst h1
            refine hm ⟨w, ?_, hw⟩
            rw [hz]
            exact ⟨c!"[[" ++ z, c!"\n", by simp⟩
          | cons d q =>
            simp at h2
            rw [h1, ← h2.1] at hw
            have : lowerC '\n' ∈ c!"include" := by rw [← hw]; simp
            exact absurd this (by decide)
        · refine hm ⟨w, ?_, hw⟩
          rw [hz, h1]
          exact ⟨c!"[[" ++ z, q ++ c!"\n", by simp⟩

private theorem leads_suffix {a b : Str} (h : Leads (a ++ b)) (hb : b ≠ []) : Leads b := by
  obtain ⟨r, h⟩ := h
  obtain ⟨b', c, rfl⟩ : ∃ b' c, b = b' ++ [c] := ⟨b.dropLast, b.getLast hb, (List.dropLast_concat_getLast hb).symm⟩
  rw [← List.append_assoc] at h
  obtain ⟨_, h2⟩ := List.append_inj' h rfl
  exact ⟨b', by rw [h2]⟩

private theorem write_open (i : Inc) : ∃ r, i.write = '[' :: '[' :: r := by
  unfold Inc.write
  simp only [List.append_assoc]
  exact ⟨_, rfl⟩
private theorem write_close (i : Inc) : ∃ r, i.write = r ++ c!"]]" := ⟨_, by unfold Inc.write; rfl⟩

private theorem length_dropWhile {f : Char → Bool} {x y : Str} (h : HeadNot f y) : y.length ≤ ((x ++ y).dropWhile f).length := by
  induction x with
  | nil => rw [List.nil_append, drop_head h]; exact Nat.le_refl _
  | cons c x ih =>
    by_cases hc : f c = true
    · rw [List.cons_append, List.dropWhile_cons_of_pos hc]; exact ih
    · rw [List.cons_append, List.dropWhile_cons_of_neg hc]; simp; omega

/-- The match of the regular expression does not go past the block. -/
private theorem regexLen_inc {i : Inc} (h : i.Ok) {R : Str} : ∃ n, regexLen (i.write ++ R) = some n ∧ 1 ≤ n ∧ n ≤ i.write.length := by
  have hw := h.word
  rw [lower_map] at hw
  let X := i.page ++ i.gap2 ++ (match i.bar with | some b => c!"|" ++ b | none => []) ++ writeArgs i.closed i.args
  have e0 : i.write = c!"[[" ++ (i.lead ++ (i.word ++ (i.gap ++ (X ++ c!"]]")))) := by
    cases hx : i.bar <;> simp [Inc.write, X, hx]
  have e : i.write ++ R = c!"[[" ++ (i.lead ++ (i.word ++ (i.gap ++ X ++ (c!"]]" ++ R)))) := by
    rw [e0]; simp
  have hci := stripCI_lower (r := i.gap ++ X ++ (c!"]]" ++ R)) hw
  have hhead : HeadNot isWS (i.word ++ (i.gap ++ X ++ (c!"]]" ++ R))) := by
    have := stripCI_head hci
    cases hx : i.word ++ (i.gap ++ X ++ (c!"]]" ++ R)) with
    | nil => trivial
    | cons c s => exact this c (by rw [hx]; rfl)
  have hdrop : (i.lead ++ (i.word ++ (i.gap ++ X ++ (c!"]]" ++ R)))).dropWhile isWS = i.word ++ (i.gap ++ X ++ (c!"]]" ++ R)) := by
    rw [drop_all fun c hc => isWS_of_isSpace (blanks_space h.lead c hc), drop_head hhead]
  obtain ⟨g, gs, hg⟩ := List.exists_cons_of_ne_nil h.gap.2
  have hgw : isWS g = true := isWS_of_isSpace (blanks_space h.gap.1 g (by simp [hg]))
  refine ⟨(i.write ++ R).length - ((i.gap ++ X ++ (c!"]]" ++ R)).dropWhile isWS).length, ?_, ?_⟩
  · unfold regexLen
    rw [stripPfx_some.2 e]
    dsimp only
    rw [hdrop, hci]
    simp only [hg, List.cons_append, hgw, if_true]
  · have h1 := length_dropWhile (f := isWS) (x := i.gap ++ X) (y := c!"]]" ++ R) (by show isWS ']' = false; decide)
    have h2 := List.IsSuffix.length_le (List.dropWhile_suffix (l := i.gap ++ X ++ (c!"]]" ++ R)) isWS)
    have h3 := congrArg List.length e
    have h4 := congrArg List.length e0
    simp only [List.length_append] at h1 h2 h3 h4 ⊢
    simp at h1 h2 h3 h4 ⊢
    omega

/-- No further match starts within a block. -/
private theorem regexLen_inner {i : Inc} (h : i.Ok) {R a b : Str} (hab : i.write = a ++ b) (ha : a ≠ []) (hb : b ≠ [])
    (hl : bolAfter false a = true) : regexLen (b ++ R) = none := by
  obtain ⟨a', c, rfl⟩ : ∃ b' c, a = b' ++ [c] := ⟨a.dropLast, a.getLast ha, (List.dropLast_concat_getLast ha).symm⟩
  have hc : c = '\n' := by simpa [bolAfter] using hl
  subst hc
  cases hr : stripPfx c!"[[" (b ++ R) with
  | none => unfold regexLen; rw [hr]
  | some r =>
    exfalso
    rw [stripPfx_some] at hr
    obtain ⟨v, hv⟩ := write_close i
    match b, hb with
    | [x], _ =>
      simp at hr
      rw [hv] at hab
      have : v ++ c!"]" ++ [']'] = (a' ++ ['\n']) ++ [x] := by simpa using hab
      have := (List.append_inj' this rfl).2
      simp at this
      rw [← this] at hr
      exact absurd hr.1 (by decide)
    | x :: y :: b, _ =>
      simp at hr
      obtain ⟨rfl, rfl, _⟩ := hr
      exact h.lines ⟨a', b, by rw [hab]; simp⟩

/-- The include a block stands for, given the page its reference means. -/
def Inc.ref (i : Inc) (r : PageRef) : IncludeRef := ⟨r, processArgs (pairs i.args)⟩

/-- What `include` finds after some text, block by block. -/
private theorem findIter_parts {rest : Str} (hrest : NoWord rest) (page : Inc → PageRef) : ∀ (parts : List (Str × Inc)) (off : Nat) (bol : Bool),
    (∀ p ∈ parts, p.2.Ok ∧ NoWord p.1 ∧ PageRef.parse p.2.page = some (page p.2)) →
    (∀ p ps, parts = p :: ps → (p.1 = [] ∧ bol = true) ∨ Leads p.1) →
    (∀ p ps, parts = p :: ps → ∀ q ∈ ps, Follows q.1 ∧ Leads q.1) → (parts ≠ [] → LineEnd rest) →
    (findIter bol 0 off ((parts.flatMap fun p => p.1 ++ p.2.write) ++ rest)).filterMap (fun (start, rest) =>
      (parseBlock rest).map fun (inc, len) => ((start, start + len), inc)) =
      layout off (parts.map fun p => (p.1, p.2.write, p.2.ref (page p.2))) := by
  intro parts
  induction parts with
  | nil =>
    intro off bol _ _ _ _
    rw [List.flatMap_nil, List.nil_append, findIter_none _ (noWord_mentions hrest)]
    rfl
  | cons p ps ih =>
    intro off bol hp hfirst hothers hlast
    obtain ⟨t, i⟩ := p
    obtain ⟨hi, ht, hpage⟩ := hp (t, i) (by simp)
    let R := (ps.flatMap fun p => p.1 ++ p.2.write) ++ rest
    have hR : LineEnd R := by
      cases ps with
      | nil => exact hlast (by simp)
      | cons q qs =>
        obtain ⟨⟨c, r, hc, hcn⟩, _⟩ := hothers _ _ rfl q (by simp)
        exact .inr ⟨c, r ++ q.2.write ++ (qs.flatMap fun p => p.1 ++ p.2.write) ++ rest, by simp [R, hc], hcn⟩
    have hbol : bolAfter bol t = true := by
      rcases hfirst _ _ rfl with ⟨h1, h2⟩ | ⟨r, h⟩
      · simp only at h1
        rw [h1]; exact h2
      · simp only at h
        rw [h]; simp [bolAfter]
    obtain ⟨n, hn, hn1, hn2⟩ := regexLen_inc hi (R := R)
    obtain ⟨w, hw⟩ := write_open i
    have e : ((((t, i) :: ps).flatMap fun p => p.1 ++ p.2.write) ++ rest) = t ++ (i.write ++ R) := by simp [R]
    rw [e, findIter_pass t bol 0 off (by simp), hbol]
    · have hcons : i.write ++ R = '[' :: ('[' :: w ++ R) := by rw [hw]; rfl
      have hf : findIter true 0 (off + byteLen t) (i.write ++ R) = (off + byteLen t, i.write ++ R) ::
          findIter false 0 (off + byteLen t + byteLen i.write) R := by
        rw [hcons] at hn ⊢
        rw [findIter]
        simp only [if_true, hn]
        have hlen : n - 1 ≤ ('[' :: w).length := by
          have h : n ≤ i.write.length := hn2
          rw [hw] at h
          simp only [List.length_cons] at h ⊢
          omega
        rw [findIter_pass ('[' :: w) _ _ _ hlen]
        · have h1 : off + byteLen t + utf8Size '[' + byteLen ('[' :: w) = off + byteLen t + byteLen i.write := by
            rw [hw]; simp [byteLen, Nat.add_assoc]
          have h2 : bolAfter ('[' == '\n') ('[' :: w) = false := by
            obtain ⟨v, hv⟩ := write_close i
            have : bolAfter false i.write = false := by rw [hv]; simp [bolAfter]
            rw [hw, bolAfter_cons] at this
            exact this
          rw [h1, h2]
        · intro a b hab _ hb hl
          refine regexLen_inner hi (a := '[' :: a) (by rw [hw, hab]; rfl) (by simp) hb ?_
          rw [bolAfter_cons]; exact hl
      rw [hf]
      have hpb : parseBlock (i.write ++ R) = some (i.ref (page i), byteLen i.write) := by
        unfold parseBlock
        rw [block_written hi hR]
        simp only [hpage, Option.map_some, byteLen_append, Nat.add_sub_cancel]
        rfl
      rw [List.filterMap_cons]
      simp only [hpb, Option.map_some, List.map_cons, layout]
      congr 1
      refine ih _ _ (fun p hp' => hp p (by simp [hp'])) ?_ ?_ (fun _ => hlast (by simp))
      · intro p ps' hps
        exact .inr (hothers _ _ rfl p (by rw [hps]; simp)).2
      · intro p ps' hps q hq
        exact hothers _ _ rfl q (by rw [hps]; simp [hq])
    · intro a b hab _ hb _
      refine regexLen_text ?_ ?_ ⟨_, by rw [hw]; rfl⟩
      · rcases hfirst _ _ rfl with ⟨h1, _⟩ | h
        · simp only at h1; rw [h1] at hab; simp at hab; exact absurd hab.2 hb
        · simp only at h; rw [hab] at h; exact leads_suffix h hb
      · rintro ⟨w', h1, h2⟩
        exact ht ⟨w', h1.trans (by rw [hab]; exact (List.suffix_append _ _).isInfix), h2⟩

/-- C95: `include` finds exactly the include blocks of a text, each with the page and the arguments that
are written in it. -/
theorem C95_finds (d : IncDoc) (hd : d.Ok) (page : Inc → PageRef) (hp : ∀ p ∈ d.parts, PageRef.parse p.2.page = some (page p.2)) :
    requested d.write = d.parts.map fun p => ⟨page p.2, processArgs (p.2.args.map fun a => (a.name, a.value))⟩ := by
  have hc : collect d.write = layout 0 (d.parts.map fun p => (p.1, p.2.write, p.2.ref (page p.2))) :=
    findIter_parts hd.last.1 page d.parts 0 true (fun p h => ⟨hd.blocks p h, hd.texts p h, hp p h⟩)
      (fun p ps h => (hd.first p ps h).imp (fun h => ⟨h, rfl⟩) id) hd.others hd.last.2
  unfold requested
  rw [hc, layout_snd, List.map_map]
  rfl

/-- C95: `include` replaces exactly the include blocks of a text, each by the contents of its page with the
variables filled in, leaves everything else as it is, and reports the pages in their order. -/
theorem C95_replaces {σ E : Type} (I : Includer σ E) (e : E) (st st' : σ) (d : IncDoc) (hd : d.Ok)
    (page : Inc → PageRef) (hp : ∀ p ∈ d.parts, PageRef.parse p.2.page = some (page p.2))
    (content : IncludeRef → Str) (repl : Inc → Str)
    (hI : I.includePages st (requested d.write) = (.ok ((requested d.write).map fun r => ⟨r.pageRef, some (content r)⟩), st'))
    (hr : ∀ p ∈ d.parts, Subst (processArgs (p.2.args.map fun a => (a.name, a.value)))
      (content ⟨page p.2, processArgs (p.2.args.map fun a => (a.name, a.value))⟩) (repl p.2)) :
    runInclude true I e st d.write =
      .ok ((d.parts.flatMap fun p => p.1 ++ repl p.2) ++ d.rest) (d.parts.map fun p => page p.2) := by
  have hc : collect d.write = layout 0 (d.parts.map fun p => (p.1, p.2.write, p.2.ref (page p.2))) :=
    findIter_parts hd.last.1 page d.parts 0 true (fun p h => ⟨hd.blocks p h, hd.texts p h, hp p h⟩)
      (fun p ps h => (hd.first p ps h).imp (fun h => ⟨h, rfl⟩) id) hd.others hd.last.2
  have hreq := C95_finds d hd page hp
  generalize hbase : (d.parts.map fun p => (p.1, p.2.write, p.2.ref (page p.2))) = base at hc
  have hflat : d.write = flat base ++ d.rest := by
    rw [← hbase]; simp [flat, IncDoc.write, List.flatMap_map]
  have hfs : (requested d.write).map (fun r => (⟨r.pageRef, some (content r)⟩ : Fetched)) =
      base.map fun x => ⟨x.2.2.pageRef, some (content x.2.2)⟩ := by
    rw [hreq, ← hbase, List.map_map, List.map_map]; rfl
  unfold runInclude
  simp only [Bool.not_true, Bool.false_eq_true, if_false]
  rw [show (collect d.write).map (·.2) = requested d.write from rfl, hI]
  dsimp only
  rw [hfs, if_neg (by simp [hc, layout_length]), hc, hflat]
  obtain ⟨h1, h2⟩ := splice_spec I e base (base.map fun x => ⟨x.2.2.pageRef, some (content x.2.2)⟩) (by simp) st' d.rest []
  -- the loop succeeds
  have hok : ∀ (l : List (((Nat × Nat) × IncludeRef) × Fetched)), (∀ x ∈ l, x.1.2.pageRef = x.2.pageRef ∧ ∃ c, x.2.content = some c) →
      ∀ (out : Str) (pages : List PageRef), spliceLoop I e st' l out pages ≠ .panic →
      ∃ out' ps, spliceLoop I e st' l out pages = .ok out' ps := by
    intro l
    induction l with
    | nil => intro _ out pages _; exact ⟨_, _, rfl⟩
    | cons x l ih =>
      obtain ⟨⟨⟨a, b⟩, inc⟩, f⟩ := x
      intro hl out pages hnp
      obtain ⟨k1, c, k2⟩ := hl (((a, b), inc), f) (List.mem_cons_self ..)
      simp only at k1 k2
      rw [spliceLoop, if_neg (by simpa using k1), k2] at hnp ⊢
      dsimp only at hnp ⊢
      split at hnp
      · exact absurd rfl hnp
      · split at hnp
        · exact absurd rfl hnp
        · exact ih (fun x hx => hl x (by simp [hx])) _ _ hnp
  obtain ⟨out, ps, hrun⟩ := hok _ (by
    intro x hx
    rw [List.mem_reverse] at hx
    obtain ⟨k, hk⟩ := List.mem_iff_getElem?.1 hx
    obtain ⟨g1, g2⟩ := List.getElem?_zip_eq_some.1 hk
    have g3 : ((layout 0 base).map (·.2))[k]? = some x.1.2 := by rw [List.getElem?_map, g1]; rfl
    rw [layout_snd, List.getElem?_map] at g3
    rw [List.getElem?_map] at g2
    cases hb : base[k]? with
    | none => rw [hb] at g2; cases g2
    | some y =>
      rw [hb] at g2 g3
      simp only [Option.map_some, Option.some.injEq] at g2 g3
      rw [← g2, ← g3]
      exact ⟨rfl, _, rfl⟩) _ _ h1
  rw [hrun]
  obtain ⟨pieces, k1, k2, k3, k4, k5⟩ := h2 out ps hrun
  -- the pieces are those of the text
  have hall : pieces.map (fun p => (p.text, p.inc)) = d.parts.map (fun p => (p.1, p.2.ref (page p.2))) := by
    have := congrArg (List.map fun (x : Str × Str × IncludeRef) => (x.1, x.2.2)) (k1.trans hbase.symm)
    simpa [List.map_map, Function.comp_def] using this
  have hfet : ∀ p ∈ pieces, p.fetched.content = some (content p.inc) := by
    intro p hp'
    obtain ⟨k, hk⟩ := List.mem_iff_getElem?.1 hp'
    have g2 := congrArg (·[k]?) k2
    have g1 := congrArg (·[k]?) k1
    simp only [List.getElem?_map, hk, Option.map_some] at g1 g2
    rw [← g1] at g2
    simp at g2
    rw [g2]
  have hout : pieces.flatMap (fun p => p.text ++ p.replacement) = d.parts.flatMap (fun p => p.1 ++ repl p.2) := by
    have : ∀ (ps : List (Str × Inc)), (∀ p ∈ ps, Subst (processArgs (p.2.args.map fun a => (a.name, a.value)))
        (content ⟨page p.2, processArgs (p.2.args.map fun a => (a.name, a.value))⟩) (repl p.2)) →
        ∀ (pcs : List Piece), (∀ p ∈ pcs, p.Correct I ∧ p.fetched.content = some (content p.inc)) →
        pcs.map (fun p => (p.text, p.inc)) = ps.map (fun p => (p.1, p.2.ref (page p.2))) →
        pcs.flatMap (fun p => p.text ++ p.replacement) = ps.flatMap (fun p => p.1 ++ repl p.2) := by
      intro ps
      induction ps with
      | nil => intro _ pcs _ h; simp at h; rw [h]; rfl
      | cons q qs ih =>
        intro hq pcs hpc h
        cases pcs with
        | nil => simp at h
        | cons x xs =>
          simp only [List.map_cons, List.cons.injEq, Prod.mk.injEq] at h
          obtain ⟨⟨e1, e2⟩, e3⟩ := h
          rw [List.flatMap_cons, List.flatMap_cons, ih (fun p hp => hq p (by simp [hp])) xs (fun p hp => hpc p (by simp [hp])) e3]
          obtain ⟨⟨_, c1⟩, c2⟩ := hpc x (by simp)
          rw [c2] at c1
          simp only at c1
          have c3 := hq q (by simp)
          rw [e2] at c1
          rw [e1, C28_deterministic _ c1 c3]
    exact this d.parts hr pieces (fun p hp' => ⟨k5 p hp', hfet p hp'⟩) hall
  rw [k3, hout, k4]
  have hpg : pieces.map (fun p => p.inc.pageRef) = d.parts.map fun p => page p.2 := by
    have := congrArg (List.map fun (x : Str × IncludeRef) => x.2.pageRef) hall
    simpa [List.map_map, Function.comp_def, Inc.ref] using this
  rw [hpg]
  simp


private theorem noWord_of {s : Str} (h : ¬ c!"include" <:+: s.map Char.toLower) : NoWord s := by
  rintro ⟨w, h1, h2⟩
  exact h (h2 ▸ h1.map Char.toLower)

/-- A block with a page of another site, a pipe and two arguments. -/
def someInc : Inc := ⟨[], c!"Include", c!" ", c!":scp:theme:box", c!" ", some c!"\n",
  [⟨c!"a_b", c!" ", c!" ", c!"x ", c!" "⟩, ⟨c!"n-1", [], [], c!"[[y]]", []⟩], true⟩
/-- A block with a page only. -/
def otherInc : Inc := ⟨[], c!"include", c!" ", c!"box", [], none, [], false⟩
/-- A text with both. -/
def someIncDoc : IncDoc := ⟨[(c!"one\n", someInc), (c!"\n[[div]]\n", otherInc)], c!"\n[[/div]]"⟩

example : someIncDoc.write = c!"one\n[[Include :scp:theme:box |\na_b = x | n-1=[[y]]|]]\n[[div]]\n[[include box]]\n[[/div]]" := rfl

private theorem someIncDoc_ok : someIncDoc.Ok where
  blocks := by
    intro p hp
    simp only [someIncDoc, List.mem_cons, List.not_mem_nil, or_false] at hp
    rcases hp with rfl | rfl
    · refine ⟨?_, by decide, ⟨?_, by decide⟩, ⟨by decide, by decide⟩, ?_, ?_, ?_, ?_, by decide, ?_⟩
      · unfold Blanks; decide
      · unfold Blanks; decide
      · rintro ⟨s, h1, h2, h3⟩
        have h4 : someInc.page.getLast? = some ':' := by rw [h3, List.getLast?_append]; rfl
        exact absurd h4 (by decide)
      · unfold Blanks; decide
      · intro b hb; cases hb; unfold Blanks; decide
      · intro a ha
        simp only [someInc, List.mem_cons, List.not_mem_nil, or_false] at ha
        rcases ha with rfl | rfl
        · exact ⟨⟨by decide, by decide⟩, by unfold Blanks; decide, by unfold Blanks; decide, by unfold Blanks; decide,
            ⟨_, _, rfl, by decide⟩, by decide, by rw [infix_any, infix_any]; decide +kernel⟩
        · exact ⟨⟨by decide, by decide⟩, by unfold Blanks; decide, by unfold Blanks; decide, by unfold Blanks; decide,
            ⟨_, _, rfl, by decide⟩, by decide, by rw [infix_any, infix_any]; decide +kernel⟩
      · rw [infix_any]; decide +kernel
    · refine ⟨?_, by decide, ⟨?_, by decide⟩, ⟨by decide, by decide⟩, ?_, ?_, ?_, ?_, by decide, ?_⟩
      · unfold Blanks; decide
      · unfold Blanks; decide
      · rintro ⟨s, h1, h2, h3⟩
        have h4 : otherInc.page.getLast? = some ':' := by rw [h3, List.getLast?_append]; rfl
        exact absurd h4 (by decide)
      · unfold Blanks; decide
      · intro b hb; cases hb
      · intro a ha; simp [otherInc] at ha
      · rw [infix_any]; decide +kernel
  texts := by
    intro p hp
    simp only [someIncDoc, List.mem_cons, List.not_mem_nil, or_false] at hp
    rcases hp with rfl | rfl <;> exact noWord_of (by rw [infix_any]; decide +kernel)
  first := by
    intro p ps h
    cases h
    exact .inr ⟨c!"one", rfl⟩
  others := by
    intro p ps h q hq
    cases h
    simp only [List.mem_cons, List.not_mem_nil, or_false] at hq
    subst hq
    exact ⟨⟨_, _, rfl, .inl rfl⟩, ⟨c!"\n[[div]]", rfl⟩⟩
  last := ⟨noWord_of (by rw [infix_any]; decide +kernel), fun _ => .inr ⟨_, _, rfl, .inl rfl⟩⟩

/-- The hypotheses of C95 are met: two blocks are found. -/
example : requested someIncDoc.write = [⟨⟨some c!"scp", c!"theme:box"⟩, [(c!"a_b", c!"x "), (c!"n-1", c!"[[y]]")]⟩, ⟨⟨none, c!"box"⟩, []⟩] :=
  C95_finds someIncDoc someIncDoc_ok (fun i => if i.page = c!"box" then ⟨none, c!"box"⟩ else ⟨some c!"scp", c!"theme:box"⟩) (by
    intro p hp
    simp only [someIncDoc, List.mem_cons, List.not_mem_nil, or_false] at hp
    rcases hp with rfl | rfl <;> decide +kernel)

example : runInclude true (constIncluder c!"<{$a_b}>") () () someIncDoc.write =
    .ok c!"one\n<x >\n[[div]]\n<{$a_b}>\n[[/div]]" [⟨some c!"scp", c!"theme:box"⟩, ⟨none, c!"box"⟩] := by decide +kernel

/-- A page that is only the name of a site is not a page: the block is left in the text. -/
example : requested c!"[[include :scp:]]" = [] := by decide +kernel

end Ftml.Includes
