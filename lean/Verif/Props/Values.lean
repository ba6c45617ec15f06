import Verif.Lemmas.Str
import Verif.Model.Blocks
/-
C76–C78: values of blocks: conditions, time zones, characters.
-/
namespace Ftml

/-! ### C76: conditions -/

/-- One condition as written: `+tag`, `-tag` or `tag`. -/
inductive TagCond where
  | need (v : Str)
  | avoid (v : Str)
  | either (v : Str)
deriving DecidableEq

namespace TagCond
/-- Its source text. -/
def write : TagCond → Str
  | need v => '+' :: v
  | avoid v => '-' :: v
  | either v => v
/-- No blanks; without a sign it is not empty and does not begin with one. -/
def ok : TagCond → Bool
  | need v | avoid v => !v.contains ' '
  | either v => !v.contains ' ' && !v.isEmpty && v.head? != some '+' && v.head? != some '-'

/-- A page with these tags passes: it has all needed tags, none to avoid, and one of the unsigned ones if
there are any. -/
def Pass (cs : List TagCond) (tags : List Str) : Prop :=
  (∀ v, need v ∈ cs → v ∈ tags) ∧ (∀ v, avoid v ∈ cs → v ∉ tags) ∧
  ((∃ v, either v ∈ cs) → ∃ v, either v ∈ cs ∧ v ∈ tags)

/-- For categories a page has only one, so `+` means the same as no sign. -/
def anyOf : TagCond → TagCond
  | need v => either v
  | c => c

/-- Conditions with blanks between them: `n + 1` before each but the first. -/
def writeAll : List (Nat × TagCond) → Str
  | [] => []
  | (_, c) :: cs => c.write ++ cs.flatMap fun x => List.replicate (x.1 + 1) ' ' ++ x.2.write
end TagCond

/-- What the code makes of a condition. -/
private def TagCond.code : TagCond → CondType × Str
  | .need v => (.required, v)
  | .avoid v => (.prohibited, v)
  | .either v => (.present, v)

/-- One step of the check. -/
private def condStep (values : List Str) (st : Bool × Bool × Bool × Bool) (c : CondType × Str) : Bool × Bool × Bool × Bool :=
  match c with
  | (.required, v) => (st.1 && values.contains v, st.2.1, st.2.2.1, st.2.2.2)
  | (.prohibited, v) => (st.1, st.2.1 && !values.contains v, st.2.2.1, st.2.2.2)
  | (.present, v) => (st.1, st.2.1, st.2.2.1 || values.contains v, true)

private theorem check_fold (cs : List (CondType × Str)) (values : List Str) (a b c d : Bool) :
    cs.foldl (condStep values) (a, b, c, d) =
    (a && cs.all (fun x => x.1 != .required || values.contains x.2),
     b && cs.all (fun x => x.1 != .prohibited || !values.contains x.2),
     c || cs.any (fun x => x.1 == .present && values.contains x.2),
     d || cs.any (fun x => x.1 == .present)) := by
  induction cs generalizing a b c d with
  | nil => simp
  | cons x cs ih =>
    obtain ⟨t, v⟩ := x
    have e : (CondType.required != .prohibited) = true := rfl
    have e' : (CondType.required == .present) = false := rfl
    have e2 : (CondType.prohibited != .required) = true := rfl
    have e3 : (CondType.prohibited == .present) = false := rfl
    have e4 : (CondType.present != .required) = true := rfl
    have e5 : (CondType.present != .prohibited) = true := rfl
    rw [List.foldl_cons]
    cases t <;> simp only [condStep, ih] <;> simp [Bool.and_assoc, Bool.or_assoc, e, e', e2, e3, e4, e5]

private theorem check_eq (cs : List (CondType × Str)) (values : List Str) : checkConditions cs values =
    (let st := cs.foldl (condStep values) (true, true, false, false)
     st.1 && st.2.1 && (if !st.2.2.2 then true else st.2.2.1)) := by
  have : (fun (st : Bool × Bool × Bool × Bool) (c : CondType × Str) =>
    let has := values.contains c.2
    match c.1 with
    | .required => (st.1 && has, st.2.1, st.2.2.1, st.2.2.2)
    | .prohibited => (st.1, st.2.1 && !has, st.2.2.1, st.2.2.2)
    | .present => (st.1, st.2.1, st.2.2.1 || has, true)) = condStep values := by
    funext st c
    obtain ⟨t, v⟩ := c
    cases t <;> rfl
  unfold checkConditions
  exact congrArg (fun f => (let st := cs.foldl f (true, true, false, false)
     st.1 && st.2.1 && (if !st.2.2.2 then true else st.2.2.1))) this

private theorem check_pass (cs : List TagCond) (tags : List Str) :
    checkConditions (cs.map TagCond.code) tags = true ↔ TagCond.Pass cs tags := by
  rw [check_eq, check_fold]
  simp only [Bool.true_and, Bool.false_or, Bool.and_eq_true, List.all_map, List.any_map, List.all_eq_true]
  unfold TagCond.Pass
  have h1 : (∀ x ∈ cs, ((fun x : CondType × Str => x.1 != .required || tags.contains x.2) ∘ TagCond.code) x = true) ↔
      ∀ v, .need v ∈ cs → v ∈ tags := by
    constructor
    · intro h v hv
      have := h _ hv
      simp [TagCond.code] at this
      exact of_decide_eq_true this
    · intro h x hx; cases x <;> simp [TagCond.code]; exact decide_eq_true (h _ hx)
  have h2 : (∀ x ∈ cs, ((fun x : CondType × Str => x.1 != .prohibited || !tags.contains x.2) ∘ TagCond.code) x = true) ↔
      ∀ v, .avoid v ∈ cs → v ∉ tags := by
    constructor
    · intro h v hv
      have := h _ hv
      simp [TagCond.code] at this
      exact of_decide_eq_false this
    · intro h x hx; cases x <;> simp [TagCond.code]; exact decide_eq_false (h _ hx)
  have h3 : cs.any ((fun x : CondType × Str => x.1 == .present) ∘ TagCond.code) = true ↔ ∃ v, .either v ∈ cs := by
    simp only [List.any_eq_true]
    constructor
    · rintro ⟨x, hx, hp⟩; cases x <;> simp [TagCond.code] at hp; exact ⟨_, hx⟩
    · rintro ⟨v, hv⟩; exact ⟨_, hv, by simp [TagCond.code]⟩
  have h4 : cs.any ((fun x : CondType × Str => x.1 == .present && tags.contains x.2) ∘ TagCond.code) = true ↔
      ∃ v, .either v ∈ cs ∧ v ∈ tags := by
    simp only [List.any_eq_true]
    constructor
    · rintro ⟨x, hx, hp⟩; cases x <;> simp [TagCond.code] at hp; exact ⟨_, hx, of_decide_eq_true hp⟩
    · rintro ⟨v, hv, ht⟩; exact ⟨_, hv, by simp [TagCond.code, ht]⟩
  rw [h1, h2, and_assoc]
  refine and_congr Iff.rfl (and_congr Iff.rfl ?_)
  by_cases he : cs.any ((fun x : CondType × Str => x.1 == .present) ∘ TagCond.code) = true
  · simp only [he, Bool.not_true, Bool.false_eq_true, if_false]
    rw [h4]
    exact ⟨fun h _ => h, fun h => h (h3.1 he)⟩
  · simp only [he]
    simp only [Bool.not_eq_true] at he
    have : ¬ ∃ v, TagCond.either v ∈ cs := fun h => by rw [h3.2 h] at he; cases he
    simp [this]

private theorem split_blanks (n : Nat) (s : Str) :
    (splitOn ' ' (List.replicate n ' ' ++ s)).filter (fun s => !s.isEmpty) = (splitOn ' ' s).filter fun s => !s.isEmpty := by
  induction n with
  | zero => rfl
  | succ n ih => rw [List.replicate_succ, List.cons_append, splitOn]; simpa using ih

private theorem write_ok {c : TagCond} (h : c.ok = true) : ' ' ∉ c.write ∧ c.write ≠ [] := by
  cases c <;> simp [TagCond.ok, TagCond.write] at h ⊢ <;> first | exact h | exact h.1.1

private theorem code_write {c : TagCond} (h : c.ok = true) : (match c.write with
    | '+' :: v => (CondType.required, v)
    | '-' :: v => (.prohibited, v)
    | v => (.present, v)) = c.code := by
  cases c with
  | need v => rfl
  | avoid v => rfl
  | either v =>
    simp [TagCond.ok] at h
    simp only [TagCond.write]
    cases v with
    | nil => simp at h
    | cons a v =>
      simp at h
      split
      · rename_i hh; cases hh; exact absurd rfl h.1.2
      · rename_i hh; cases hh; exact absurd rfl h.2
      · rfl

private theorem split_word {w : Str} (h : ' ' ∉ w) (hn : w ≠ []) (n : Nat) (s : Str) :
    (splitOn ' ' (w ++ (List.replicate (n + 1) ' ' ++ s))).filter (fun s => !s.isEmpty) =
      w :: (splitOn ' ' s).filter fun s => !s.isEmpty := by
  rw [List.replicate_succ, List.cons_append, splitOn_cons h, List.filter_cons]
  have : (!w.isEmpty) = true := by cases w <;> simp_all
  rw [if_pos this, split_blanks]

private theorem split_all : ∀ (cs : List (Nat × TagCond)) (m : Nat), (∀ x ∈ cs, x.2.ok = true) →
    (splitOn ' ' (TagCond.writeAll cs ++ List.replicate m ' ')).filter (fun s => !s.isEmpty) = cs.map (·.2.write)
  | [], m, _ => by simpa [TagCond.writeAll, splitOn] using split_blanks m []
  | (k, c) :: [], m, h => by
    obtain ⟨h1, h2⟩ := write_ok (h (k, c) (by simp))
    simp only [TagCond.writeAll, List.flatMap_nil, List.append_nil]
    cases m with
    | zero => simp [splitOn_single h1, h2]
    | succ m =>
      have := split_word h1 h2 m []
      simpa [splitOn] using this
  | (k, c) :: (k', c') :: cs, m, h => by
    obtain ⟨h1, h2⟩ := write_ok (h (k, c) (by simp))
    have ih := split_all ((k', c') :: cs) m (fun x hx => h x (by simp [hx]))
    have e : TagCond.writeAll ((k, c) :: (k', c') :: cs) ++ List.replicate m ' ' =
        c.write ++ (List.replicate (k' + 1) ' ' ++ (TagCond.writeAll ((k', c') :: cs) ++ List.replicate m ' ')) := by
      simp [TagCond.writeAll]
    rw [e, split_word h1 h2, ih]
    simp

private theorem parse_all (n m : Nat) {cs : List (Nat × TagCond)} (h : ∀ x ∈ cs, x.2.ok = true) :
    parseConditions (List.replicate n ' ' ++ TagCond.writeAll cs ++ List.replicate m ' ') = (cs.map (·.2)).map TagCond.code := by
  unfold parseConditions
  rw [List.append_assoc, split_blanks, split_all cs m h]
  simp only [List.map_map]
  apply List.map_congr_left
  intro x hx
  exact code_write (h x hx)

/-- C76: conditions written with blanks before, between and after them are read as such, and a page passes
exactly if it has all the tags with `+`, none with `-`, and one of those without a sign if there are any. -/
theorem C76_conditions (n m : Nat) {cs : List (Nat × TagCond)} (h : ∀ x ∈ cs, x.2.ok = true) (tags : List Str) :
    checkConditions (parseConditions (List.replicate n ' ' ++ TagCond.writeAll cs ++ List.replicate m ' ')) tags = true ↔
      TagCond.Pass (cs.map (·.2)) tags := by
  rw [← check_pass, parse_all n m h]

/-- C76: for categories `+` counts as no sign. -/
theorem C76_categories (n m : Nat) {cs : List (Nat × TagCond)} (h : ∀ x ∈ cs, x.2.ok = true) (tags : List Str) :
    checkConditions ((parseConditions (List.replicate n ' ' ++ TagCond.writeAll cs ++ List.replicate m ' ')).map requiredToPresent)
      tags = true ↔ TagCond.Pass (cs.map (·.2.anyOf)) tags := by
  have e : cs.map (·.2.anyOf) = (cs.map (·.2)).map TagCond.anyOf := by simp
  rw [e, ← check_pass]
  rw [parse_all n m h]
  have : ((cs.map (·.2)).map TagCond.code).map requiredToPresent = ((cs.map (·.2)).map TagCond.anyOf).map TagCond.code := by
    simp only [List.map_map]
    apply List.map_congr_left
    intro x hx
    simp only [Function.comp]
    cases x.2 <;> rfl
  rw [this]

private theorem words_exist (s : Str) : ∃ (n m : Nat) (ws : List (Nat × Str)), (∀ w ∈ ws, ' ' ∉ w.2 ∧ w.2 ≠ []) ∧
    s = List.replicate n ' ' ++ (match ws with
      | [] => []
      | (_, w) :: ws => w ++ ws.flatMap fun x => List.replicate (x.1 + 1) ' ' ++ x.2) ++ List.replicate m ' ' := by
  induction s with
  | nil => exact ⟨0, 0, [], by simp, rfl⟩
  | cons c s ih =>
    obtain ⟨n, m, ws, h, e⟩ := ih
    by_cases hc : c = ' '
    · subst hc
      exact ⟨n + 1, m, ws, h, by rw [e]; simp [List.replicate_succ]⟩
    · cases n with
      | zero =>
        cases ws with
        | nil =>
          refine ⟨0, m, [(0, [c])], by simpa using fun e => hc e.symm, ?_⟩
          rw [e]; simp
        | cons w ws =>
          obtain ⟨k, w⟩ := w
          have hw := h (k, w) (by simp)
          refine ⟨0, m, (k, c :: w) :: ws, ?_, ?_⟩
          · intro x hx
            simp only [List.mem_cons] at hx
            rcases hx with rfl | hx
            · refine ⟨?_, by simp⟩
              simp only [List.mem_cons, not_or]
              exact ⟨fun e => hc e.symm, hw.1⟩
            · exact h x (by simp [hx])
          · rw [e]; simp
      | succ n =>
        cases ws with
        | nil =>
          refine ⟨0, n + 1 + m, [(0, [c])], by simpa using fun e => hc e.symm, ?_⟩
          rw [e]; simp
        | cons w ws =>
          obtain ⟨k, w⟩ := w
          refine ⟨0, m, (0, [c]) :: (n, w) :: ws, ?_, ?_⟩
          · intro x hx
            simp only [List.mem_cons] at hx
            rcases hx with rfl | rfl | hx
            · exact ⟨by simpa using fun e => hc e.symm, by simp⟩
            · exact h (k, w) (by simp)
            · exact h x (by simp [hx])
          · rw [e]; simp

/-- The condition a word is. -/
private def condOf : Str → TagCond
  | '+' :: v => .need v
  | '-' :: v => .avoid v
  | v => .either v

private theorem condOf_write (w : Str) : (condOf w).write = w := by
  unfold condOf; split <;> rfl
private theorem condOf_ok {w : Str} (h : ' ' ∉ w) (hn : w ≠ []) : (condOf w).ok = true := by
  unfold condOf
  split
  · simp at h; simpa [TagCond.ok] using h
  · simp at h; simpa [TagCond.ok] using h
  · rename_i h1 h2
    simp [TagCond.ok, hn, h]
    cases w with
    | nil => exact absurd rfl hn
    | cons a w =>
      simp
      constructor
      · rintro rfl; exact h1 w rfl
      · rintro rfl; exact h2 w rfl

/-- C76: every text is a list of conditions written like this, so the above says what every condition means. -/
theorem C76_every_text (s : Str) : ∃ (n m : Nat) (cs : List (Nat × TagCond)), (∀ x ∈ cs, x.2.ok = true) ∧
    s = List.replicate n ' ' ++ TagCond.writeAll cs ++ List.replicate m ' ' := by
  obtain ⟨n, m, ws, h, e⟩ := words_exist s
  refine ⟨n, m, ws.map fun w => (w.1, condOf w.2), ?_, ?_⟩
  · intro x hx
    simp only [List.mem_map] at hx
    obtain ⟨w, hw, rfl⟩ := hx
    exact condOf_ok (h w hw).1 (h w hw).2
  · rw [e]
    cases ws with
    | nil => rfl
    | cons w ws => simp [TagCond.writeAll, List.flatMap_map, condOf_write]

example : (∀ x ∈ [(0, TagCond.need c!"scp"), (2, .avoid c!"joke"), (0, .either c!"a"), (0, .either c!"b")], x.2.ok = true) ∧
    TagCond.writeAll [(0, TagCond.need c!"scp"), (2, .avoid c!"joke"), (0, .either c!"a"), (0, .either c!"b")] = c!"+scp   -joke a b" := by
  decide
example : checkConditions (parseConditions c!"  +scp -joke a b") [c!"scp", c!"b"] = true ∧
    checkConditions (parseConditions c!"+scp -joke a b") [c!"scp", c!"b", c!"joke"] = false ∧
    checkConditions (parseConditions c!"+scp a") [c!"scp"] = false ∧ checkConditions (parseConditions c!"") [] = true := by decide
example : checkConditions ((parseConditions c!"+a +b").map requiredToPresent) [c!"b"] = true := by decide

/-! ### C77: time zones -/

/-- A decimal digit. -/
def digit (d : Fin 10) : Char := Nat.digitChar d

/-- An optional sign. -/
def signStr : Option Bool → Str
  | none => []
  | some true => ['-']
  | some false => ['+']
/-- A number with that sign. -/
def signed (sign : Option Bool) (n : Nat) : Int := if sign = some true then -(n : Int) else n

/-- Hours and minutes: `8`, `08:`, `800`, `+08:30`, … -/
structure Zone where
  sign : Option Bool
  hour1 : Option (Fin 10)
  hour2 : Fin 10
  colon : Bool
  minutes : Option (Fin 10 × Fin 10)

/-- As text. -/
def Zone.write (z : Zone) : Str :=
  signStr z.sign ++ (z.hour1.map digit).toList ++ [digit z.hour2] ++ (if z.colon then [':'] else []) ++
    (match z.minutes with | some (a, b) => [digit a, digit b] | none => [])
/-- In seconds. -/
def Zone.seconds (z : Zone) : Int :=
  signed z.sign (((match z.hour1 with | some d => (d : Nat) | none => 0) * 10 + z.hour2) * 3600 +
    (match z.minutes with | some (a, b) => (a : Nat) * 10 + b | none => 0) * 60)

/-- The number some digits are. -/
def numberOf (ds : List (Fin 10)) : Nat := ds.foldl (fun (n : Nat) (d : Fin 10) => n * 10 + d.val) 0

private theorem digit_facts : ∀ d : Fin 10, isDigitA (digit d) = true ∧ digit d ≠ ':' ∧ digit d ≠ '+' ∧ digit d ≠ '-' ∧
    digitVal (digit d) = some d.val := by decide

private theorem digit_of {c : Char} (h : isDigitA c = true) : ∃ d, c = digit d := by
  have hl : 48 ≤ c.toNat ∧ c.toNat ≤ 57 := by simpa [isDigitA, Char.le_def, UInt32.le_iff_toNat_le] using h
  have : ∀ n, 48 ≤ n → n ≤ 57 → ∃ d, Char.ofNat n = digit d := by
    intro n h1 h2
    have : n = 48 ∨ n = 49 ∨ n = 50 ∨ n = 51 ∨ n = 52 ∨ n = 53 ∨ n = 54 ∨ n = 55 ∨ n = 56 ∨ n = 57 := by omega
    rcases this with rfl | rfl | rfl | rfl | rfl | rfl | rfl | rfl | rfl | rfl
    · exact ⟨0, rfl⟩
    · exact ⟨1, rfl⟩
    · exact ⟨2, rfl⟩
    · exact ⟨3, rfl⟩
    · exact ⟨4, rfl⟩
    · exact ⟨5, rfl⟩
    · exact ⟨6, rfl⟩
    · exact ⟨7, rfl⟩
    · exact ⟨8, rfl⟩
    · exact ⟨9, rfl⟩
  have := this c.toNat hl.1 hl.2
  rwa [Char.ofNat_toNat] at this

/-- Hours and minutes without their sign. -/
private def Fields (body hs ms : Str) : Prop :=
  ∃ h1 h2 colon m, body = Zone.write ⟨none, h1, h2, colon, m⟩ ∧ hs = (h1.map digit).toList ++ [digit h2] ∧
    ms = (match m with | some (a, b) => [digit a, digit b] | none => [])

private theorem fields_some {body hs ms : Str} (h : timezoneFields body = some (hs, ms)) : Fields body hs ms := by
  unfold timezoneFields at h
  split at h
  · rename_i a
    split at h
    · rename_i ha
      obtain ⟨a, rfl⟩ := digit_of ha
      cases h
      exact ⟨none, a, false, none, rfl, rfl, rfl⟩
    · cases h
  · rename_i a b
    split at h
    · rename_i ha
      simp only [Bool.and_eq_true] at ha
      obtain ⟨a, rfl⟩ := digit_of ha.1
      obtain ⟨b, rfl⟩ := digit_of ha.2
      cases h
      exact ⟨some a, b, false, none, rfl, rfl, rfl⟩
    · split at h
      · rename_i ha
        simp only [Bool.and_eq_true, beq_iff_eq] at ha
        obtain ⟨a, rfl⟩ := digit_of ha.1
        obtain rfl := ha.2
        cases h
        exact ⟨none, a, true, none, rfl, rfl, rfl⟩
      · cases h
  · rename_i a b d
    split at h
    · rename_i ha
      simp only [Bool.and_eq_true, beq_iff_eq] at ha
      obtain ⟨a, rfl⟩ := digit_of ha.1.1
      obtain ⟨b, rfl⟩ := digit_of ha.1.2
      obtain rfl := ha.2
      cases h
      exact ⟨some a, b, true, none, rfl, rfl, rfl⟩
    · split at h
      · rename_i ha
        simp only [Bool.and_eq_true] at ha
        obtain ⟨a, rfl⟩ := digit_of ha.1.1
        obtain ⟨b, rfl⟩ := digit_of ha.1.2
        obtain ⟨d, rfl⟩ := digit_of ha.2
        cases h
        exact ⟨none, a, false, some (b, d), rfl, rfl, rfl⟩
      · cases h
  · rename_i a b d e
    split at h
    · rename_i ha
      simp only [Bool.and_eq_true] at ha
      obtain ⟨a, rfl⟩ := digit_of ha.1.1.1
      obtain ⟨b, rfl⟩ := digit_of ha.1.1.2
      obtain ⟨d, rfl⟩ := digit_of ha.1.2
      obtain ⟨e, rfl⟩ := digit_of ha.2
      cases h
      exact ⟨some a, b, false, some (d, e), rfl, rfl, rfl⟩
    · split at h
      · rename_i ha
        simp only [Bool.and_eq_true, beq_iff_eq] at ha
        obtain ⟨a, rfl⟩ := digit_of ha.1.1.1
        obtain rfl := ha.1.1.2
        obtain ⟨d, rfl⟩ := digit_of ha.1.2
        obtain ⟨e, rfl⟩ := digit_of ha.2
        cases h
        exact ⟨none, a, true, some (d, e), rfl, rfl, rfl⟩
      · cases h
  · rename_i a b d e f
    split at h
    · rename_i ha
      simp only [Bool.and_eq_true, beq_iff_eq] at ha
      obtain ⟨a, rfl⟩ := digit_of ha.1.1.1.1
      obtain ⟨b, rfl⟩ := digit_of ha.1.1.1.2
      obtain rfl := ha.1.1.2
      obtain ⟨e, rfl⟩ := digit_of ha.1.2
      obtain ⟨f, rfl⟩ := digit_of ha.2
      cases h
      exact ⟨some a, b, true, some (e, f), rfl, rfl, rfl⟩
    · cases h
  · cases h

private theorem fields_write (h1 : Option (Fin 10)) (h2 : Fin 10) (colon : Bool) (m : Option (Fin 10 × Fin 10)) :
    timezoneFields (Zone.write ⟨none, h1, h2, colon, m⟩) = some ((h1.map digit).toList ++ [digit h2],
      match m with | some (a, b) => [digit a, digit b] | none => []) := by
  have hd := fun d => (digit_facts d).1
  have hc := fun d => (digit_facts d).2.1
  have hcol : isDigitA ':' = false := rfl
  cases h1 <;> cases colon <;> rcases m with _ | ⟨a, b⟩ <;> simp [Zone.write, signStr, timezoneFields, hd, hc, hcol]

private theorem digits_write (ds : List (Fin 10)) (n : Nat) :
    digitsVal 10 n (ds.map digit) = some (ds.foldl (fun (n : Nat) (d : Fin 10) => n * 10 + d.val) n) := by
  induction ds generalizing n with
  | nil => rfl
  | cons d ds ih =>
    have := (digit_facts d).2.2.2.2
    rw [List.map_cons, digitsVal, this]
    dsimp only
    rw [if_pos d.isLt, ih]
    rfl

private theorem digits_some {s : Str} {n v : Nat} (h : digitsVal 10 n s = some v) : ∃ ds : List (Fin 10), s = ds.map digit := by
  induction s generalizing n with
  | nil => exact ⟨[], rfl⟩
  | cons c s ih =>
    rw [digitsVal] at h
    cases hd : digitVal c with
    | none => rw [hd] at h; cases h
    | some d =>
      rw [hd] at h
      dsimp only at h
      split at h
      · rename_i hlt
        obtain ⟨ds, rfl⟩ := ih h
        have hc : isDigitA c = true := by
          unfold digitVal at hd
          split at hd
          · assumption
          · split at hd
            · rename_i hl; simp [isLowerA, Char.le_def, UInt32.le_iff_toNat_le] at hl; simp at hd
              have : c.toNat = c.val.toNat := rfl
              omega
            · split at hd
              · rename_i hl; simp [isUpperA, Char.le_def, UInt32.le_iff_toNat_le] at hl; simp at hd
                have : c.toNat = c.val.toNat := rfl
                omega
              · cases hd
        obtain ⟨e, rfl⟩ := digit_of hc
        exact ⟨e :: ds, rfl⟩
      · cases h

/-- The sign and the rest of a text. -/
private def splitSign : Str → Option Bool × Str
  | '+' :: rest => (some false, rest)
  | '-' :: rest => (some true, rest)
  | s => (none, s)

private theorem splitSign_eq (s : Str) : s = signStr (splitSign s).1 ++ (splitSign s).2 := by
  unfold splitSign; split <;> rfl

private theorem splitSign_write (sign : Option Bool) (d : Fin 10) (r : Str) :
    splitSign (signStr sign ++ digit d :: r) = (sign, digit d :: r) := by
  have h1 := (digit_facts d).2.2.1
  have h2 := (digit_facts d).2.2.2.1
  generalize digit d = c at h1 h2
  rcases sign with _ | _ | _
  · simp only [signStr, List.nil_append]
    unfold splitSign
    split
    · rename_i hh; cases hh; exact absurd rfl h1
    · rename_i hh; cases hh; exact absurd rfl h2
    · rfl
  · rfl
  · rfl

private theorem parse_split (s : Str) : parseTimezone s = match timezoneFields (splitSign s).2 with
    | some (h, m) => getOffset (signed (splitSign s).1 (((digitsVal 10 0 h).getD 0) * 3600 + ((digitsVal 10 0 m).getD 0) * 60))
    | none => (parseI32 s).bind getOffset := by
  have hm : (match s with
    | '+' :: rest => (1, rest)
    | '-' :: rest => (-1, rest)
    | _ => (1, s) : Int × Str) = (if (splitSign s).1 = some true then -1 else 1, (splitSign s).2) := by
    unfold splitSign; split <;> rfl
  unfold parseTimezone
  have hs : ∀ n : Nat, (if (splitSign s).1 = some true then -1 else 1 : Int) * (n : Int) = signed (splitSign s).1 n := by
    intro n; unfold signed; split <;> simp
  simp only [← hs]
  exact congrArg (fun x : Int × Str => match timezoneFields x.2 with
    | some (h, m) => getOffset (x.1 * ((((digitsVal 10 0 h).getD 0) * 3600 + ((digitsVal 10 0 m).getD 0) * 60 : Nat) : Int))
    | none => (parseI32 s).bind getOffset) hm

private theorem i32_split (s : Str) : parseI32 s =
    if (splitSign s).2.isEmpty then none
    else match digitsVal 10 0 (splitSign s).2 with
      | some n => if (splitSign s).1 = some true then (if n ≤ 2 ^ 31 then some (-(n : Int)) else none)
        else (if n < 2 ^ 31 then some (n : Int) else none)
      | none => none := by
  have hm : (match s with
    | '-' :: rest => (true, rest)
    | '+' :: rest => (false, rest)
    | _ => (false, s) : Bool × Str) = (decide ((splitSign s).1 = some true), (splitSign s).2) := by
    unfold splitSign
    split
    · rfl
    · rfl
    · rename_i h1 h2
      split
      · rename_i r; exact absurd rfl (h2 r)
      · rename_i r; exact absurd rfl (h1 r)
      · rfl
  have h2 := congrArg (fun x : Bool × Str => if x.2.isEmpty then none else match digitsVal 10 0 x.2 with
    | some n => if x.1 then (if n ≤ 2 ^ 31 then some (-(n : Int)) else none) else (if n < 2 ^ 31 then some (n : Int) else none)
    | none => none) hm
  simp only [decide_eq_true_eq] at h2
  exact h2

private theorem zone_split (z : Zone) : splitSign z.write = (z.sign, Zone.write { z with sign := none }) := by
  obtain ⟨sign, h1, h2, colon, m⟩ := z
  cases h1 with
  | none => simpa [Zone.write, signStr] using splitSign_write sign h2 _
  | some h1 => simpa [Zone.write, signStr] using splitSign_write sign h1 _

private theorem zone_of (z : Zone) : z.write = signStr z.sign ++ Zone.write { z with sign := none } := by
  have := splitSign_eq z.write
  rw [zone_split] at this
  exact this

private theorem zone_value (h1 : Option (Fin 10)) (h2 : Fin 10) (m : Option (Fin 10 × Fin 10)) :
    ((digitsVal 10 0 ((h1.map digit).toList ++ [digit h2])).getD 0) * 3600 +
      ((digitsVal 10 0 (match m with | some (a, b) => [digit a, digit b] | none => [])).getD 0) * 60 =
    ((match h1 with | some d => (d : Nat) | none => 0) * 10 + h2) * 3600 +
    (match m with | some (a, b) => (a : Nat) * 10 + b | none => 0) * 60 := by
  have e1 : digitsVal 10 0 ((h1.map digit).toList ++ [digit h2]) = some ((match h1 with | some d => d.val | none => 0) * 10 + h2.val) := by
    cases h1 with
    | none => simpa using digits_write [h2] 0
    | some d => simpa using digits_write [d, h2] 0
  have e2 : digitsVal 10 0 (match m with | some (a, b) => [digit a, digit b] | none => []) =
      some (match m with | some (a, b) => a.val * 10 + b.val | none => 0) := by
    rcases m with _ | ⟨a, b⟩
    · rfl
    · simpa using digits_write [a, b] 0
  rw [e1, e2, Option.getD_some, Option.getD_some]

private theorem zone_seconds (z : Zone) : parseTimezone z.write = getOffset z.seconds := by
  rw [parse_split, zone_split]
  dsimp only
  rw [fields_write]
  dsimp only
  rw [zone_value]
  rfl

private theorem offset_iff (a t : Int) : getOffset a = some t ↔ (-93599 ≤ t ∧ t ≤ 93599) ∧ t = a := by
  unfold getOffset
  split
  · rename_i h
    simp only [Option.some.injEq]
    exact ⟨fun e => by subst e; exact ⟨h, rfl⟩, fun e => e.2.symm⟩
  · rename_i h
    constructor
    · intro e; cases e
    · rintro ⟨h1, rfl⟩; exact absurd h1 h

/-- C77: a time zone is a signed number of hours and minutes or, if it cannot be read like that, a signed
number of seconds, of less than 26 hours either way; nothing else is accepted. -/
theorem C77_timezones (s : Str) (t : Int) : parseTimezone s = some t ↔ (-93599 ≤ t ∧ t ≤ 93599) ∧
    ((∃ z : Zone, s = z.write ∧ t = z.seconds) ∨
     ((∀ z : Zone, s ≠ z.write) ∧ ∃ (sign : Option Bool) (ds : List (Fin 10)), ds ≠ [] ∧ s = signStr sign ++ ds.map digit ∧
       t = signed sign (numberOf ds))) := by
  by_cases hz : ∃ z : Zone, s = z.write
  · obtain ⟨z, rfl⟩ := hz
    rw [zone_seconds, offset_iff]
    constructor
    · rintro ⟨h, rfl⟩
      exact ⟨h, .inl ⟨z, rfl, rfl⟩⟩
    · rintro ⟨h, ⟨z', e, rfl⟩ | ⟨hn, _⟩⟩
      · refine ⟨h, ?_⟩
        have h1 := zone_seconds z
        rw [e, zone_seconds] at h1
        have h2 := (offset_iff z'.seconds z'.seconds).2 ⟨h, rfl⟩
        rw [h1] at h2
        exact ((offset_iff _ _).1 h2).2
      · exact absurd rfl (hn z)
  · have hn : ∀ z : Zone, s ≠ z.write := fun z e => hz ⟨z, e⟩
    have hf : timezoneFields (splitSign s).2 = none := by
      cases hc : timezoneFields (splitSign s).2 with
      | none => rfl
      | some x =>
        obtain ⟨h, m⟩ := x
        obtain ⟨h1, h2, colon, mm, e, _⟩ := fields_some hc
        refine absurd ?_ (hn ⟨(splitSign s).1, h1, h2, colon, mm⟩)
        rw [zone_of, ← e]
        exact splitSign_eq s
    rw [parse_split, hf]
    dsimp only
    rw [i32_split]
    constructor
    · intro h
      by_cases he : (splitSign s).2.isEmpty = true
      · simp [he] at h
      · simp only [he] at h
        cases hd : digitsVal 10 0 (splitSign s).2 with
        | none => simp [hd] at h
        | some n =>
          simp only [hd] at h
          obtain ⟨ds, hds⟩ := digits_some hd
          have hnum : n = numberOf ds := by
            rw [hds, digits_write] at hd
            exact (Option.some.inj hd).symm
          have ht : getOffset (signed (splitSign s).1 n) = some t := by
            unfold signed
            by_cases hs : (splitSign s).1 = some true
            · simp only [hs, if_true, Bool.false_eq_true, if_false] at h ⊢
              split at h
              · exact h
              · cases h
            · simp only [hs, if_false, Bool.false_eq_true] at h ⊢
              split at h
              · exact h
              · cases h
          rw [offset_iff] at ht
          refine ⟨ht.1, .inr ⟨hn, (splitSign s).1, ds, ?_, ?_, by rw [← hnum]; exact ht.2⟩⟩
          · rintro rfl
            rw [hds] at he
            exact he rfl
          · rw [← hds]; exact splitSign_eq s
    · rintro ⟨ht, ⟨z, e, _⟩ | ⟨_, sign, ds, hds, rfl, rfl⟩⟩
      · exact absurd e (hn z)
      · obtain ⟨d, ds, rfl⟩ := List.exists_cons_of_ne_nil hds
        rw [List.map_cons, splitSign_write]
        have hv : digitsVal 10 0 (digit d :: ds.map digit) = some (numberOf (d :: ds)) := digits_write (d :: ds) 0
        dsimp only
        rw [hv]
        unfold signed at ht ⊢
        have ho := (offset_iff (if sign = some true then -(numberOf (d :: ds) : Int) else numberOf (d :: ds)) _).2 ⟨ht, rfl⟩
        by_cases hs : sign = some true
        · simp only [hs, if_true] at ht ho ⊢
          have : numberOf (d :: ds) ≤ 2 ^ 31 := by omega
          simp [this, ho]
        · simp only [hs, if_false] at ht ho ⊢
          have : numberOf (d :: ds) < 2 ^ 31 := by omega
          simp [this, ho]

example : parseTimezone c!"-8:30" = some (-30600) ∧ Zone.write ⟨some true, none, 8, true, some (3, 0)⟩ = c!"-8:30" := by decide
example : parseTimezone c!"+12345" = some 12345 ∧ parseTimezone c!"8:0" = none ∧ parseTimezone c!"93600" = none := by decide
/-- Up to four digits are hours and minutes, so that an hour and a half cannot be written in seconds. -/
theorem C77_few_digits_are_hours : parseTimezone c!"5400" = none ∧ parseTimezone c!"05400" = some 5400 ∧
    parseTimezone c!"130" = some 5400 := by decide

/-! ### C78: characters -/

/-- A digit below a base up to 16, in small letters. -/
private theorem digitChar_val : ∀ d : Fin 16, digitVal (Nat.digitChar d) = some d.val := by decide

private theorem digitsVal_append (b : Nat) : ∀ (s t : Str) (n : Nat), digitsVal b n (s ++ t) = (digitsVal b n s).bind (digitsVal b · t)
  | [], t, n => rfl
  | c :: s, t, n => by
    rw [List.cons_append, digitsVal, digitsVal]
    cases digitVal c with
    | none => rfl
    | some d =>
      dsimp only
      split
      · exact digitsVal_append b s t _
      · rfl

private theorem digitsVal_toDigits {b : Nat} (h1 : 1 < b) (h2 : b ≤ 16) (n : Nat) : digitsVal b 0 (Nat.toDigits b n) = some n := by
  have one : ∀ (d k : Nat), d < b → digitsVal b k [Nat.digitChar d] = some (k * b + d) := by
    intro d k hd
    have := digitChar_val ⟨d, by omega⟩
    rw [digitsVal]
    dsimp only at this
    rw [this]
    simp [hd, digitsVal]
  induction n using Nat.strongRecOn with
  | ind n ih =>
    by_cases h : n < b
    · rw [Nat.toDigits_of_lt_base h, one n 0 h]; simp
    · rw [Nat.toDigits_of_base_le h1 (by omega), digitsVal_append, ih (n / b) (Nat.div_lt_self (by omega) h1)]
      simp only [Option.bind_some]
      rw [one _ _ (Nat.mod_lt _ (by omega)), Nat.mul_comm, Nat.div_add_mod]

private theorem toDigits_head (b n : Nat) (hb : 1 < b) (h2 : b ≤ 16) : (Nat.toDigits b n).head? ≠ some '+' := by
  intro h
  have hv := digitsVal_toDigits hb h2 n
  cases hd : Nat.toDigits b n with
  | nil => rw [hd] at h; cases h
  | cons c s =>
    rw [hd] at h hv
    simp at h
    subst h
    rw [digitsVal] at hv
    cases hv

private theorem parseU32_toDigits {b : Nat} (h1 : 1 < b) (h2 : b ≤ 16) {n : Nat} (hn : n < 2 ^ 32) :
    parseU32 b (Nat.toDigits b n) = some n := by
  have hne : Nat.toDigits b n ≠ [] := Nat.toDigits_ne_nil
  have hp := toDigits_head b n h1 h2
  have hv := digitsVal_toDigits h1 h2 n
  obtain ⟨c, s, hc⟩ := List.exists_cons_of_ne_nil hne
  rw [hc] at hp hv ⊢
  simp at hp
  unfold parseU32
  split
  · rename_i hh; cases hh; exact absurd rfl hp
  · simp [hv, hn]

private theorem char_range (c : Char) : c.toNat < 0xD800 ∨ (0xDFFF < c.toNat ∧ c.toNat < 0x110000) := c.valid

private theorem getChar_toDigits {b : Nat} (h1 : 1 < b) (h2 : b ≤ 16) (c : Char) : getCharText (Nat.toDigits b c.toNat) b = some [c] := by
  have hr := char_range c
  have : c.toNat < 2 ^ 32 := by omega
  unfold getCharText
  rw [parseU32_toDigits h1 h2 this]
  simp only [hr, if_true, Char.ofNat_toNat]

private theorem getChar_bad {b : Nat} (h1 : 1 < b) (h2 : b ≤ 16) {n : Nat} (hn : (0xD800 ≤ n ∧ n ≤ 0xDFFF) ∨ 0x110000 ≤ n) :
    getCharText (Nat.toDigits b n) b = none := by
  unfold getCharText
  by_cases h : n < 2 ^ 32
  · rw [parseU32_toDigits h1 h2 h]
    have : ¬ (n < 0xD800 ∨ (0xDFFF < n ∧ n < 0x110000)) := by omega
    simp only [this, if_false]
  · have hne : Nat.toDigits b n ≠ [] := Nat.toDigits_ne_nil
    have hp := toDigits_head b n h1 h2
    have hv := digitsVal_toDigits h1 h2 n
    obtain ⟨c, s, hc⟩ := List.exists_cons_of_ne_nil hne
    rw [hc] at hp hv ⊢
    simp at hp
    have : parseU32 b (c :: s) = none := by
      unfold parseU32
      split
      · rename_i hh; cases hh; exact absurd rfl hp
      · simp [hv, h]
    rw [this]

/-- The two ways to write a character by its number. -/
def charCode (hex : Bool) (n : Nat) : Str := if hex then c!"#x" ++ Nat.toDigits 16 n else c!"#" ++ Nat.toDigits 10 n

/-- With blanks around it, and `&` and `;` or not. -/
def charArg (blanks1 blanks2 : Nat) (amp semi : Bool) (code : Str) : Str :=
  List.replicate blanks1 ' ' ++ (if amp then c!"&" else []) ++ code ++ (if semi then c!";" else []) ++ List.replicate blanks2 ' '

private theorem digits_plain {b n : Nat} (h1 : 1 < b) (h2 : b ≤ 16) : ∀ c ∈ Nat.toDigits b n, isWS c = false ∧ c ≠ ';' ∧ c ≠ 'x' := by
  have one : ∀ d : Fin 16, isWS (Nat.digitChar d) = false ∧ Nat.digitChar d ≠ ';' ∧ Nat.digitChar d ≠ 'x' := by decide
  induction n using Nat.strongRecOn with
  | ind n ih =>
    by_cases h : n < b
    · rw [Nat.toDigits_of_lt_base h]
      intro c hc
      simp at hc
      subst hc
      exact one ⟨n, by omega⟩
    · rw [Nat.toDigits_of_base_le h1 (by omega)]
      intro c hc
      simp at hc
      rcases hc with hc | rfl
      · exact ih (n / b) (Nat.div_lt_self (by omega) h1) c hc
      · exact one ⟨n % b, by have := Nat.mod_lt n (show b > 0 by omega); omega⟩

private theorem trim_blanks (a b : Nat) {s : Str} (h1 : ∀ c, s.head? = some c → isWS c = false)
    (h2 : ∀ c, s.getLast? = some c → isWS c = false) : trim (List.replicate a ' ' ++ s ++ List.replicate b ' ') = s := by
  have drop : ∀ (k : Nat) (t : Str), (∀ c, t.head? = some c → isWS c = false) → (List.replicate k ' ' ++ t).dropWhile isWS = t := by
    intro k t ht
    induction k with
    | zero =>
      cases t with
      | nil => rfl
      | cons c t => simp [ht c rfl]
    | succ k ih => rw [List.replicate_succ, List.cons_append, List.dropWhile_cons]; simpa [isWS] using ih
  unfold trim trimEnd trimStart
  cases s with
  | nil =>
    have h0 := drop (a + b) [] (by simp)
    have e : List.replicate a ' ' ++ [] ++ List.replicate b ' ' = List.replicate (a + b) ' ' ++ [] := by simp
    rw [e, h0]; rfl
  | cons c s =>
    rw [List.append_assoc, drop a _ (by intro d hd; exact h1 d (by simpa using hd))]
    rw [List.reverse_append, List.reverse_replicate, drop b _ (by intro d hd; exact h2 d (by rw [List.head?_reverse] at hd; exact hd)), List.reverse_reverse]

theorem strip_arg {m k : Nat} {amp semi : Bool} {code : Str} (hne : code ≠ []) (h1 : ∀ c, code.head? = some c → isWS c = false ∧ c ≠ '&')
    (h2 : ∀ c, code.getLast? = some c → isWS c = false ∧ c ≠ ';') : stripEntity (charArg m k amp semi code) = code := by
  obtain ⟨c, code', rfl⟩ := List.exists_cons_of_ne_nil hne
  obtain ⟨r, l, hl⟩ : ∃ r l, c :: code' = r ++ [l] := ⟨_, _, (List.dropLast_concat_getLast hne).symm⟩
  have hc := h1 c rfl
  have hlast : isWS l = false ∧ l ≠ ';' := h2 l (by rw [hl]; simp)
  have ht : trim (charArg m k amp semi (c :: code')) = (if amp then c!"&" else []) ++ (c :: code') ++ (if semi then c!";" else []) := by
    unfold charArg
    have e : ∀ (x y z u v : Str), x ++ y ++ z ++ u ++ v = x ++ (y ++ z ++ u) ++ v := by intros; simp
    rw [e]
    apply trim_blanks
    · intro d hd
      cases amp with
      | true => simp at hd; subst hd; rfl
      | false => simp at hd; subst hd; exact hc.1
    · intro d hd
      rw [hl] at hd
      cases semi with
      | true => simp at hd; subst hd; rfl
      | false => simp at hd; subst hd; exact hlast.1
  unfold stripEntity
  dsimp only
  rw [ht]
  have hamp : (stripPfx c!"&" ((if amp then c!"&" else []) ++ (c :: code') ++ (if semi then c!";" else []))).getD
      ((if amp then c!"&" else []) ++ (c :: code') ++ (if semi then c!";" else [])) = (c :: code') ++ (if semi then c!";" else []) := by
    cases amp with
    | true => simp [stripPfx]
    | false => simp [stripPfx, Ne.symm hc.2]
  rw [hamp, hl]
  cases semi with
  | true => simp [stripSfx, stripPfx]
  | false => simp [stripSfx, stripPfx, Ne.symm hlast.2]

private theorem code_ends (hex : Bool) (n : Nat) : charCode hex n ≠ [] ∧ (∀ c, (charCode hex n).head? = some c → isWS c = false ∧ c ≠ '&') ∧
    (∀ c, (charCode hex n).getLast? = some c → isWS c = false ∧ c ≠ ';') := by
  have last : ∀ (b : Nat) (p : Str), 1 < b → b ≤ 16 → ∀ c, (p ++ Nat.toDigits b n).getLast? = some c → isWS c = false ∧ c ≠ ';' := by
    intro b p h1 h2 c hc
    have hne : Nat.toDigits b n ≠ [] := Nat.toDigits_ne_nil
    rw [List.getLast?_append, List.getLast?_eq_some_getLast hne] at hc
    have := digits_plain h1 h2 c (by simp at hc; rw [← hc]; exact List.getLast_mem hne)
    exact ⟨this.1, this.2.1⟩
  cases hex
  · exact ⟨by simp [charCode], by intro c hc; simp [charCode] at hc; subst hc; exact ⟨rfl, by decide⟩,
      last 10 c!"#" (by omega) (by omega)⟩
  · exact ⟨by simp [charCode], by intro c hc; simp [charCode] at hc; subst hc; exact ⟨rfl, by decide⟩,
      last 16 c!"#x" (by omega) (by omega)⟩

private theorem dec_not_x (n : Nat) : stripPfx c!"#x" (c!"#" ++ Nat.toDigits 10 n) = none := by
  cases h : Nat.toDigits 10 n with
  | nil => rfl
  | cons c s =>
    have := (digits_plain (b := 10) (n := n) (by omega) (by omega) c (by rw [h]; simp)).2.2
    simp [stripPfx, Ne.symm this]

/-- C78: every character can be written by its number, decimal or hexadecimal, with `&`, `;` and blanks around it or
not (if the table of named entities has no such name). -/
theorem C78_char_codes (w : World) (c : Char) (hex amp semi : Bool) (m k : Nat) (hw : w.entity (charCode hex c.toNat) = none) :
    findEntity w (stripEntity (charArg m k amp semi (charCode hex c.toNat))) = some [c] := by
  obtain ⟨h1, h2, h3⟩ := code_ends hex c.toNat
  rw [strip_arg h1 h2 h3]
  unfold findEntity
  rw [hw]
  dsimp only
  cases hex with
  | true =>
    have : stripPfx c!"#x" (charCode true c.toNat) = some (Nat.toDigits 16 c.toNat) := by simp [charCode, stripPfx]
    rw [this, Option.bind_some, getChar_toDigits (by omega) (by omega)]
  | false =>
    have e : charCode false c.toNat = c!"#" ++ Nat.toDigits 10 c.toNat := rfl
    have e2 : stripPfx c!"#" (c!"#" ++ Nat.toDigits 10 c.toNat) = some (Nat.toDigits 10 c.toNat) := by simp [stripPfx]
    rw [e, dec_not_x, e2, Option.bind_none]
    dsimp only
    rw [Option.bind_some, getChar_toDigits (by omega) (by omega)]

/-- C78: numbers that are not characters (surrogates, and above 10FFFF) are rejected. -/
theorem C78_no_char (w : World) (n : Nat) (hn : (0xD800 ≤ n ∧ n ≤ 0xDFFF) ∨ 0x110000 ≤ n) (hex amp semi : Bool) (m k : Nat)
    (hw : w.entity (charCode hex n) = none) : findEntity w (stripEntity (charArg m k amp semi (charCode hex n))) = none := by
  obtain ⟨h1, h2, h3⟩ := code_ends hex n
  rw [strip_arg h1 h2 h3]
  unfold findEntity
  rw [hw]
  dsimp only
  cases hex with
  | true =>
    have e1 : stripPfx c!"#x" (charCode true n) = some (Nat.toDigits 16 n) := by simp [charCode, stripPfx]
    have e2 : stripPfx c!"#" (charCode true n) = some ('x' :: Nat.toDigits 16 n) := by simp [charCode, stripPfx]
    have e3 : getCharText ('x' :: Nat.toDigits 16 n) 10 = none := rfl
    rw [e1, e2, Option.bind_some, getChar_bad (by omega) (by omega) hn, Option.bind_some, e3]
  | false =>
    have e : charCode false n = c!"#" ++ Nat.toDigits 10 n := rfl
    have e2 : stripPfx c!"#" (c!"#" ++ Nat.toDigits 10 n) = some (Nat.toDigits 10 n) := by simp [stripPfx]
    rw [e, dec_not_x, e2, Option.bind_none]
    dsimp only
    rw [Option.bind_some, getChar_bad (by omega) (by omega) hn]

example : charArg 1 0 true true (charCode true 0x1F600) = c!" &#x1f600;" := by decide +kernel
example : charArg 0 0 false false (charCode false 65) = c!"#65" := by decide +kernel

/-! ### C71: the marks of alignment -/

/-- C71: the mark at the beginning of the name of an `[[image]]` or `[[toc]]` block says how it is aligned and whether
it floats. -/
theorem C71_float_marks (name : Str) (a : FloatAlign) : FloatAlign.parse name = some a ↔
    ∃ mark rest, name = mark ++ rest ∧ (mark, a) ∈ [(c!"=", ⟨.center, false⟩), (c!"<", ⟨.left, false⟩), (c!">", ⟨.right, false⟩),
      (c!"f<", ⟨.left, true⟩), (c!"F<", ⟨.left, true⟩), (c!"f>", ⟨.right, true⟩), (c!"F>", (⟨.right, true⟩ : FloatAlign))] := by
  constructor
  · intro h
    unfold FloatAlign.parse at h
    split at h
    all_goals first
      | (simp only [Option.some.injEq] at h; subst h; first
          | exact ⟨c!"=", _, rfl, by simp⟩
          | exact ⟨c!"<", _, rfl, by simp⟩
          | exact ⟨c!">", _, rfl, by simp⟩
          | exact ⟨c!"f<", _, rfl, by simp⟩
          | exact ⟨c!"F<", _, rfl, by simp⟩
          | exact ⟨c!"f>", _, rfl, by simp⟩
          | exact ⟨c!"F>", _, rfl, by simp⟩)
      | cases h
  · rintro ⟨m, r, rfl, h⟩
    simp only [List.mem_cons, Prod.mk.injEq, List.not_mem_nil, or_false] at h
    rcases h with ⟨rfl, rfl⟩ | ⟨rfl, rfl⟩ | ⟨rfl, rfl⟩ | ⟨rfl, rfl⟩ | ⟨rfl, rfl⟩ | ⟨rfl, rfl⟩ | ⟨rfl, rfl⟩ <;> rfl

example : FloatAlign.parse c!"F>image" = some ⟨.right, true⟩ ∧ FloatAlign.parse c!"f=image" = none := by decide +kernel

end Ftml
