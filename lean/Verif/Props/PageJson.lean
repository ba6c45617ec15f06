import Verif.Model.PageJson
/-! Page information in JSON (C101). -/
namespace Ftml.PageJson
open Serde

variable {F : Type} {o : Floats F}

/-- The object has exactly one field of that name, with that value. -/
def Once (fs : List (Str × Value F)) (k : Str) (v : Value F) : Prop :=
  ∃ pre post, fs = pre ++ (k, v) :: post ∧ (∀ p ∈ pre ++ post, p.1 ≠ k)

/-- The field says which text there is, if any: a text, or null, or the field is missing. -/
def Perhaps (fs : List (Str × Value F)) (k : Str) : Option Str → Prop
  | some s => Once fs k (.json (.str s))
  | none => Once fs k (.json .null) ∨ ∀ p ∈ fs, p.1 ≠ k

/-- The scores that a number in JSON stands for: integers of 64 bits with a sign are integers, other numbers
floating-point numbers. -/
def ScoreOf (o : Floats F) (v : Value F) (s : Score F) : Prop :=
  (∃ i : Int, (v = .int i ∨ ∃ n : Nat, i = n ∧ v = .json (.num n)) ∧
    (-2 ^ 63 ≤ i ∧ i < 2 ^ 63 ∧ s = .integer i ∨ ¬(-2 ^ 63 ≤ i ∧ i < 2 ^ 63) ∧ s = .float (o.ofInt i))) ∨
  ∃ x, v = .real x ∧ s = .float x

private theorem filter_one {fs : List (Str × Value F)} {k : Str} {p : Str × Value F} :
    fs.filter (fun q => q.1 == k) = [p] ↔ p.1 = k ∧ Once fs k p.2 := by
  constructor
  · intro h
    induction fs with
    | nil => cases h
    | cons q fs ih =>
      by_cases hq : q.1 = k
      · rw [List.filter_cons_of_pos (by simpa using hq)] at h
        obtain ⟨rfl, h2⟩ := List.cons.inj h
        refine ⟨hq, [], fs, by simp [← hq], fun p hp e => ?_⟩
        have := List.filter_eq_nil_iff.1 h2 p (by simpa using hp)
        simp [e] at this
      · rw [List.filter_cons_of_neg (by simpa using hq)] at h
        obtain ⟨h1, pre, post, e, h2⟩ := ih h
        exact ⟨h1, q :: pre, post, by rw [e]; rfl, List.forall_mem_cons.2 ⟨hq, h2⟩⟩
  · rintro ⟨h1, pre, post, rfl, h2⟩
    have a : ∀ l : List (Str × Value F), (∀ p ∈ l, p.1 ≠ k) → l.filter (fun q => q.1 == k) = [] := fun l h =>
      List.filter_eq_nil_iff.2 fun p hp => by simpa using h p hp
    rw [List.filter_append, a pre fun p hp => h2 p (List.mem_append_left _ hp), List.filter_cons_of_pos (by simp),
      a post fun p hp => h2 p (List.mem_append_right _ hp)]
    rw [← h1]
    rfl

private theorem oneField_iff {fs : List (Str × Value F)} {k : Str} {v : Value F} : oneField fs k = some v ↔ Once fs k v := by
  unfold oneField
  constructor
  · intro h
    split at h
    · rename_i p hp
      cases h
      exact (filter_one.1 hp).2
    · cases h
  · intro h
    rw [(filter_one (p := (k, v))).2 ⟨rfl, h⟩]

private theorem anyField_iff {fs : List (Str × Value F)} {k : Str} {v : Value F} :
    anyField fs k = some v ↔ Once fs k v ∨ v = .json .null ∧ ∀ p ∈ fs, p.1 ≠ k := by
  unfold anyField
  constructor
  · intro h
    split at h
    · rename_i hp
      cases h
      refine .inr ⟨rfl, fun p hp' => ?_⟩
      simpa using List.filter_eq_nil_iff.1 hp p hp'
    · rename_i p hp
      cases h
      exact .inl (filter_one.1 hp).2
    · cases h
  · rintro (h | ⟨rfl, h⟩)
    · rw [(filter_one (p := (k, v))).2 ⟨rfl, h⟩]
    · rw [List.filter_eq_nil_iff.2 fun p hp => by simpa using h p hp]

private theorem str_iff {fs : List (Str × Value F)} {k s : Str} :
    ((oneField fs k).bind fun v => (plainValue v).bind asStr) = some s ↔ Once fs k (.json (.str s)) := by
  rw [← oneField_iff, Option.bind_eq_some_iff]
  constructor
  · rintro ⟨v, h, h'⟩
    cases v with
    | json j => cases j <;> cases h'; exact h
    | _ => cases h'
  · exact fun h => ⟨_, h, rfl⟩

private theorem opt_iff {fs : List (Str × Value F)} {k : Str} {s : Option Str} :
    ((anyField fs k).bind fun v => (plainValue v).bind (asOpt asStr)) = some s ↔ Perhaps fs k s := by
  rw [Option.bind_eq_some_iff]
  constructor
  · rintro ⟨v, h, h'⟩
    cases v with
    | json j =>
      rw [anyField_iff] at h
      cases j <;> cases h'
      · exact h.imp id (·.2)
      · rcases h with h | ⟨h, _⟩
        · exact h
        · cases h
    | _ => cases h'
  · intro h
    cases s with
    | none => exact ⟨.json .null, anyField_iff.2 (h.imp id fun h => ⟨rfl, h⟩), rfl⟩
    | some s => exact ⟨.json (.str s), anyField_iff.2 (.inl h), rfl⟩

private theorem all_strs {l : List Json} {ts : List Str} : readAll asStr l = some ts ↔ l = ts.map .str := by
  constructor
  · intro h
    induction l generalizing ts with
    | nil => cases h; rfl
    | cons j l ih =>
      rw [readAll] at h
      obtain ⟨a, h1, h⟩ := Option.bind_eq_some_iff.1 h
      obtain ⟨b, h2, h⟩ := Option.bind_eq_some_iff.1 h
      cases h
      cases j <;> cases h1
      rw [ih h2]
      rfl
  · rintro rfl
    induction ts with
    | nil => rfl
    | cons t ts ih => rw [List.map_cons, readAll, ih]; rfl

private theorem tags_iff {fs : List (Str × Value F)} {k : Str} {ts : List Str} :
    ((oneField fs k).bind fun v => (plainValue v).bind fun j => (asArr j).bind (readAll asStr)) = some ts ↔
      Once fs k (.json (.arr (ts.map .str))) := by
  rw [← oneField_iff, Option.bind_eq_some_iff]
  constructor
  · rintro ⟨v, h, h'⟩
    cases v with
    | json j =>
      cases j with
      | arr l => rw [← all_strs.1 h']; exact h
      | _ => cases h'
    | _ => cases h'
  · exact fun h => ⟨_, h, all_strs.2 rfl⟩

private theorem score_iff {v : Value F} {s : Score F} : readScore o v = some s ↔ ScoreOf o v s := by
  unfold ScoreOf
  constructor
  · intro h
    cases v with
    | int i =>
      cases h
      refine .inl ⟨i, .inl rfl, ?_⟩
      by_cases hi : -2 ^ 63 ≤ i ∧ i < 2 ^ 63
      · exact .inl ⟨hi.1, hi.2, by rw [if_pos hi]⟩
      · exact .inr ⟨hi, by rw [if_neg hi]⟩
    | real x => cases h; exact .inr ⟨x, rfl, rfl⟩
    | json j =>
      cases j with
      | num n =>
        cases h
        refine .inl ⟨n, .inr ⟨n, rfl, rfl⟩, ?_⟩
        by_cases hn : n < 2 ^ 63
        · exact .inl ⟨by omega, by omega, by rw [if_pos hn]⟩
        · exact .inr ⟨by omega, by rw [if_neg hn]⟩
      | _ => cases h
  · rintro (⟨i, rfl | ⟨n, rfl, rfl⟩, ⟨h1, h2, rfl⟩ | ⟨h, rfl⟩⟩ | ⟨x, rfl, rfl⟩)
    · show some (if _ then _ else _) = _
      rw [if_pos ⟨h1, h2⟩]
    · show some (if _ then _ else _) = _
      rw [if_neg h]
    · show some (if _ then _ else _) = _
      rw [if_pos (by omega)]
    · show some (if _ then _ else _) = _
      rw [if_neg (by omega)]
    · rfl

/-- C101: page information is read from an object exactly if it has each of the fields `page`, `site`, `title`, `score`,
`tags` and `language` once, texts but for the score, a number, and the tags, an array of texts, and the fields `category`
and `alt-title` at most once, as a text or null; other fields do not matter, and neither does the order. -/
theorem C101_read {fs : List (Str × Value F)} {p : PageData F} : readInfo o fs = some p ↔
    Once fs c!"page" (.json (.str p.page)) ∧ Perhaps fs c!"category" p.category ∧ Once fs c!"site" (.json (.str p.site)) ∧
    Once fs c!"title" (.json (.str p.title)) ∧ Perhaps fs c!"alt-title" p.altTitle ∧
    (∃ v, Once fs c!"score" v ∧ ScoreOf o v p.score) ∧ Once fs c!"tags" (.json (.arr (p.tags.map .str))) ∧
    Once fs c!"language" (.json (.str p.language)) := by
  have e : readInfo o fs =
      ((oneField fs c!"page").bind fun v => (plainValue v).bind asStr).bind fun page =>
      ((anyField fs c!"category").bind fun v => (plainValue v).bind (asOpt asStr)).bind fun category =>
      ((oneField fs c!"site").bind fun v => (plainValue v).bind asStr).bind fun site =>
      ((oneField fs c!"title").bind fun v => (plainValue v).bind asStr).bind fun title =>
      ((anyField fs c!"alt-title").bind fun v => (plainValue v).bind (asOpt asStr)).bind fun altTitle =>
      ((oneField fs c!"score").bind (readScore o)).bind fun score =>
      ((oneField fs c!"tags").bind fun v => (plainValue v).bind fun j => (asArr j).bind (readAll asStr)).bind fun tags =>
      ((oneField fs c!"language").bind fun v => (plainValue v).bind asStr).bind fun language =>
      some (⟨⟨page, category, site, title, altTitle, tags, language⟩, score⟩ : PageData F) := by
    simp only [Option.bind_assoc]
    rfl
  rw [e]
  simp only [Option.bind_eq_some_iff (f := fun (_ : Str) => _), Option.bind_eq_some_iff (f := fun (_ : Option Str) => _),
    Option.bind_eq_some_iff (f := fun (_ : Score F) => _), Option.bind_eq_some_iff (f := fun (_ : List Str) => _)]
  simp only [str_iff, opt_iff, tags_iff]
  have sc : ∀ s, (oneField fs c!"score").bind (readScore o) = some s ↔ ∃ v, Once fs c!"score" v ∧ ScoreOf o v s := by
    intro s
    rw [Option.bind_eq_some_iff]
    exact exists_congr fun v => and_congr oneField_iff score_iff
  simp only [sc]
  constructor
  · rintro ⟨a, h1, b, h2, c, h3, d, h4, e, h5, f, h6, g, h7, h, h8, e⟩
    cases e
    exact ⟨h1, h2, h3, h4, h5, h6, h7, h8⟩
  · rintro ⟨h1, h2, h3, h4, h5, h6, h7, h8⟩
    exact ⟨_, h1, _, h2, _, h3, _, h4, _, h5, _, h6, _, h7, _, h8, rfl⟩

/-- C101: the fields of page information in JSON. -/
theorem C101_format (p : PageData F) : writeInfo o p =
    [(c!"page", .json (.str p.page)), (c!"category", .json (match p.category with | some s => .str s | none => .null)),
     (c!"site", .json (.str p.site)), (c!"title", .json (.str p.title)),
     (c!"alt-title", .json (match p.altTitle with | some s => .str s | none => .null)),
     (c!"score", match p.score with | .integer i => .int i | .float x => if o.finite x then .real x else .json .null),
     (c!"tags", .json (.arr (p.tags.map .str))), (c!"language", .json (.str p.language))] := by
  obtain ⟨⟨a, b, c, d, e, f, g⟩, s⟩ := p
  cases b <;> cases e <;> cases s <;> rfl

private theorem back (p : PageData F) (s : Option (Score F)) (h : readScore o (writeScore o p.score) = s) :
    readInfo o (writeInfo o p) = s.map fun s => { p with score := s } := by
  obtain ⟨⟨a, b, c, d, e, f, g⟩, sc⟩ := p
  refine Eq.trans (b := (asOpt asStr (writeOpt b)).bind fun b => (asOpt asStr (writeOpt e)).bind fun e =>
    (readScore o (writeScore o sc)).bind fun s => (readAll asStr (f.map Json.str)).bind fun f =>
      some (⟨⟨a, b, c, d, e, f, g⟩, s⟩ : PageData F)) rfl ?_
  have ho : ∀ x, asOpt asStr (writeOpt x) = some x := fun x => by cases x <;> rfl
  rw [ho, ho, show readScore o (writeScore o sc) = s from h, all_strs.2 rfl]
  cases s <;> rfl

/-- C101: page information that is written as JSON and read back is the same, whatever its texts, if its score is an
integer of 64 bits or finite; no other page information can be read back. -/
theorem C101_round_trip (p : PageData F) :
    (match p.score with
      | .integer i => -2 ^ 63 ≤ i ∧ i < 2 ^ 63 → readInfo o (writeInfo o p) = some p
      | .float x => readInfo o (writeInfo o p) = if o.finite x then some p else none) := by
  have h := fun s => back (o := o) p s
  obtain ⟨q, sc⟩ := p
  cases sc with
  | integer i => exact fun hi => h (some (.integer i)) (by simp only [writeScore, readScore]; rw [if_pos hi])
  | float x =>
    dsimp only
    cases hx : o.finite x with
    | true => exact h (some (.float x)) (by simp [writeScore, hx, readScore])
    | false => exact h none (by simp [writeScore, hx, readScore])

/-- C101: the score the interface tells is the number that stands in the object. -/
theorem C101_score {fs : List (Str × Value F)} {p : PageData F} (h : readInfo o fs = some p) :
    (∃ i : Int, (Once fs c!"score" (.int i) ∨ ∃ n : Nat, i = n ∧ Once fs c!"score" (.json (.num n))) ∧ p.score.toF64 o = o.ofInt i) ∨
    ∃ x, Once fs c!"score" (.real x) ∧ p.score.toF64 o = x := by
  obtain ⟨_, _, _, _, _, ⟨v, hv, hs⟩, _⟩ := C101_read.1 h
  rcases hs with ⟨i, rfl | ⟨n, rfl, rfl⟩, hs⟩ | ⟨x, rfl, hs⟩
  · exact .inl ⟨i, .inl hv, by rcases hs with ⟨_, _, hs⟩ | ⟨_, hs⟩ <;> rw [hs] <;> rfl⟩
  · exact .inl ⟨n, .inr ⟨n, rfl, hv⟩, by rcases hs with ⟨_, _, hs⟩ | ⟨_, hs⟩ <;> rw [hs] <;> rfl⟩
  · exact .inr ⟨x, hv, by rw [hs]; rfl⟩

/-- Numbers that are thirds, or infinite, for a concrete case. -/
private def thirds : Floats (Option Int) := ⟨fun i => some (3 * i), Option.isSome⟩

example : (readInfo thirds [(c!"site", .json (.str c!"s")), (c!"score", .real (some 4)), (c!"page", .json (.str c!"p")),
    (c!"votes", .int 7), (c!"title", .json (.str c!"t")), (c!"alt-title", .json .null), (c!"language", .json (.str c!"en")),
    (c!"tags", .json (.arr [.str c!"x"]))]).map (fun p => (p.page, p.category, p.altTitle, p.tags, p.score.toF64 thirds)) =
      some (c!"p", none, none, [c!"x"], some 4) ∧
    (readInfo thirds (writeInfo thirds ⟨⟨c!"p", none, c!"s", c!"t", none, [], c!"en"⟩, .float none⟩)).isNone = true ∧
    (readInfo thirds (writeInfo thirds ⟨⟨c!"p", none, c!"s", c!"t", none, [], c!"en"⟩, .integer (-3)⟩)).isSome = true :=
  ⟨rfl, rfl, rfl⟩

end Ftml.PageJson
