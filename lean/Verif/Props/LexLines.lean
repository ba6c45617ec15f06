import Verif.Lemmas.LexLocal
import Verif.Props.Lexer
/-
C79: line ends part the token stream.
-/
namespace Ftml
open Lexer

private theorem lexed_all (n : Nat) : ∀ s : Str, s.length ≤ n → ∃ ts, slices ts = s ∧ LexList ts [] := by
  induction n with
  | zero =>
    intro s hs
    obtain rfl : s = [] := List.length_eq_zero_iff.1 (by omega)
    exact ⟨[], rfl, .nil⟩
  | succ n ih =>
    intro s hs
    cases s with
    | nil => exact ⟨[], rfl, .nil⟩
    | cons c s =>
      cases h : runToken alternatives (c :: s) with
      | none => exact (fallback c s h).elim
      | some x =>
        obtain ⟨g, r⟩ := x
        obtain ⟨h1, h2, _⟩ := runToken_progress alternatives_ok h
        obtain ⟨ts, rfl, h3⟩ := ih r (by omega)
        refine ⟨g ++ ts, by rw [slices_append, h1], .step ?_ ?_ h3⟩
        · rw [slices_append, List.append_nil, ← h1, h, List.append_nil]
        · intro e
          rw [e, List.nil_append] at h1
          rw [h1] at h2
          exact Nat.lt_irrefl _ h2

/-- The token, further on in the text. -/
def ETok.moved (n : Nat) (t : ETok) : ETok := { t with start := n + t.start, stop := n + t.stop }

private theorem addSpans_moved (n m : Nat) (ts : List (Token × Str)) : addSpans (n + m) ts = (addSpans m ts).map (ETok.moved n) := by
  induction ts generalizing m with
  | nil => rfl
  | cons x ts ih =>
    obtain ⟨t, s⟩ := x
    simp only [addSpans, List.map_cons, Nat.add_assoc, ih]
    rfl

/-- C79: line ends part the token stream: the tokens of a text `u ++ "\n" ++ v`, where the line before the line
end is not empty, are the tokens of `u`, and then those of `"\n" ++ v`, further on.  No token reaches from one
line into the next, and how a line is read does not depend on what comes after it. -/
theorem C79_lines (u v : Str) (c : Char) (h1 : c ≠ '\n') (h2 : c ≠ '\r') :
    (tokenize (u ++ c :: '\n' :: v)).tokens =
      (tokenize (u ++ [c])).tokens.dropLast ++ ((tokenize ('\n' :: v)).tokens.drop 1).map (ETok.moved (byteLen (u ++ [c]))) := by
  obtain ⟨ts, e1, hl⟩ := text_lexed _ (u ++ [c]) (Nat.le_refl _) ⟨u, c, rfl, h1, h2⟩
  obtain ⟨ts', e2, hl'⟩ := lexed_all _ ('\n' :: v) (Nat.le_refl _)
  have e : u ++ c :: '\n' :: v = slices (ts ++ ts') := by rw [slices_append, e1, e2]; simp
  rw [e, ← e1, ← e2, tokenize_list (hl [] (.inl rfl)), tokenize_list hl', tokenize_list (LexList.append (hl _ (.inr ⟨v, by rw [e2]; simp⟩)) hl')]
  have hd : ∀ (a e : ETok) (l : List ETok), (a :: (l ++ [e])).dropLast = a :: l := fun a e l => by
    rw [← List.cons_append, List.dropLast_concat]
  have hm := addSpans_moved (byteLen (slices ts)) 0 ts'
  rw [List.drop_one, List.tail_cons, List.map_append, addSpans_append, hd, Nat.zero_add, slices_append, byteLen_append, ← hm]
  simp [ETok.moved]

/-- Without the condition it fails: an empty line is one token. -/
example : (tokenize c!"a\n\nb").tokens.length ≠ (tokenize c!"a\n").tokens.length + (tokenize c!"\nb").tokens.length - 2 := by decide +kernel
example : (tokenize c!"a**\nb").tokens = (tokenize c!"a**").tokens.dropLast ++
    [⟨.lineBreak, c!"\n", 3, 4⟩, ⟨.identifier, c!"b", 4, 5⟩, ⟨.inputEnd, [], 5, 5⟩] := by decide +kernel

/-- A block comment start and a link opened on one line do not change how the next line is read. -/
example : ((tokenize c!"[!-- [[[x\n**b**").tokens.drop 5).map (fun t => (t.token, t.slice)) = ((tokenize c!"\n**b**").tokens.drop 1).map (fun t => (t.token, t.slice)) := by decide +kernel

/-! ### Blanks -/

private theorem blank_alt {a : List (Token × Peg)} (ha : a ∈ alternatives) {p : Peg} (hp : (Token.whitespace, p) ∈ a) :
    a = [(.whitespace, Peg.plus (.alt (.lit [' ']) (.lit ['\t'])))] := by
  have h : ∀ l : List (List (Token × Peg)), (∀ a ∈ l, (a.map (·.1)).contains Token.whitespace = false) → a ∈ l → False := by
    intro l hl h
    have := hl a h
    simp only [List.contains_eq_mem, decide_eq_false_iff_not, List.mem_map, not_exists, not_and] at this
    exact this _ hp rfl
  have e : alternatives = alternatives.take 58 ++ (alternatives.drop 58).take 1 ++ alternatives.drop 59 := by rfl
  rw [e] at ha
  rcases List.mem_append.1 ha with ha | ha
  · rcases List.mem_append.1 ha with ha | ha
    · exact (h _ (by decide) ha).elim
    · exact List.mem_singleton.1 ha
  · exact (h _ (by decide) ha).elim

private theorem blank_run (s : Str) : (Peg.alt (.lit [' ']) (.lit ['\t'])).run s =
    match s with | c :: r => if c = ' ' ∨ c = '\t' then some ([c], r) else none | [] => none := by
  cases s with
  | nil => rfl
  | cons c r =>
    simp only [Peg.run, stripPfx_cons, stripPfx_nil]
    by_cases h1 : c = ' '
    · simp [h1]
    · by_cases h2 : c = '\t'
      · simp [h2]
      · simp [h1, h2]

private theorem blanks_run {s m r : Str} (h : (Peg.plus (.alt (.lit [' ']) (.lit ['\t']))).run s = some (m, r)) :
    (∃ c m', m = c :: m' ∧ (c = ' ' ∨ c = '\t')) ∧ ∀ c r', r = c :: r' → ¬ (c = ' ' ∨ c = '\t') := by
  have hb := blank_run
  generalize Peg.alt (.lit [' ']) (.lit ['\t']) = p at h hb
  simp only [Peg.plus, Peg.run] at h
  cases s with
  | nil => rw [hb] at h; cases h
  | cons c s =>
    rw [hb] at h
    by_cases hc : c = ' ' ∨ c = '\t'
    · simp only [hc, if_true, Option.some.injEq, Prod.mk.injEq] at h
      obtain ⟨rfl, rfl⟩ := h
      refine ⟨⟨c, _, rfl, hc⟩, ?_⟩
      intro d r' e hd
      have hlt : ∀ s m r, p.run s = some (m, r) → r.length < s.length := by
        intro s m r h
        rw [hb] at h
        cases s with
        | nil => cases h
        | cons x s =>
          dsimp only at h
          split at h
          · cases h; simp
          · cases h
      rcases repeatUpTo_stops hlt s.length s (Nat.le_refl _) with h | h
      · rw [e, hb] at h
        simp [hd] at h
      · rw [e] at h; cases h
    · simp [hc] at h

private theorem blank_group {g : List (Token × Str)} {s r : Str} (h : runToken alternatives s = some (g, r)) {x : Token × Str} (hx : x ∈ g)
    (ht : x.1 = .whitespace) : g = [x] ∧ (∃ c m', x.2 = c :: m' ∧ (c = ' ' ∨ c = '\t')) ∧ ∀ c r', r = c :: r' → ¬ (c = ' ' ∨ c = '\t') := by
  obtain ⟨a, ha, hr⟩ := runToken_mem h
  obtain ⟨p, hp, _⟩ := runAlt_prov hr x hx
  rw [ht] at hp
  rw [blank_alt ha hp] at hr
  simp only [runAlt] at hr
  cases hq : (Peg.plus (.alt (.lit [' ']) (.lit ['\t']))).run s with
  | none => rw [hq] at hr; cases hr
  | some y =>
    obtain ⟨m, r1⟩ := y
    rw [hq] at hr
    cases hr
    obtain rfl := List.mem_singleton.1 hx
    exact ⟨rfl, blanks_run hq⟩

private theorem blank_starts {xs : List (Token × Str)} {rest : Str} (h : LexList xs rest) : ∀ x ∈ xs, x.1 = .whitespace →
    ∃ c m', x.2 = c :: m' ∧ (c = ' ' ∨ c = '\t') := by
  induction h with
  | nil => simp
  | step h1 _ _ ih =>
    intro x hx ht
    rcases List.mem_append.1 hx with hx | hx
    · exact (blank_group h1 hx ht).2.1
    · exact ih x hx ht

private theorem blanks_apart {xs : List (Token × Str)} {rest : Str} (h : LexList xs rest) : ∀ pre a b post, xs = pre ++ a :: b :: post →
    a.1 = .whitespace → b.1 ≠ .whitespace := by
  induction h with
  | nil => intro pre a b post e; simp at e
  | @step g xs rest h1 hne h2 ih =>
    intro pre a b post e ha hb
    rcases List.append_eq_append_iff.1 e with ⟨a', rfl, e'⟩ | ⟨c', rfl, e'⟩
    · exact ih a' a b post e' ha hb
    · cases c' with
      | nil => exact ih [] a b post e'.symm ha hb
      | cons x c' =>
        obtain ⟨rfl, e'⟩ := List.cons.inj e'
        obtain ⟨g1, _, g3⟩ := blank_group h1 (x := a) (by simp) ha
        have hl := congrArg List.length g1
        simp at hl
        obtain ⟨rfl, rfl⟩ : pre = [] ∧ c' = [] := ⟨List.length_eq_zero_iff.1 (by omega), List.length_eq_zero_iff.1 (by omega)⟩
        replace e' : b :: post = xs := (List.cons.inj e').2
        subst e'
        obtain ⟨c, m', e1, e2⟩ := blank_starts h2 b (by simp) hb
        exact g3 c (m' ++ slices post ++ rest) (by simp [slices, e1]) e2

/-- **C57** Blanks are read as one token: after a token of blanks there is no other one. -/
theorem C57_blanks_maximal (text : Str) {pre post : List ETok} {a b : ETok} (h : (tokenize text).tokens = pre ++ a :: b :: post)
    (ha : a.token = .whitespace) : b.token ≠ .whitespace := by
  obtain ⟨ts, rfl, hl⟩ := lexed_all text.length text (Nat.le_refl _)
  rw [tokenize_list hl] at h
  intro hb
  cases pre with
  | nil => simp at h; rw [← h.1] at ha; cases ha
  | cons x pre =>
    simp only [List.cons_append, List.cons.injEq] at h
    have h' := congrArg (List.map fun t : ETok => (t.token, t.slice)) h.2
    simp only [List.map_append, List.map_cons, addSpans_map, List.map_nil] at h'
    rcases List.eq_nil_or_concat post with rfl | ⟨post', z, rfl⟩
    · have := congrArg List.getLast? h'
      simp at this
      rw [hb] at this
      cases this.1
    · have e : ts = pre.map (fun t : ETok => (t.token, t.slice)) ++ (a.token, a.slice) :: (b.token, b.slice) ::
          post'.map (fun t : ETok => (t.token, t.slice)) := by
        simp only [List.concat_eq_append, List.map_append, List.map_cons, List.map_nil] at h'
        have h2 : ts ++ [(Token.inputEnd, [])] = (pre.map (fun t : ETok => (t.token, t.slice)) ++ (a.token, a.slice) :: (b.token, b.slice) ::
          post'.map (fun t : ETok => (t.token, t.slice))) ++ [(z.token, z.slice)] := by rw [h']; simp
        exact (List.append_inj' h2 rfl).1
      exact blanks_apart hl _ _ _ _ e ha hb

example : (tokenize c!"a \t b").tokens.map (·.token) = [.inputStart, .identifier, .whitespace, .identifier, .inputEnd] := by decide +kernel

end Ftml
