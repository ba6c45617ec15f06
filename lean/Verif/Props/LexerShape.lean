import Verif.Props.Lexer
import Verif.Model.Data
import Verif.Spec.Lexemes
/-
C57: the slice of every token has the shape its token kind promises.
-/
namespace Ftml
open Lexer Peg

/-! ### Specification -/

/-- The fixed spelling of the tokens that have one. -/
def tokenLiteral : Token → Option Str
  | .leftBracket => c!"[" | .leftBracketAnchor => c!"[#" | .leftBracketStar => c!"[*" | .rightBracket => c!"]"
  | .leftBlock => c!"[[" | .leftBlockEnd => c!"[[/" | .leftBlockAnchor => c!"[[#" | .leftBlockStar => c!"[[*"
  | .leftMath => c!"[[$" | .leftParentheses => c!"((" | .rightBlock => c!"]]" | .rightMath => c!"$]]"
  | .rightParentheses => c!"))" | .doubleDash => c!"--" | .doubleTilde => c!"~~" | .leftDoubleAngle => c!"<<"
  | .pipe => c!"|" | .equals => c!"=" | .colon => c!":" | .underscore => c!"_" | .bold => c!"**"
  | .italics => c!"//" | .underline => c!"__" | .superscript => c!"^^" | .subscript => c!",,"
  | .leftMonospace => c!"{{" | .rightMonospace => c!"}}" | .color => c!"##" | .raw => c!"@@"
  | .leftRaw => c!"@<" | .rightRaw => c!">@" | .bulletItem => c!"*" | .numberedItem => c!"#"
  | .leftLink => c!"[[[" | .leftLinkStar => c!"[[[*" | .rightLink => c!"]]]" | .tableColumn => c!"||"
  | .tableColumnLeft => c!"||<" | .tableColumnRight => c!"||>" | .tableColumnCenter => c!"||="
  | .tableColumnTitle => c!"||~" | .leftComment => c!"[!--" | .rightComment => c!"--]"
  | .inputStart => some [] | .inputEnd => some []
  | _ => none

/-- The shape of the slice of a token. -/
def TokenShape (t : Token) (s : Str) : Prop :=
  match t with
  | .heading => ∃ n, 1 ≤ n ∧ n ≤ 6 ∧ (s = List.replicate n '+' ∨ s = List.replicate n '+' ++ ['*'])
  | .quote => s ≠ [] ∧ ∀ c ∈ s, c = '>'
  | .whitespace => s ≠ [] ∧ ∀ c ∈ s, c = ' ' ∨ c = '\t'
  | .identifier => s ≠ [] ∧ ∀ c ∈ s, isAlnumA c = true
  | .lineBreak => s = c!"\n" ∨ s = c!"\r\n" ∨ s = c!"\r"
  | .paragraphBreak => 2 ≤ s.length ∧ ∀ c ∈ s, c = '\n' ∨ c = '\r'
  | .variable => ∃ name, name ≠ [] ∧ (∀ c ∈ name, isAlnumA c = true) ∧ s = c!"{$" ++ name ++ c!"}"
  | .string => ∃ body, s = c!"\"" ++ body ++ c!"\"" ∧ StringBody body
  | .url => ∃ rest, rest ≠ [] ∧ (s = c!"http://" ++ rest ∨ s = c!"https://" ++ rest ∨ s = c!"ftp://" ++ rest) ∧
      ∀ c ∈ rest, c ≠ '\n' ∧ c ≠ ' ' ∧ c ≠ '|' ∧ c ≠ '[' ∧ c ≠ ']'
  | .tripleDash => 3 ≤ s.length ∧ ∀ c ∈ s, c = '-'
  | .clearFloatBoth => 3 ≤ s.length ∧ ∀ c ∈ s, c = '~'
  | .clearFloatLeft => ∃ w, 3 ≤ w.length ∧ (∀ c ∈ w, c = '~') ∧ s = w ++ c!"<"
  | .clearFloatRight => ∃ w, 3 ≤ w.length ∧ (∀ c ∈ w, c = '~') ∧ s = w ++ c!">"
  | .other => ∃ c, s = [c]
  | .email => False
  | t => tokenLiteral t = some s

/-! ### Provenance -/

/-- Every token is one of the two markers or was produced by a rule of the grammar. -/
theorem token_prov (text : Str) : ∀ t ∈ (tokenize text).tokens,
    (t.token = .inputStart ∧ t.slice = []) ∨ (t.token = .inputEnd ∧ t.slice = []) ∨
    ∃ alt ∈ alternatives, ∃ p, (t.token, p) ∈ alt ∧ ∃ s r, p.run s = some (t.slice, r) := by
  obtain ⟨ts, h1, h2, h3⟩ := runDocument_spec text
  have he : (tokenize text).tokens =
      ⟨.inputStart, [], 0, 0⟩ :: (addSpans 0 ts ++ [⟨.inputEnd, [], byteLen text, byteLen text⟩]) := by
    simp [tokenize, extractAll, h1]
  intro t ht
  rw [he] at ht
  simp only [List.mem_cons, List.mem_append, List.not_mem_nil, or_false] at ht
  rcases ht with rfl | ht | rfl
  · exact Or.inl ⟨rfl, rfl⟩
  · obtain ⟨pre, post, e⟩ := List.append_of_mem ht
    obtain ⟨a, b, e1, _⟩ := addSpans_split e
    obtain ⟨_, alt, ha, p, hp, s, r, hr⟩ := h3 (t.token, t.slice) (by simp [e1])
    exact Or.inr (Or.inr ⟨alt, ha, p, hp, s, r, hr⟩)
  · exact Or.inr (Or.inl ⟨rfl, rfl⟩)

/-! ### PEG inversion -/

private theorem run_lit {p s m r : Str} (h : (Peg.lit p).run s = some (m, r)) : m = p := by
  simp only [Peg.run, Option.map_eq_some_iff] at h
  obtain ⟨_, _, h⟩ := h; cases h; rfl

private theorem run_seq {a b : Peg} {s m r : Str} (h : (Peg.seq a b).run s = some (m, r)) :
    ∃ m1 m2 r1, a.run s = some (m1, r1) ∧ b.run r1 = some (m2, r) ∧ m = m1 ++ m2 := by
  simp only [Peg.run] at h
  split at h
  · cases h
  · rename_i m1 r1 h1
    split at h
    · cases h
    · rename_i m2 r2 h2
      cases h
      exact ⟨m1, m2, r1, h1, h2, rfl⟩

private theorem run_alt {a b : Peg} {s m r : Str} (h : (Peg.alt a b).run s = some (m, r)) :
    a.run s = some (m, r) ∨ (a.run s = none ∧ b.run s = some (m, r)) := by
  simp only [Peg.run] at h
  split at h
  · rename_i x h1; cases h; exact Or.inl h1
  · rename_i h1; exact Or.inr ⟨h1, h⟩

private theorem run_notp {a : Peg} {s m r : Str} (h : (Peg.notp a).run s = some (m, r)) :
    a.run s = none ∧ m = [] ∧ r = s := by
  simp only [Peg.run] at h
  split at h
  · cases h
  · rename_i h1; cases h; exact ⟨by simpa using h1, rfl, rfl⟩

private theorem run_cls {p : Char → Bool} {s m r : Str} (h : (Peg.cls p).run s = some (m, r)) :
    ∃ c, m = [c] ∧ p c = true ∧ s = c :: r := by
  cases s with
  | nil => simp [Peg.run] at h
  | cons c s =>
    simp only [Peg.run] at h
    split at h
    · rename_i hp; cases h; exact ⟨c, rfl, hp, rfl⟩
    · cases h

private theorem run_opt {a : Peg} {s m r : Str} (h : (Peg.opt a).run s = some (m, r)) :
    a.run s = some (m, r) ∨ m = [] := by
  simp only [Peg.run] at h
  split at h
  · rename_i x h1; cases h; exact Or.inl h1
  · cases h; exact Or.inr rfl

/-- Repetition of an expression whose matches satisfy a list property. -/
private theorem repeat_all {f : Str → Option (Str × Str)} {Q : Char → Prop}
    (hf : ∀ s m r, f s = some (m, r) → ∀ c ∈ m, Q c) : ∀ n s, ∀ c ∈ (repeatUpTo f n s).1, Q c := by
  intro n
  induction n with
  | zero => intro s c hc; simp [repeatUpTo] at hc
  | succ n ih =>
    intro s c hc
    unfold repeatUpTo at hc
    split at hc
    · simp at hc
    · rename_i m r h
      simp only [List.mem_append] at hc
      rcases hc with hc | hc
      · exact hf _ _ _ h c hc
      · exact ih _ c hc

private theorem run_star_all {a : Peg} {Q : Char → Prop} {s m r : Str}
    (ha : ∀ s m r, a.run s = some (m, r) → ∀ c ∈ m, Q c) (h : (Peg.star a).run s = some (m, r)) :
    ∀ c ∈ m, Q c := by
  simp only [Peg.run, Option.some.injEq] at h
  have := repeat_all ha s.length s
  rw [h] at this; exact this

private theorem run_plus_all {a : Peg} {Q : Char → Prop} {s m r : Str} (hc : a.consumes = true)
    (ha : ∀ s m r, a.run s = some (m, r) → ∀ c ∈ m, Q c) (h : (Peg.plus a).run s = some (m, r)) :
    m ≠ [] ∧ ∀ c ∈ m, Q c := by
  obtain ⟨m1, m2, r1, h1, h2, rfl⟩ := run_seq h
  have := Peg.consumes_sound hc h1
  refine ⟨by simp [this], ?_⟩
  intro c hcm
  rcases List.mem_append.1 hcm with hcm | hcm
  · exact ha _ _ _ h1 c hcm
  · exact run_star_all ha h2 c hcm

private theorem lit_all {x : Char} : ∀ s m r, (Peg.lit [x]).run s = some (m, r) → ∀ c ∈ m, c = x := by
  intro s m r h c hc; rw [run_lit h] at hc; simpa using hc

private theorem three_plus {x : Char} {s m r : Str} (h : (gThreePlus [x]).run s = some (m, r)) :
    3 ≤ m.length ∧ ∀ c ∈ m, c = x := by
  obtain ⟨m1, m2, r1, h1, h2, rfl⟩ := run_seq h
  obtain ⟨m3, m4, r3, h3, h4, rfl⟩ := run_seq h2
  obtain ⟨hne, hall⟩ := run_plus_all (by rfl) lit_all h4
  rw [run_lit h1, run_lit h3]
  have := List.length_pos_iff.2 hne
  refine ⟨by simp; omega, ?_⟩
  intro c hc
  rcases List.mem_append.1 hc with hc | hc
  · simpa using hc
  · rcases List.mem_append.1 hc with hc | hc
    · simpa using hc
    · exact hall c hc

private theorem newline_cases {s m r : Str} (h : Peg.newline.run s = some (m, r)) :
    m = c!"\n" ∨ m = c!"\r\n" ∨ m = c!"\r" := by
  rcases run_alt h with h | ⟨_, h⟩
  · exact Or.inl (run_lit h)
  · rcases run_alt h with h | ⟨_, h⟩
    · exact Or.inr (Or.inl (run_lit h))
    · exact Or.inr (Or.inr (run_lit h))

private theorem newline_all : ∀ s m r, Peg.newline.run s = some (m, r) → ∀ c ∈ m, c = '\n' ∨ c = '\r' := by
  intro s m r h c hc
  rcases newline_cases h with rfl | rfl | rfl <;> simp at hc
  · exact Or.inl hc
  · rcases hc with hc | hc <;> simp [hc]
  · exact Or.inr hc

private theorem ident_all {s m r : Str} (h : gIdentifier.run s = some (m, r)) :
    m ≠ [] ∧ ∀ c ∈ m, isAlnumA c = true := by
  refine run_plus_all (Q := fun c => isAlnumA c = true) (by rfl) ?_ h
  intro s m r h c hc
  rcases run_alt h with h | ⟨_, h⟩
  · obtain ⟨d, rfl, hd, _⟩ := run_cls h
    simp at hc; subst hc; exact hd
  · obtain ⟨d, rfl, hd, _⟩ := run_cls h
    simp at hc; subst hc; simp [isAlnumA, hd]

/-- `(!(a) ~ ANY)` matches one character at which `a` fails. -/
private theorem not_any {a : Peg} {s m r : Str} (h : (Peg.seq (.notp a) .any).run s = some (m, r)) :
    ∃ c, m = [c] ∧ s = c :: r ∧ a.run s = none := by
  obtain ⟨m1, m2, r1, h1, h2, rfl⟩ := run_seq h
  obtain ⟨h3, rfl, rfl⟩ := run_notp h1
  obtain ⟨c, rfl, _, rfl⟩ := run_cls h2
  exact ⟨c, by simp, rfl, h3⟩

private theorem alt_none {a b : Peg} {s : Str} (h : (Peg.alt a b).run s = none) : a.run s = none ∧ b.run s = none := by
  simp only [Peg.run] at h
  split at h
  · cases h
  · rename_i h1; exact ⟨h1, h⟩

private theorem lit1_none {x c : Char} {s : Str} (h : (Peg.lit [x]).run (c :: s) = none) : c ≠ x := by
  simp only [Peg.run, Option.map_eq_none_iff, stripPfx] at h
  intro hc; subst hc; simp at h

private theorem newline_none {c : Char} {s : Str} (h : Peg.newline.run (c :: s) = none) : c ≠ '\n' :=
  lit1_none (alt_none h).1

private theorem upTo_plus (n : Nat) : ∀ s, ∃ k, k ≤ n ∧ (repeatUpTo (Peg.lit ['+']).run n s).1 = List.replicate k '+' := by
  induction n with
  | zero => intro s; exact ⟨0, by omega, by simp [repeatUpTo]⟩
  | succ n ih =>
    intro s
    unfold repeatUpTo
    split
    · exact ⟨0, by omega, rfl⟩
    · rename_i m r h
      obtain ⟨k, h1, h2⟩ := ih r
      refine ⟨k + 1, by omega, ?_⟩
      simp only [h2, run_lit h, List.replicate_succ]
      rfl

private theorem heading_shape {s m r : Str} (h : gHeading.run s = some (m, r)) : TokenShape .heading m := by
  obtain ⟨m1, m2, r1, h1, h2, rfl⟩ := run_seq h
  obtain ⟨m3, m4, r3, h3, h4, rfl⟩ := run_seq h1
  have h4 : repeatUpTo (Peg.lit ['+']).run 5 r3 = (m4, r1) := Option.some.inj h4
  obtain ⟨k, hk, he⟩ := upTo_plus 5 r3
  rw [h4] at he
  simp only at he
  have e1 : m3 ++ m4 = List.replicate (k + 1) '+' := by
    rw [run_lit h3, he, List.replicate_succ]; rfl
  refine ⟨k + 1, by omega, by omega, ?_⟩
  rw [e1]
  rcases run_opt h2 with h5 | rfl
  · obtain ⟨m5, m6, r5, h6, h7, rfl⟩ := run_seq h5
    obtain ⟨_, rfl, _⟩ := run_notp h7
    rw [run_lit h6]
    right; simp
  · left; simp

private theorem string_shape {s m r : Str} (h : gString.run s = some (m, r)) : TokenShape .string m := by
  obtain ⟨m1, m2, r1, h1, h2, rfl⟩ := run_seq h
  obtain ⟨m3, m4, r3, h3, h4, rfl⟩ := run_seq h2
  refine ⟨m3, by rw [run_lit h1, run_lit h4]; simp, ?_⟩
  have cr : ∀ {c : Char} {s : Str}, Peg.newline.run (c :: s) = none → c ≠ '\n' ∧ c ≠ '\r' := fun h =>
    ⟨newline_none h, fun e => by subst e; exact lit1_none (alt_none (alt_none h).2).2 rfl⟩
  have body : ∀ n s, StringBody (repeatUpTo gChar.run n s).1 := by
    intro n
    induction n with
    | zero => exact fun s => .nil
    | succ n ih =>
      intro s
      unfold repeatUpTo
      split
      · exact .nil
      · rename_i m r h
        rcases run_alt h with h | ⟨_, h⟩
        · obtain ⟨d, rfl, rfl, hn⟩ := not_any h
          have := alt_none (alt_none hn).2
          exact .plain (lit1_none this.1) (lit1_none this.2) (cr (alt_none hn).1).1 (cr (alt_none hn).1).2 (ih r)
        · obtain ⟨m5, m6, r5, h5, h6, rfl⟩ := run_seq h
          obtain ⟨d, rfl, rfl, hn⟩ := not_any h6
          rw [run_lit h5]
          exact .escape (cr hn).1 (cr hn).2 (ih r)
  simp only [Peg.run, Option.some.injEq] at h3
  have := body r1.length r1
  rw [h3] at this
  exact this

theorem url_shape {s m r : Str} (h : gUrl.run s = some (m, r)) : TokenShape .url m := by
  obtain ⟨m1, m2, r1, h1, h2, rfl⟩ := run_seq h
  obtain ⟨m3, m4, r3, h3, h4, rfl⟩ := run_seq h2
  rw [run_lit h3]
  obtain ⟨hne, hall⟩ := run_plus_all (Q := fun c => c ≠ '\n' ∧ c ≠ ' ' ∧ c ≠ '|' ∧ c ≠ '[' ∧ c ≠ ']') (by rfl) (by
    intro s m r h c hc
    obtain ⟨d, rfl, rfl, hn⟩ := not_any h
    simp at hc; subst hc
    have a1 := alt_none hn
    have a2 := alt_none a1.2
    have a3 := alt_none a2.2
    have a4 := alt_none a3.2
    exact ⟨newline_none a1.1, lit1_none a2.1, lit1_none a3.1, lit1_none a4.1, lit1_none a4.2⟩) h4
  refine ⟨m4, hne, ?_, hall⟩
  rcases run_alt h1 with h5 | ⟨_, h5⟩
  · obtain ⟨m5, m6, r5, h6, h7, rfl⟩ := run_seq h5
    rw [run_lit h6]
    rcases run_opt h7 with h8 | rfl
    · rw [run_lit h8]; right; left; simp
    · left; simp
  · rw [run_lit h5]; right; right; simp

/-- What each rule of the grammar matches. -/
private theorem alt_shape : ∀ alt ∈ alternatives, ∀ x ∈ alt, ∀ s m r, x.2.run s = some (m, r) → TokenShape x.1 m := by
  intro alt ha x hx s m r h
  simp only [alternatives, List.mem_cons, List.not_mem_nil, or_false] at ha
  rcases ha with rfl | rfl | rfl | rfl | rfl | rfl | rfl | rfl | rfl | rfl | rfl | rfl | rfl | rfl | rfl |
    rfl | rfl | rfl | rfl | rfl | rfl | rfl | rfl | rfl | rfl | rfl | rfl | rfl | rfl | rfl | rfl | rfl |
    rfl | rfl | rfl | rfl | rfl | rfl | rfl | rfl | rfl | rfl | rfl | rfl | rfl | rfl | rfl | rfl | rfl |
    rfl | rfl | rfl | rfl | rfl | rfl | rfl | rfl | rfl | rfl | rfl <;>
    simp only [List.mem_cons, List.not_mem_nil, or_false] at hx <;>
    first
    | (subst hx; obtain rfl := run_lit h; exact rfl)
    | (rcases hx with rfl | rfl <;> (obtain rfl := run_lit h; exact rfl))
    | (subst hx; exact heading_shape h)
    | (subst hx; exact string_shape h)
    | (subst hx; exact url_shape h)
    | (subst hx; exact ident_all h)
    | (subst hx; rw [gEmail_fails] at h; cases h)
    | (subst hx; exact three_plus h)
    | (subst hx; exact newline_cases h)
    | (subst hx; exact run_plus_all (by rfl) lit_all h)
    | (subst hx
       obtain ⟨m1, m2, r1, h1, h2, rfl⟩ := run_seq h
       obtain ⟨a, b⟩ := three_plus h1
       rw [run_lit h2]
       exact ⟨m1, a, b, rfl⟩)
    | (subst hx
       obtain ⟨m1, m2, r1, h1, h2, rfl⟩ := run_seq h
       obtain ⟨_, rfl, _⟩ := run_notp h2
       rw [run_lit h1]; rfl)
    | (subst hx
       obtain ⟨m1, m2, r1, h1, h2, rfl⟩ := run_seq h
       obtain ⟨m3, m4, r3, h3, h4, rfl⟩ := run_seq h2
       obtain ⟨a, b⟩ := ident_all h3
       exact ⟨m3, a, b, by rw [run_lit h1, run_lit h4]; simp⟩)
    | (subst hx
       obtain ⟨m1, m2, r1, h1, h2, rfl⟩ := run_seq h
       obtain ⟨hne, hall⟩ := run_plus_all (by rfl) newline_all h2
       have hne1 : m1 ≠ [] := Peg.consumes_sound (p := Peg.newline) rfl h1
       have l1 := List.length_pos_iff.2 hne1
       have l2 := List.length_pos_iff.2 hne
       refine ⟨by simp; omega, ?_⟩
       intro c hc
       rcases List.mem_append.1 hc with hc | hc
       · exact newline_all _ _ _ h1 c hc
       · exact hall c hc)
    | (subst hx
       refine run_plus_all (Q := fun c => c = ' ' ∨ c = '\t') (by rfl) ?_ h
       intro s m r h c hc
       rcases run_alt h with h | ⟨_, h⟩ <;> (rw [run_lit h] at hc; simp at hc; simp [hc]))
    | (subst hx
       obtain ⟨c, rfl, _⟩ := run_cls h
       exact ⟨c, rfl⟩)

/-- C57: the slice of every token has the shape its token kind promises. -/
theorem C57_token_shapes (text : Str) : ∀ t ∈ (tokenize text).tokens, TokenShape t.token t.slice := by
  intro t ht
  rcases token_prov text t ht with ⟨h1, h2⟩ | ⟨h1, h2⟩ | ⟨alt, ha, p, hp, s, r, hr⟩
  · rw [h1, h2]; rfl
  · rw [h1, h2]; rfl
  · exact alt_shape alt ha (t.token, p) hp s _ r hr

/-- C57: every heading token denotes a heading of level 1 to 6, so the parser's conversion of a heading
token never fails; the level is the number of `+` and the trailing `*` removes it from the contents. -/
theorem C57_heading_tokens (text : Str) : ∀ t ∈ (tokenize text).tokens, t.token = .heading →
    ∃ n, 1 ≤ n ∧ n ≤ 6 ∧ Heading.ofStr t.slice = some ⟨n, t.slice.getLast? == some '+'⟩ ∧
      t.slice.count '+' = n := by
  intro t ht hh
  have := C57_token_shapes text t ht
  rw [hh] at this
  obtain ⟨n, h1, h2, h3⟩ := this
  refine ⟨n, h1, h2, ?_⟩
  have hn : n = 1 ∨ n = 2 ∨ n = 3 ∨ n = 4 ∨ n = 5 ∨ n = 6 := by omega
  rcases h3 with h3 | h3 <;> rw [h3] <;>
    rcases hn with rfl | rfl | rfl | rfl | rfl | rfl <;> decide

example : ((tokenize c!"+++++++* {$a} https://x.y ").tokens.map fun t => (t.token, t.slice)) =
    [(.inputStart, []), (.heading, c!"++++++"), (.heading, c!"+*"), (.whitespace, c!" "), (.variable, c!"{$a}"),
     (.whitespace, c!" "), (.url, c!"https://x.y"), (.whitespace, c!" "), (.inputEnd, [])] := by decide +kernel

/-! ### Line ends -/

private theorem runToken_append (as bs : List (List (Token × Peg))) (s : Str) :
    runToken (as ++ bs) s = (runToken as s).or (runToken bs s) := by
  induction as with
  | nil => rfl
  | cons a as ih =>
    simp only [List.cons_append, runToken]
    split
    · rfl
    · exact ih

private theorem alternatives_split : alternatives = alternatives.dropLast ++ [[(.other, Peg.any)]] := rfl

private theorem other_line {s : Str} {ts : List (Token × Str)} {r : Str} (h : runToken alternatives s = some (ts, r)) :
    ∀ x ∈ ts, x.1 = .other → '\n' ∉ x.2 := by
  intro x hx ho hn
  rw [alternatives_split, runToken_append] at h
  cases h1 : runToken alternatives.dropLast s with
  | some y =>
    rw [h1] at h
    cases h
    obtain ⟨a, ha, h2⟩ := runToken_mem h1
    obtain ⟨p, hp, _⟩ := runAlt_prov h2 x hx
    have : (alternatives.dropLast.all fun a => a.all fun y => y.1 != .other) = true := by decide
    have := List.all_eq_true.1 (List.all_eq_true.1 this a ha) _ hp
    rw [ho] at this
    cases this
  | none =>
    rw [h1] at h
    have hl := runToken_none h1 [(.lineBreak, Peg.newline)] (by simp [alternatives])
    cases s with
    | nil => cases h
    | cons c s =>
      simp only [runToken, runAlt, Peg.any, Peg.run, Option.none_or, if_true] at h
      cases h
      simp only [List.mem_singleton] at hx
      subst hx
      simp only [List.mem_singleton] at hn
      subst hn
      simp [runAlt, Peg.newline, Peg.run, stripPfx] at hl

private theorem runTokens_all {alts : List (List (Token × Peg))} {P : Token × Str → Prop}
    (h : ∀ s ts r, runToken alts s = some (ts, r) → ∀ x ∈ ts, P x) (n : Nat) : ∀ s, ∀ x ∈ (runTokens alts n s).1, P x := by
  induction n with
  | zero => intro s x hx; simp [runTokens] at hx
  | succ n ih =>
    intro s x hx
    simp only [runTokens] at hx
    split at hx
    · simp at hx
    · rename_i ts r h1
      rcases List.mem_append.1 hx with hx | hx
      · exact h _ _ _ h1 x hx
      · exact ih _ x hx

private theorem literal_line (t : Token) : ∀ s, tokenLiteral t = some s → '\n' ∉ s := by
  cases t <;> (intro s h; simp only [tokenLiteral, Option.some.injEq, reduceCtorEq] at h) <;> (subst h; decide)

private theorem other_tokens (text : Str) : ∀ t ∈ (tokenize text).tokens, t.token = .other → '\n' ∉ t.slice := by
  intro t ht ho
  obtain ⟨ts, h1, h2, h3⟩ := runDocument_spec text
  have hall : ∀ x ∈ ts, x.1 = .other → '\n' ∉ x.2 := by
    have := runTokens_all (P := fun x => x.1 = .other → '\n' ∉ x.2) (fun s ts r h => other_line h) text.length text
    simp only [runDocument] at h1
    split at h1
    · rename_i h4; cases h1; rw [h4] at this; exact this
    · cases h1
  have he : (tokenize text).tokens =
      ⟨.inputStart, [], 0, 0⟩ :: (addSpans 0 ts ++ [⟨.inputEnd, [], byteLen text, byteLen text⟩]) := by
    simp [tokenize, extractAll, h1]
  rw [he] at ht
  simp only [List.mem_cons, List.mem_append, List.not_mem_nil, or_false] at ht
  rcases ht with rfl | ht | rfl
  · simp
  · obtain ⟨pre, post, e⟩ := List.append_of_mem ht
    obtain ⟨a, b, e1, _⟩ := addSpans_split e
    exact hall (t.token, t.slice) (by simp [e1]) ho
  · simp

/-- C57: only line breaks and paragraph breaks reach over the end of a line. -/
theorem C57_line_ends (text : Str) : ∀ t ∈ (tokenize text).tokens, '\n' ∈ t.slice →
    t.token = .lineBreak ∨ t.token = .paragraphBreak := by
  intro t ht hn
  have hs := C57_token_shapes text t ht
  have ho := other_tokens text t ht
  have hw : ∀ (c : Char) (w : Str), c ≠ '\n' → (∀ d ∈ w, d = c) → '\n' ∉ w := fun c w h1 h2 h3 => h1 (h2 _ h3).symm
  generalize t.slice = s at hs ho hn
  generalize t.token = k at hs ho
  cases k <;> simp only [TokenShape] at hs
  case lineBreak => exact .inl rfl
  case paragraphBreak => exact .inr rfl
  case other => exact (ho rfl hn).elim
  case heading =>
    obtain ⟨n, _, _, rfl | rfl⟩ := hs <;> simp [List.mem_replicate] at hn
  case quote => exact (hw '>' s (by decide) hs.2 hn).elim
  case whitespace => rcases hs.2 _ hn with h | h <;> cases h
  case identifier => exact absurd (hs.2 _ hn) (by decide)
  case «variable» =>
    obtain ⟨name, _, h, rfl⟩ := hs
    simp only [List.mem_append] at hn
    rcases hn with (hn | hn) | hn
    · exact absurd hn (by decide)
    · exact absurd (h _ hn) (by decide)
    · exact absurd hn (by decide)
  case string =>
    obtain ⟨body, rfl, h⟩ := hs
    simp only [List.mem_append] at hn
    rcases hn with (hn | hn) | hn
    · exact absurd hn (by decide)
    · exact (h.line _ hn rfl).elim
    · exact absurd hn (by decide)
  case url =>
    obtain ⟨rest, _, h, h'⟩ := hs
    have : '\n' ∉ rest := fun h => (h' _ h).1 rfl
    rcases h with rfl | rfl | rfl <;> (rcases List.mem_append.1 hn with hn | hn; exact absurd hn (by decide); exact (this hn).elim)
  case tripleDash => exact (hw '-' s (by decide) hs.2 hn).elim
  case clearFloatBoth => exact (hw '~' s (by decide) hs.2 hn).elim
  case clearFloatLeft =>
    obtain ⟨w, _, h, rfl⟩ := hs
    rcases List.mem_append.1 hn with hn | hn
    · exact (hw '~' w (by decide) h hn).elim
    · exact absurd hn (by decide)
  case clearFloatRight =>
    obtain ⟨w, _, h, rfl⟩ := hs
    rcases List.mem_append.1 hn with hn | hn
    · exact (hw '~' w (by decide) h hn).elim
    · exact absurd hn (by decide)
  all_goals exact (literal_line _ _ hs hn).elim

example : ((tokenize c!"\"a\nb\" x\n\n").tokens.filter fun t => '\n' ∈ t.slice).map (·.token) = [.lineBreak, .paragraphBreak] := by decide +kernel

end Ftml
