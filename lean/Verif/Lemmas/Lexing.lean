import Verif.Spec.Markup
import Verif.Props.LexerShape
/-
The lexer on texts written symbol by symbol: which text is read as which token.
-/
namespace Ftml
open Lexer Markup

/-- Over-approximation of the characters an expression can start with. -/
def Peg.first : Peg → Char → Bool
  | .lit [], _ => true
  | .lit (p :: _), c => c == p
  | .cls p, c => p c
  | .seq (.notp _) b, c => b.first c
  | .seq a _, c => !a.consumes || a.first c
  | .alt a b, c => a.first c || b.first c
  | .star _, _ | .notp _, _ | .opt _, _ | .upTo _ _, _ => true

theorem Peg.first_none {p : Peg} {c : Char} {s : Str} (h : p.first c = false) : p.run (c :: s) = none := by
  induction p with
  | lit q =>
    cases q with
    | nil => simp [Peg.first] at h
    | cons x q => simp [Peg.first] at h; simp [Peg.run, stripPfx, Ne.symm h]
  | cls p => simp [Peg.first] at h; simp [Peg.run, h]
  | seq a b iha ihb =>
    cases a with
    | notp a =>
      simp only [Peg.first] at h
      simp only [Peg.run]
      split
      · rfl
      · rename_i m r hh
        split at hh
        · cases hh
        · cases hh; rw [ihb h]
    | _ =>
      simp only [Peg.first, Bool.or_eq_false_iff] at h
      have h1 := iha (by first | exact h.2 | (simpa [Peg.first] using h.2))
      simp only [Peg.run] at h1 ⊢
      first | rw [h1] | (simp at h1)
  | alt a b iha ihb =>
    simp only [Peg.first, Bool.or_eq_false_iff] at h
    simp only [Peg.run, iha h.1, ihb h.2]
  | star => simp [Peg.first] at h
  | notp => simp [Peg.first] at h
  | opt => simp [Peg.first] at h
  | upTo => simp [Peg.first] at h

/-- The characters an alternative can start with. -/
def altFirst (c : Char) : List (Token × Peg) → Bool
  | [] => true
  | (_, p) :: _ => p.first c

theorem runToken_filter (alts : List (List (Token × Peg))) (c : Char) (s : Str) :
    runToken alts (c :: s) = runToken (alts.filter (altFirst c)) (c :: s) := by
  induction alts with
  | nil => rfl
  | cons a as ih =>
    cases h : altFirst c a with
    | true =>
      simp only [List.filter_cons_of_pos h, runToken, ih]
    | false =>
      rw [List.filter_cons_of_neg (by simp [h])]
      have : runAlt a (c :: s) = none := by
        cases a with
        | nil => simp [altFirst] at h
        | cons x a =>
          obtain ⟨t, p⟩ := x
          simp only [altFirst] at h
          simp [runAlt, Peg.first_none h]
      simp only [runToken, this, ih]

/-- The alternatives without the one for e-mail addresses, which never matches. -/
def alts' : List (List (Token × Peg)) := alternatives.eraseIdx 7

theorem runToken_alts' (s : Str) : runToken alternatives s = runToken alts' s := by
  have he : ∀ t, runAlt [(t, gEmail)] s = none := by intro t; simp [runAlt, gEmail_fails]
  have skip : ∀ (pre post : List (List (Token × Peg))) (x : List (Token × Peg)), runAlt x s = none →
      runToken (pre ++ x :: post) s = runToken (pre ++ post) s := by
    intro pre post x hx
    induction pre with
    | nil => simp [runToken, hx]
    | cons a as ih => simp only [List.cons_append, runToken, ih]
  exact skip (alternatives.take 7) (alternatives.drop 8) _ (he .email)

theorem runToken_char (c : Char) (s : Str) :
    runToken alternatives (c :: s) = runToken (alts'.filter (altFirst c)) (c :: s) := by
  rw [runToken_alts', runToken_filter]

/-- The text `s`, followed by `rest`, is read as the token `t`. -/
def LexesTo (t : Token) (s rest : Str) : Prop := runToken alternatives (s ++ rest) = some ([(t, s)], rest)

theorem stripPfx_cons (p c : Char) (ps cs : Str) :
    stripPfx (p :: ps) (c :: cs) = if c = p then stripPfx ps cs else none := by
  simp only [stripPfx, eq_comm]
theorem stripPfx_nil (s : Str) : stripPfx [] s = some s := by cases s <;> rfl
theorem stripPfx_end (p : Char) (ps : Str) : stripPfx (p :: ps) [] = none := rfl

/-- What may follow a symbol. -/
def fits (p : Str) : Str → Bool
  | [] => true
  | c :: _ => apart p c

macro "lexs" : tactic => `(tactic| (
  simp only [List.cons_append, List.nil_append]
  rw [runToken_char]
  simp [alts', alternatives, altFirst, Peg.first, Peg.consumes, gUrl, gIdentifier, gVariable, gString, gThreePlus, gHeading,
    gParagraphBreak, Peg.plus, Peg.newline, Peg.any, isAlnumA, isAlphaA, isLowerA, isUpperA, isDigitA, runToken, runAlt, Peg.run, stripPfx_cons, stripPfx_nil, stripPfx_end]
  try (exact ⟨rfl, rfl⟩)
  try rfl))

theorem lex_bold (rest : Str) : LexesTo .bold c!"**" rest := by unfold LexesTo; lexs
theorem lex_italics (rest : Str) : LexesTo .italics c!"//" rest := by unfold LexesTo; lexs
theorem lex_underline (rest : Str) : LexesTo .underline c!"__" rest := by unfold LexesTo; lexs
theorem lex_superscript (rest : Str) : LexesTo .superscript c!"^^" rest := by unfold LexesTo; lexs
theorem lex_subscript (rest : Str) : LexesTo .subscript c!",," rest := by unfold LexesTo; lexs
theorem lex_leftMonospace (rest : Str) : LexesTo .leftMonospace c!"{{" rest := by unfold LexesTo; lexs
theorem lex_rightMonospace (rest : Str) : LexesTo .rightMonospace c!"}}" rest := by unfold LexesTo; lexs
theorem lex_color (rest : Str) : LexesTo .color c!"##" rest := by unfold LexesTo; lexs
theorem lex_raw (rest : Str) : LexesTo .raw c!"@@" rest := by unfold LexesTo; lexs

macro "lexc" : tactic => `(tactic| (
  rename_i rest h
  unfold LexesTo
  cases rest with
  | nil => lexs
  | cons d rest =>
    simp [fits, apart, doubling, isAlnumA, isAlphaA, isLowerA, isUpperA, isDigitA] at h
    simp only [List.cons_append, List.nil_append]
    rw [runToken_char]
    simp [alts', alternatives, altFirst, Peg.first, Peg.consumes, gUrl, gIdentifier, gVariable, gString, gThreePlus,
      gHeading, gParagraphBreak, Peg.plus, Peg.newline, Peg.any, isAlnumA, isAlphaA, isLowerA, isUpperA, isDigitA,
      runToken, runAlt, Peg.run, stripPfx_cons, stripPfx_nil, stripPfx_end, repeatUpTo, h]
    try rfl))

theorem lex_doubleDash {rest : Str} (h : fits c!"--" rest = true) : LexesTo .doubleDash c!"--" rest := by lexc
theorem lex_doubleTilde {rest : Str} (h : fits c!"~~" rest = true) : LexesTo .doubleTilde c!"~~" rest := by lexc
theorem lex_pipe {rest : Str} (h : fits c!"|" rest = true) : LexesTo .pipe c!"|" rest := by lexc

/-- The token of a single character. -/
def charTok (c : Char) : Token :=
  if c = ']' then .rightBracket
  else if c = '|' then .pipe
  else if c = ':' then .colon
  else if c = '=' then .equals
  else if c = '+' then .heading
  else if c = '>' then .quote
  else if c = '*' then .bulletItem
  else if c = '#' then .numberedItem
  else .other

/-- Characters other than those with a symbol of their own. -/
theorem lex_other {c : Char} {rest : Str} (h1 : isAlnumA c = false)
    (h2 : (c!"@>[-\"](*/_^,#{}|~<=:+)$ \t\n\r").contains c = false) : LexesTo .other [c] rest := by
  unfold LexesTo
  simp only [List.cons_append, List.nil_append]
  rw [runToken_char]
  simp at h2
  obtain ⟨a1, a2, a3, a4, a5, a6, a7, a8, a9, b0, b1, b2, b3, b4, b5, b6, b7, b8, b9, c0, c1, c2, c3, c4, c5, c6, c7⟩ := h2
  have hd : isDigitA c = false := by simp [isAlnumA] at h1; exact h1.2
  have hh : c ≠ 'h' ∧ c ≠ 'f' := by
    constructor <;> (rintro rfl; revert h1; decide)
  simp [alts', alternatives, altFirst, Peg.first, Peg.consumes, gUrl, gIdentifier, gVariable, gString, gThreePlus,
      gHeading, gParagraphBreak, Peg.plus, Peg.newline, Peg.any, h1, hd,
      runToken, runAlt, Peg.run, stripPfx_cons, stripPfx_nil, hh, a1, a2, a3, a4, a5, a6, a7, a8, a9, b0, b1, b2, b3, b4, b5, b6, b7,
      b8, b9, c0, c1, c2, c3, c4, c5, c6, c7]
  rfl

private theorem lexAt {rest : Str} (h : fits ['@'] rest = true) : LexesTo .other ['@'] rest := by lexc
private theorem lexGt {rest : Str} (h : fits ['>'] rest = true) : LexesTo .quote ['>'] rest := by lexc
private theorem lexDash {rest : Str} (h : fits ['-'] rest = true) : LexesTo .other ['-'] rest := by lexc
private theorem lexBracket {rest : Str} (h : fits [']'] rest = true) : LexesTo .rightBracket [']'] rest := by lexc
private theorem lexLParen {rest : Str} (h : fits ['('] rest = true) : LexesTo .other ['('] rest := by lexc
private theorem lexRParen {rest : Str} (h : fits [')'] rest = true) : LexesTo .other [')'] rest := by lexc
private theorem lexStar {rest : Str} (h : fits ['*'] rest = true) : LexesTo .bulletItem ['*'] rest := by lexc
private theorem lexSlash {rest : Str} (h : fits ['/'] rest = true) : LexesTo .other ['/'] rest := by lexc
private theorem lexCaret {rest : Str} (h : fits ['^'] rest = true) : LexesTo .other ['^'] rest := by lexc
private theorem lexComma {rest : Str} (h : fits [','] rest = true) : LexesTo .other [','] rest := by lexc
private theorem lexHash {rest : Str} (h : fits ['#'] rest = true) : LexesTo .numberedItem ['#'] rest := by lexc
private theorem lexLBrace {rest : Str} (h : fits ['{'] rest = true) : LexesTo .other ['{'] rest := by lexc
private theorem lexRBrace {rest : Str} (h : fits ['}'] rest = true) : LexesTo .other ['}'] rest := by lexc
private theorem lexTilde {rest : Str} (h : fits ['~'] rest = true) : LexesTo .other ['~'] rest := by lexc
private theorem lexLt {rest : Str} (h : fits ['<'] rest = true) : LexesTo .other ['<'] rest := by lexc
private theorem lexEq {rest : Str} (h : fits ['='] rest = true) : LexesTo .equals ['='] rest := by lexc
private theorem lexColon {rest : Str} (h : fits [':'] rest = true) : LexesTo .colon [':'] rest := by lexc
private theorem lexPlus {rest : Str} (h : fits ['+'] rest = true) : LexesTo .heading ['+'] rest := by lexc
private theorem lexDollar {rest : Str} (h : fits ['$'] rest = true) : LexesTo .other ['$'] rest := by lexc

theorem lex_char {c : Char} {rest : Str} (hc : Plain.ok (.char c) = true) (h : fits [c] rest = true) :
    LexesTo (charTok c) [c] rest := by
  by_cases hs : (c!"@>-](*/^,#{}|~<=:+)$").contains c = true
  · simp at hs
    rcases hs with rfl | rfl | rfl | rfl | rfl | rfl | rfl | rfl | rfl | rfl | rfl | rfl | rfl | rfl | rfl | rfl | rfl | rfl | rfl | rfl
    · exact lexAt h
    · exact lexGt h
    · exact lexDash h
    · exact lexBracket h
    · exact lexLParen h
    · exact lexStar h
    · exact lexSlash h
    · exact lexCaret h
    · exact lexComma h
    · exact lexHash h
    · exact lexLBrace h
    · exact lexRBrace h
    · exact lex_pipe h
    · exact lexTilde h
    · exact lexLt h
    · exact lexEq h
    · exact lexColon h
    · exact lexPlus h
    · exact lexRParen h
    · exact lexDollar h
  · simp at hs
    simp [Plain.ok] at hc
    obtain ⟨a1, a2, a3, a4, a5, a6, a7, a8, a9, b0, b1, b2, b3, b4, b5, b6, b7, b8, b9, c0⟩ := hs
    have ht : charTok c = .other := by
      simp [charTok, a2, a4, a6, a9, a1, b0, b1, b2, b3, b4, b5, b6, b7, b8, b9]
    rw [ht]
    refine lex_other hc.1 ?_
    simp [a1, a2, a3, a4, a5, a6, a7, a8, a9, b0, b1, b2, b3, b4, b5, b6, b7, b8, b9, c0, hc]


/-- The text does not start with a character of the class. -/
def notStart (q : Char → Bool) : Str → Bool
  | [] => true
  | c :: _ => !q c

theorem repeat_class {f : Str → Option (Str × Str)} {q : Char → Bool} (h0 : f [] = none)
    (hf : ∀ c s, f (c :: s) = if q c then some ([c], s) else none) {w rest : Str} (hw : ∀ c ∈ w, q c = true)
    (hr : notStart q rest = true) : ∀ n, w.length ≤ n → repeatUpTo f n (w ++ rest) = (w, rest) := by
  induction w with
  | nil =>
    intro n _
    cases n with
    | zero => rfl
    | succ n =>
      cases rest with
      | nil => simp [repeatUpTo, h0]
      | cons c rest => simp [notStart] at hr; simp [repeatUpTo, hf, hr]
  | cons c w ih =>
    intro n hn
    cases n with
    | zero => simp at hn
    | succ n =>
      have := ih (fun d hd => hw d (by simp [hd])) n (by simpa using hn)
      simp [repeatUpTo, hf, hw c (by simp), this]

theorem plus_class {p : Peg} {q : Char → Bool} (h0 : p.run [] = none)
    (hf : ∀ c s, p.run (c :: s) = if q c then some ([c], s) else none) {c : Char} {w rest : Str}
    (hw : ∀ d ∈ c :: w, q d = true) (hr : notStart q rest = true) :
    (Peg.plus p).run (c :: w ++ rest) = some (c :: w, rest) := by
  have h1 := repeat_class h0 hf (w := w) (fun d hd => hw d (by simp [hd])) hr (w ++ rest).length (by simp)
  simp only [Peg.plus, Peg.run, List.cons_append, hf, hw c (by simp), if_true, h1, List.nil_append]

private theorem ident_step (c : Char) (s : Str) : (Peg.alt (.cls isAlnumA) (.cls isDigitA)).run (c :: s) =
    if isAlnumA c then some ([c], s) else none := by
  simp only [Peg.run]
  by_cases h : isAlnumA c = true
  · simp [h]
  · have : isDigitA c = false := by simp [isAlnumA] at h; exact h.2
    simp [h, this]

theorem last_ne {p : Str} (h : '\n' ∉ p) : (p.getLast? = some '\n') = False :=
  eq_false fun e => h (List.mem_of_getLast? e)

theorem lex_word {s rest : Str} (hs : Plain.ok (.word s) = true) (h : fits s rest = true) :
    LexesTo .identifier s rest := by
  cases s with
  | nil => simp [Plain.ok] at hs
  | cons c w =>
    have hw : ∀ d ∈ c :: w, isAlnumA d = true := by simpa [Plain.ok] using hs
    have hc := hw c (by simp)
    have hl := last_ne (p := c :: w) fun hm => absurd (hw _ hm) (by decide)
    have hr : notStart isAlnumA rest = true := by
      cases rest with
      | nil => rfl
      | cons d rest =>
        cases w with
        | nil => simpa [fits, apart, doubling, hc, notStart] using h
        | cons e w =>
          simp only [fits, apart, hl, if_false, hc, if_true, if_pos (List.all_eq_true.2 hw), Bool.and_eq_true, Bool.not_eq_true'] at h
          simpa [notStart] using h.1
    have hid : gIdentifier.run (c :: w ++ rest) = some (c :: w, rest) :=
      plus_class (q := isAlnumA) (by simp [Peg.run]) ident_step hw hr
    have hne : ∀ x : Char, isAlnumA x = false → (c == x) = false := by
      intro x hx; cases h' : c == x with
      | false => rfl
      | true => simp at h'; rw [h'] at hc; rw [hx] at hc; cases hc
    -- the only alternative before that could match is an address
    have hurl : gUrl.run (c :: w ++ rest) = none := by
      cases hu : gUrl.run (c :: w ++ rest) with
      | none => rfl
      | some mr =>
        exfalso
        obtain ⟨m, r⟩ := mr
        have happ := Peg.run_append hu
        obtain ⟨x, _, hm, _⟩ := url_shape hu
        have key : ∃ sch ∈ [c!"http", c!"https", c!"ftp"], ∃ t, (c :: w) ++ rest = sch ++ ':' :: t := by
          rcases hm with hm | hm | hm
          · exact ⟨c!"http", by simp, c!"//" ++ x ++ r, by rw [happ, hm]; simp⟩
          · exact ⟨c!"https", by simp, c!"//" ++ x ++ r, by rw [happ, hm]; simp⟩
          · exact ⟨c!"ftp", by simp, c!"//" ++ x ++ r, by rw [happ, hm]; simp⟩
        obtain ⟨sch, hsch, t, ht⟩ := key
        have hal : ∀ d ∈ sch, isAlnumA d = true := by
          simp at hsch
          rcases hsch with rfl | rfl | rfl <;> decide
        have hlen : 2 ≤ sch.length := by
          simp at hsch
          rcases hsch with rfl | rfl | rfl <;> decide
        rcases List.append_eq_append_iff.1 ht with ⟨as, e1, e2⟩ | ⟨cs, e1, e2⟩
        · -- the word is a prefix of the scheme
          cases as with
          | nil =>
            simp at e1 e2
            cases w with
            | nil => rw [e1] at hlen; simp at hlen
            | cons e w =>
              rw [e2] at h
              simp only [fits, apart, hl, if_false, hc, if_true, if_pos (List.all_eq_true.2 hw), Bool.and_eq_true, Bool.not_eq_true'] at h
              rw [← e1] at h
              have : ([c!"http", c!"https", c!"ftp"].contains sch) = true := by simpa using hsch
              rw [this] at h
              simp at h
          | cons a as =>
            rw [e2] at hr
            have := hal a (by rw [e1]; simp)
            simp [notStart, this] at hr
        · cases cs with
          | nil =>
            simp at e1 e2
            cases w with
            | nil => rw [← e1] at hlen; simp at hlen
            | cons e w =>
              rw [← e2] at h
              simp only [fits, apart, hl, if_false, hc, if_true, if_pos (List.all_eq_true.2 hw), Bool.and_eq_true, Bool.not_eq_true'] at h
              rw [e1] at h
              have : ([c!"http", c!"https", c!"ftp"].contains sch) = true := by simpa using hsch
              rw [this] at h
              simp at h
          | cons a cs =>
            simp at e2
            have := hw a (by rw [e1]; simp)
            rw [← e2.1] at this
            exact absurd this (by decide)
    unfold LexesTo
    rw [List.cons_append] at hurl hid ⊢
    rw [runToken_alts', runToken_filter]
    have e : alts'.filter (altFirst c) =
        (alts'.take 6).filter (altFirst c) ++ (alts'.drop 6).filter (altFirst c) := by
      rw [← List.filter_append, List.take_append_drop]
    rw [e]
    have e1 : (alts'.drop 6).filter (altFirst c) = [(.identifier, gIdentifier)] :: (alts'.drop 7).filter (altFirst c) := by
      have : alts'.drop 6 = [(.identifier, gIdentifier)] :: alts'.drop 7 := rfl
      rw [this, List.filter_cons_of_pos]
      simp [altFirst, gIdentifier, Peg.plus, Peg.first, hc]
    rw [e1]
    have e2 : ∀ post, runToken ((alts'.take 6).filter (altFirst c) ++ post) (c :: (w ++ rest)) =
        runToken post (c :: (w ++ rest)) := by
      intro post
      have : (alts'.take 6).filter (altFirst c) = [[(.url, gUrl)]].filter (altFirst c) := by
        simp [alts', alternatives, altFirst, Peg.first, hne '@' (by decide), hne '>' (by decide), hne '[' (by decide),
          hne '-' (by decide)]
      rw [this]
      cases hf : altFirst c [(.url, gUrl)] with
      | false => simp [hf]
      | true => simp [hf, runToken, runAlt, hurl]
    rw [e2]
    simp [runToken, runAlt, hid]

theorem lex_blanks {n : Nat} {rest : Str} (h : fits (List.replicate (n + 1) ' ') rest = true) :
    LexesTo .whitespace (List.replicate (n + 1) ' ') rest := by
  have hr : notStart (fun c => c == ' ' || c == '\t') rest = true := by
    cases rest with
    | nil => rfl
    | cons d rest =>
      cases n with
      | zero =>
        simp [fits, apart, doubling, isAlnumA, isAlphaA, isLowerA, isUpperA, isDigitA] at h
        simp [notStart, h]
      | succ n =>
        have hl := last_ne (p := ' ' :: ' ' :: List.replicate n ' ') (by simp)
        simp only [List.replicate_succ, fits, apart, hl, if_false] at h
        simp [isAlnumA, isAlphaA, isLowerA, isUpperA, isDigitA] at h
        simp [notStart, h]
  have hp : (Peg.plus (.alt (.lit [' ']) (.lit ['\t']))).run (' ' :: List.replicate n ' ' ++ rest) =
      some (' ' :: List.replicate n ' ', rest) := by
    refine plus_class (q := fun c => c == ' ' || c == '\t') (by simp [Peg.run, stripPfx]) ?_ ?_ hr
    · intro c s
      simp only [Peg.run, stripPfx_cons, stripPfx_nil]
      by_cases h1 : c = ' '
      · simp [h1]
      · by_cases h2 : c = '\t'
        · simp [h2]
        · simp [h1, h2]
    · intro d hd
      rcases List.mem_cons.1 hd with rfl | hd
      · rfl
      · simp [(List.mem_replicate.1 hd).2]
  unfold LexesTo
  rw [List.replicate_succ, List.cons_append, runToken_char]
  have : alts'.filter (altFirst ' ') = [[(.whitespace, Peg.plus (.alt (.lit [' ']) (.lit ['\t'])))], [(.other, Peg.any)]] := by
    rfl
  rw [this]
  rw [List.cons_append] at hp
  simp only [runToken, runAlt, hp]

theorem lex_newline {rest : Str} (h : fits c!"\n" rest = true) : LexesTo .lineBreak c!"\n" rest := by
  unfold LexesTo
  simp only [List.cons_append, List.nil_append]
  rw [runToken_char]
  have : alts'.filter (altFirst '\n') = [[(.paragraphBreak, gParagraphBreak)], [(.lineBreak, Peg.newline)], [(.other, Peg.any)]] := by
    rfl
  rw [this]
  cases rest with
  | nil => rfl
  | cons d rest =>
    simp [fits, apart, doubling, isAlnumA, isAlphaA, isLowerA, isUpperA, isDigitA] at h
    simp [runToken, runAlt, gParagraphBreak, Peg.plus, Peg.newline, Peg.run, stripPfx_cons, stripPfx_nil, h]

theorem lex_paragraphBreak {rest : Str} (h : fits c!"\n\n" rest = true) : LexesTo .paragraphBreak c!"\n\n" rest := by
  unfold LexesTo
  simp only [List.cons_append, List.nil_append]
  rw [runToken_char]
  have : alts'.filter (altFirst '\n') = [[(.paragraphBreak, gParagraphBreak)], [(.lineBreak, Peg.newline)], [(.other, Peg.any)]] := by
    rfl
  rw [this]
  cases rest with
  | nil => rfl
  | cons d rest =>
    simp [fits, apart, doubling, isAlnumA, isAlphaA, isLowerA, isUpperA, isDigitA] at h
    simp [runToken, runAlt, gParagraphBreak, Peg.plus, Peg.newline, Peg.run, stripPfx_cons, stripPfx_nil, repeatUpTo, h]

/-! ### Blocks -/

theorem lex_leftBlock {rest : Str} (h : fits c!"[[" rest = true) : LexesTo .leftBlock c!"[[" rest := by lexc
theorem lex_column {rest : Str} (h : fits c!"||" rest = true) : LexesTo .tableColumn c!"||" rest := by lexc
theorem lex_columnTitle (rest : Str) : LexesTo .tableColumnTitle c!"||~" rest := by unfold LexesTo; lexs
theorem lex_columnLeft (rest : Str) : LexesTo .tableColumnLeft c!"||<" rest := by unfold LexesTo; lexs
theorem lex_columnCenter (rest : Str) : LexesTo .tableColumnCenter c!"||=" rest := by unfold LexesTo; lexs
theorem lex_columnRight (rest : Str) : LexesTo .tableColumnRight c!"||>" rest := by unfold LexesTo; lexs
theorem lex_leftBlockStar (rest : Str) : LexesTo .leftBlockStar c!"[[*" rest := by unfold LexesTo; lexs
theorem lex_leftBlockEnd (rest : Str) : LexesTo .leftBlockEnd c!"[[/" rest := by unfold LexesTo; lexs
theorem lex_rightBlock {rest : Str} (h : fits c!"]]" rest = true) : LexesTo .rightBlock c!"]]" rest := by lexc
private theorem char_plain {c : Char} (h1 : c ≠ '\n') (h2 : c ≠ '\r') (h3 : c ≠ '"') (h4 : c ≠ '\\') (s : Str) :
    gChar.run (c :: s) = some ([c], s) := by
  simp [gChar, Peg.run, Peg.newline, Peg.any, stripPfx_cons, h1, h2, h3, h4]
private theorem char_escaped {c : Char} (h1 : c ≠ '\n') (h2 : c ≠ '\r') (s : Str) :
    gChar.run ('\\' :: c :: s) = some (['\\', c], s) := by
  simp [gChar, Peg.run, Peg.newline, Peg.any, stripPfx_cons, stripPfx_nil, h1, h2]
private theorem char_end (s : Str) : gChar.run ('"' :: s) = none := by
  simp [gChar, Peg.run, Peg.newline, Peg.any, stripPfx_cons, stripPfx_nil]
private theorem string_body {v : Str} (hn : v.contains '\n' = false) (hr : v.contains '\r' = false) (rest : Str) :
    ∀ n, (quoteBody v).length ≤ n → repeatUpTo gChar.run n (quoteBody v ++ '"' :: rest) = (quoteBody v, '"' :: rest) := by
  induction v with
  | nil => intro n _; cases n <;> simp [quoteBody, repeatUpTo, char_end]
  | cons c v ih =>
    simp at hn hr
    intro n hl
    have ih := ih (by simpa using hn.2) (by simpa using hr.2)
    simp only [quoteBody] at hl ⊢
    by_cases h4 : c = '\\'
    · subst h4
      simp at hl
      obtain ⟨n, rfl⟩ : ∃ k, n = k + 1 := ⟨n - 1, by omega⟩
      simp [repeatUpTo, char_escaped, ih n (by omega)]
    · by_cases h3 : c = '"'
      · subst h3
        simp at hl
        obtain ⟨n, rfl⟩ : ∃ k, n = k + 1 := ⟨n - 1, by omega⟩
        simp [repeatUpTo, char_escaped, ih n (by omega)]
      · simp [h3, h4] at hl
        obtain ⟨n, rfl⟩ : ∃ k, n = k + 1 := ⟨n - 1, by omega⟩
        simp [repeatUpTo, h3, h4, char_plain (Ne.symm hn.1) (Ne.symm hr.1) h3 h4, ih n (by omega)]
theorem lex_string {v : Str} (hn : v.contains '\n' = false) (hr : v.contains '\r' = false) (rest : Str) :
    LexesTo .string (quote v) rest := by
  have hb := string_body hn hr rest (quoteBody v ++ '"' :: rest).length (by simp)
  have hs : gString.run ('"' :: (quoteBody v ++ '"' :: rest)) = some (quote v, rest) := by
    simp only [gString, Peg.run, stripPfx_cons, stripPfx_nil, if_true, Option.map_some, hb]
    simp [quote]
  unfold LexesTo
  have e : quote v ++ rest = '"' :: (quoteBody v ++ '"' :: rest) := by simp [quote]
  rw [e, runToken_char]
  have : alts'.filter (altFirst '"') = [[(.string, gString)], [(.other, Peg.any)]] := by rfl
  rw [this]
  simp [runToken, runAlt, hs]
theorem lex_equals {rest : Str} (h : fits ['='] rest = true) : LexesTo .equals ['='] rest := lexEq h

/-! ### Marks -/

theorem lex_leftMath (rest : Str) : LexesTo .leftMath c!"[[$" rest := by unfold LexesTo; lexs
theorem lex_rightMath (rest : Str) : LexesTo .rightMath c!"$]]" rest := by unfold LexesTo; lexs
theorem lex_leftBlockAnchor (rest : Str) : LexesTo .leftBlockAnchor c!"[[#" rest := by unfold LexesTo; lexs
theorem lex_leftParentheses (rest : Str) : LexesTo .leftParentheses c!"((" rest := by unfold LexesTo; lexs
theorem lex_rightParentheses (rest : Str) : LexesTo .rightParentheses c!"))" rest := by unfold LexesTo; lexs
theorem lex_leftBracketAnchor (rest : Str) : LexesTo .leftBracketAnchor c!"[#" rest := by unfold LexesTo; lexs
theorem lex_leftBracketStar (rest : Str) : LexesTo .leftBracketStar c!"[*" rest := by unfold LexesTo; lexs
theorem lex_leftLinkStar (rest : Str) : LexesTo .leftLinkStar c!"[[[*" rest := by unfold LexesTo; lexs
theorem lex_leftBracket {rest : Str} (h : fits c!"[" rest = true) : LexesTo .leftBracket c!"[" rest := by lexc
theorem lex_leftLink {rest : Str} (h : fits c!"[[[" rest = true) : LexesTo .leftLink c!"[[[" rest := by lexc
theorem lex_rightLink {rest : Str} (h : fits c!"]]]" rest = true) : LexesTo .rightLink c!"]]]" rest := by lexc
theorem lex_slash {rest : Str} (h : fits ['/'] rest = true) : LexesTo .other ['/'] rest := lexSlash h
theorem lex_colon {rest : Str} (h : fits [':'] rest = true) : LexesTo .colon [':'] rest := lexColon h
theorem lex_rightBracket {rest : Str} (h : fits [']'] rest = true) : LexesTo .rightBracket [']'] rest := lexBracket h

theorem lex_variable {s : Str} (hs : Plain.ok (.word s) = true) (rest : Str) :
    LexesTo .variable (c!"{$" ++ s ++ c!"}") rest := by
  cases s with
  | nil => simp [Plain.ok] at hs
  | cons c w =>
    have hw : ∀ d ∈ c :: w, isAlnumA d = true := by simpa [Plain.ok] using hs
    have hid : gIdentifier.run (c :: w ++ '}' :: rest) = some (c :: w, '}' :: rest) :=
      plus_class (q := isAlnumA) (by simp [Peg.run]) ident_step hw (by simp [notStart]; decide)
    unfold LexesTo
    have e : c!"{$" ++ (c :: w) ++ c!"}" ++ rest = '{' :: '$' :: (c :: w ++ '}' :: rest) := by simp
    rw [e, runToken_char]
    have : alts'.filter (altFirst '{') = [[(.variable, gVariable)], [(.leftMonospace, .lit c!"{{")], [(.other, Peg.any)]] := by rfl
    rw [this]
    have hv : gVariable.run ('{' :: '$' :: (c :: w ++ '}' :: rest)) = some (c!"{$" ++ (c :: w) ++ c!"}", rest) := by
      simp only [gVariable, Peg.run, stripPfx_cons, stripPfx_nil, if_true, Option.map_some, hid]
      simp
    simp only [runToken, runAlt, hv]

private theorem url_step (c : Char) (s : Str) :
    (Peg.seq (.notp (.alt Peg.newline (.alt (.lit [' ']) (.alt (.lit ['|']) (.alt (.lit ['[']) (.lit [']'])))))) Peg.any).run (c :: s) =
    if !(c!"\n\r |[]").contains c then some ([c], s) else none := by
  simp only [Peg.run, Peg.newline, Peg.any, stripPfx_cons, stripPfx_nil]
  by_cases h1 : c = '\n'
  · simp [h1]
  by_cases h2 : c = '\r'
  · subst h2
    simp
    cases s with
    | nil => simp [stripPfx_end]
    | cons d s =>
      by_cases hd : d = '\n'
      · simp [stripPfx_cons, stripPfx_nil, hd]
      · simp [stripPfx_cons, stripPfx_nil, hd]
  by_cases h3 : c = ' '
  · simp [h3]
  by_cases h4 : c = '|'
  · simp [h4]
  by_cases h5 : c = '['
  · simp [h5]
  by_cases h6 : c = ']'
  · simp [h6]
  · simp [h1, h2, h3, h4, h5, h6, Peg.run]

theorem lex_url {s rest : Str} (hs : urlOk s = true) (h : fits s rest = true) : LexesTo .url s rest := by
  simp only [urlOk, List.any_eq_true, Bool.and_eq_true, decide_eq_true_eq] at hs
  obtain ⟨p, hp, ⟨hpre, hlen⟩, hall⟩ := hs
  obtain ⟨m, rfl⟩ : ∃ m, s = p ++ m := by
    simp only [startsWith, Option.isSome_iff_exists] at hpre
    obtain ⟨m, hm⟩ := hpre
    exact ⟨m, stripPfx_some.1 hm⟩
  cases m with
  | nil => simp at hlen
  | cons c m =>
  have hw : ∀ d ∈ c :: m, (!(c!"\n\r |[]").contains d) = true := fun d hd =>
    List.all_eq_true.1 hall d (by simp [List.mem_append]; exact .inr (by simpa using hd))
  have hr : notStart (fun d => !(c!"\n\r |[]").contains d) rest = true := by
    cases rest with
    | nil => rfl
    | cons d rest =>
      have : (c!"\n |[]").contains d = true := by
        have hl := last_ne (p := p ++ c :: m) fun hm => by
          rcases List.mem_append.1 hm with hm | hm
          · simp only [List.mem_cons, List.not_mem_nil, or_false] at hp
            rcases hp with rfl | rfl | rfl <;> exact absurd hm (by decide)
          · exact absurd (hw _ hm) (by decide)
        simp only [List.mem_cons, List.not_mem_nil, or_false] at hp
        rcases hp with rfl | rfl | rfl <;>
          (simp only [List.cons_append, List.nil_append] at hl; simp only [fits, apart, List.cons_append, List.nil_append, List.all_cons, hl, if_false] at h; simpa [isAlnumA, isAlphaA, isLowerA, isUpperA, isDigitA] using h)
      simp only [List.contains_cons, List.contains_nil, Bool.or_false, Bool.or_eq_true, beq_iff_eq] at this
      rcases this with rfl | rfl | rfl | rfl | rfl <;> rfl
  have hb := plus_class (p := Peg.seq (.notp (.alt Peg.newline (.alt (.lit [' ']) (.alt (.lit ['|']) (.alt (.lit ['[']) (.lit [']'])))))) Peg.any)
    (q := fun d => !(c!"\n\r |[]").contains d) (by rfl) url_step hw hr
  simp only [List.mem_cons, List.not_mem_nil, or_false] at hp
  have hu : gUrl.run (p ++ (c :: m ++ rest)) = some (p ++ c :: m, rest) := by
    have key : ∀ q : Peg, q.run (c :: m ++ rest) = some (c :: m, rest) →
        (Peg.seq (.alt (.seq (.lit c!"http") (.opt (.lit ['s']))) (.lit c!"ftp")) (.seq (.lit c!"://") q)).run
          (p ++ (c :: m ++ rest)) = some (p ++ c :: m, rest) := by
      intro q hq
      rw [List.cons_append] at hq
      rcases hp with rfl | rfl | rfl <;> simp [Peg.run, stripPfx_cons, stripPfx_nil, hq]
    exact key _ hb
  unfold LexesTo
  rw [List.append_assoc]
  rcases hp with rfl | rfl | rfl <;>
  · rw [List.cons_append, List.cons_append] at hu ⊢
    rw [runToken_char]
    have : ∀ x, x = 'h' ∨ x = 'f' → alts'.filter (altFirst x) = [[(.url, gUrl)], [(.identifier, gIdentifier)], [(.other, Peg.any)]] := by
      intro x hx; rcases hx with rfl | rfl <;> rfl
    rw [this _ (by simp)]
    simp only [runToken, runAlt, hu]

/-! ### Sequences of symbols -/

/-- A list of tokens, each of them (or a few at once) read in front of the rest. -/
inductive LexList : List (Token × Str) → Str → Prop
  | nil {rest : Str} : LexList [] rest
  | step {g xs : List (Token × Str)} {rest : Str} : runToken alternatives (slices (g ++ xs) ++ rest) = some (g, slices xs ++ rest) →
      slices g ≠ [] → LexList xs rest → LexList (g ++ xs) rest

theorem lex_list {xs : List (Token × Str)} {rest : Str} (h : LexList xs rest) : rest = [] → ∀ n, (slices xs).length ≤ n →
    runTokens alternatives n (slices xs) = (xs, []) := by
  induction h with
  | nil => intro _ n _; cases n <;> rfl
  | @step g xs rest h1 hne h2 ih =>
    rintro rfl n hn
    have hs := List.length_pos_iff.2 hne
    rw [slices_append, List.length_append] at hn
    cases n with
    | zero => omega
    | succ n =>
      have := ih rfl n (by omega)
      simp only [List.append_nil] at h1
      simp [runTokens, h1, this]

theorem tokenize_list {xs : List (Token × Str)} (h : LexList xs []) : (tokenize (slices xs)).tokens =
    ⟨.inputStart, [], 0, 0⟩ :: (addSpans 0 xs ++ [⟨.inputEnd, [], byteLen (slices xs), byteLen (slices xs)⟩]) := by
  have := lex_list h rfl (slices xs).length (Nat.le_refl _)
  simp [tokenize, extractAll, runDocument, this]

/-- A symbol that is read as the token unless it runs together with what follows. -/
def Sym (x : Token × Str) : Prop := x.2 ≠ [] ∧ ∀ rest, fits x.2 rest = true → LexesTo x.1 x.2 rest

/-- A text that is read as these tokens unless it runs together with what follows. -/
def Syms (g : List (Token × Str)) : Prop := slices g ≠ [] ∧ ∀ rest, fits (slices g) rest = true → LexList g rest

/-- The tokens of texts. -/
def Grouped (ts : List (Token × Str)) (ps : List Str) : Prop :=
  ∃ gs : List (List (Token × Str)), gs.flatten = ts ∧ gs.map slices = ps ∧ ∀ g ∈ gs, Syms g

theorem Sym.syms {x : Token × Str} (h : Sym x) : Syms [x] := by
  obtain ⟨t, s⟩ := x
  have e : slices [(t, s)] = s := by simp [slices]
  refine ⟨by rw [e]; exact h.1, fun rest hf => ?_⟩
  have h1 := h.2 rest (by rw [← e]; exact hf)
  have := LexList.step (g := [(t, s)]) (xs := []) (rest := rest) (by
    rw [List.append_nil, e]; exact h1) (by rw [e]; exact h.1) .nil
  simpa using this

theorem Grouped.nil : Grouped [] [] := ⟨[], rfl, rfl, by simp⟩
theorem Grouped.append {ts ts' : List (Token × Str)} {ps ps' : List Str} (h : Grouped ts ps) (h' : Grouped ts' ps') :
    Grouped (ts ++ ts') (ps ++ ps') := by
  obtain ⟨gs, rfl, rfl, h⟩ := h
  obtain ⟨gs', rfl, rfl, h'⟩ := h'
  refine ⟨gs ++ gs', by simp, by simp, ?_⟩
  intro g hg
  rcases List.mem_append.1 hg with hg | hg
  · exact h g hg
  · exact h' g hg
theorem Syms.grouped {g : List (Token × Str)} (h : Syms g) : Grouped g [slices g] := ⟨[g], by simp, rfl, by simpa using h⟩
theorem Sym.grouped {x : Token × Str} (h : Sym x) : Grouped [x] [x.2] := by
  have := h.syms.grouped
  simpa [slices] using this
theorem Grouped.cons {x : Token × Str} {ts : List (Token × Str)} {ps : List Str} (hx : Sym x) (h : Grouped ts ps) :
    Grouped (x :: ts) (x.2 :: ps) := hx.grouped.append h
theorem grouped_of {xs : List (Token × Str)} (h : ∀ x ∈ xs, Sym x) : Grouped xs (xs.map (·.2)) := by
  induction xs with
  | nil => exact .nil
  | cons x xs ih => exact .cons (h x (by simp)) (ih fun x hx => h x (by simp [hx]))

theorem LexList.append {a b : List (Token × Str)} {rest : Str} (h : LexList a (slices b ++ rest)) (h' : LexList b rest) :
    LexList (a ++ b) rest := by
  generalize hr : slices b ++ rest = r at h
  induction h with
  | nil => exact h'
  | @step g xs r h1 hne h2 ih =>
    subst hr
    rw [List.append_assoc]
    refine .step ?_ hne (ih rfl)
    have : slices (g ++ (xs ++ b)) ++ rest = slices (g ++ xs) ++ (slices b ++ rest) := by simp [slices_append]
    rw [this, h1, slices_append, List.append_assoc]

theorem lexList_of {ts : List (Token × Str)} {ps : List Str} (h : Grouped ts ps) (hs : separate ps = true) :
    LexList ts [] ∧ slices ts = ps.flatten := by
  obtain ⟨gs, rfl, rfl, h⟩ := h
  induction gs with
  | nil => exact ⟨.nil, rfl⟩
  | cons g gs ih =>
    simp only [List.map_cons, separate, Bool.and_eq_true] at hs
    obtain ⟨h1, h2⟩ := ih (fun g hg => h g (by simp [hg])) hs.2
    refine ⟨?_, by simp [slices_append, h2]⟩
    refine LexList.append ((h g (by simp)).2 _ ?_) h1
    rw [List.append_nil, h2]
    cases gs with
    | nil => rfl
    | cons g' gs =>
      have hne := (h g' (by simp)).1
      simp only [List.map_cons, List.flatten_cons] at hs ⊢
      cases hg : slices g' with
      | nil => exact (hne hg).elim
      | cons c s =>
        rw [hg] at hs
        simpa [fits] using hs.1

end Ftml
