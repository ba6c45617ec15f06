import Verif.Props.RawText
/-
C106: comments have no effect, whatever they contain.
-/
namespace Ftml
open M Markup Lexer

/-! ### What is claimed -/

/-- What can be put between `[!--` and `--]` at the end of a line: text without `--]`, not ending with `-` or `[!` (`---` and
`[!--` are symbols), and with something after the last web address that ends it. -/
structure CommentText (t : Str) : Prop where
  inner : ¬ c!"--]" <:+: t
  last : t.getLast? ≠ some '-'
  start : ¬ c!"[!" <:+ t
  urls : ∀ p ∈ [c!"http://", c!"https://", c!"ftp://"], ∀ b, (p ++ b) <:+ t → ∃ c ∈ b, c ∈ c!"\n |[]"

/-- A line: words and blanks, and a comment at its end or not. -/
structure CommentLine where
  text : List Plain
  comment : Option Str

/-- Its source text. -/
def CommentLine.str (l : CommentLine) : Str :=
  plainText l.text ++ match l.comment with | some t => c!"[!--" ++ t ++ c!"--]" | none => []

/-- It starts with a word, its words and blanks alternate, and the comment is one. -/
structure CommentLine.Ok (l : CommentLine) : Prop where
  first : ∃ s ps, l.text = .word s :: ps
  words : ∀ p ∈ l.text, p.ok = true ∧ ∀ c, p ≠ .char c
  apart : separate (l.text.map Plain.str) = true
  comment : ∀ t, l.comment = some t → CommentText t

/-- Lines. -/
def commentPage (l : CommentLine) (ls : List CommentLine) : Str := l.str ++ ls.flatMap fun t => c!"\n" ++ t.str

/-- Their words and blanks, with line breaks between the lines. -/
def commentElems (l : CommentLine) (ls : List CommentLine) : List Elem :=
  l.text.map (fun p => .mk (.text p.str) []) ++ ls.flatMap fun t => .mk .lineBreak [] :: t.text.map fun p => .mk (.text p.str) []

/-! ### Its tokens -/

private theorem group_one {s : Str} {g : List (Token × Str)} {r : Str} (h : runToken alternatives s = some (g, r))
    (hsh : ∀ x ∈ g, TokenShape x.1 x.2) : (∃ x, g = [x]) ∨ ∀ c ∈ slices g, c = '[' ∨ c = ']' := by
  have hall : ∀ a ∈ alternatives, a.length = 1 ∨ a.map (·.1) = [.leftBracket, .leftLink] ∨ a.map (·.1) = [.rightLink, .rightBracket] := by decide
  have halt : ∀ (a : List (Token × Peg)) (s : Str) (g : List (Token × Str)) (r : Str), runAlt a s = some (g, r) → g.map (·.1) = a.map (·.1) := by
    intro a
    induction a with
    | nil => intro s g r h; simp only [runAlt, Option.some.injEq, Prod.mk.injEq] at h; rw [← h.1]; rfl
    | cons p a ih =>
      obtain ⟨t, p⟩ := p
      intro s g r h
      simp only [runAlt] at h
      split at h
      · cases h
      · split at h
        · cases h
        · rename_i ts r' h2
          cases h
          simp [ih _ _ _ h2]
  have htok : ∀ (as : List (List (Token × Peg))), runToken as s = some (g, r) → ∃ a ∈ as, g.map (·.1) = a.map (·.1) := by
    intro as
    induction as with
    | nil => intro h; cases h
    | cons a as ih =>
      intro h
      simp only [runToken] at h
      split at h
      · rename_i h1; cases h; exact ⟨a, by simp, halt _ _ _ _ h1⟩
      · obtain ⟨a', h1, h2⟩ := ih h; exact ⟨a', by simp [h1], h2⟩
  obtain ⟨a, ha, he⟩ := htok _ h
  rcases hall a ha with h1 | h1 | h1
  · left
    have h2 : g.length = 1 := by rw [← h1, ← List.length_map (f := (·.1)), he, List.length_map]
    exact List.length_eq_one_iff.1 h2
  all_goals
    right
    rw [h1] at he
    obtain ⟨x, g, rfl, hx, he⟩ := List.map_eq_cons_iff.1 he
    obtain ⟨y, g, rfl, hy, he⟩ := List.map_eq_cons_iff.1 he
    cases List.map_eq_nil_iff.1 he
    have sx := hsh x (by simp)
    have sy := hsh y (by simp)
    rw [hx] at sx
    rw [hy] at sy
    simp only [TokenShape, tokenLiteral, Option.some.injEq] at sx sy
    intro c hc
    simp only [slices, List.flatMap_cons, List.flatMap_nil, ← sx, ← sy] at hc
    simp at hc
    simp [hc]

private theorem dash_shape {t : Token} {s : Str} (h : TokenShape t s) (hm : '-' ∈ s) (hq : s.getLast? ≠ some '"') :
    (∃ c, s = [c]) ∨ (∀ c ∈ s, c = '-') ∨ s = c!"[!--" ∨ (t = .rightComment ∧ s = c!"--]") ∨ t = .url := by
  cases t <;> simp only [TokenShape, tokenLiteral, Option.some.injEq] at h
  case url => exact .inr (.inr (.inr (.inr rfl)))
  case leftComment => exact .inr (.inr (.inl h.symm))
  case rightComment => exact .inr (.inr (.inr (.inl ⟨rfl, h.symm⟩)))
  case tripleDash => exact .inr (.inl h.2)
  case doubleDash => subst h; exact .inr (.inl (by simp))
  case heading =>
    obtain ⟨n, _, _, rfl | rfl⟩ := h
    · exact absurd (List.eq_of_mem_replicate hm) (by decide)
    · rcases List.mem_append.1 hm with hm | hm
      · exact absurd (List.eq_of_mem_replicate hm) (by decide)
      · simp at hm
  case quote => exact absurd (h.2 _ hm) (by decide)
  case whitespace => exact absurd (h.2 _ hm) (by decide)
  case identifier => exact absurd (h.2 _ hm) (by decide)
  case paragraphBreak => exact absurd (h.2 _ hm) (by decide)
  case lineBreak => rcases h with rfl | rfl | rfl <;> exact absurd hm (by decide)
  case «variable» =>
    obtain ⟨n, _, hn, rfl⟩ := h
    simp only [List.mem_append] at hm
    rcases hm with (hm | hm) | hm
    · exact absurd hm (by decide)
    · exact absurd (hn _ hm) (by decide)
    · exact absurd hm (by decide)
  case string => obtain ⟨n, rfl, _⟩ := h; rw [List.getLast?_append] at hq; simp at hq
  case clearFloatBoth => exact absurd (h.2 _ hm) (by decide)
  case clearFloatLeft =>
    obtain ⟨w, _, hw, rfl⟩ := h
    rcases List.mem_append.1 hm with hm | hm
    · exact absurd (hw _ hm) (by decide)
    · simp at hm
  case clearFloatRight =>
    obtain ⟨w, _, hw, rfl⟩ := h
    rcases List.mem_append.1 hm with hm | hm
    · exact absurd (hw _ hm) (by decide)
    · simp at hm
  case other => exact .inl h
  all_goals (subst h; exact absurd hm (by decide))

private theorem prefix_at {p t w : Str} (h : p <+: t ++ w) (hw : ∀ c ∈ w, c = '-' ∨ c = ']') (hp : ∀ c ∈ p, c ≠ '-' ∧ c ≠ ']') : p <+: t := by
  rcases List.prefix_or_prefix_of_prefix h (List.prefix_append t w) with h1 | ⟨q, rfl⟩
  · exact h1
  · cases q with
    | nil => simp
    | cons c q =>
      rw [List.prefix_append_right_inj] at h
      have : c ∈ w := h.subset (by simp)
      have h2 := hp c (by simp)
      rcases hw c this with e | e
      · exact (h2.1 e).elim
      · exact (h2.2 e).elim

private theorem CommentText.suffix {t t' : Str} (h : CommentText t) (hs : t' <:+ t) : CommentText t' := by
  refine ⟨fun hm => h.inner (hm.trans hs.isInfix), ?_, fun hm => h.start (hm.trans hs), fun p hp b hb => h.urls p hp b (hb.trans hs)⟩
  obtain ⟨a, rfl⟩ := hs
  cases hg : t'.getLast? with
  | none => simp
  | some c =>
    have := h.last
    rw [List.getLast?_append, hg] at this
    exact this

private theorem slices_cons' (x : Token × Str) (xs : List (Token × Str)) : slices (x :: xs) = x.2 ++ slices xs := rfl

private theorem slices_infix {g : List (Token × Str)} {x : Token × Str} (hx : x ∈ g) : x.2 <:+: slices g := by
  obtain ⟨a, b, rfl⟩ := List.append_of_mem hx
  rw [slices_append, slices_cons']
  exact ⟨slices a, slices b, by simp⟩

private theorem lexList_cons {ts : List (Token × Str)} {w : Str} (h : LexList ts w) (hne : slices ts ≠ []) :
    ∃ g xs, ts = g ++ xs ∧ runToken alternatives (slices ts ++ w) = some (g, slices xs ++ w) ∧ LexList xs w := by
  cases h with
  | nil => exact (hne rfl).elim
  | step h1 _ h2 => exact ⟨_, _, rfl, h1, h2⟩

/-- Not the end of a comment, or of the page. -/
private def inComment (t : Token) : Prop := t ≠ .rightComment ∧ t ≠ .inputEnd

private theorem comment_tail {xs : List (Token × Str)} {w : Str} (h : LexList xs w) : ∀ {t : Str}, slices xs = t ++ c!"--]" → CommentText t →
    (∀ x ∈ xs, TokenShape x.1 x.2 ∧ x.2 ≠ []) →
    ∃ mid, xs = mid ++ [(.rightComment, c!"--]")] ∧ slices mid = t ∧ ∀ x ∈ mid, inComment x.1 := by
  induction h with
  | nil => intro t h; simp [slices] at h
  | @step g xs rest h1 hne h2 ih =>
    intro t he ht hsh
    rw [slices_append] at he
    have hin : ∀ a', t = slices g ++ a' → slices xs = a' ++ c!"--]" →
        ∃ mid, g ++ xs = mid ++ [(.rightComment, c!"--]")] ∧ slices mid = t ∧ ∀ x ∈ mid, inComment x.1 := by
      rintro a' rfl e2
      obtain ⟨mid, rfl, e3, h3⟩ := ih e2 (ht.suffix (List.suffix_append ..)) (fun x hx => hsh x (by simp [hx]))
      refine ⟨g ++ mid, by simp, by rw [slices_append, e3], ?_⟩
      intro x hx
      rcases List.mem_append.1 hx with hx | hx
      · have hi : x.2 <:+: slices g ++ a' := (slices_infix hx).trans (List.prefix_append ..).isInfix
        obtain ⟨s1, s2⟩ := hsh x (by simp [hx])
        refine ⟨fun e => ?_, fun e => ?_⟩
        · rw [e] at s1
          simp only [TokenShape, tokenLiteral, Option.some.injEq] at s1
          rw [← s1] at hi
          exact ht.inner hi
        · rw [e] at s1
          simp only [TokenShape, tokenLiteral, Option.some.injEq] at s1
          exact s2 s1.symm
      · exact h3 x hx
    by_cases ht0 : t = []
    · subst ht0
      rw [slices_append, he, List.nil_append, (lex_rightComment rest : _)] at h1
      simp only [Option.some.injEq, Prod.mk.injEq] at h1
      obtain ⟨rfl, e1⟩ := h1
      have hx : slices xs = [] := by
        have := congrArg List.length e1
        simp at this
        exact this
      cases xs with
      | nil => exact ⟨[], by simp, rfl, by simp⟩
      | cons x xs =>
        rw [slices_cons', List.append_eq_nil_iff] at hx
        exact ((hsh x (by simp)).2 hx.1).elim
    · rcases List.append_eq_append_iff.1 he with ⟨a', e1, e2⟩ | ⟨c', e1, e2⟩
      · exact hin a' e1 e2
      · by_cases hc : c' = []
        · subst hc
          exact hin [] (by simpa using e1.symm) (by simpa using e2.symm)
        · exfalso
          have hc3 : c' = c!"-" ∨ c' = c!"--" ∨ c' = c!"--]" := by
            match c', e2, hc with
            | [], _, hc => exact (hc rfl).elim
            | [a], e2, _ => simp at e2; simp [← e2.1]
            | [a, b], e2, _ => simp at e2; simp [← e2.1, ← e2.2.1]
            | [a, b, c], e2, _ => simp at e2; simp [← e2.1, ← e2.2.1, ← e2.2.2.1]
            | a :: b :: c :: d :: r, e2, _ => simp at e2
          have hdash : '-' ∈ c' := by rcases hc3 with rfl | rfl | rfl <;> simp
          rcases group_one h1 (fun x hx => (hsh x (by simp [hx])).1) with ⟨y, rfl⟩ | hb
          · have e3 : y.2 = t ++ c' := by simpa [slices] using e1
            have hq : y.2.getLast? ≠ some '"' := by
              rw [e3, List.getLast?_append]
              rcases hc3 with rfl | rfl | rfl <;> simp
            obtain ⟨s1, s2⟩ := hsh y (by simp)
            have hlast : ∀ d, t.getLast? = some d → d ≠ '-' := by
              rintro d hd rfl
              exact ht.last hd
            obtain ⟨d, hd⟩ : ∃ d, t.getLast? = some d := by
              cases h : t.getLast? with
              | none => exact (ht0 (List.getLast?_eq_none_iff.1 h)).elim
              | some d => exact ⟨d, rfl⟩
            rcases dash_shape s1 (by rw [e3]; simp [hdash]) hq with ⟨c, e⟩ | e | e | ⟨_, e⟩ | hk
            · have := congrArg List.length e3
              have h3 := List.length_pos_iff.2 ht0
              have h4 := List.length_pos_iff.2 hc
              rw [e, List.length_append] at this
              simp at this
              omega
            · exact hlast d hd (e d (by rw [e3]; simp [List.mem_of_getLast? hd]))
            · rw [e] at e3
              have e4 := congrArg List.reverse e3
              rcases hc3 with rfl | rfl | rfl
              · simp at e4
                have : t = c!"[!-" := by rw [← List.reverse_reverse t, ← e4]; rfl
                exact ht.last (by rw [this]; rfl)
              · simp at e4
                have : t = c!"[!" := by rw [← List.reverse_reverse t, ← e4]; rfl
                exact ht.start (by rw [this]; exact List.suffix_refl _)
              · simp at e4
            · rw [e] at e3
              have e4 := congrArg List.reverse e3
              rcases hc3 with rfl | rfl | rfl
              · simp at e4
              · simp at e4
              · simp at e4
                exact ht0 e4
            · rw [hk] at s1
              obtain ⟨r, _, hr, hstop⟩ := s1
              obtain ⟨p, hp, hpr⟩ : ∃ p ∈ [c!"http://", c!"https://", c!"ftp://"], y.2 = p ++ r := by
                rcases hr with h | h | h
                · exact ⟨_, by simp, h⟩
                · exact ⟨_, by simp, h⟩
                · exact ⟨_, by simp, h⟩
              rw [e3] at hpr
              have hpt : p <+: t := prefix_at (w := c') (by rw [hpr]; exact List.prefix_append ..)
                (by rcases hc3 with rfl | rfl | rfl <;> simp) (by
                simp only [List.mem_cons, List.not_mem_nil, or_false] at hp
                rcases hp with rfl | rfl | rfl <;> decide)
              obtain ⟨b, rfl⟩ := hpt
              rw [List.append_assoc, List.append_cancel_left_eq] at hpr
              obtain ⟨c, hcb, hcs⟩ := ht.urls p hp b (List.suffix_refl _)
              have := hstop c (by rw [← hpr]; simp [hcb])
              simp [this] at hcs
          · rcases hb '-' (by rw [e1]; simp [hdash]) with h | h <;> cases h

/-- The tokens of a comment. -/
private theorem comment_lexed {t : Str} (ht : CommentText t) : ∃ mid, slices mid = t ∧ (∀ x ∈ mid, inComment x.1) ∧
    ∀ w, Ends w → LexList ((.leftComment, c!"[!--") :: (mid ++ [(.rightComment, c!"--]")])) w := by
  obtain ⟨ts, e1, hl⟩ := text_lexed _ (c!"[!--" ++ t ++ c!"--" ++ c!"]") (Nat.le_refl _) ⟨_, ']', rfl, by decide, by decide⟩
  have hl0 := hl [] (.inl rfl)
  have e1' : slices ts = c!"[!--" ++ (t ++ c!"--]") := by rw [e1]; simp
  have htok := tokenize_list hl0
  have hsh : ∀ x ∈ ts, TokenShape x.1 x.2 ∧ x.2 ≠ [] := by
    intro x hx
    rw [← addSpans_map 0 ts] at hx
    obtain ⟨e, he, rfl⟩ := List.mem_map.1 hx
    refine ⟨C57_token_shapes (slices ts) e (by rw [htok]; simp [he]), ?_⟩
    obtain ⟨mid, m1, _, m3⟩ := C07_tokens_tile (slices ts)
    rw [htok] at m1
    simp only [List.cons.injEq, true_and, List.append_cancel_right_eq] at m1
    obtain ⟨a, b, e⟩ := List.append_of_mem (m1 ▸ he)
    exact (m3 _ _ _ e).1
  obtain ⟨g, xs, rfl, h1, h2⟩ := lexList_cons hl0 (by rw [e1']; simp)
  rw [e1', List.append_assoc, lex_leftComment] at h1
  simp only [Option.some.injEq, Prod.mk.injEq, List.append_nil] at h1
  obtain ⟨rfl, h1⟩ := h1
  obtain ⟨mid, rfl, m1, m2⟩ := comment_tail h2 h1.symm ht (fun x hx => hsh x (by simp [hx]))
  exact ⟨mid, m1, m2, hl⟩

/-- What follows the words of a line. -/
private def Follows (r : Str) : Prop := ∀ c r', r = c :: r' → c = '[' ∨ c = '\n'

private theorem word_apart {s : Str} {c : Char} (hne : s ≠ []) (h : ∀ x ∈ s, isAlnumA x = true) (hc : c = '[' ∨ c = '\n') :
    apart s c = true := by
  obtain ⟨d, s, rfl⟩ := List.exists_cons_of_ne_nil hne
  have hd := h d (by simp)
  have hall : (d :: s).all isAlnumA = true := List.all_eq_true.2 h
  have hnl : (d :: s).getLast? ≠ some '\n' := by
    intro e
    have := h _ (List.mem_of_getLast? e)
    revert this; decide
  unfold apart
  cases s with
  | nil =>
    simp only [hd, if_true]
    rcases hc with rfl | rfl <;> decide
  | cons e s =>
    simp only [if_neg hnl, hd, if_true, hall]
    rcases hc with rfl | rfl
    · have h1 : isAlnumA '[' = false := by decide
      have h2 : ('[' == ':') = false := by decide
      rw [h1, h2]; simp
    · have h1 : isAlnumA '\n' = false := by decide
      have h2 : ('\n' == ':') = false := by decide
      rw [h1, h2]; simp

private theorem blank_apart (n : Nat) {c : Char} (hc : c = '[' ∨ c = '\n') : apart (Plain.blanks n).str c = true := by
  cases n with
  | zero => rcases hc with rfl | rfl <;> decide
  | succ n =>
    have e : (Plain.blanks (n + 1)).str = ' ' :: ' ' :: List.replicate n ' ' := rfl
    rw [e]
    have hl : (' ' :: ' ' :: List.replicate n ' ').getLast? ≠ some '\n' := by
      intro h
      have := List.mem_of_getLast? h
      simp at this
    unfold apart
    simp only [if_neg hl]
    rw [if_neg (by decide), if_pos (by decide)]
    rcases hc with rfl | rfl <;> decide

private theorem words_lexed {r : Str} (hr : Follows r) : ∀ {ps : List Plain}, (∀ p ∈ ps, p.ok = true ∧ ∀ c, p ≠ .char c) →
    separate (ps.map Plain.str) = true → LexList (ps.map Plain.lex) r ∧ slices (ps.map Plain.lex) = plainText ps
  | [], _, _ => ⟨.nil, rfl⟩
  | p :: ps, hok, hs => by
    simp only [List.map_cons, separate, Bool.and_eq_true] at hs
    obtain ⟨h1, h2⟩ := words_lexed hr (ps := ps) (fun p hp => hok p (by simp [hp])) hs.2
    have hp := hok p (by simp)
    have hsym := plain_sym hp.1
    refine ⟨?_, by rw [List.map_cons, slices_cons', h2]; rfl⟩
    refine .step (g := [p.lex]) ?_ (by simpa [slices] using hsym.1) h1
    rw [List.singleton_append, slices_cons', List.append_assoc]
    refine hsym.2 _ ?_
    rw [h2]
    cases ps with
    | nil =>
      cases r with
      | nil => rfl
      | cons c r =>
        have hc := hr c r rfl
        show apart p.str c = true
        cases p with
        | char c => exact (hp.2 c rfl).elim
        | word s =>
          have hs := hp.1
          have hne : s ≠ [] := by rintro rfl; simp [Plain.ok] at hs
          have hall : ∀ x ∈ s, isAlnumA x = true := by
            intro x hx
            simp only [Plain.ok, Bool.and_eq_true, List.all_eq_true] at hs
            exact hs.2 x hx
          exact word_apart hne hall hc
        | blanks n => exact blank_apart n hc
    | cons q ps =>
      have hq := hok q (by simp)
      cases hqs : q.str with
      | nil => exact ((plain_sym hq.1).1 hqs).elim
      | cons c cs =>
        have := hs.1
        simp only [List.map_cons, hqs] at this
        have e : plainText (q :: ps) = c :: (cs ++ plainText ps) := by simp [plainText, hqs]
        rw [e]
        exact this

/-- The tokens of a line. -/
private inductive LineToks : List (Token × Str) → CommentLine → Prop
  | plain {l : CommentLine} : l.comment = none → LineToks (l.text.map Plain.lex) l
  | comment {l : CommentLine} {mid : List (Token × Str)} : (∀ x ∈ mid, inComment x.1) →
      LineToks (l.text.map Plain.lex ++ (.leftComment, c!"[!--") :: (mid ++ [(.rightComment, c!"--]")])) l

private theorem line_lexed {l : CommentLine} (hl : l.Ok) : ∃ X, LineToks X l ∧ slices X = l.str ∧ ∀ w, Ends w → LexList X w := by
  cases hc : l.comment with
  | none =>
    refine ⟨_, .plain hc, ?_, fun w hw => (words_lexed (r := w) ?_ hl.words hl.apart).1⟩
    · rw [(words_lexed (r := []) (by intro c r h; cases h) hl.words hl.apart).2, CommentLine.str, hc]
      simp
    · rintro c r rfl
      rcases hw with h | ⟨v, h⟩
      · cases h
      · cases h; exact .inr rfl
  | some t =>
    obtain ⟨mid, m1, m2, m3⟩ := comment_lexed (hl.comment t hc)
    have hsl : slices ((.leftComment, c!"[!--") :: (mid ++ [(.rightComment, c!"--]")])) = c!"[!--" ++ t ++ c!"--]" := by
      rw [slices_cons', slices_append, m1]
      simp [slices]
    have hw : ∀ w, LexList (l.text.map Plain.lex) (slices ((.leftComment, c!"[!--") :: (mid ++ [(.rightComment, c!"--]")])) ++ w) ∧ 
        slices (l.text.map Plain.lex) = plainText l.text := by
      intro w
      refine words_lexed ?_ hl.words hl.apart
      rw [hsl]
      intro c r h
      simp at h
      exact .inl h.1.symm
    refine ⟨_, .comment m2, ?_, fun w hw' => (hw w).1.append (m3 w hw')⟩
    rw [slices_append, (hw []).2, hsl, CommentLine.str, hc]

/-- The tokens of lines. -/
private inductive PageToks : List (Token × Str) → CommentLine → List CommentLine → Prop
  | last {X : List (Token × Str)} {l : CommentLine} : l.Ok → LineToks X l → PageToks X l []
  | more {X Y : List (Token × Str)} {l l2 : CommentLine} {ls : List CommentLine} : l.Ok → LineToks X l → PageToks Y l2 ls →
      PageToks (X ++ (.lineBreak, c!"\n") :: Y) l (l2 :: ls)

private theorem page_lexed {l : CommentLine} {ls : List CommentLine} (hl : l.Ok) (hls : ∀ t ∈ ls, t.Ok) :
    ∃ X, PageToks X l ls ∧ slices X = commentPage l ls ∧ LexList X [] := by
  induction ls generalizing l with
  | nil =>
    obtain ⟨X, x1, x2, x3⟩ := line_lexed hl
    exact ⟨X, .last hl x1, by simp [x2, commentPage], x3 _ (.inl rfl)⟩
  | cons l2 ls ih =>
    obtain ⟨X, x1, x2, x3⟩ := line_lexed hl
    obtain ⟨Y, y1, y2, y3⟩ := ih (hls l2 (by simp)) (fun t ht => hls t (by simp [ht]))
    refine ⟨_, .more hl x1 y1, ?_, ?_⟩
    · rw [slices_append, slices_cons', x2, y2]
      simp [commentPage]
    · have hnl : LexList ((.lineBreak, c!"\n") :: Y) [] := by
        refine .step (g := [(.lineBreak, c!"\n")]) ?_ (by simp [slices]) y3
        obtain ⟨s, ps, h⟩ := (hls l2 (by simp)).first
        obtain ⟨hw, _⟩ := (hls l2 (by simp)).words (.word s) (by simp [h])
        obtain ⟨c, s, rfl⟩ : ∃ c s', s = c :: s' := by
          cases s with
          | nil => simp [Plain.ok] at hw
          | cons c s => exact ⟨c, s, rfl⟩
        have hc : isAlnumA c = true := by
          simp only [Plain.ok, Bool.and_eq_true, List.all_eq_true] at hw
          exact hw.2 c (by simp)
        obtain ⟨v, hv⟩ : ∃ v, slices Y = c :: v := by
          rw [y2]
          simp [commentPage, CommentLine.str, h, plainText, Plain.str]
        have hf : fits c!"\n" (slices Y ++ []) = true := by
          rw [hv]
          show apart c!"\n" c = true
          have h1 : ∀ x : Char, isAlnumA x = false → (c == x) = false := by
            intro x hx
            rw [beq_eq_false_iff_ne]
            rintro rfl
            rw [hc] at hx; cases hx
          have h2 := h1 '\n' (by decide)
          have h3 : isAlnumA '\n' = false := by decide
          have h4 : c ≠ '\r' := by rintro rfl; revert hc; decide
          simp only [apart, h2, h3]
          simp [h4]
        exact lex_newline hf
      have := (x3 (slices ((.lineBreak, c!"\n") :: Y) ++ []) (.inr ⟨slices Y, by simp [slices_cons']⟩)).append hnl
      simpa using this

/-! ### Its elements -/

variable {env : Env}

private theorem run_any_comment {x y : ETok} {xs rest : List ETok} {sol : Bool} {p : PState} {sh : Shared} (hr : rest ≠ [])
    (hx : x.token = .leftComment) (hy : y.token = .rightComment) (hxs : ∀ z ∈ xs, inComment z.token) :
    ruleComment env ⟨p.at (x :: (xs ++ y :: rest)) sol, sh⟩ = .ok ⟨[], [], true⟩ ⟨p.at rest false, sh⟩ := by
  have key : ∀ (zs : List ETok), (∀ z ∈ zs, inComment z.token) → ∀ n (sol : Bool), zs.length < n →
      loopN (fun (_ : Unit) => do
        let t ← curTok
        if t = .rightComment then do
          let _ ← step
          let r ← okE []
          pure (.done r)
        else if t = .inputEnd then fail .endOfInput
        else do
          let _ ← step
          pure (.more ())) n () env ⟨p.at (zs ++ y :: rest) sol, sh⟩ = .ok ⟨[], [], true⟩ ⟨p.at rest false, sh⟩ := by
    intro zs
    induction zs with
    | nil =>
      intro _ n sol hn
      obtain ⟨n, rfl⟩ : ∃ k, n = k + 1 := ⟨n - 1, by simp at hn; omega⟩
      obtain ⟨z, zs, rfl⟩ := List.exists_cons_of_ne_nil hr
      rw [loopN, bind_ok (a := .done ⟨[], [], true⟩) (s' := ⟨p.at (z :: zs) false, sh⟩)]
      · rfl
      · rw [bind_ok (s' := ⟨p.at (y :: z :: zs) sol, sh⟩) (a := y.token) rfl, if_pos hy]
        rw [bind_ok (step_at ..), hy]
        rfl
    | cons z zs ih =>
      intro hz n sol hn
      obtain ⟨n, rfl⟩ : ∃ k, n = k + 1 := ⟨n - 1, by simp at hn; omega⟩
      have hzt := hz z (by simp)
      obtain ⟨w, ws, hw⟩ : ∃ w ws, zs ++ y :: rest = w :: ws := by cases zs <;> simp
      rw [loopN, bind_ok (a := .more ()) (s' := ⟨p.at (zs ++ y :: rest) (isLineStartTok z.token), sh⟩)]
      · exact ih (fun z h => hz z (by simp [h])) n _ (by simp at hn; omega)
      · rw [bind_ok (s' := ⟨p.at (z :: zs ++ y :: rest) sol, sh⟩) (a := z.token) rfl]
        rw [if_neg hzt.1, if_neg hzt.2]
        rw [List.cons_append, hw, bind_ok (step_at ..)]
        rfl
  obtain ⟨w, ws, hw⟩ : ∃ w ws, xs ++ y :: rest = w :: ws := by cases xs <;> simp
  unfold ruleComment
  rw [hw, bind_ok (checkStep_at _ _ hx _ _ _ _), ← hw]
  exact key xs hxs _ _ (by simp [PState.at]; omega)

private theorem comment_eats {o c : ETok} {ys rest : List ETok} {sol : Bool} (hot : o.token = .leftComment) (hct : c.token = .rightComment)
    (hys : ∀ z ∈ ys, inComment z.token) (hr : rest ≠ []) : Eats env 1 sol (o :: (ys ++ [c])) rest [] true [] := by
  refine eats_rule hr (rs1 := []) (rs2 := []) (r := .comment) (by rw [hot]; rfl) (by simp) (by simp [RuleId.needsLineStart])
    noParts_nil (n := 0) ?_
  intro fuel p sh hf hd
  show ruleComment env _ = _
  have hsol : solAfter (o :: (ys ++ [c])) = false := by
    have := solAfter_append (o :: ys) c
    rw [List.cons_append] at this
    rw [this, hct]; rfl
  have e0 : o :: (ys ++ [c]) ++ rest = o :: (ys ++ c :: rest) := by simp
  rw [e0, hsol]
  exact run_any_comment hr hot hct hys

private theorem brk_eats {x y : ETok} {ys : List ETok} {sol : Bool} (hx : x.token = .lineBreak)
    (hy : y.token = .identifier) (hs : (y :: ys) <:+ (tokenize env.text).tokens) :
    Eats env 1 sol [x] (y :: ys) [eLineBreak] true [] := by
  refine eats_tok (by simp) (rs1 := [.blockSkipNewline, .definitionListSkipNewline]) (r := .lineBreak) (rs2 := [])
    (by rw [hx]; rfl) ?_ (by simp [RuleId.needsLineStart]) (noParts_cons (by simp) noParts_nil) ?_
  · intro r hr'
    simp at hr'
    rcases hr' with rfl | rfl
    · exact fails_blockSkip (by simp [hy]) (by simp [hy])
    · exact fails_defSkip (by simp [hy])
  · intro cons p sh
    show ruleLineBreak env _ = _
    cases ys with
    | nil =>
      have he : y.token = .inputEnd := (inputEnd_last hs).2 rfl
      rw [hy] at he
      cases he
    | cons z zs =>
      refine run_lineBreak ?_
      simp [afterBlank, hy, isSkipTok]

/-- What follows a word or blanks. -/
private def textNext (t : Token) : Prop := t = .identifier ∨ t = .whitespace ∨ t = .leftComment ∨ t = .lineBreak ∨ t = .inputEnd

private theorem text_eats {p : Plain} (hok : ∀ c, p ≠ .char c) {x y : ETok} {ys : List ETok} {sol : Bool}
    (hx : x.pair = p.lex) (hy : textNext y.token) : Eats env 1 sol [x] (y :: ys) [.mk (.text p.str) []] true [] := by
  have hxs : x.slice = p.str := congrArg (·.2) hx
  have hxt : x.token = p.lex.1 := congrArg (·.1) hx
  rw [← hxs]
  cases p with
  | char c => exact (hok c rfl).elim
  | word s => exact eats_text (by simp) (rs1 := []) (by rw [hxt]; rfl) (by simp)
  | blanks n =>
    have hxt : x.token = .whitespace := hxt
    refine eats_text (by simp) (rs1 := [.underscoreLineBreak, .list]) (by rw [hxt]; rfl) ?_
    intro r hr
    simp only [List.mem_cons, List.not_mem_nil, or_false] at hr
    rcases hr with rfl | rfl
    · refine fails_underscore hxt ?_
      rintro z zs e
      simp only [List.cons.injEq] at e
      rw [← e.1]
      rcases hy with h | h | h | h | h <;> simp [h]
    · refine fails_list hxt ?_
      rcases hy with h | h | h | h | h <;> rw [h] <;> rfl

private theorem words_gather {p : PState} {sh : Shared} (hp : p.depth = 0) {y : ETok} {T : List ETok} (hy : textNext y.token)
    {toks' : List ETok} {fs : List Elem}
    (hg : ∀ c, Gathers env (consume maxRecursionDepth) p (y :: T) false sh ⟨c, [], []⟩ toks' false sh ⟨addTo c fs, [], []⟩)
    {ps : List Plain} (hok : ∀ q ∈ ps, ∀ c, q ≠ .char c) : ∀ {xs : List ETok} {sol : Bool} {c : List Elem},
    xs.map ETok.pair = ps.map Plain.lex → (ps = [] → sol = false) →
    Gathers env (consume maxRecursionDepth) p (xs ++ y :: T) sol sh ⟨c, [], []⟩ toks' false sh
      ⟨addTo c (ps.map (fun q => .mk (.text q.str) []) ++ fs), [], []⟩ := by
  induction ps with
  | nil =>
    intro xs sol c hx hsol
    cases List.map_eq_nil_iff.1 hx
    rw [hsol rfl]
    exact hg c
  | cons q ps ih =>
    intro xs sol c hx _
    obtain ⟨x, xs, rfl, hxq, hxs⟩ := List.map_eq_cons_iff.1 hx
    have hq := hok q (by simp)
    have hxt : x.token = .identifier ∨ x.token = .whitespace := by
      have hxt : x.token = q.lex.1 := congrArg (·.1) hxq
      rw [hxt]
      cases q with
      | char c => exact (hq c rfl).elim
      | word s => exact .inl rfl
      | blanks n => exact .inr rfl
    obtain ⟨z, zs, hzs, hz⟩ : ∃ z zs, xs ++ y :: T = z :: zs ∧ textNext z.token := by
      cases ps with
      | nil =>
        cases List.map_eq_nil_iff.1 hxs
        exact ⟨y, T, rfl, hy⟩
      | cons q' ps =>
        obtain ⟨z, zs, rfl, hz, _⟩ := List.map_eq_cons_iff.1 hxs
        refine ⟨z, zs ++ y :: T, rfl, ?_⟩
        have hzt : z.token = q'.lex.1 := congrArg (·.1) hz
        rw [hzt]
        cases q' with
        | char c => exact (hok (.char c) (by simp) c rfl).elim
        | word s => exact .inl rfl
        | blanks n => exact .inr (.inl rfl)
    have h1 : Eats env 1 sol [x] (xs ++ y :: T) [.mk (.text q.str) []] true [] := by
      rw [hzs]
      exact text_eats hq hxq hz
    have hsol : solAfter [x] = false := by
      show isLineStartTok x.token = false
      rcases hxt with h | h <;> rw [h] <;> rfl
    have e : (q :: ps).map (fun q => Elem.mk (.text q.str) []) ++ fs =
      [.mk (.text q.str) []] ++ (ps.map (fun q => Elem.mk (.text q.str) []) ++ fs) := rfl
    rw [e]
    refine gather_one h1 ?_ (by simp) hp (fun c' => ?_)
    · refine ⟨?_, ?_, ⟨?_, ?_⟩, ?_⟩
      all_goals simp
      all_goals first | omega | (rcases hxt with h | h <;> simp_all)
    · rw [hsol]
      exact ih (fun q hq => hok q (by simp [hq])) hxs (fun _ => rfl)

private theorem line_gather {p : PState} {sh : Shared} (hp : p.depth = 0) {y : ETok} {T : List ETok} (hy : y.token = .lineBreak ∨ y.token = .inputEnd)
    {toks' : List ETok} {fs : List Elem}
    (hg : ∀ c, Gathers env (consume maxRecursionDepth) p (y :: T) false sh ⟨c, [], []⟩ toks' false sh ⟨addTo c fs, [], []⟩)
    {l : CommentLine} (hl : l.Ok) {X : List (Token × Str)} (h : LineToks X l) {xs : List ETok} {sol : Bool} {c : List Elem}
    (hx : xs.map ETok.pair = X) :
    Gathers env (consume maxRecursionDepth) p (xs ++ y :: T) sol sh ⟨c, [], []⟩ toks' false sh
      ⟨addTo c (l.text.map (fun q => .mk (.text q.str) []) ++ fs), [], []⟩ := by
  have hne : l.text = [] → sol = false := by
    obtain ⟨s, ps, e⟩ := hl.first
    rw [e]
    intro h; cases h
  have hw := fun q hq => (hl.words q hq).2
  cases h with
  | plain _ => exact words_gather hp (by rcases hy with h | h <;> simp [textNext, h]) hg hw hx hne
  | comment hm =>
    rename_i mid
    obtain ⟨ws, zs, rfl, hws, hzs⟩ := map_append_split hx
    obtain ⟨o, zs, rfl, ho, hzs⟩ := List.map_eq_cons_iff.1 hzs
    obtain ⟨ys, cs, rfl, hys, hcs⟩ := map_append_split hzs
    obtain ⟨d, rfl, hd⟩ := List.map_eq_singleton_iff.1 hcs
    have hot : o.token = .leftComment := congrArg (·.1) ho
    have hdt : d.token = .rightComment := congrArg (·.1) hd
    have hq : ∀ z ∈ ys, inComment z.token := fun z hz => hm z.pair (by rw [← hys]; exact List.mem_map_of_mem hz)
    have e0 : ws ++ o :: (ys ++ [d]) ++ y :: T = ws ++ o :: (ys ++ [d] ++ y :: T) := by simp
    rw [e0]
    refine words_gather hp (.inr (.inr (.inl hot))) (fun c => ?_) hw hws hne
    have h1 : Eats env 1 false (o :: (ys ++ [d])) (y :: T) [] true [] := comment_eats hot hdt hq (by simp)
    have hsol : solAfter (o :: (ys ++ [d])) = false := by
      have := solAfter_append (o :: ys) d
      rw [List.cons_append] at this
      rw [this, hdt]; rfl
    have := gather_one (p := p) (sh := sh) (c := c) (fs := fs) h1 ⟨by simp [hot], by simp [hot], ⟨by simp [hot], by simp [hot]⟩, by simp; omega⟩ (by simp) hp
      (toks' := toks') (sol' := false) (fun c' => by rw [hsol]; exact hg c')
    exact this

private theorem page_gather {e : ETok} (he : e.token = .inputEnd) {p : PState} {sh : Shared} (hp : p.depth = 0) {X : List (Token × Str)}
    {l : CommentLine} {ls : List CommentLine} (h : PageToks X l ls) : ∀ {xs : List ETok} {sol : Bool} {c : List Elem},
    xs.map ETok.pair = X → (xs ++ [e]) <:+ (tokenize env.text).tokens →
    Gathers env (consume maxRecursionDepth) p (xs ++ [e]) sol sh ⟨c, [], []⟩ [e] false sh ⟨addTo c (commentElems l ls), [], []⟩ := by
  induction h with
  | last hl hX =>
    intro xs sol c hx _
    refine line_gather hp (.inr he) (fs := []) (fun c => ?_) hl hX hx
    have : addTo c [] = c := by cases c <;> simp [addTo]
    rw [this]
    exact .nil
  | @more X Y l l2 ls hl hX hY ih =>
    intro xs sol c hx hs
    obtain ⟨ws, zs, rfl, hws, hzs⟩ := map_append_split hx
    obtain ⟨b, zs, rfl, hb, hzs⟩ := List.map_eq_cons_iff.1 hzs
    have hbt : b.token = .lineBreak := congrArg (·.1) hb
    have e0 : ws ++ b :: zs ++ [e] = ws ++ b :: (zs ++ [e]) := by simp
    rw [e0] at hs ⊢
    have hs1 : (zs ++ [e]) <:+ (tokenize env.text).tokens :=
      List.IsSuffix.trans ((List.suffix_cons _ _).trans (List.suffix_append _ _)) hs
    obtain ⟨z, zs', hz, hzt⟩ : ∃ z zs', zs = z :: zs' ∧ z.token = .identifier := by
      have key : ∀ {Y : List (Token × Str)} {l : CommentLine}, l.Ok → LineToks Y l → ∃ s Y', Y = (.identifier, s) :: Y' := by
        intro Y l hl hY
        obtain ⟨s, ps, h⟩ := hl.first
        cases hY with
        | plain _ => exact ⟨s, _, by rw [h]; rfl⟩
        | comment _ => exact ⟨s, _, by rw [h]; rfl⟩
      have : ∃ s Y', Y = (.identifier, s) :: Y' := by
        cases hY with
        | last hl hY => exact key hl hY
        | more hl hY _ =>
          obtain ⟨s, Y', rfl⟩ := key hl hY
          exact ⟨s, _, rfl⟩
      obtain ⟨s, Y', rfl⟩ := this
      obtain ⟨z, zs', rfl, hz, _⟩ := List.map_eq_cons_iff.1 hzs
      exact ⟨z, zs', rfl, congrArg (·.1) hz⟩
    have h4 : Eats env 1 false [b] (zs ++ [e]) [eLineBreak] true [] := by
      rw [hz] at hs1 ⊢
      exact brk_eats hbt hzt hs1
    have hel : commentElems l (l2 :: ls) = l.text.map (fun q => .mk (.text q.str) []) ++ ([eLineBreak] ++ commentElems l2 ls) := by
      simp [commentElems, eLineBreak]
    rw [hel]
    refine line_gather hp (.inl hbt) (fun c => ?_) hl hX hws
    refine gather_one h4 ⟨by simp [hbt], by simp [hbt], ⟨by simp [hbt], by simp [hz, hzt]⟩, by simp [hz]⟩ (by simp) hp (fun c' => ih hzs hs1)

/-- C106: lines of words, with comments at their ends, are one paragraph of the words with line breaks between the lines, whatever
the comments contain, and nothing is reported. -/
theorem C106_comments {l : CommentLine} {ls : List CommentLine} (hl : l.Ok) (hls : ∀ t ∈ ls, t.Ok) (wd : World) (info : PageInfo)
    (settings : Settings) :
    ∃ o, parse wd (tokenize (commentPage l ls)) info settings = some (.ok o) ∧ o.errors = [] ∧
      o.tree = ⟨[.mk (.container .paragraph []) (commentElems l ls), .mk (.footnoteBlock none false) []], [], [], [], [], [],
        byteLen (commentPage l ls)⟩ := by
  obtain ⟨X, x1, hsl, hl0⟩ := page_lexed hl hls
  obtain ⟨xs, e, ht, hx, he⟩ : ∃ xs e, (tokenize (commentPage l ls)).tokens =
      ⟨.inputStart, [], 0, 0⟩ :: (xs ++ [e]) ∧ xs.map ETok.pair = X ∧ e.token = .inputEnd := by
    obtain ⟨mid, m1, _, m3⟩ := C07_tokens_tile (commentPage l ls)
    refine ⟨_, _, m1, ?_, rfl⟩
    rw [← hsl, tokenize_list hl0] at m1
    simp only [List.cons.injEq, true_and, List.append_cancel_right_eq] at m1
    rw [← m1]
    exact addSpans_map _ _
  obtain ⟨s, ps, htext⟩ := hl.first
  let env : Env := ⟨commentPage l ls, (tokenize (commentPage l ls)).tokens, info, settings, wd⟩
  let p0 : PState := ⟨⟨.inputStart, [], 0, 0⟩, xs ++ [e], .page, 0, .none, false, false, true⟩
  have hs : (xs ++ [e]) <:+ (tokenize env.text).tokens := by
    show _ <:+ (tokenize (commentPage l ls)).tokens
    rw [ht]; exact List.suffix_cons ..
  have hxne : xs ≠ [] := by
    rintro rfl
    cases x1 with
    | last _ h => cases h <;> simp [htext] at hx
    | more _ h _ => cases h <;> simp [htext] at hx
  have hstart : consume maxRecursionDepth env ⟨p0.at (⟨.inputStart, [], 0, 0⟩ :: (xs ++ [e])) true, ⟨[], [], [], [], []⟩⟩ =
      .ok ⟨[], [], true⟩ ⟨p0.at (xs ++ [e]) true, ⟨[], [], [], [], []⟩⟩ :=
    eats_tok (env := env) (x := ⟨.inputStart, [], 0, 0⟩) (rest := xs ++ [e]) (sol := true) (r := .null) (rs1 := [])
      (rs2 := []) (es := []) (safe := true) (by simp) rfl (by simp) (by simp) noParts_nil (fun _ _ _ => rfl)
      maxRecursionDepth p0 _ (by decide) (by simp [p0]) (fun _ => rfl)
  have hform : ∃ es, commentElems l ls = .mk (.text s) [] :: es := ⟨_, by rw [commentElems, htext]; rfl⟩
  have hg : Gathers env (consume maxRecursionDepth) p0 (⟨.inputStart, [], 0, 0⟩ :: (xs ++ [e])) true ⟨[], [], [], [], []⟩
      PStack.new [e] false ⟨[], [], [], [], []⟩ ⟨commentElems l ls, [], []⟩ :=
    .cons ⟨by simp, by simp, ⟨by simp, by simp⟩, by simp⟩ hstart (by simp) (by
      have := page_gather (env := env) (e := e) he (p := p0) (sh := ⟨[], [], [], [], []⟩) rfl x1 (sol := true) (c := []) hx hs
      obtain ⟨es, he⟩ := hform
      rw [he] at this ⊢
      exact this)
  have hrun := gatherParagraphs_gathers (r := .page) (close := none) (p := p0) (toks2 := [e]) (sol2 := false) hg (by simp) (by simp) ⟨he, rfl, rfl⟩
    (.inl ⟨he, rfl, rfl⟩) (by obtain ⟨es, he⟩ := hform; rw [he]) (safe := false) (by obtain ⟨es, he⟩ := hform; rw [he]; rfl)
  refine ⟨⟨⟨[.mk (.container .paragraph []) (commentElems l ls)] ++ [.mk (.footnoteBlock none false) []],
      [], [], [], [], [], byteLen (commentPage l ls)⟩, []⟩, ?_, rfl, rfl⟩
  have hint := hrun
  rw [show gatherParagraphs (consume maxRecursionDepth) .page none env ⟨p0.at (⟨.inputStart, [], 0, 0⟩ :: (xs ++ [e])) true, ⟨[], [], [], [], []⟩⟩ =
    parseInternal env by
      unfold parseInternal
      rw [show env.tokens = ⟨.inputStart, [], 0, 0⟩ :: (xs ++ [e]) from ht]
      rfl] at hint
  show parseEnv env = _
  unfold parseEnv
  rw [hint]
  obtain ⟨es, he⟩ := hform
  rw [he]
  rfl

/-- The line without its comment. -/
def CommentLine.bare (l : CommentLine) : CommentLine := ⟨l.text, none⟩

/-- C106: the elements are those of the page without the comments. -/
theorem C106_no_effect {l : CommentLine} {ls : List CommentLine} (hl : l.Ok) (hls : ∀ t ∈ ls, t.Ok) (wd : World) (info : PageInfo)
    (settings : Settings) :
    ∃ o o', parse wd (tokenize (commentPage l ls)) info settings = some (.ok o) ∧
      parse wd (tokenize (commentPage l.bare (ls.map CommentLine.bare))) info settings = some (.ok o') ∧
      o.errors = o'.errors ∧ o.tree = { o'.tree with wikitextLen := o.tree.wikitextLen } := by
  have hb : ∀ {l : CommentLine}, l.Ok → l.bare.Ok := fun h => ⟨h.first, h.words, h.apart, by intro t h; cases h⟩
  obtain ⟨o, o1, o2, o3⟩ := C106_comments hl hls wd info settings
  obtain ⟨o', p1, p2, p3⟩ := C106_comments (l := l.bare) (ls := ls.map CommentLine.bare) (hb hl) (by
    intro t ht
    obtain ⟨u, hu, rfl⟩ := List.mem_map.1 ht
    exact hb (hls u hu)) wd info settings
  refine ⟨o, o', o1, p1, by rw [o2, p2], ?_⟩
  have e : commentElems l.bare (ls.map CommentLine.bare) = commentElems l ls := by
    simp only [commentElems, CommentLine.bare, List.flatMap_map]
  rw [o3, p3, e]

/-- A check for what can be in a comment. -/
def checkComment (t : Str) : Bool :=
  (List.range (t.length + 1)).all (fun i => !(c!"--]").isPrefixOf (t.drop i)) && t.getLast? != some '-' && !(c!"[!").isSuffixOf t &&
  [c!"http://", c!"https://", c!"ftp://"].all fun p => (List.range (t.length + 1)).all fun i =>
    !p.isPrefixOf (t.drop i) || ((t.drop i).drop p.length).any (c!"\n |[]").contains

theorem commentText_of {t : Str} (h : checkComment t = true) : CommentText t := by
  simp only [checkComment, Bool.and_eq_true, Bool.not_eq_true', bne_iff_ne, ne_eq, List.all_eq_true, List.mem_range, Bool.or_eq_true,
    List.contains_eq_mem, List.any_eq_true, decide_eq_true_eq] at h
  obtain ⟨⟨⟨h1, h2⟩, h3⟩, h4⟩ := h
  refine ⟨?_, h2, ?_, ?_⟩
  · rintro ⟨a, b, rfl⟩
    have := h1 a.length (by simp; omega)
    simp at this
  · intro hs
    rw [List.isSuffixOf_iff_suffix.2 hs] at h3
    cases h3
  · rintro p hp b ⟨a, rfl⟩
    rcases h4 p hp a.length (by simp; omega) with h | ⟨c, hc, hc'⟩
    · simp at h
      have : p.isPrefixOf (p ++ b) = true := List.isPrefixOf_iff_prefix.2 (List.prefix_append _ _)
      rw [this] at h
      cases h
    · simp only [List.drop_left] at hc
      exact ⟨c, hc, hc'⟩

/-- Markup, an unclosed block, line ends and another beginning of a comment, in a comment. -/
example (w : World) (info : PageInfo) (settings : Settings) : ∃ o,
    parse w (tokenize c!"some words [!-- **[[div]]\n\n@@ \"x [!-- {$y --]\nmore") info settings = some (.ok o) ∧ o.errors = [] ∧
      o.tree.elements = [.mk (.container .paragraph []) [.mk (.text c!"some") [], .mk (.text c!" ") [], .mk (.text c!"words") [], .mk (.text c!" ") [],
        .mk .lineBreak [], .mk (.text c!"more") []], .mk (.footnoteBlock none false) []] := by
  obtain ⟨o, h1, h2, h3⟩ := C106_comments (l := ⟨[.word c!"some", .blanks 0, .word c!"words", .blanks 0], some c!" **[[div]]\n\n@@ \"x [!-- {$y "⟩)
    (ls := [⟨[.word c!"more"], none⟩])
    ⟨⟨_, _, rfl⟩, (by intro p hp; simp only [List.mem_cons, List.not_mem_nil, or_false] at hp; rcases hp with rfl | rfl | rfl | rfl <;> exact ⟨rfl, by intro c h; cases h⟩), by decide +kernel, by rintro t ⟨⟩; exact commentText_of (by decide +kernel)⟩
    (by
      intro t ht
      simp only [List.mem_singleton] at ht
      subst ht
      exact ⟨⟨_, _, rfl⟩, (by intro p hp; simp only [List.mem_cons, List.not_mem_nil, or_false] at hp; rcases hp with rfl <;> exact ⟨rfl, by intro c h; cases h⟩), by decide +kernel, by rintro t ⟨⟩⟩) w info settings
  exact ⟨o, h1, h2, by rw [h3]; rfl⟩

/-- Why these comments, and why at the ends of lines: with `-` or `[!` at the end, with a web address at the end, or between
quotation marks on one line, `--]` ends no comment. -/
example : ((tokenize c!"[!-----]").tokens.map (·.slice) = [[], c!"[!--", c!"---", c!"]", []]) ∧
    ((tokenize c!"[!--[!--]").tokens.map (·.slice) = [[], c!"[!--", c!"[!--", c!"]", []]) ∧
    ((tokenize c!"[!--ftp://a--]").tokens.map (·.slice) = [[], c!"[!--", c!"ftp://a--", c!"]", []]) ∧
    ((tokenize c!"[!--\"--]\"").tokens.map (·.slice) = [[], c!"[!--", c!"\"--]\"", []]) := by decide +kernel

end Ftml
