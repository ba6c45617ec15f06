import Verif.Lemmas.PageAll
import Verif.Lemmas.LexLocal
import Verif.Props.LexerShape
import Verif.Props.MarkupMore
import Verif.Props.Parse
import Verif.Spec.MarkupOut
import Verif.Model.Html
import Verif.Model.TextRender
/-
C102: text between `@@` and `@@` is shown as it is.
-/
namespace Ftml
open M Markup Lexer

/-- Lines which can be put between `@@` and `@@`: without `@@`, not ending with `@` or with `>` (`>@` is a symbol), and
with something after the last web address that ends it. -/
structure RawLine (t : Str) : Prop where
  line : '\n' ∉ t ∧ '\r' ∉ t
  inner : ¬ c!"@@" <:+: t
  last : t.getLast? ≠ some '@' ∧ t.getLast? ≠ some '>'
  urls : ∀ p ∈ [c!"http://", c!"https://", c!"ftp://"], ∀ b, (p ++ b) <:+ t → ∃ c ∈ b, c ∈ c!" |[]"

/-- The lines of a text, each between `@@` and `@@`. -/
def rawPage (l : Str) (ls : List Str) : Str := c!"@@" ++ l ++ c!"@@" ++ ls.flatMap fun t => c!"\n@@" ++ t ++ c!"@@"

/-- The lines, as they are, with line breaks between them. -/
def rawElems (l : Str) (ls : List Str) : List Elem := .mk (.raw l) [] :: ls.flatMap fun t => [.mk .lineBreak [], .mk (.raw t) []]

/-! ### Its tokens -/

private theorem single_alt {s : Str} {g : List (Token × Str)} {r : Str} (h : runToken alternatives s = some (g, r))
    {x : Token × Str} (hx : x ∈ g) (ht : x.1 = .raw ∨ x.1 = .rightRaw ∨ x.1 = .other ∨ x.1 = .url) : g = [x] := by
  have hall : ∀ a ∈ alternatives, ∀ t ∈ a.map (·.1), (t = .raw ∨ t = .rightRaw ∨ t = .other ∨ t = .url) → a.length = 1 := by decide
  have halt : ∀ (a : List (Token × Peg)) (s : Str) (g : List (Token × Str)) (r : Str), runAlt a s = some (g, r) → g.map (·.1) = a.map (·.1) := by
    intro a
    induction a with
    | nil => intro s g r h; simp only [runAlt, Option.some.injEq, Prod.mk.injEq] at h; rw [← h.1]; rfl
    | cons p a ih =>
      obtain ⟨t, p⟩ := p
      intro s g r h
      simp only [runAlt] at h
      split at h
      · cases h
      · split at h
        · cases h
        · rename_i ts r' h2
          cases h
          simp [ih _ _ _ h2]
  have htok : ∀ (as : List (List (Token × Peg))), runToken as s = some (g, r) → ∃ a ∈ as, g.map (·.1) = a.map (·.1) := by
    intro as
    induction as with
    | nil => intro h; cases h
    | cons a as ih =>
      intro h
      simp only [runToken] at h
      split at h
      · rename_i h1; cases h; exact ⟨a, by simp, halt _ _ _ _ h1⟩
      · obtain ⟨a', h1, h2⟩ := ih h; exact ⟨a', by simp [h1], h2⟩
  obtain ⟨a, ha, he⟩ := htok _ h
  have h1 := hall a ha x.1 (by rw [← he]; exact List.mem_map_of_mem hx) ht
  have h2 : g.length = 1 := by rw [← h1, ← List.length_map (f := (·.1)), he, List.length_map]
  obtain ⟨y, rfl⟩ := List.length_eq_one_iff.1 h2
  rw [List.mem_singleton.1 hx]

private theorem raw_char {t : Token} {s : Str} (h : TokenShape t s) (he : s.getLast? = some '@') :
    (t = .other ∧ ∃ c, s = [c]) ∨ t = .raw ∧ s = c!"@@" ∨ t = .rightRaw ∧ s = c!">@" ∨ t = .url := by
  have hm : '@' ∈ s := List.mem_of_getLast? he
  cases t <;> simp only [TokenShape, tokenLiteral, Option.some.injEq, reduceCtorEq] at h
  case raw => exact .inr (.inl ⟨rfl, h.symm⟩)
  case rightRaw => exact .inr (.inr (.inl ⟨rfl, h.symm⟩))
  case url => exact .inr (.inr (.inr rfl))
  case heading =>
    obtain ⟨n, _, _, rfl | rfl⟩ := h
    · exact absurd (List.eq_of_mem_replicate hm) (by decide)
    · simp at he
  case quote => exact absurd (h.2 _ hm) (by decide)
  case whitespace => exact absurd (h.2 _ hm) (by decide)
  case identifier => exact absurd (h.2 _ hm) (by decide)
  case paragraphBreak => exact absurd (h.2 _ hm) (by decide)
  case lineBreak => rcases h with rfl | rfl | rfl <;> exact absurd hm (by decide)
  case «variable» => obtain ⟨n, _, _, rfl⟩ := h; rw [List.getLast?_append] at he; simp at he
  case string => obtain ⟨n, rfl, _⟩ := h; rw [List.getLast?_append] at he; simp at he
  case tripleDash => exact absurd (h.2 _ hm) (by decide)
  case clearFloatBoth => exact absurd (h.2 _ hm) (by decide)
  case clearFloatLeft => obtain ⟨w, _, _, rfl⟩ := h; simp at he
  case clearFloatRight => obtain ⟨w, _, _, rfl⟩ := h; simp at he
  case other => exact .inl ⟨rfl, h⟩
  all_goals (subst h; exact absurd he (by decide))

private theorem prefix_at {p t w : Str} (h : p <+: t ++ w) (hw : ∀ c ∈ w, c = '@') (hp : '@' ∉ p) : p <+: t := by
  rcases List.prefix_or_prefix_of_prefix h (List.prefix_append t w) with h1 | ⟨q, rfl⟩
  · exact h1
  · cases q with
    | nil => simp
    | cons c q =>
      rw [List.prefix_append_right_inj] at h
      have : c ∈ w := h.subset (by simp)
      exact (hp (by simp [hw c this])).elim

theorem RawLine.suffix {t t' : Str} (h : RawLine t) (hs : t' <:+ t) : RawLine t' := by
  refine ⟨⟨fun hm => h.line.1 (hs.subset hm), fun hm => h.line.2 (hs.subset hm)⟩, fun hm => h.inner (hm.trans hs.isInfix), ?_,
    fun p hp b hb => h.urls p hp b (hb.trans hs)⟩
  obtain ⟨a, rfl⟩ := hs
  cases hg : t'.getLast? with
  | none => exact ⟨by simp, by simp⟩
  | some c =>
    have := h.last
    rw [List.getLast?_append, hg] at this
    exact this

private theorem slices_cons' (x : Token × Str) (xs : List (Token × Str)) : slices (x :: xs) = x.2 ++ slices xs := rfl

private theorem slices_infix {g : List (Token × Str)} {x : Token × Str} (hx : x ∈ g) : x.2 <:+: slices g := by
  obtain ⟨a, b, rfl⟩ := List.append_of_mem hx
  rw [slices_append, slices_cons']
  exact ⟨slices a, slices b, by simp⟩

private theorem lexList_cons {ts : List (Token × Str)} {w : Str} (h : LexList ts w) (hne : slices ts ≠ []) :
    ∃ g xs, ts = g ++ xs ∧ runToken alternatives (slices ts ++ w) = some (g, slices xs ++ w) ∧ LexList xs w := by
  cases h with
  | nil => exact (hne rfl).elim
  | step h1 _ h2 => exact ⟨_, _, rfl, h1, h2⟩

private theorem raw_tail {xs : List (Token × Str)} {w : Str} (h : LexList xs w) : ∀ {t : Str}, slices xs = t ++ c!"@@" → RawLine t →
    (∀ x ∈ xs, TokenShape x.1 x.2 ∧ x.2 ≠ []) →
    ∃ mid, xs = mid ++ [(.raw, c!"@@")] ∧ slices mid = t ∧ ∀ x ∈ mid, isRawTok x.1 = true := by
  induction h with
  | nil => intro t h; simp [slices] at h
  | @step g xs rest h1 hne h2 ih =>
    intro t he ht hsh
    rw [slices_append] at he
    have hin : ∀ a', t = slices g ++ a' → slices xs = a' ++ c!"@@" →
        ∃ mid, g ++ xs = mid ++ [(.raw, c!"@@")] ∧ slices mid = t ∧ ∀ x ∈ mid, isRawTok x.1 = true := by
      rintro a' rfl e2
      obtain ⟨mid, rfl, e3, h3⟩ := ih e2 (ht.suffix (List.suffix_append ..)) (fun x hx => hsh x (by simp [hx]))
      refine ⟨g ++ mid, by simp, by rw [slices_append, e3], ?_⟩
      intro x hx
      rcases List.mem_append.1 hx with hx | hx
      · have hi : x.2 <:+: slices g ++ a' := (slices_infix hx).trans (List.prefix_append ..).isInfix
        obtain ⟨s1, s2⟩ := hsh x (by simp [hx])
        generalize x.1 = k at s1
        generalize x.2 = s at s1 s2 hi
        cases k <;> simp only [isRawTok] <;> simp only [TokenShape, tokenLiteral, Option.some.injEq] at s1
        case inputEnd => exact (s2 s1.symm).elim
        case raw => subst s1; exact (ht.inner hi).elim
        case lineBreak =>
          rcases s1 with rfl | rfl | rfl
          · exact (ht.line.1 (hi.subset (by simp))).elim
          · exact (ht.line.2 (hi.subset (by simp))).elim
          · exact (ht.line.2 (hi.subset (by simp))).elim
        case paragraphBreak =>
          cases s with
          | nil => exact (s2 rfl).elim
          | cons c s =>
            rcases s1.2 c (by simp) with rfl | rfl
            · exact (ht.line.1 (hi.subset (by simp))).elim
            · exact (ht.line.2 (hi.subset (by simp))).elim
      · exact h3 x hx
    by_cases ht0 : t = []
    · subst ht0
      rw [slices_append, he, List.nil_append, (lex_raw rest : _)] at h1
      simp only [Option.some.injEq, Prod.mk.injEq] at h1
      obtain ⟨rfl, e1⟩ := h1
      have hx : slices xs = [] := by
        have := congrArg List.length e1
        simp at this
        exact this
      cases xs with
      | nil => exact ⟨[], by simp, rfl, by simp⟩
      | cons x xs =>
        rw [slices_cons', List.append_eq_nil_iff] at hx
        exact ((hsh x (by simp)).2 hx.1).elim
    · rcases List.append_eq_append_iff.1 he with ⟨a', e1, e2⟩ | ⟨c', e1, e2⟩
      · exact hin a' e1 e2
      · by_cases hc : c' = []
        · subst hc
          exact hin [] (by simpa using e1.symm) (by simpa using e2.symm)
        · exfalso
          have hc' : ∀ c ∈ c', c = '@' := by
            intro c hm
            have : c ∈ c!"@@" := by rw [e2]; simp [hm]
            simpa using this
          have hg : (slices g).getLast? = some '@' := by
            rw [e1, List.getLast?_append]
            cases hl : c'.getLast? with
            | none => exact (hc (List.getLast?_eq_none_iff.1 hl)).elim
            | some c => rw [hc' c (List.mem_of_getLast? hl)]; rfl
          rcases List.eq_nil_or_concat g with rfl | ⟨g', y, rfl⟩
          · exact hne rfl
          · obtain ⟨s1, s2⟩ := hsh y (by simp)
            have hy : y.2.getLast? = some '@' := by
              rw [List.concat_eq_append, slices_append, slices_cons'] at hg
              simp only [slices, List.flatMap_nil, List.append_nil] at hg
              rw [List.getLast?_append] at hg
              cases hl : y.2.getLast? with
              | none => exact (s2 (List.getLast?_eq_none_iff.1 hl)).elim
              | some c => rw [hl] at hg; exact hg
            have hone : ∀ h : y.1 = .raw ∨ y.1 = .rightRaw ∨ y.1 = .other ∨ y.1 = .url, y.2 = t ++ c' := by
              intro h
              have := single_alt h1 (x := y) (by simp) h
              rw [this] at e1
              simpa [slices] using e1
            have ht1 := List.length_pos_iff.2 ht0
            have hc1 := List.length_pos_iff.2 hc
            have two : ∀ a b : Char, [a, b] = t ++ c' → t = [a] := by
              intro a b e
              have hlen := congrArg List.length e
              rw [List.length_append] at hlen
              simp only [List.length_cons, List.length_nil] at hlen
              obtain ⟨x, rfl⟩ := List.length_eq_one_iff.1 (show t.length = 1 by omega)
              simp only [List.cons_append, List.nil_append, List.cons.injEq] at e
              rw [e.1]
            rcases raw_char s1 hy with ⟨hk, c, e⟩ | ⟨hk, e⟩ | ⟨hk, e⟩ | hk
            · have := congrArg List.length (hone (by simp [hk]))
              rw [e, List.length_append] at this
              simp at this
              omega
            · have := hone (by simp [hk])
              rw [e] at this
              have := two _ _ this
              exact ht.last.1 (by rw [this]; rfl)
            · have := hone (by simp [hk])
              rw [e] at this
              have := two _ _ this
              exact ht.last.2 (by rw [this]; rfl)
            · have e3 := hone (by simp [hk])
              rw [hk] at s1
              obtain ⟨r, _, hr, hstop⟩ := s1
              obtain ⟨p, hp, hpr⟩ : ∃ p ∈ [c!"http://", c!"https://", c!"ftp://"], y.2 = p ++ r := by
                rcases hr with h | h | h
                · exact ⟨_, by simp, h⟩
                · exact ⟨_, by simp, h⟩
                · exact ⟨_, by simp, h⟩
              rw [e3] at hpr
              have hpt : p <+: t := prefix_at (w := c') (by rw [hpr]; exact List.prefix_append ..) hc' (by
                simp only [List.mem_cons, List.not_mem_nil, or_false] at hp
                rcases hp with rfl | rfl | rfl <;> decide)
              obtain ⟨b, rfl⟩ := hpt
              rw [List.append_assoc, List.append_cancel_left_eq] at hpr
              obtain ⟨c, hcb, hcs⟩ := ht.urls p hp b (List.suffix_refl _)
              have := hstop c (by rw [← hpr]; simp [hcb])
              simp [this] at hcs

/-- The tokens of a line. -/
private theorem raw_line {t : Str} (ht : RawLine t) : ∃ mid, slices mid = t ∧ (∀ x ∈ mid, isRawTok x.1 = true) ∧
    ∀ w, Ends w → LexList ((.raw, c!"@@") :: (mid ++ [(.raw, c!"@@")])) w := by
  obtain ⟨ts, e1, hl⟩ := text_lexed _ (c!"@@" ++ t ++ c!"@" ++ c!"@") (Nat.le_refl _) ⟨_, '@', rfl, by decide, by decide⟩
  have hl0 := hl [] (.inl rfl)
  have e1' : slices ts = c!"@@" ++ (t ++ c!"@@") := by rw [e1]; simp
  have htok := tokenize_list hl0
  have hsh : ∀ x ∈ ts, TokenShape x.1 x.2 ∧ x.2 ≠ [] := by
    intro x hx
    rw [← addSpans_map 0 ts] at hx
    obtain ⟨e, he, rfl⟩ := List.mem_map.1 hx
    refine ⟨C57_token_shapes (slices ts) e (by rw [htok]; simp [he]), ?_⟩
    obtain ⟨mid, m1, _, m3⟩ := C07_tokens_tile (slices ts)
    rw [htok] at m1
    simp only [List.cons.injEq, true_and, List.append_cancel_right_eq] at m1
    obtain ⟨a, b, e⟩ := List.append_of_mem (m1 ▸ he)
    exact (m3 _ _ _ e).1
  obtain ⟨g, xs, rfl, h1, h2⟩ := lexList_cons hl0 (by rw [e1']; simp)
  rw [e1', List.append_assoc, lex_raw] at h1
  simp only [Option.some.injEq, Prod.mk.injEq, List.append_nil] at h1
  obtain ⟨rfl, h1⟩ := h1
  obtain ⟨mid, rfl, m1, m2⟩ := raw_tail h2 h1.symm ht (fun x hx => hsh x (by simp [hx]))
  exact ⟨mid, m1, m2, hl⟩

/-- The tokens of lines. -/
private inductive RawToks : List (Token × Str) → Str → List Str → Prop
  | last {mid : List (Token × Str)} {l : Str} : slices mid = l → (∀ x ∈ mid, isRawTok x.1 = true) →
      RawToks ((.raw, c!"@@") :: (mid ++ [(.raw, c!"@@")])) l []
  | more {mid xs : List (Token × Str)} {l l2 : Str} {ls : List Str} : slices mid = l → (∀ x ∈ mid, isRawTok x.1 = true) → RawToks xs l2 ls →
      RawToks ((.raw, c!"@@") :: (mid ++ (.raw, c!"@@") :: (.lineBreak, c!"\n") :: xs)) l (l2 :: ls)

private theorem raw_lexed {l : Str} {ls : List Str} (hl : RawLine l) (hls : ∀ t ∈ ls, RawLine t) :
    ∃ xs, RawToks xs l ls ∧ slices xs = rawPage l ls ∧ LexList xs [] := by
  induction ls generalizing l with
  | nil =>
    obtain ⟨mid, m1, m2, m3⟩ := raw_line hl
    exact ⟨_, .last m1 m2, by simp [slices_cons', slices_append, m1, rawPage]; rfl, m3 _ (.inl rfl)⟩
  | cons l2 ls ih =>
    obtain ⟨mid, m1, m2, m3⟩ := raw_line hl
    obtain ⟨xs, x1, x2, x3⟩ := ih (hls l2 (by simp)) (fun t ht => hls t (by simp [ht]))
    refine ⟨_, .more m1 m2 x1, ?_, ?_⟩
    · simp [slices_cons', slices_append, m1, x2, rawPage]
    · have hnl : LexList ((.lineBreak, c!"\n") :: xs) [] := by
        refine .step (g := [(.lineBreak, c!"\n")]) ?_ (by simp [slices]) x3
        have : slices xs = '@' :: '@' :: (l2 ++ c!"@@" ++ ls.flatMap fun t => c!"\n@@" ++ t ++ c!"@@") := by
          rw [x2]; simp [rawPage]
        have hf : fits c!"\n" (slices xs ++ []) = true := by
          rw [this]
          simp [fits]
          decide
        exact lex_newline hf
      have := (m3 (slices ((.lineBreak, c!"\n") :: xs) ++ []) (.inr ⟨slices xs, by simp [slices_cons']⟩)).append hnl
      simpa using this

/-! ### Its elements -/

variable {env : Env}

private theorem brk_eats {x y : ETok} {ys : List ETok} {sol : Bool} (hx : x.token = .lineBreak)
    (hy : y.token = .raw) (hs : (y :: ys) <:+ (tokenize env.text).tokens) :
    Eats env 1 sol [x] (y :: ys) [eLineBreak] true [] := by
  refine eats_tok (by simp) (rs1 := [.blockSkipNewline, .definitionListSkipNewline]) (r := .lineBreak) (rs2 := [])
    (by rw [hx]; rfl) ?_ (by simp [RuleId.needsLineStart]) (noParts_cons (by simp) noParts_nil) ?_
  · intro r hr'
    simp at hr'
    rcases hr' with rfl | rfl
    · exact fails_blockSkip (by simp [hy]) (by simp [hy])
    · exact fails_defSkip (by simp [hy])
  · intro cons p sh
    show ruleLineBreak env _ = _
    cases ys with
    | nil =>
      have he : y.token = .inputEnd := (inputEnd_last hs).2 rfl
      rw [hy] at he
      cases he
    | cons z zs =>
      refine run_lineBreak ?_
      simp [afterBlank, hy, isSkipTok]

theorem gather_one {xs T : List ETok} {es fs : List Elem} {sol : Bool} {p : PState} {sh : Shared} {c : List Elem}
    (h : Eats env 1 sol xs T es true []) (hx : GoesOn (xs ++ T)) (hne : xs ≠ []) (hp : p.depth = 0)
    {toks' sol'} (hg : ∀ c', Gathers env (consume maxRecursionDepth) p T (solAfter xs) sh ⟨c', [], []⟩ toks' sol' sh ⟨addTo c' fs, [], []⟩) :
    Gathers env (consume maxRecursionDepth) p (xs ++ T) sol sh ⟨c, [], []⟩ toks' sol' sh ⟨addTo c (es ++ fs), [], []⟩ := by
  rw [← addTo_addTo]
  refine .cons hx (h maxRecursionDepth p sh (by decide) (by simp [hp]) (fun _ => rfl)) ?_ ?_
  · have := List.length_pos_iff.2 hne
    simp; omega
  · rw [pushElements_true]
    exact hg _

private theorem raw_eats {x y r : ETok} {ys rest : List ETok} {sol : Bool} {l : Str} (hx : x.token = .raw) (hy : y.token = .raw)
    (hys : ∀ z ∈ ys, isRawTok z.token = true) (hl : slicesOf ys = l) (hr : r.token = .lineBreak ∨ r.token = .inputEnd)
    (hs : (x :: (ys ++ y :: r :: rest)) <:+ (tokenize env.text).tokens) (hne : ys = [] ↔ l = []) :
    Eats env 1 sol (x :: (ys ++ [y])) (r :: rest) [.mk (.raw l) []] true [] := by
  refine eats_rule (by simp) (rs1 := []) (rs2 := []) (r := .raw) (by rw [hx]; rfl) (by simp) (by simp [RuleId.needsLineStart])
    (noParts_cons (by simp) noParts_nil) (n := 0) ?_
  intro fuel p sh hf hd
  show ruleRaw env _ = _
  have hsol : solAfter (x :: (ys ++ [y])) = false := by
    have := solAfter_append (x :: ys) y
    rw [List.cons_append] at this
    rw [this, hy]; rfl
  rw [hsol, ← hl]
  have e0 : x :: (ys ++ [y]) ++ r :: rest = x :: (ys ++ y :: r :: rest) := by simp
  rw [e0]
  cases ys with
  | nil => exact run_raw_empty hx hy (by rcases hr with h | h <;> simp [h]) (by rcases hr with h | h <;> simp [h])
  | cons z zs => exact run_raw (by simp) (by simp) hx hy hys hs

private theorem raw_gather {e : ETok} (he : e.token = .inputEnd) {p : PState} {sh : Shared} (hp : p.depth = 0) {X : List (Token × Str)} {l : Str} {ls : List Str}
    (h : RawToks X l ls) : ∀ {xs : List ETok} {sol : Bool} {c : List Elem},
    xs.map ETok.pair = X → (xs ++ [e]) <:+ (tokenize env.text).tokens → (∀ x ∈ xs, x.slice ≠ []) →
    Gathers env (consume maxRecursionDepth) p (xs ++ [e]) sol sh ⟨c, [], []⟩ [e] false sh ⟨addTo c (rawElems l ls), [], []⟩ := by
  have key : ∀ {ys : List ETok} {mid : List (Token × Str)}, ys.map ETok.pair = mid → slicesOf ys = slices mid := by
    rintro ys mid rfl
    simp [slicesOf, slices, List.flatMap_map]
  have hemp : ∀ {ys : List ETok} {l : Str}, slicesOf ys = l → (∀ x ∈ ys, x.slice ≠ []) → (ys = [] ↔ l = []) := by
    rintro ys l rfl h
    cases ys with
    | nil => simp [slicesOf]
    | cons y ys => simp [slicesOf, h y (by simp)]
  induction h with
  | @last mid l h1 h2 =>
    intro xs sol c hx hs hne
    obtain ⟨x, xs, rfl, hx1, hxs⟩ := List.map_eq_cons_iff.1 hx
    obtain ⟨ys, zs, rfl, hys, hzs⟩ := map_append_split hxs
    obtain ⟨y, _, rfl, hy, h0⟩ := List.map_eq_cons_iff.1 hzs
    cases List.map_eq_nil_iff.1 h0
    have hl : slicesOf ys = l := by rw [key hys, h1]
    have hxt : x.token = .raw := congrArg (·.1) hx1
    have hyt : y.token = .raw := congrArg (·.1) hy
    have hq : ∀ z ∈ ys, isRawTok z.token = true := fun z hz => h2 z.pair (by rw [← hys]; exact List.mem_map_of_mem hz)
    have h3 := raw_eats (env := env) (sol := sol) (rest := []) hxt hyt hq hl (.inr he) (by simpa using hs) (hemp hl (fun x hx => hne x (by simp [hx])))
    have hsol : solAfter (x :: (ys ++ [y])) = false := by
      have := solAfter_append (x :: ys) y
      rw [List.cons_append] at this
      rw [this, hyt]; rfl
    refine gather_one (fs := []) h3 ⟨by simp [hxt], by simp [hxt], ⟨by simp [hxt], by simp [hxt]⟩, by simp⟩ (by simp) hp (fun c' => ?_)
    rw [hsol]
    have : addTo c' [] = c' := by cases c' <;> simp [addTo]
    rw [this]
    exact .nil
  | @more mid X l l2 ls h1 h2 hX ih =>
    intro xs sol c hx hs hne
    obtain ⟨x, xs, rfl, hx1, hxs⟩ := List.map_eq_cons_iff.1 hx
    obtain ⟨ys, zs, rfl, hys, hzs⟩ := map_append_split hxs
    obtain ⟨y, zs, rfl, hy, h0⟩ := List.map_eq_cons_iff.1 hzs
    obtain ⟨b, zs, rfl, hb, hzs⟩ := List.map_eq_cons_iff.1 h0
    have hl : slicesOf ys = l := by rw [key hys, h1]
    have hxt : x.token = .raw := congrArg (·.1) hx1
    have hyt : y.token = .raw := congrArg (·.1) hy
    have hbt : b.token = .lineBreak := congrArg (·.1) hb
    have hq : ∀ z ∈ ys, isRawTok z.token = true := fun z hz => h2 z.pair (by rw [← hys]; exact List.mem_map_of_mem hz)
    have e0 : x :: (ys ++ y :: b :: zs) ++ [e] = x :: (ys ++ [y]) ++ (b :: (zs ++ [e])) := by simp
    rw [e0] at hs ⊢
    have hs1 : (zs ++ [e]) <:+ (tokenize env.text).tokens := by
      refine List.IsSuffix.trans ?_ hs
      exact (List.suffix_cons _ _).trans (List.suffix_append _ _)
    have ih := fun sol c => ih (xs := zs) (sol := sol) (c := c) hzs hs1 (fun x hx => hne x (by simp [hx]))
    have h3 := raw_eats (env := env) (sol := sol) (rest := zs ++ [e]) hxt hyt hq hl (.inl hbt) (by simpa using hs) (hemp hl (fun x hx => hne x (by simp [hx])))
    have hsol : solAfter (x :: (ys ++ [y])) = false := by
      have := solAfter_append (x :: ys) y
      rw [List.cons_append] at this
      rw [this, hyt]; rfl
    obtain ⟨z, zs', hz, hzt⟩ : ∃ z zs', zs = z :: zs' ∧ z.token = .raw := by
      cases hX with
      | last => 
        obtain ⟨z, zs', rfl, hz, _⟩ := List.map_eq_cons_iff.1 hzs
        exact ⟨z, zs', rfl, congrArg (·.1) hz⟩
      | more =>
        obtain ⟨z, zs', rfl, hz, _⟩ := List.map_eq_cons_iff.1 hzs
        exact ⟨z, zs', rfl, congrArg (·.1) hz⟩
    have h4 : Eats env 1 false [b] (zs ++ [e]) [eLineBreak] true [] := by
      rw [hz] at hs1 ⊢
      exact brk_eats hbt hzt hs1
    have hel : rawElems l (l2 :: ls) = [.mk (.raw l) []] ++ ([eLineBreak] ++ rawElems l2 ls) := rfl
    rw [hel]
    refine gather_one h3 ⟨by simp [hxt], by simp [hxt], ⟨by simp [hxt], by simp [hxt]⟩, by simp; omega⟩ (by simp) hp (fun c' => ?_)
    rw [hsol]
    exact gather_one h4 ⟨by simp [hbt], by simp [hbt], ⟨by simp [hbt], by simp [hz, hzt]⟩, by simp [hz]⟩ (by simp) hp (fun c' => ih _ _)

/-- C102: lines, each between `@@` and `@@`, are one paragraph of these lines as they are, whatever markup they contain,
and nothing is reported. -/
theorem C102_raw_text {l : Str} {ls : List Str} (hl : RawLine l) (hls : ∀ t ∈ ls, RawLine t) (wd : World) (info : PageInfo)
    (settings : Settings) :
    ∃ o, parse wd (tokenize (rawPage l ls)) info settings = some (.ok o) ∧ o.errors = [] ∧
      o.tree = ⟨[.mk (.container .paragraph []) (rawElems l ls), .mk (.footnoteBlock none false) []], [], [], [], [], [],
        byteLen (rawPage l ls)⟩ := by
  obtain ⟨X, x1, hsl, hl⟩ := raw_lexed hl hls
  obtain ⟨xs, e, ht, hx, hne, he⟩ : ∃ xs e, (tokenize (rawPage l ls)).tokens =
      ⟨.inputStart, [], 0, 0⟩ :: (xs ++ [e]) ∧ xs.map ETok.pair = X ∧ (∀ x ∈ xs, x.slice ≠ []) ∧ e.token = .inputEnd := by
    obtain ⟨mid, m1, _, m3⟩ := C07_tokens_tile (rawPage l ls)
    refine ⟨_, _, m1, ?_, ?_, rfl⟩
    · rw [← hsl, tokenize_list hl] at m1
      simp only [List.cons.injEq, true_and, List.append_cancel_right_eq] at m1
      rw [← m1]
      exact addSpans_map _ _
    · intro x hx
      obtain ⟨a, b, e⟩ := List.append_of_mem hx
      exact (m3 _ _ _ e).1
  let env : Env := ⟨rawPage l ls, (tokenize (rawPage l ls)).tokens, info, settings, wd⟩
  let p0 : PState := ⟨⟨.inputStart, [], 0, 0⟩, xs ++ [e], .page, 0, .none, false, false, true⟩
  have hs : (xs ++ [e]) <:+ (tokenize env.text).tokens := by
    show _ <:+ (tokenize (rawPage l ls)).tokens
    rw [ht]; exact List.suffix_cons ..
  have hxne : xs ≠ [] := by
    rintro rfl
    cases x1 <;> simp at hx
  have hstart : consume maxRecursionDepth env ⟨p0.at (⟨.inputStart, [], 0, 0⟩ :: (xs ++ [e])) true, ⟨[], [], [], [], []⟩⟩ =
      .ok ⟨[], [], true⟩ ⟨p0.at (xs ++ [e]) true, ⟨[], [], [], [], []⟩⟩ :=
    eats_tok (env := env) (x := ⟨.inputStart, [], 0, 0⟩) (rest := xs ++ [e]) (sol := true) (r := .null) (rs1 := [])
      (rs2 := []) (es := []) (safe := true) (by simp) rfl (by simp) (by simp) noParts_nil (fun _ _ _ => rfl)
      maxRecursionDepth p0 _ (by decide) (by simp [p0]) (fun _ => rfl)
  have hg : Gathers env (consume maxRecursionDepth) p0 (⟨.inputStart, [], 0, 0⟩ :: (xs ++ [e])) true ⟨[], [], [], [], []⟩
      PStack.new [e] false ⟨[], [], [], [], []⟩ ⟨rawElems l ls, [], []⟩ :=
    .cons ⟨by simp, by simp, ⟨by simp, by simp⟩, by simp⟩ hstart (by simp) (by
      have := raw_gather (env := env) (e := e) he (p := p0) (sh := ⟨[], [], [], [], []⟩) rfl x1 (sol := true) (c := []) hx hs hne
      exact this)
  have hrun := gatherParagraphs_gathers (r := .page) (close := none) (p := p0) (toks2 := [e]) (sol2 := false) hg (by simp) (by simp) ⟨he, rfl, rfl⟩
    (.inl ⟨he, rfl, rfl⟩) (by rfl) (safe := false) rfl
  refine ⟨⟨⟨[.mk (.container .paragraph []) (rawElems l ls)] ++ [.mk (.footnoteBlock none false) []],
      [], [], [], [], [], byteLen (rawPage l ls)⟩, []⟩, ?_, rfl, rfl⟩
  have hint := hrun
  rw [show gatherParagraphs (consume maxRecursionDepth) .page none env ⟨p0.at (⟨.inputStart, [], 0, 0⟩ :: (xs ++ [e])) true, ⟨[], [], [], [], []⟩⟩ =
    parseInternal env by
      unfold parseInternal
      rw [show env.tokens = ⟨.inputStart, [], 0, 0⟩ :: (xs ++ [e]) from ht]
      rfl] at hint
  show parseEnv env = _
  unfold parseEnv
  rw [hint]
  rfl


/-! ### What it renders to -/

/-- The HTML of such lines. -/
def rawHtml (l : Str) (ls : List Str) : Str :=
  wrapWith c!"wj-body" c!"class" c!"wj-body" (wrap c!"p" (wrapWith c!"span" c!"class" c!"wj-raw" (strHtml l) ++
    ls.flatMap fun t => c!"<br>" ++ wrapWith c!"span" c!"class" c!"wj-raw" (strHtml t)))

/-- Their text. -/
def rawPlain (l : Str) (ls : List Str) : Str := l ++ ls.flatMap fun t => c!"\n" ++ t

/-- Without the line ends at both ends. -/
def trimLines (s : Str) : Str := ((s.dropWhile (· == '\n')).reverse.dropWhile (· == '\n')).reverse

theorem escape_eq (s : Str) : escapeHtml s = strHtml s := by
  induction s with
  | nil => rfl
  | cons c s ih =>
    rw [escapeHtml, ih, strHtml, strHtml, List.flatMap_cons]
    congr 1
    unfold escapeHtmlChar charHtml
    have h0 : c.toNat = 0 ↔ c = Char.ofNat 0 := by
      constructor
      · intro h
        have := Char.ofNat_toNat c
        rw [h] at this
        exact this.symm
      · rintro rfl; rfl
    by_cases h1 : c = '>'
    · subst h1; rfl
    by_cases h2 : c = '<'
    · subst h2; rfl
    by_cases h3 : c = '&'
    · subst h3; rfl
    by_cases h4 : c = '\''
    · subst h4; rfl
    by_cases h5 : c = '"'
    · subst h5; rfl
    by_cases h6 : c = Char.ofNat 0
    · subst h6; rfl
    · have h7 : ¬ c.toNat = 0 := fun h => h6 (h0.1 h)
      simp [h1, h2, h3, h4, h5, h6, h7]

theorem act_around {a : Act} {s : Str} {st st' : HSt} (p q : Str) (h : a st = .ok s st') :
    (emit p ;; a ;; emit q) st = .ok (p ++ s ++ q) st' := by simp [Act.andThen, emit, h]

theorem tag_plain {name : Str} {body : Act} {s : Str} {st st' : HSt} (hn : soloTags.contains name = false)
    (h : body st = .ok s st') : tagA name [] [] body st = .ok (wrap name s) st' := by
  unfold tagA
  rw [hn]
  have := act_around (c!"<" ++ name ++ attrsStr (attrList [] []) ++ c!">") (c!"</" ++ name ++ c!">") h
  simpa [wrap, attrList, attrsStr] using this

theorem tag_with {name k v : Str} {body : Act} {s : Str} {st st' : HSt} (hn : soloTags.contains name = false) (hk : strHtml k = k)
    (hv : v ≠ []) (h : body st = .ok s st') : tagA name [kv k v] [] body st = .ok (wrapWith name k v s) st' := by
  unfold tagA
  rw [hn]
  have hv : v.isEmpty = false := by cases v <;> simp_all
  have := act_around (c!"<" ++ name ++ attrsStr (attrList [kv k v] []) ++ c!">") (c!"</" ++ name ++ c!">") h
  simpa [wrapWith, attrList, attrsStr, kv, assocGet, attrStr, escape_eq, hk, hv] using this

private def lineHtml (t : Str) : Str := wrapWith c!"span" c!"class" c!"wj-raw" (strHtml t)

private theorem raw_shown (e : HEnv) (ext : List Elem → Act) (t : Str) (st : HSt) :
    htmlElem e ext (.mk (.raw t) []) st = .ok (lineHtml t) st := by
  show tag c!"span" [kv c!"class" c!"wj-raw"] (emitEsc t) st = _
  rw [emitEsc, escape_eq]
  exact tag_with rfl rfl (by simp) rfl

private theorem raws_shown (e : HEnv) (ext : List Elem → Act) (st : HSt) : ∀ (ls : List Str),
    htmlElem.go e ext (ls.flatMap fun t => [.mk .lineBreak [], .mk (.raw t) []]) st =
      .ok (ls.flatMap fun t => c!"<br>" ++ lineHtml t) st
  | [] => rfl
  | t :: ls => by
    have ih := raws_shown e ext st ls
    simp only [List.flatMap_cons, List.cons_append, List.nil_append]
    rw [htmlElem.go, htmlElem.go]
    have h1 : htmlElem e ext (.mk .lineBreak []) st = .ok c!"<br>" st := rfl
    simp only [Act.andThen, h1, raw_shown, ih]
    simp

private theorem raws_said (w : World) (site : Str) : ∀ (ls : List Str) (c : Str),
    textElem.go w site (ls.flatMap fun t => [.mk .lineBreak [], .mk (.raw t) []]) ⟨c, ⟨[]⟩, 0⟩ =
      some ⟨c ++ ls.flatMap (fun t => c!"\n" ++ t), ⟨[]⟩, 0⟩
  | [], c => by simp [textElem.go]
  | t :: ls, c => by
    have ih := raws_said w site ls (c ++ c!"\n" ++ t)
    simp only [List.flatMap_cons, List.cons_append, List.nil_append]
    simp only [textElem.go]
    have h1 : textElem w site (.mk .lineBreak []) ⟨c, ⟨[]⟩, 0⟩ = some ⟨c ++ c!"\n", ⟨[]⟩, 0⟩ := rfl
    have h2 : textElem w site (.mk (.raw t) []) ⟨c ++ c!"\n", ⟨[]⟩, 0⟩ = some ⟨c ++ c!"\n" ++ t, ⟨[]⟩, 0⟩ := rfl
    simp only [h1, h2, Option.bind_some, ih]
    simp

/-- C102: such a page is shown as a paragraph of these lines, and nothing in them becomes HTML. -/
theorem C102_html {l : Str} {ls : List Str} (hl : RawLine l) (hls : ∀ t ∈ ls, RawLine t) (w : HWorld) (info : PageInfo)
    (settings : Settings) :
    ∃ o, parse w.toWorld (tokenize (rawPage l ls)) info settings = some (.ok o) ∧
      ∀ n ≥ 1, ∃ out, htmlRender n w info settings o.tree = .ok out ∧ out.body = rawHtml l ls ∧ out.links = ⟨[], []⟩ := by
  obtain ⟨o, o1, _, o2⟩ := C102_raw_text hl hls w.toWorld info settings
  refine ⟨o, o1, ?_⟩
  intro n hn
  obtain ⟨n, rfl⟩ : ∃ k, n = k + 1 := ⟨n - 1, by omega⟩
  rw [o2]
  let env := HEnv.of w info settings ⟨[.mk (.container .paragraph []) (rawElems l ls), .mk (.footnoteBlock none false) []], [], [], [], [], [],
        byteLen (rawPage l ls)⟩
  have h1 : htmlElem.go env (renderLevel env n) (rawElems l ls) HSt.init =
      .ok (lineHtml l ++ ls.flatMap fun t => c!"<br>" ++ lineHtml t) HSt.init := by
    rw [rawElems, htmlElem.go]
    simp only [Act.andThen, raw_shown, raws_shown]
  have h2 : htmlElem.go env (renderLevel env n) [.mk (.container .paragraph []) (rawElems l ls), .mk (.footnoteBlock none false) []] HSt.init =
      .ok (wrap c!"p" (lineHtml l ++ ls.flatMap fun t => c!"<br>" ++ lineHtml t)) HSt.init := by
    have h3 : htmlElem env (renderLevel env n) (.mk (.container .paragraph []) (rawElems l ls)) HSt.init =
        .ok (wrap c!"p" (lineHtml l ++ ls.flatMap fun t => c!"<br>" ++ lineHtml t)) HSt.init := by
      show tagA c!"p" [] [] (htmlElem.go env (renderLevel env n) (rawElems l ls)) HSt.init = _
      exact tag_plain rfl h1
    have h4 : htmlElem env (renderLevel env n) (.mk (.footnoteBlock none false) []) HSt.init = .ok [] HSt.init := rfl
    rw [htmlElem.go, htmlElem.go, htmlElem.go]
    simp only [Act.andThen, h3, h4, skip, emit, List.append_nil]
  refine ⟨⟨rawHtml l ls, initialMeta w info settings.layout, ⟨[], []⟩⟩, ?_, rfl, rfl⟩
  have h5 := tag_with (name := c!"wj-body") (k := c!"class") (v := c!"wj-body") rfl rfl (by simp) h2
  unfold htmlRender tag
  rw [renderLevel]
  erw [h5]
  rfl

theorem trimLines_around (s : Str) : (((c!"\n" ++ s ++ c!"\n").dropWhile (· == '\n')).reverse.dropWhile (· == '\n')).reverse = trimLines s := by
  unfold trimLines
  congr 1
  simp only [List.cons_append, List.nil_append, List.dropWhile_cons, beq_self_eq_true, if_true]
  by_cases hs : s.dropWhile (· == '\n') = []
  · rw [hs, List.dropWhile_append, hs]
    simp
  · rw [List.dropWhile_append, if_neg (by simpa using hs)]
    simp

/-- C102: and its text is these lines, without empty lines at the beginning and the end. -/
theorem C102_text {l : Str} {ls : List Str} (hl : RawLine l) (hls : ∀ t ∈ ls, RawLine t) (w : World) (info : PageInfo)
    (settings : Settings) :
    ∃ o, parse w (tokenize (rawPage l ls)) info settings = some (.ok o) ∧ textRender w info o.tree = some (trimLines (rawPlain l ls)) := by
  obtain ⟨o, o1, _, o2⟩ := C102_raw_text hl hls w info settings
  refine ⟨o, o1, ?_⟩
  rw [o2]
  unfold textRender textRenderPartial
  have h1 : textElem.go w info.site (rawElems l ls) ⟨c!"\n", ⟨[]⟩, 0⟩ = some ⟨c!"\n" ++ rawPlain l ls, ⟨[]⟩, 0⟩ := by
    rw [rawElems, textElem.go]
    have h2 : textElem w info.site (.mk (.raw l) []) ⟨c!"\n", ⟨[]⟩, 0⟩ = some ⟨c!"\n" ++ l, ⟨[]⟩, 0⟩ := rfl
    simp only [h2, Option.bind_some, raws_said, rawPlain]
    simp
  have h3 : textElem.go w info.site [.mk (.container .paragraph []) (rawElems l ls), .mk (.footnoteBlock none false) []] ⟨[], ⟨[]⟩, 0⟩ =
      some ⟨c!"\n" ++ rawPlain l ls ++ c!"\n", ⟨[]⟩, 0⟩ := by
    have h4 : textElem w info.site (.mk (.container .paragraph []) (rawElems l ls)) ⟨[], ⟨[]⟩, 0⟩ =
        some ⟨c!"\n" ++ rawPlain l ls ++ c!"\n", ⟨[]⟩, 0⟩ := by
      show (textElem.go w info.site (rawElems l ls) ⟨c!"\n", ⟨[]⟩, 0⟩).map (fun ctx => ctx.addNewline) = _
      rw [h1]; rfl
    rw [textElem.go, h4]
    rfl
  simp only [h3, Option.map_some, Option.some.injEq]
  exact trimLines_around _

/-- A check for it. -/
def checkRawLine (t : Str) : Bool :=
  !t.contains '\n' && !t.contains '\r' && (List.range (t.length + 1)).all (fun i => !(c!"@@").isPrefixOf (t.drop i)) &&
  t.getLast? != some '@' && t.getLast? != some '>' &&
  [c!"http://", c!"https://", c!"ftp://"].all fun p => (List.range (t.length + 1)).all fun i =>
    !p.isPrefixOf (t.drop i) || ((t.drop i).drop p.length).any (c!" |[]").contains

theorem rawLine_of {t : Str} (h : checkRawLine t = true) : RawLine t := by
  simp only [checkRawLine, Bool.and_eq_true, Bool.not_eq_true', bne_iff_ne, ne_eq, List.all_eq_true, List.mem_range, Bool.or_eq_true,
    List.contains_eq_mem, decide_eq_false_iff_not, List.any_eq_true, decide_eq_true_eq] at h
  obtain ⟨⟨⟨⟨⟨h1, h2⟩, h3⟩, h4⟩, h5⟩, h6⟩ := h
  refine ⟨⟨h1, h2⟩, ?_, ⟨h4, h5⟩, ?_⟩
  · rintro ⟨a, b, rfl⟩
    have := h3 a.length (by simp; omega)
    simp at this
  · rintro p hp b ⟨a, rfl⟩
    rcases h6 p hp a.length (by simp; omega) with h | ⟨c, hc, hc'⟩
    · simp at h
      have : p.isPrefixOf (p ++ b) = true := List.isPrefixOf_iff_prefix.2 (List.prefix_append _ _)
      rw [this] at h
      cases h
    · simp only [List.drop_left] at hc
      exact ⟨c, hc, hc'⟩

/-- Lines of markup, all of them shown as they are. -/
example (w : World) (info : PageInfo) (settings : Settings) : ∃ o,
    parse w (tokenize c!"@@**[[/x@@\n@@@@\n@@see http://a.b \"q' @< {$x@@") info settings = some (.ok o) ∧ o.errors = [] ∧
      o.tree.elements = [.mk (.container .paragraph []) [.mk (.raw c!"**[[/x") [], .mk .lineBreak [], .mk (.raw []) [], .mk .lineBreak [],
        .mk (.raw c!"see http://a.b \"q' @< {$x") []], .mk (.footnoteBlock none false) []] := by
  obtain ⟨o, h1, h2, h3⟩ := C102_raw_text (l := c!"**[[/x") (ls := [c!"", c!"see http://a.b \"q' @< {$x"]) (rawLine_of (by decide +kernel))
    (by intro t ht; simp at ht; rcases ht with rfl | rfl <;> exact rawLine_of (by decide +kernel)) w info settings
  exact ⟨o, h1, h2, by rw [h3]; rfl⟩

/-- Why these lines: with `@@` within, with `@` or `>` at the end, or with a web address at the end, `@@` ends the text
elsewhere or not at all. -/
example : ((tokenize c!"@@a@@b@@").tokens.map (·.slice) = [[], c!"@@", c!"a", c!"@@", c!"b", c!"@@", []]) ∧
    ((tokenize c!"@@a@@@").tokens.map (·.slice) = [[], c!"@@", c!"a", c!"@@", c!"@", []]) ∧
    ((tokenize c!"@@a>@@").tokens.map (·.slice) = [[], c!"@@", c!"a", c!">@", c!"@", []]) ∧
    ((tokenize c!"@@http://a@@").tokens.map (·.slice) = [[], c!"@@", c!"http://a@@", []]) := by decide +kernel

end Ftml
