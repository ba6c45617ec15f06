import Verif.Lemmas.PageAll
import Verif.Props.Parse
/-
Underscores at the ends of lines (C98).
-/
namespace Ftml
open M Markup Lexer

/-- What stands between two words. -/
inductive Between where
  /-- a blank -/
  | blank
  /-- the end of a line -/
  | newline
  /-- blank, underscore, end of line -/
  | hard
  /-- blank, underscore, blank line -/
  | hardGap
  /-- an underscore right after the word, end of line -/
  | glued
  /-- an underscore within a line -/
  | lone
  /-- a line with nothing but an underscore -/
  | alone

/-- Its source text. -/
def Between.str : Between → Str
  | .blank => c!" "
  | .newline => c!"\n"
  | .hard => c!" _\n"
  | .hardGap => c!" _\n\n"
  | .glued => c!"_\n"
  | .lone => c!" _ "
  | .alone => c!"\n_\n"

/-- Its meaning: an underscore is a line break if it ends a line and a blank or nothing stands before it;
otherwise it is text. -/
def Between.elems : Between → List Elem
  | .blank => [.mk (.text c!" ") []]
  | .newline => [.mk .lineBreak []]
  | .hard => [.mk .lineBreak []]
  | .hardGap => [.mk .lineBreak []]
  | .glued => [.mk (.text c!"_") [], .mk .lineBreak []]
  | .lone => [.mk (.text c!" ") [], .mk (.text c!"_") [], .mk (.text c!" ") []]
  | .alone => [.mk .lineBreak [], .mk .lineBreak []]

/-- The source text of words and what stands between them. -/
def wordsStr (w : Str) (rest : List (Between × Str)) : Str := w ++ rest.flatMap fun r => r.1.str ++ r.2
/-- Their meaning. -/
def wordsElems (w : Str) (rest : List (Between × Str)) : List Elem :=
  .mk (.text w) [] :: rest.flatMap fun r => r.1.elems ++ [.mk (.text r.2) []]

private def Between.lex : Between → List (Token × Str)
  | .blank => [(.whitespace, c!" ")]
  | .newline => [(.lineBreak, c!"\n")]
  | .hard => [(.whitespace, c!" "), (.underscore, c!"_"), (.lineBreak, c!"\n")]
  | .hardGap => [(.whitespace, c!" "), (.underscore, c!"_"), (.paragraphBreak, c!"\n\n")]
  | .glued => [(.underscore, c!"_"), (.lineBreak, c!"\n")]
  | .lone => [(.whitespace, c!" "), (.underscore, c!"_"), (.whitespace, c!" ")]
  | .alone => [(.lineBreak, c!"\n"), (.underscore, c!"_"), (.lineBreak, c!"\n")]

private def restLex (rest : List (Between × Str)) : List (Token × Str) := rest.flatMap fun r => r.1.lex ++ [(.identifier, r.2)]
private def wordsLex (w : Str) (rest : List (Between × Str)) : List (Token × Str) := (.identifier, w) :: restLex rest

/-- A word of ASCII letters and digits. -/
def plainWord (s : Str) : Bool := !s.isEmpty && s.all isAlnumA

private theorem lex_underscore {rest : Str} (h : fits c!"_" rest = true) : LexesTo .underscore c!"_" rest := by lexc

private theorem between_sym {b : Between} : ∀ x ∈ b.lex, Sym x := by
  have h1 : Sym (.whitespace, c!" ") := plain_sym (p := .blanks 0) rfl
  have h2 : Sym (.lineBreak, c!"\n") := ⟨by simp, fun rest hf => lex_newline hf⟩
  have h3 : Sym (.paragraphBreak, c!"\n\n") := ⟨by simp, fun rest hf => lex_paragraphBreak hf⟩
  have h4 : Sym (.underscore, c!"_") := ⟨by simp, fun rest hf => lex_underscore hf⟩
  intro x hx
  cases b <;> simp only [Between.lex, List.mem_cons, List.not_mem_nil, or_false] at hx
  all_goals first
    | rcases hx with rfl | rfl | rfl <;> assumption
    | rcases hx with rfl | rfl <;> assumption
    | subst hx; assumption

private theorem words_sym {w : Str} {rest : List (Between × Str)} (hw : plainWord w = true) (hr : ∀ r ∈ rest, plainWord r.2 = true) :
    ∀ x ∈ wordsLex w rest, Sym x := by
  intro x hx
  simp only [wordsLex, restLex, List.mem_cons, List.mem_flatMap, List.mem_append, List.not_mem_nil, or_false] at hx
  rcases hx with rfl | ⟨r, hr', h | rfl⟩
  · exact plain_sym (p := .word w) hw
  · exact between_sym _ h
  · exact plain_sym (p := .word r.2) (hr r hr')

private theorem word_apart {w : Str} (h : plainWord w = true) {c : Char} (hc : isAlnumA c = false) (hc' : c ≠ ':') : apart w c = true := by
  simp only [plainWord, Bool.and_eq_true, Bool.not_eq_true'] at h
  unfold apart
  cases w with
  | nil => cases h.1
  | cons a s =>
    have ha : isAlnumA a = true := List.all_eq_true.1 h.2 a (by simp)
    cases s with
    | nil => simp [ha, hc]
    | cons d s =>
      dsimp only
      have hl : (a :: d :: s).getLast? ≠ some '\n' := by
        intro e
        have := List.all_eq_true.1 h.2 _ (List.mem_of_getLast? e)
        exact absurd this (by decide)
      rw [if_neg hl, if_pos ha, if_pos h.2]
      simp [hc, hc']

private theorem rest_separate {rest : List (Between × Str)} (hr : ∀ r ∈ rest, plainWord r.2 = true) :
    ∀ {w : Str}, plainWord w = true → separate ((wordsLex w rest).map (·.2)) = true := by
  induction rest with
  | nil => intro w _; simp [wordsLex, restLex, separate]
  | cons r rest ih =>
    intro w hw
    have i1 := ih (fun r hr' => hr r (by simp [hr'])) (hr r (by simp))
    have hrw := hr r (by simp)
    have e : (wordsLex w (r :: rest)).map (·.2) = w :: (r.1.lex.map (·.2) ++ (wordsLex r.2 rest).map (·.2)) := by
      simp [wordsLex, restLex]
    rw [e]
    obtain ⟨c, s, hc⟩ : ∃ c s, r.2 = c :: s := by
      cases h : r.2 with
      | nil => rw [h] at hrw; cases hrw
      | cons c s => exact ⟨c, s, rfl⟩
    have hal : isAlnumA c = true := by
      simp only [plainWord, Bool.and_eq_true] at hrw
      rw [hc] at hrw
      exact List.all_eq_true.1 hrw.2 c (by simp)
    have e2 : (wordsLex r.2 rest).map (·.2) = (c :: s) :: (restLex rest).map (·.2) := by simp [wordsLex, hc]
    rw [e2] at i1 ⊢
    have hn : c ≠ '\n' ∧ c ≠ '\r' ∧ c ≠ ' ' ∧ c ≠ '\t' ∧ c ≠ '_' := by
      refine ⟨?_, ?_, ?_, ?_, ?_⟩ <;> (rintro rfl; exact absurd hal (by decide))
    have a1 : apart c!" " c = true := by simp [apart, hn, doubling, show isAlnumA ' ' = false by decide]
    have a2 : apart c!"\n" c = true := by simp [apart, hn, doubling, show isAlnumA '\n' = false by decide]
    have a3 : apart c!"\n\n" c = true := by simp [apart, hn]
    have w1 := word_apart hw (c := ' ') (by decide) (by decide)
    have w2 := word_apart hw (c := '\n') (by decide) (by decide)
    have w3 := word_apart hw (c := '_') (by decide) (by decide)
    have s1 : apart c!" " '_' = true := by decide
    have s2 : apart c!"_" '\n' = true := by decide
    have s3 : apart c!"_" ' ' = true := by decide
    have s4 : apart c!"\n" '_' = true := by decide
    have step : ∀ (p : Str) (d : Char) (q : Str) (l : List Str), apart p d = true → separate ((d :: q) :: l) = true →
        separate (p :: (d :: q) :: l) = true := by
      intro p d q l h1 h2
      rw [separate, h2]
      simp [h1]
    cases hb : r.1 <;> simp only [Between.lex, List.map_cons, List.map_nil, List.cons_append, List.nil_append]
    · exact step _ _ _ _ w1 (step _ _ _ _ a1 i1)
    · exact step _ _ _ _ w2 (step _ _ _ _ a2 i1)
    · exact step _ _ _ _ w1 (step _ _ _ _ s1 (step _ _ _ _ s2 (step _ _ _ _ a2 i1)))
    · exact step _ _ _ _ w1 (step _ _ _ _ s1 (step _ _ _ _ s2 (step _ _ _ _ a3 i1)))
    · exact step _ _ _ _ w3 (step _ _ _ _ s2 (step _ _ _ _ a2 i1))
    · exact step _ _ _ _ w1 (step _ _ _ _ s1 (step _ _ _ _ s3 (step _ _ _ _ a1 i1)))
    · exact step _ _ _ _ w2 (step _ _ _ _ s4 (step _ _ _ _ s2 (step _ _ _ _ a2 i1)))

private theorem words_flat (w : Str) (rest : List (Between × Str)) : ((wordsLex w rest).map (·.2)).flatten = wordsStr w rest := by
  have hb : ∀ b : Between, (b.lex.map (·.2)).flatten = b.str := by intro b; cases b <;> rfl
  have hr : ∀ rest : List (Between × Str), ((restLex rest).map (·.2)).flatten = rest.flatMap fun r => r.1.str ++ r.2 := by
    intro rest
    induction rest with
    | nil => rfl
    | cons r rest ih =>
      simp only [restLex, List.flatMap_cons, List.map_append, List.flatten_append, hb] at ih ⊢
      rw [ih]
      simp
  simp [wordsLex, wordsStr, hr]

variable {env : Env}

/-- An underscore is text unless it starts the line and a break follows, and so is a blank before it unless a break follows. -/
private theorem fails_line_underscore {x y : ETok} {ys : List ETok} (hx : x.token = .underscore) :
    Fails env .underscoreLineBreak (x :: y :: ys) false := by
  intro cons p sh
  refine ⟨_, tryConsume_fails (x := mkErr .ruleFailed .underscoreLineBreak x)
    (s' := ⟨({ p with rule := .underscoreLineBreak } : PState).at (x :: y :: ys) false, sh⟩) (by simp [RuleId.needsLineStart]) ?_⟩
  show ruleUnderscoreLineBreak env _ = _
  unfold ruleUnderscoreLineBreak
  rw [bind_ok (s' := ⟨({ p with rule := .underscoreLineBreak } : PState).at (x :: y :: ys) false, sh⟩)
    (a := ({ p with rule := .underscoreLineBreak } : PState).at (x :: y :: ys) false) rfl]
  rw [bind_ok (s' := ⟨({ p with rule := .underscoreLineBreak } : PState).at (x :: y :: ys) false, sh⟩)
    (a := (x.token, some y.token)) rfl]
  dsimp only
  rw [if_neg (by simp [hx]), if_neg (by simp [hx, PState.at])]
  rfl

private theorem fails_blank_underscore {x y z : ETok} {zs : List ETok} {sol : Bool} (hx : x.token = .whitespace)
    (hy : y.token = .underscore) (hz : z.token = .whitespace) : Fails env .underscoreLineBreak (x :: y :: z :: zs) sol := by
  intro cons p sh
  refine ⟨_, tryConsume_fails (x := mkErr .ruleFailed .underscoreLineBreak y)
    (s' := ⟨({ p with rule := .underscoreLineBreak } : PState).at (y :: z :: zs) (isLineStartTok x.token), sh⟩) (by simp [RuleId.needsLineStart]) ?_⟩
  show ruleUnderscoreLineBreak env _ = _
  unfold ruleUnderscoreLineBreak
  rw [bind_ok (s' := ⟨({ p with rule := .underscoreLineBreak } : PState).at (x :: y :: z :: zs) sol, sh⟩)
    (a := ({ p with rule := .underscoreLineBreak } : PState).at (x :: y :: z :: zs) sol) rfl]
  rw [bind_ok (s' := ⟨({ p with rule := .underscoreLineBreak } : PState).at (x :: y :: z :: zs) sol, sh⟩)
    (a := (x.token, some y.token)) rfl]
  dsimp only
  rw [if_pos (by simp [hx, hy])]
  rw [bind_ok (step_at ..)]
  rw [bind_ok (s' := ⟨({ p with rule := .underscoreLineBreak } : PState).at (y :: z :: zs) (isLineStartTok x.token), sh⟩)
    (a := (y.token, some z.token)) rfl]
  rw [if_neg (by simp [hy, hz])]
  rfl

private theorem hard_eats {x y z : ETok} {rest : List ETok} {sol : Bool} (hx : x.token = .whitespace) (hy : y.token = .underscore)
    (hz : z.token = .lineBreak ∨ z.token = .paragraphBreak) (hr : rest ≠ []) : Eats env 1 sol [x, y, z] rest [eLineBreak] true [] := by
  refine eats_rule hr (rs1 := []) (rs2 := [.list, .text]) (r := .underscoreLineBreak) (n := 0) (by rw [hx]; rfl) (by simp)
    (by simp [RuleId.needsLineStart]) (noParts_cons (by simp) noParts_nil) ?_
  intro fuel p sh _ _
  obtain ⟨r, rs, rfl⟩ := List.exists_cons_of_ne_nil hr
  show ruleUnderscoreLineBreak env ⟨p.at (x :: y :: z :: r :: rs) sol, sh⟩ = _
  unfold ruleUnderscoreLineBreak
  rw [bind_ok (s' := ⟨p.at (x :: y :: z :: r :: rs) sol, sh⟩) (a := p.at (x :: y :: z :: r :: rs) sol) rfl]
  rw [bind_ok (s' := ⟨p.at (x :: y :: z :: r :: rs) sol, sh⟩) (a := (x.token, some y.token)) rfl]
  dsimp only
  rw [if_pos (by simp [hx, hy])]
  rw [bind_ok (step_at ..)]
  rw [bind_ok (s' := ⟨p.at (y :: z :: r :: rs) (isLineStartTok x.token), sh⟩) (a := (y.token, some z.token)) rfl]
  rw [if_pos (by rcases hz with hz | hz <;> simp [hy, hz])]
  rfl

private theorem alone_eats {y z : ETok} {rest : List ETok} (hy : y.token = .underscore)
    (hz : z.token = .lineBreak) (hr : rest ≠ []) : Eats env 1 true [y, z] rest [eLineBreak] true [] := by
  refine eats_rule hr (rs1 := []) (rs2 := [.text]) (r := .underscoreLineBreak) (n := 0) (by rw [hy]; rfl) (by simp)
    (by simp [RuleId.needsLineStart]) (noParts_cons (by simp) noParts_nil) ?_
  intro fuel p sh _ _
  obtain ⟨r, rs, rfl⟩ := List.exists_cons_of_ne_nil hr
  show ruleUnderscoreLineBreak env ⟨p.at (y :: z :: r :: rs) true, sh⟩ = _
  unfold ruleUnderscoreLineBreak
  rw [bind_ok (s' := ⟨p.at (y :: z :: r :: rs) true, sh⟩) (a := p.at (y :: z :: r :: rs) true) rfl]
  rw [bind_ok (s' := ⟨p.at (y :: z :: r :: rs) true, sh⟩) (a := (y.token, some z.token)) rfl]
  dsimp only
  rw [if_neg (by simp [hy]), if_pos (by simp [hy, PState.at])]
  rw [bind_ok (s' := ⟨p.at (y :: z :: r :: rs) true, sh⟩) (a := (y.token, some z.token)) rfl]
  rw [if_pos (by simp [hy, hz])]
  rfl

private theorem wordTok_eats {x : ETok} {rest : List ETok} {sol : Bool} (hx : x.token = .identifier) (hr : rest ≠ []) :
    Eats env 1 sol [x] rest [eText x.slice] true [] := eats_text hr (rs1 := []) (by rw [hx]; rfl) (by simp)

private theorem brk_eats {x y : ETok} {ys : List ETok} {sol : Bool} (hx : x.token = .lineBreak)
    (hy : y.token = .identifier ∨ y.token = .underscore) (hs : (y :: ys) <:+ (tokenize env.text).tokens) :
    Eats env 1 sol [x] (y :: ys) [eLineBreak] true [] := by
  refine eats_tok (by simp) (rs1 := [.blockSkipNewline, .definitionListSkipNewline]) (r := .lineBreak) (rs2 := [])
    (by rw [hx]; rfl) ?_ (by simp [RuleId.needsLineStart]) (noParts_cons (by simp) noParts_nil) ?_
  · intro r hr'
    simp at hr'
    rcases hr' with rfl | rfl
    · exact fails_blockSkip (by rcases hy with h | h <;> simp [h]) (by rcases hy with h | h <;> simp [h])
    · exact fails_defSkip (by rcases hy with h | h <;> simp [h])
  · intro cons p sh
    show ruleLineBreak env _ = _
    cases ys with
    | nil =>
      have he : y.token = .inputEnd := (inputEnd_last hs).2 rfl
      rcases hy with h | h <;> rw [h] at he <;> cases he
    | cons z zs =>
      refine run_lineBreak ?_
      simp only [afterBlank]
      rcases hy with h | h <;> simp [h, isSkipTok]

private theorem gather {xs T : List ETok} {es : List Elem} {sol : Bool} {p : PState} {sh : Shared} {c : List Elem}
    (h : Eats env 1 sol xs T es true []) (hx : GoesOn (xs ++ T)) (hne : xs ≠ []) (hp : p.depth = 0)
    {toks' sol' s'} (hg : Gathers env (consume maxRecursionDepth) p T (solAfter xs) sh ⟨addTo c es, [], []⟩ toks' sol' sh s') :
    Gathers env (consume maxRecursionDepth) p (xs ++ T) sol sh ⟨c, [], []⟩ toks' sol' sh s' := by
  refine .cons hx (h maxRecursionDepth p sh (by decide) (by simp [hp]) (fun _ => rfl)) ?_ ?_
  · have := List.length_pos_iff.2 hne
    simp; omega
  · rw [pushElements_true]
    exact hg

private theorem gather' {xs T : List ETok} {es fs : List Elem} {sol : Bool} {p : PState} {sh : Shared} {c : List Elem}
    (h : Eats env 1 sol xs T es true []) (hx : GoesOn (xs ++ T)) (hne : xs ≠ []) (hp : p.depth = 0)
    {toks' sol'} (hg : ∀ c', Gathers env (consume maxRecursionDepth) p T (solAfter xs) sh ⟨c', [], []⟩ toks' sol' sh ⟨addTo c' fs, [], []⟩) :
    Gathers env (consume maxRecursionDepth) p (xs ++ T) sol sh ⟨c, [], []⟩ toks' sol' sh ⟨addTo c (es ++ fs), [], []⟩ := by
  rw [← addTo_addTo]
  exact gather h hx hne hp (hg _)

private theorem words_gather {e : ETok} {p : PState} {sh : Shared} (hp : p.depth = 0) :
    ∀ {rest : List (Between × Str)} {w : Str} {xs : List ETok} {sol : Bool} {c : List Elem},
    xs.map ETok.pair = wordsLex w rest → (xs ++ [e]) <:+ (tokenize env.text).tokens →
    Gathers env (consume maxRecursionDepth) p (xs ++ [e]) sol sh ⟨c, [], []⟩ [e] false sh ⟨addTo c (wordsElems w rest), [], []⟩ := by
  intro rest
  induction rest with
  | nil =>
    intro w xs sol c hx hs
    simp only [wordsLex, restLex, List.flatMap_nil, List.map_eq_cons_iff, List.map_eq_nil_iff] at hx
    obtain ⟨x, _, rfl, hx, rfl⟩ := hx
    have ht : x.token = .identifier := congrArg (·.1) hx
    have hsl : x.slice = w := congrArg (·.2) hx
    have hsol : solAfter [x] = false := by simp [solAfter, ht, isLineStartTok]
    have h1 := wordTok_eats (env := env) (sol := sol) ht (rest := [e]) (by simp)
    rw [hsl] at h1
    refine gather h1 ⟨by simp [ht], by simp [ht], ⟨by simp [ht], by simp [ht]⟩, by simp⟩ (by simp) hp ?_
    rw [hsol]
    exact .nil
  | cons r rest ih =>
    intro w xs sol c hx hs
    obtain ⟨b, v⟩ := r
    have hlex : wordsLex w ((b, v) :: rest) = (.identifier, w) :: (b.lex ++ wordsLex v rest) := by simp [wordsLex, restLex]
    rw [hlex] at hx
    obtain ⟨x, xs, rfl, hx1, hxs⟩ := List.map_eq_cons_iff.1 hx
    obtain ⟨ys, zs, rfl, hys, hzs⟩ := map_append_split hxs
    have ht : x.token = .identifier := congrArg (·.1) hx1
    have hsl : x.slice = w := congrArg (·.2) hx1
    have hsol : solAfter [x] = false := by simp [solAfter, ht, isLineStartTok]
    have hs1 : (ys ++ (zs ++ [e])) <:+ (tokenize env.text).tokens := by
      refine List.IsSuffix.trans ?_ hs
      rw [List.cons_append, List.append_assoc]
      exact List.suffix_cons ..
    have hs2 : (zs ++ [e]) <:+ (tokenize env.text).tokens := List.IsSuffix.trans (List.suffix_append ..) hs1
    have ih := fun sol c => ih (w := v) (xs := zs) (sol := sol) (c := c) hzs hs2
    have h1 := wordTok_eats (env := env) (sol := sol) ht (rest := ys ++ (zs ++ [e])) (by simp)
    rw [hsl] at h1
    have hel : wordsElems w ((b, v) :: rest) = [eText w] ++ (b.elems ++ wordsElems v rest) := by
      simp [wordsElems, eText]
    have happ : x :: (ys ++ zs) ++ [e] = [x] ++ (ys ++ (zs ++ [e])) := by simp
    rw [hel, happ]
    refine gather' h1 ⟨by simp [ht], by simp [ht], ⟨by simp [ht], by simp [ht]⟩, by simp; omega⟩ (by simp) hp (fun c' => ?_)
    rw [hsol]
    clear h1 hel happ hsol hsl ht hx hx1 hs
    obtain ⟨z, zs, rfl, hz, hzs⟩ := List.map_eq_cons_iff.1 (show zs.map ETok.pair = (.identifier, v) :: restLex rest from hzs)
    have hz : z.token = .identifier := congrArg (·.1) hz
    cases b with
    | blank =>
      obtain ⟨y, _, rfl, hy, h0⟩ := List.map_eq_cons_iff.1 hys
      cases List.map_eq_nil_iff.1 h0
      have hyt : y.token = .whitespace := congrArg (·.1) hy
      have hys : y.slice = c!" " := congrArg (·.2) hy
      have h2 : Eats env 1 false [y] (z :: zs ++ [e]) [eText y.slice] true [] :=
        eats_text (by simp) (rs1 := [.underscoreLineBreak, .list]) (by rw [hyt]; rfl) (by
          intro r hr
          simp at hr
          rcases hr with rfl | rfl
          · exact fails_underscore hyt (fun a as e => by cases e; simp [hz])
          · exact .line rfl _)
      rw [hys] at h2
      exact gather' h2 ⟨by simp [hyt], by simp [hyt], ⟨by simp [hyt], by simp [hyt]⟩, by simp⟩ (by simp) hp (fun c' => ih _ _)
    | newline =>
      obtain ⟨y, _, rfl, hy, h0⟩ := List.map_eq_cons_iff.1 hys
      cases List.map_eq_nil_iff.1 h0
      have hyt : y.token = .lineBreak := congrArg (·.1) hy
      have h2 : Eats env 1 false [y] (z :: zs ++ [e]) [eLineBreak] true [] := brk_eats hyt (.inl hz) hs2
      exact gather' h2 ⟨by simp [hyt], by simp [hyt], ⟨by simp [hyt], by simp [hz]⟩, by simp⟩ (by simp) hp (fun c' => ih _ _)
    | hard =>
      obtain ⟨y, _, rfl, hy, h0⟩ := List.map_eq_cons_iff.1 hys
      obtain ⟨u, _, rfl, hu, h0⟩ := List.map_eq_cons_iff.1 h0
      obtain ⟨n, _, rfl, hn, h0⟩ := List.map_eq_cons_iff.1 h0
      cases List.map_eq_nil_iff.1 h0
      have hyt : y.token = .whitespace := congrArg (·.1) hy
      have h2 : Eats env 1 false [y, u, n] (z :: zs ++ [e]) [eLineBreak] true [] :=
        hard_eats hyt (congrArg (·.1) hu) (.inl (congrArg (·.1) hn)) (by simp)
      exact gather' h2 ⟨by simp [hyt], by simp [hyt], ⟨by simp [hyt], by simp [hyt]⟩, by simp⟩ (by simp) hp (fun c' => ih _ _)
    | hardGap =>
      obtain ⟨y, _, rfl, hy, h0⟩ := List.map_eq_cons_iff.1 hys
      obtain ⟨u, _, rfl, hu, h0⟩ := List.map_eq_cons_iff.1 h0
      obtain ⟨n, _, rfl, hn, h0⟩ := List.map_eq_cons_iff.1 h0
      cases List.map_eq_nil_iff.1 h0
      have hyt : y.token = .whitespace := congrArg (·.1) hy
      have h2 : Eats env 1 false [y, u, n] (z :: zs ++ [e]) [eLineBreak] true [] :=
        hard_eats hyt (congrArg (·.1) hu) (.inr (congrArg (·.1) hn)) (by simp)
      exact gather' h2 ⟨by simp [hyt], by simp [hyt], ⟨by simp [hyt], by simp [hyt]⟩, by simp⟩ (by simp) hp (fun c' => ih _ _)
    | glued =>
      obtain ⟨u, _, rfl, hu, h0⟩ := List.map_eq_cons_iff.1 hys
      obtain ⟨n, _, rfl, hn, h0⟩ := List.map_eq_cons_iff.1 h0
      cases List.map_eq_nil_iff.1 h0
      have hut : u.token = .underscore := congrArg (·.1) hu
      have hus : u.slice = c!"_" := congrArg (·.2) hu
      have hnt : n.token = .lineBreak := congrArg (·.1) hn
      have h2 : Eats env 1 false [u] (n :: (z :: zs ++ [e])) [eText u.slice] true [] :=
        eats_text (by simp) (rs1 := [.underscoreLineBreak]) (by rw [hut]; rfl) (by
          intro r hr
          simp at hr
          subst hr
          exact fails_line_underscore hut)
      rw [hus] at h2
      have h3 : Eats env 1 false [n] (z :: zs ++ [e]) [eLineBreak] true [] := brk_eats hnt (.inl hz) hs2
      have hsu : solAfter [u] = false := by simp [solAfter, hut, isLineStartTok]
      refine gather' (es := [eText c!"_"]) (fs := [eLineBreak] ++ wordsElems v rest) h2
        ⟨by simp [hut], by simp [hut], ⟨by simp [hut], by simp [hut]⟩, by simp⟩ (by simp) hp (fun c' => ?_)
      rw [hsu]
      exact gather' h3 ⟨by simp [hnt], by simp [hnt], ⟨by simp [hnt], by simp [hz]⟩, by simp⟩ (by simp) hp (fun c' => ih _ _)
    | lone =>
      obtain ⟨y, _, rfl, hy, h0⟩ := List.map_eq_cons_iff.1 hys
      obtain ⟨u, _, rfl, hu, h0⟩ := List.map_eq_cons_iff.1 h0
      obtain ⟨n, _, rfl, hn, h0⟩ := List.map_eq_cons_iff.1 h0
      cases List.map_eq_nil_iff.1 h0
      have hyt : y.token = .whitespace := congrArg (·.1) hy
      have hysl : y.slice = c!" " := congrArg (·.2) hy
      have hut : u.token = .underscore := congrArg (·.1) hu
      have hus : u.slice = c!"_" := congrArg (·.2) hu
      have hnt : n.token = .whitespace := congrArg (·.1) hn
      have hns : n.slice = c!" " := congrArg (·.2) hn
      have h2 : Eats env 1 false [y] (u :: n :: (z :: zs ++ [e])) [eText y.slice] true [] :=
        eats_text (by simp) (rs1 := [.underscoreLineBreak, .list]) (by rw [hyt]; rfl) (by
          intro r hr
          simp at hr
          rcases hr with rfl | rfl
          · exact fails_blank_underscore hyt hut hnt
          · exact .line rfl _)
      have h3 : Eats env 1 false [u] (n :: (z :: zs ++ [e])) [eText u.slice] true [] :=
        eats_text (by simp) (rs1 := [.underscoreLineBreak]) (by rw [hut]; rfl) (by
          intro r hr
          simp at hr
          subst hr
          exact fails_line_underscore hut)
      have h4 : Eats env 1 false [n] (z :: zs ++ [e]) [eText n.slice] true [] :=
        eats_text (by simp) (rs1 := [.underscoreLineBreak, .list]) (by rw [hnt]; rfl) (by
          intro r hr
          simp at hr
          rcases hr with rfl | rfl
          · exact fails_underscore hnt (fun a as e => by cases e; simp [hz])
          · exact .line rfl _)
      rw [hysl] at h2
      rw [hus] at h3
      rw [hns] at h4
      have hsy : solAfter [y] = false := by simp [solAfter, hyt, isLineStartTok]
      have hsu : solAfter [u] = false := by simp [solAfter, hut, isLineStartTok]
      refine gather' (es := [eText c!" "]) (fs := [eText c!"_"] ++ ([eText c!" "] ++ wordsElems v rest)) h2
        ⟨by simp [hyt], by simp [hyt], ⟨by simp [hyt], by simp [hyt]⟩, by simp⟩ (by simp) hp (fun c' => ?_)
      rw [hsy]
      refine gather' h3 ⟨by simp [hut], by simp [hut], ⟨by simp [hut], by simp [hut]⟩, by simp⟩ (by simp) hp (fun c' => ?_)
      rw [hsu]
      exact gather' h4 ⟨by simp [hnt], by simp [hnt], ⟨by simp [hnt], by simp [hnt]⟩, by simp⟩ (by simp) hp (fun c' => ih _ _)
    | alone =>
      obtain ⟨y, _, rfl, hy, h0⟩ := List.map_eq_cons_iff.1 hys
      obtain ⟨u, _, rfl, hu, h0⟩ := List.map_eq_cons_iff.1 h0
      obtain ⟨n, _, rfl, hn, h0⟩ := List.map_eq_cons_iff.1 h0
      cases List.map_eq_nil_iff.1 h0
      have hyt : y.token = .lineBreak := congrArg (·.1) hy
      have hut : u.token = .underscore := congrArg (·.1) hu
      have hnt : n.token = .lineBreak := congrArg (·.1) hn
      have h2 : Eats env 1 false [y] (u :: n :: (z :: zs ++ [e])) [eLineBreak] true [] :=
        brk_eats hyt (.inr hut) (List.IsSuffix.trans (List.suffix_cons ..) hs1)
      have h3 : Eats env 1 true [u, n] (z :: zs ++ [e]) [eLineBreak] true [] := alone_eats hut hnt (by simp)
      have hsy : solAfter [y] = true := by simp [solAfter, hyt, isLineStartTok]
      refine gather' (es := [eLineBreak]) (fs := [eLineBreak] ++ wordsElems v rest) h2
        ⟨by simp [hyt], by simp [hyt], ⟨by simp [hyt], by simp [hut]⟩, by simp⟩ (by simp) hp (fun c' => ?_)
      rw [hsy]
      exact gather' h3 ⟨by simp [hut], by simp [hut], ⟨by simp [hut], by simp [hut]⟩, by simp⟩ (by simp) hp (fun c' => ih _ _)

/-- C98: words in lines are one paragraph.  An underscore at the end of a line, after a blank or alone on its line, is a line
break in place of the end of that line, even if a blank line follows; right after a word, and within a line, it is text. -/
theorem C98_hard_breaks {w : Str} {rest : List (Between × Str)} (hw : plainWord w = true) (hr : ∀ r ∈ rest, plainWord r.2 = true)
    (wd : World) (info : PageInfo) (settings : Settings) :
    ∃ o, parse wd (tokenize (wordsStr w rest)) info settings = some (.ok o) ∧ o.errors = [] ∧
      o.tree.elements = [.mk (.container .paragraph []) (wordsElems w rest), .mk (.footnoteBlock none false) []] := by
  obtain ⟨hl, hsl⟩ := lexList_of (grouped_of (words_sym hw hr)) (rest_separate hr hw)
  rw [words_flat] at hsl
  obtain ⟨xs, e, ht, hx, he⟩ : ∃ xs e, (tokenize (wordsStr w rest)).tokens =
      ⟨.inputStart, [], 0, 0⟩ :: (xs ++ [e]) ∧ xs.map ETok.pair = wordsLex w rest ∧ e.token = .inputEnd := by
    rw [← hsl, tokenize_list hl]
    exact ⟨_, _, rfl, addSpans_map _ _, rfl⟩
  let env : Env := ⟨wordsStr w rest, (tokenize (wordsStr w rest)).tokens, info, settings, wd⟩
  let p0 : PState := ⟨⟨.inputStart, [], 0, 0⟩, xs ++ [e], .page, 0, .none, false, false, true⟩
  have hs : (xs ++ [e]) <:+ (tokenize env.text).tokens := by
    show _ <:+ (tokenize (wordsStr w rest)).tokens
    rw [ht]; exact List.suffix_cons ..
  have hstart : consume maxRecursionDepth env ⟨p0.at (⟨.inputStart, [], 0, 0⟩ :: (xs ++ [e])) true, ⟨[], [], [], [], []⟩⟩ =
      .ok ⟨[], [], true⟩ ⟨p0.at (xs ++ [e]) true, ⟨[], [], [], [], []⟩⟩ :=
    eats_tok (env := env) (x := ⟨.inputStart, [], 0, 0⟩) (rest := xs ++ [e]) (sol := true) (r := .null) (rs1 := [])
      (rs2 := []) (es := []) (safe := true) (by simp) rfl (by simp) (by simp) noParts_nil (fun _ _ _ => rfl)
      maxRecursionDepth p0 _ (by decide) (by simp [p0]) (fun _ => rfl)
  have hg : Gathers env (consume maxRecursionDepth) p0 (⟨.inputStart, [], 0, 0⟩ :: (xs ++ [e])) true ⟨[], [], [], [], []⟩
      PStack.new [e] false ⟨[], [], [], [], []⟩ ⟨wordsElems w rest, [], []⟩ :=
    .cons ⟨by simp, by simp, ⟨by simp, by simp⟩, by simp⟩ hstart (by simp) (by
      have := words_gather (env := env) (e := e) (p := p0) (sh := ⟨[], [], [], [], []⟩) rfl (sol := true) (c := []) hx hs
      exact this)
  have hrun := gatherParagraphs_gathers (r := .page) (close := none) (p := p0) (toks2 := [e]) (sol2 := false) hg (by simp) (by simp) ⟨he, rfl, rfl⟩
    (.inl ⟨he, rfl, rfl⟩) (by rfl) (safe := false) rfl
  refine ⟨⟨⟨[.mk (.container .paragraph []) (wordsElems w rest)] ++ [.mk (.footnoteBlock none false) []],
      [], [], [], [], [], byteLen (wordsStr w rest)⟩, []⟩, ?_, rfl, rfl⟩
  have hint := hrun
  rw [show gatherParagraphs (consume maxRecursionDepth) .page none env ⟨p0.at (⟨.inputStart, [], 0, 0⟩ :: (xs ++ [e])) true, ⟨[], [], [], [], []⟩⟩ =
    parseInternal env by
      unfold parseInternal
      rw [show env.tokens = ⟨.inputStart, [], 0, 0⟩ :: (xs ++ [e]) from ht]
      rfl] at hint
  show parseEnv env = _
  unfold parseEnv
  rw [hint]
  rfl

/-- A page with one of each. -/
example : wordsStr c!"a" [(.glued, c!"b"), (.hard, c!"c"), (.lone, c!"d"), (.alone, c!"e"), (.hardGap, c!"f"), (.blank, c!"g")] =
    c!"a_\nb _\nc _ d\n_\ne _\n\nf g" := by decide
example (w : World) (info : PageInfo) (settings : Settings) : ∃ o,
    parse w (tokenize (wordsStr c!"a" [(.glued, c!"b"), (.hard, c!"c")])) info settings = some (.ok o) ∧ o.errors = [] ∧
      o.tree.elements = [.mk (.container .paragraph []) (wordsElems c!"a" [(.glued, c!"b"), (.hard, c!"c")]), .mk (.footnoteBlock none false) []] :=
  C98_hard_breaks (by decide) (by decide) w info settings
example : wordsElems c!"a" [(.glued, c!"b"), (.hard, c!"c")] = [.mk (.text c!"a") [], .mk (.text c!"_") [], .mk .lineBreak [],
    .mk (.text c!"b") [], .mk .lineBreak [], .mk (.text c!"c") []] := rfl

end Ftml
