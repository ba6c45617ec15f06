import Verif.Lemmas.Blowup
import Verif.Props.Parse
/-
Blocks that are never closed make the parser read the rest of the page again and again (C94).
-/
namespace Ftml
open M Markup Lexer

/-- The page `[[span]][[span]]…[[footnote]]x[[/footnote]]`, with so many blocks that are never closed. -/
def unclosedPage : Nat → Str
  | 0 => c!"[[footnote]]x[[/footnote]]"
  | k + 1 => c!"[[span]]" ++ unclosedPage k

private def unclosedLex : Nat → List (Token × Str)
  | 0 => [(.leftBlock, c!"[["), (.identifier, c!"footnote"), (.rightBlock, c!"]]"), (.identifier, c!"x"), (.leftBlockEnd, c!"[[/"),
      (.identifier, c!"footnote"), (.rightBlock, c!"]]")]
  | k + 1 => (.leftBlock, c!"[[") :: (.identifier, c!"span") :: (.rightBlock, c!"]]") :: unclosedLex k

private theorem unclosed_sym (k : Nat) : ∀ x ∈ unclosedLex k, Sym x := by
  have h1 : Sym (.leftBlock, c!"[[") := leftBlock_sym
  have h2 : Sym (.rightBlock, c!"]]") := rightBlock_sym
  have h3 : Sym (.leftBlockEnd, c!"[[/") := ⟨by simp, fun rest _ => lex_leftBlockEnd rest⟩
  have h4 : Sym (.identifier, c!"footnote") := word_sym (by decide)
  have h5 : Sym (.identifier, c!"span") := word_sym (by decide)
  have h6 : Sym (.identifier, c!"x") := word_sym (by decide)
  induction k with
  | zero =>
    intro x hx
    simp only [unclosedLex, List.mem_cons, List.not_mem_nil, or_false] at hx
    rcases hx with rfl | rfl | rfl | rfl | rfl | rfl | rfl <;> assumption
  | succ k ih =>
    intro x hx
    simp only [unclosedLex, List.mem_cons] at hx
    rcases hx with rfl | rfl | rfl | hx
    · exact h1
    · exact h5
    · exact h2
    · exact ih x hx

private theorem unclosed_separate (k : Nat) : separate ((unclosedLex k).map (·.2)) = true ∧
    ((unclosedLex k).map (·.2)).head? = some c!"[[" := by
  induction k with
  | zero => exact ⟨by decide +kernel, rfl⟩
  | succ k ih =>
    refine ⟨?_, rfl⟩
    simp only [unclosedLex, List.map_cons, separate, Bool.and_eq_true]
    refine ⟨by decide +kernel, by decide +kernel, ?_, ih.1⟩
    generalize (unclosedLex k).map (·.2) = l at ih
    cases l with
    | nil => cases ih.2
    | cons a as =>
      cases ih.2
      show apart c!"]]" '[' = true
      decide +kernel

private theorem unclosed_flat (k : Nat) : ((unclosedLex k).map (·.2)).flatten = unclosedPage k := by
  induction k with
  | zero => rfl
  | succ k ih => simp [unclosedLex, unclosedPage, ih]

private theorem unclosed_of (e : ETok) (k : Nat) : ∀ {xs : List ETok}, xs.map ETok.pair = unclosedLex k → Unclosed e k (xs ++ [e]) := by
  induction k with
  | zero =>
    intro xs h
    simp only [unclosedLex, List.map_eq_cons_iff, List.map_eq_nil_iff] at h
    obtain ⟨l, _, rfl, h1, m, _, rfl, h2, r, _, rfl, h3, x, _, rfl, h4, o, _, rfl, h5, n, _, rfl, h6, c, _, rfl, h7, rfl⟩ := h
    exact .zero (congrArg (·.1) h1) h2 (congrArg (·.1) h3) h4 (congrArg (·.1) h5) h6 (congrArg (·.1) h7)
  | succ k ih =>
    intro xs h
    simp only [unclosedLex, List.map_eq_cons_iff] at h
    obtain ⟨l, _, rfl, h1, m, _, rfl, h2, r, xs, rfl, h3, h4⟩ := h
    exact .succ h1 h2 h3 (ih h4)

/-- C94: a page of `8 n + 26` characters in which `n` blocks are never closed (up to the limit on nesting)
is parsed so often that its single footnote is collected `2 ^ n` times, although the text refers to it once.
The time and the memory needed are therefore exponential in the length of the page. -/
theorem C94_unclosed_blocks (n : Nat) (hn : n + 2 ≤ 100) (w : World) (info : PageInfo) (settings : Settings) :
    (unclosedPage n).length = 8 * n + 26 ∧
    ∃ o, parse w (tokenize (unclosedPage n)) info settings = some (.ok o) ∧
      o.tree.footnotes = List.replicate (2 ^ n) [.mk (.text c!"x") []] ∧
      o.tree.elements = [.mk (.container .paragraph []) ((List.replicate n [.mk (.text c!"[[") [], .mk (.text c!"span") [],
        .mk (.text c!"]]") []]).flatten ++ [.mk .footnote []]), .mk (.footnoteBlock none false) []] := by
  refine ⟨by
    clear hn
    induction n with
    | zero => rfl
    | succ n ih => simp only [unclosedPage, List.length_append, ih, List.length_cons, List.length_nil]; omega, ?_⟩
  obtain ⟨hl, hs⟩ := lexList_of (grouped_of (unclosed_sym n)) (unclosed_separate n).1
  rw [unclosed_flat] at hs
  obtain ⟨xs, e, ht, hx, he⟩ : ∃ xs e, (tokenize (unclosedPage n)).tokens =
      ⟨.inputStart, [], 0, 0⟩ :: (xs ++ [e]) ∧ xs.map ETok.pair = unclosedLex n ∧ e.token = .inputEnd := by
    rw [← hs, tokenize_list hl]
    exact ⟨_, _, rfl, addSpans_map _ _, rfl⟩
  let env : Env := ⟨unclosedPage n, (tokenize (unclosedPage n)).tokens, info, settings, w⟩
  let p0 : PState := ⟨⟨.inputStart, [], 0, 0⟩, xs ++ [e], .page, 0, .none, false, false, true⟩
  have hu := unclosed_of e n hx
  have hrun := runs_unclosed (env := env) he hu (by rw [ht]; exact List.suffix_cons ..) 99 p0 ⟨[], [], [], [], []⟩ true (by omega)
    (by simp only [p0]; omega) rfl
  have hstart : consume maxRecursionDepth env ⟨p0.at (⟨.inputStart, [], 0, 0⟩ :: (xs ++ [e])) true, ⟨[], [], [], [], []⟩⟩ =
      .ok ⟨[], [], true⟩ ⟨p0.at (xs ++ [e]) true, ⟨[], [], [], [], []⟩⟩ :=
    eats_tok (env := env) (x := ⟨.inputStart, [], 0, 0⟩) (rest := xs ++ [e]) (sol := true) (r := .null) (rs1 := [])
      (rs2 := []) (es := []) (safe := true) (by simp) rfl (by simp) (by simp) noParts_nil (fun _ _ _ => rfl)
      maxRecursionDepth p0 _ (by decide) (by simp [p0]) (fun _ => rfl)
  obtain ⟨errs, safe, hg⟩ := gathers_run (env := env) (p := p0) (cons := consume maxRecursionDepth) he
    (.cons (es := []) ⟨by simp, by simp, by simp, by simp, by simp⟩ hstart (by simp) (by simp) hrun)
  have hint : parseInternal env = .ok ⟨PStack.intoElements ⟨addTo [] ([] ++ unclosedElems n), [], []⟩, errs, safe⟩ ⟨p0.at [e] false,
      ⟨[], [], [], [] ++ List.replicate (2 ^ n) [eText c!"x"], []⟩⟩ := by
    unfold parseInternal
    show (match (tokenize (unclosedPage n)).tokens with
      | [] => _
      | c :: r => _) = _
    rw [ht]
    exact hg
  have hel : ∀ k, unclosedElems k = (List.replicate k [.mk (.text c!"[[") [], .mk (.text c!"span") [],
        .mk (.text c!"]]") []]).flatten ++ [.mk .footnote []] := by
    intro k
    induction k with
    | zero => rfl
    | succ k ih => simp only [unclosedElems, ih, List.replicate_succ, List.flatten_cons]; rfl
  have hne : PStack.intoElements ⟨addTo [] ([] ++ unclosedElems n), [], []⟩ = [.mk (.container .paragraph []) (unclosedElems n)] := by
    cases n <;> rfl
  have hp : parse w (tokenize (unclosedPage n)) info settings = some (.ok ⟨⟨[.mk (.container .paragraph []) (unclosedElems n)] ++
      [.mk (.footnoteBlock none false) []], [], [], [], [] ++ List.replicate (2 ^ n) [eText c!"x"], [], byteLen (unclosedPage n)⟩, errs⟩) := by
    show parseEnv env = _
    unfold parseEnv
    rw [hint, hne]
    rfl
  refine ⟨_, hp, rfl, ?_⟩
  rw [hel]
  rfl

/-- For a page of 346 characters the list of footnotes has more than a million million entries. -/
example (w : World) (info : PageInfo) (settings : Settings) : (unclosedPage 40).length = 346 ∧
    ∃ o, parse w (tokenize (unclosedPage 40)) info settings = some (.ok o) ∧ o.tree.footnotes.length = 1099511627776 := by
  obtain ⟨h1, o, h2, h3, _⟩ := C94_unclosed_blocks 40 (by decide) w info settings
  exact ⟨h1, o, h2, by rw [h3, List.length_replicate]⟩
/-- A small case, computed. -/
example : (match parse plainWorld (tokenize (unclosedPage 3)) somePage (Settings.fromMode .page .wikidot) with
    | some (.ok o) => o.tree.footnotes.length | _ => 0) = 8 := by decide +kernel

end Ftml
