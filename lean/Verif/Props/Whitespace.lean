import Verif.Props.Preproc
/-
C100: what the preprocessor does, line by line.
-/
namespace Ftml.Preproc
open Ftml

/-! ### Specification -/

/-- The lines of a text. -/
def linesOf (s : Str) : List Str := splitOn '\n' s

/-- The text with these lines. -/
def fromLines (ls : List Str) : Str := joinWith c!"\n" ls

/-- The no-break spaces and figure spaces a line begins with become spaces. -/
def plainIndent (l : Str) : Str :=
  let odd := fun c => c = '\u00a0' ∨ c = '\u2007'
  (l.takeWhile fun c => odd c).map (fun _ => ' ') ++ l.dropWhile fun c => odd c

/-- A line with nothing but white space. -/
def blankLine (l : Str) : Bool := l.all isWS

/-- Blank lines in a row become one empty line. -/
def squeeze : List Str → List Str
  | [] => []
  | [l] => if blankLine l then [[]] else [l]
  | l :: l' :: ls =>
    if blankLine l then (if blankLine l' then squeeze (l' :: ls) else [] :: squeeze (l' :: ls))
    else l :: squeeze (l' :: ls)

/-- Without the line ends at both ends. -/
def stripNewlines (s : Str) : Str :=
  ((s.dropWhile (· = '\n')).reverse.dropWhile (· = '\n')).reverse

/-- The characters that are written differently. -/
def plainChar (c : Char) : Str := if c = '\t' then c!"    " else if c = '\x00' then c!" " else [c]

/-- What happens to white space: line ends are unified, indentations made plain, blank lines squeezed, lines that end in a
backslash joined with the next, tabs and zero characters replaced, line ends at both ends removed. -/
def tidy (s : Str) : Str :=
  let lines := squeeze ((linesOf (unixNewlines s)).map plainIndent)
  stripNewlines ((joinLines (fromLines lines)).flatMap plainChar)

/-! ### Replacement with left context -/

theorem replace_eq' {m : Matcher} (F : Option Char → Str → Str) (hm : Shrinks m) (hnil : ∀ p, F p [] = [])
    (h1 : ∀ prev s k o r, m prev s = some (k, o, r) → k = [] ∧ F prev s = o ++ F (lastOr prev o) r)
    (h2 : ∀ prev c s, m prev (c :: s) = none → F prev (c :: s) = c :: F (some c) s) (s : Str) :
    replace m s = some (F none s) := by
  obtain ⟨t, ht⟩ := replace_total hm s
  rw [ht]; congr 1
  have aux : ∀ a prev mid, (∀ a1 c a2, a = a1 ++ c :: a2 → m (lastOr prev a1) (c :: a2 ++ mid) = none) →
      F prev (a ++ mid) = a ++ F (lastOr prev a) mid := by
    intro a
    induction a with
    | nil => intro prev mid _; simp
    | cons c a ih =>
      intro prev mid h
      have e1 : F prev (c :: a ++ mid) = c :: F (some c) (a ++ mid) := h2 _ _ _ (h [] c a rfl)
      rw [e1, ih (some c), lastOr_cons]
      · rfl
      · intro a1 d a2 e
        have := h (c :: a1) d a2 (by simp [e])
        rwa [lastOr_cons] at this
  have lo : ∀ (d a : Str), (d ++ a).getLast? = lastOr d.getLast? a := by
    intro d a; simp [lastOr, List.getLast?_append]
  refine replace_inv (fun done rest => done ++ F done.getLast? rest = F none s) (fun t => t = F none s) (by simp) ?_ ?_ ht
  · intro done rest a mid k o r hI e _ hm hnone
    obtain ⟨rfl, h3⟩ := h1 _ _ _ _ _ hm
    subst e
    rw [aux _ _ _ hnone, h3] at hI
    rw [← hI, lo, List.append_nil, lo]
    simp
  · intro done rest hI hnone
    have := aux rest done.getLast? [] (by
      intro a1 c a2 e
      have := hnone a1 c a2 e
      simpa using this)
    simp only [List.append_nil, hnil] at this
    rw [this] at hI; exact hI

/-! ### Lines -/

theorem lines_cons {c : Char} (h : c ≠ '\n') (s : Str) : ∃ l ls, linesOf s = l :: ls ∧ linesOf (c :: s) = (c :: l) :: ls := by
  unfold linesOf
  cases hs : splitOn '\n' s with
  | nil => exact (splitOn_ne_nil _ _ hs).elim
  | cons l ls => exact ⟨l, ls, rfl, by simp [splitOn, h, hs]⟩

theorem lines_nl (s : Str) : linesOf ('\n' :: s) = [] :: linesOf s := by simp [linesOf, splitOn]

theorem fromLines_cons (c : Char) (l : Str) (ls : List Str) : fromLines ((c :: l) :: ls) = c :: fromLines (l :: ls) := by
  cases ls <;> rfl

theorem fromLines_nl {ls : List Str} (h : ls ≠ []) : fromLines ([] :: ls) = '\n' :: fromLines ls := by
  cases ls with
  | nil => exact (h rfl).elim
  | cons l ls => rfl

theorem lines_from : ∀ ls : List Str, ls ≠ [] → (∀ l ∈ ls, '\n' ∉ l) → linesOf (fromLines ls) = ls := by
  intro ls
  induction ls with
  | nil => intro h; exact (h rfl).elim
  | cons l ls ih =>
    intro _ h
    cases ls with
    | nil => exact splitOn_single (h l (by simp))
    | cons l' ls =>
      have := ih (by simp) (fun x hx => h x (List.mem_cons_of_mem _ hx))
      unfold linesOf fromLines at *
      rw [joinWith_cons_cons, List.append_assoc, List.cons_append, List.nil_append, splitOn_cons (h l (by simp)), this]

/-! ### Indentation -/

/-- `plainIndent` on every line, on a text that begins at the start of a line or not. -/
def indentFrom (start : Bool) : Str → Str
  | [] => []
  | c :: s => if start && isNonStd c then ' ' :: indentFrom true s else c :: indentFrom (c == '\n') s

theorem indentFrom_lines (s : Str) : ∀ start, indentFrom start s = fromLines (match linesOf s with
    | [] => []
    | l :: ls => (if start then plainIndent l else l) :: ls.map plainIndent) := by
  induction s with
  | nil => intro b; cases b <;> rfl
  | cons c s ih =>
    intro b
    by_cases hc : c = '\n'
    · subst hc
      rw [lines_nl]
      have hn : isNonStd '\n' = false := by decide
      have hp : plainIndent [] = [] := rfl
      have e : indentFrom b ('\n' :: s) = '\n' :: indentFrom true s := by simp [indentFrom, hn]
      rw [e, ih true]
      have hne : linesOf s ≠ [] := splitOn_ne_nil _ _
      cases hl : linesOf s with
      | nil => exact (hne hl).elim
      | cons l ls => simp only [hp, ite_self, List.map_cons]; rw [fromLines_nl (by simp)]; rfl
    · obtain ⟨l, ls, e1, e2⟩ := lines_cons hc s
      rw [e2]
      dsimp only
      have hq : (c == '\n') = false := by simpa using hc
      cases b with
      | false =>
        have e : indentFrom false (c :: s) = c :: indentFrom false s := by simp [indentFrom, hq]
        rw [e, ih false, e1]
        simp [fromLines_cons]
      | true =>
        by_cases ho : isNonStd c = true
        · have e : indentFrom true (c :: s) = ' ' :: indentFrom true s := by simp [indentFrom, ho]
          rw [e, ih true, e1]
          have hp : plainIndent (c :: l) = ' ' :: plainIndent l := by
            have : (decide (c = '\u00a0' ∨ c = '\u2007')) = true := by simpa [isNonStd] using ho
            simp only [plainIndent, List.takeWhile_cons, List.dropWhile_cons, this, if_true, List.map_cons, List.cons_append]
          simp [hp, fromLines_cons]
        · have e : indentFrom true (c :: s) = c :: indentFrom false s := by simp [indentFrom, hq, ho]
          rw [e, ih false, e1]
          have hp : plainIndent (c :: l) = c :: l := by
            have : (decide (c = '\u00a0' ∨ c = '\u2007')) = false := by simpa [isNonStd] using ho
            simp only [plainIndent, List.takeWhile_cons, List.dropWhile_cons, this, Bool.false_eq_true, if_false, List.map_nil, List.nil_append]
          simp [hp, fromLines_cons]

theorem indentFrom_run (s : Str) : indentFrom true s = (s.takeWhile isNonStd).map (fun _ => ' ') ++ indentFrom false (s.dropWhile isNonStd) := by
  induction s with
  | nil => rfl
  | cons c s ih =>
    by_cases h : isNonStd c = true
    · simp [indentFrom, List.takeWhile_cons, List.dropWhile_cons, h, ih]
    · simp [indentFrom, List.takeWhile_cons, List.dropWhile_cons, h]

/-- C100: the indentation pass, line by line. -/
theorem C100_indent_pass (s : Str) : replace leadingNonStd s = some (fromLines ((linesOf s).map plainIndent)) := by
  rw [replace_eq' (fun p s => indentFrom (atLineStart p) s) leadingNonStd_shrinks (fun _ => rfl) ?_ ?_ s]
  · have h : atLineStart none = true := rfl
    rw [h, indentFrom_lines]
    cases linesOf s <;> rfl
  · intro prev s k o r hm
    unfold leadingNonStd at hm
    split at hm
    · rename_i hc
      simp only [Bool.and_eq_true, Bool.not_eq_true'] at hc
      simp only [Option.some.injEq, Prod.mk.injEq] at hm
      obtain ⟨rfl, rfl, rfl⟩ := hm
      refine ⟨rfl, ?_⟩
      rw [hc.1, indentFrom_run]
      congr 2
      have : (s.takeWhile isNonStd) ≠ [] := by intro e; rw [e] at hc; simp at hc
      obtain ⟨x, hx⟩ : ∃ x, (s.takeWhile isNonStd).getLast? = some x := by
        cases h : (s.takeWhile isNonStd).getLast? with
        | none => simp at h; exact (this (by simpa using h)).elim
        | some x => exact ⟨x, rfl⟩
      simp [lastOr, hx, atLineStart]
    · cases hm
  · intro prev c s hm
    unfold leadingNonStd at hm
    split at hm
    · cases hm
    · rename_i hc
      have : (atLineStart prev && isNonStd c) = false := by
        cases h1 : atLineStart prev <;> cases h2 : isNonStd c <;> simp_all [List.takeWhile_cons]
      rw [indentFrom, if_neg (by simp [this])]
      congr 2

/-! ### Blank lines -/

def squeezeFrom (start : Bool) (s : Str) : Str :=
  fromLines (if start then squeeze (linesOf s) else match linesOf s with
    | [] => []
    | l :: ls => l :: squeeze ls)

theorem squeeze_ne {ls : List Str} (h : ls ≠ []) : squeeze ls ≠ [] := by
  fun_induction squeeze ls <;> simp_all

theorem squeeze_cons {l : Str} (h : blankLine l = false) (ls : List Str) : squeeze (l :: ls) = l :: squeeze ls := by
  cases ls <;> simp [squeeze, h]

theorem squeeze_empty {ls : List Str} (h : ∀ l, ls.head? = some l → blankLine l = false) : squeeze ([] :: ls) = [] :: squeeze ls := by
  cases ls with
  | nil => rfl
  | cons l ls =>
    have := h l rfl
    have he : blankLine [] = true := rfl
    simp only [squeeze, he, this, if_true, Bool.false_eq_true, if_false]

theorem squeeze_blank {l : Str} (h : blankLine l = true) (ls : List Str) : squeeze (l :: ls) = squeeze ([] :: ls) := by
  have he : blankLine [] = true := rfl
  cases ls <;> simp only [squeeze, h, he, if_true]

theorem squeeze_blank2 {l l' : Str} (h : blankLine l = true) (h' : blankLine l' = true) (ls : List Str) :
    squeeze (l :: l' :: ls) = squeeze (l' :: ls) := by simp [squeeze, h, h']

/-- White space before the end of a line. -/
theorem squeeze_ws (w : Str) : ∀ (r : Str), (∀ c ∈ w, isWS c = true) → (r = [] ∨ r.head? = some '\n') →
    squeeze (linesOf (w ++ r)) = squeeze (linesOf r) ∧ ∃ l ls, linesOf (w ++ r) = l :: ls ∧ blankLine l = true := by
  induction w with
  | nil =>
    intro r _ hr
    refine ⟨rfl, ?_⟩
    rcases hr with rfl | hr
    · exact ⟨[], [], rfl, rfl⟩
    · cases r with
      | nil => cases hr
      | cons d r => cases hr; exact ⟨[], linesOf r, lines_nl r, rfl⟩
  | cons c w ih =>
    intro r hw hr
    obtain ⟨h1, l, ls, h2, h3⟩ := ih r (fun x hx => hw x (List.mem_cons_of_mem _ hx)) hr
    rw [← h1, List.cons_append]
    by_cases hc : c = '\n'
    · subst hc
      rw [lines_nl, h2]
      exact ⟨squeeze_blank2 rfl h3 ls, [], _, rfl, rfl⟩
    · obtain ⟨l', ls', e1, e2⟩ := lines_cons hc (w ++ r)
      rw [h2] at e1
      cases e1
      have hb : blankLine (c :: l) = true := by
        simp only [blankLine, List.all_cons, Bool.and_eq_true] at h3 ⊢
        exact ⟨hw c (by simp), h3⟩
      rw [e2, h2, squeeze_blank hb, squeeze_blank h3]
      exact ⟨rfl, _, _, rfl, hb⟩

/-- The first line, and what follows it. -/
theorem first_line (s : Str) : ∃ l ls r, linesOf s = l :: ls ∧ s = l ++ r ∧ (r = [] ∨ r.head? = some '\n') := by
  induction s with
  | nil => exact ⟨[], [], [], rfl, rfl, .inl rfl⟩
  | cons c s ih =>
    by_cases hc : c = '\n'
    · subst hc; exact ⟨[], _, _, lines_nl s, rfl, .inr rfl⟩
    · obtain ⟨l, ls, r, e1, e2, e3⟩ := ih
      obtain ⟨l', ls', e4, e5⟩ := lines_cons hc s
      rw [e1] at e4
      cases e4
      exact ⟨c :: l, ls, r, e5, by rw [List.cons_append, ← e2], e3⟩

/-- C100: the pass over blank lines. -/
theorem C100_blank_pass (s : Str) : replace wsOnlyLine s = some (fromLines (squeeze (linesOf s))) := by
  rw [replace_eq' (fun p s => squeezeFrom (atLineStart p) s) wsOnlyLine_shrinks ?_ ?_ ?_ s]
  · rfl
  · intro p; cases h : atLineStart p <;> rfl
  · intro prev s k o r hm
    obtain ⟨rfl, rfl, h1, h2⟩ := wsOnlyLine_some hm
    refine ⟨rfl, ?_⟩
    obtain ⟨w, rfl, _, h3, h4⟩ := wsLine_some h2
    simp only [h1, lastOr_nil, squeezeFrom, if_true, List.nil_append]
    rw [(squeeze_ws w r h3 h4).1]
  · intro prev c s hm
    have line : ∀ q, atLineStart (some c) = q → squeezeFrom false (c :: s) = c :: squeezeFrom q s := by
      intro q hq
      by_cases hc : c = '\n'
      · subst hc
        have : q = true := by rw [← hq]; rfl
        subst this
        simp only [squeezeFrom, lines_nl, if_true, Bool.false_eq_true, if_false]
        exact fromLines_nl (squeeze_ne (splitOn_ne_nil _ _))
      · have : q = false := by rw [← hq]; simp [atLineStart, hc]
        subst this
        obtain ⟨l, ls, e1, e2⟩ := lines_cons hc s
        simp only [squeezeFrom, e1, e2, Bool.false_eq_true, if_false]
        exact fromLines_cons c l _
    rw [← line _ rfl]
    cases hp : atLineStart prev with
    | false => rfl
    | true =>
      have hn : wsLine (c :: s) = none := by
        unfold wsOnlyLine at hm
        rw [if_pos hp] at hm
        simpa using hm
      by_cases hc : c = '\n'
      · subst hc
        simp only [squeezeFrom, lines_nl, if_true, Bool.false_eq_true, if_false]
        rw [squeeze_empty]
        intro l hl
        obtain ⟨l', ls, r, e1, e2, e3⟩ := first_line s
        rw [e1] at hl
        obtain rfl : l' = l := by simpa using hl
        cases hb : blankLine l' with
        | false => rfl
        | true =>
          exfalso
          refine wsLine_none hn ('\n' :: l') r (by rw [List.cons_append, ← e2]) (by simp) ?_ e3
          intro x hx
          rcases List.mem_cons.1 hx with rfl | hx
          · decide
          · exact List.all_eq_true.1 hb x hx
      · obtain ⟨l, ls, r, e1, e2, e3⟩ := first_line (c :: s)
        have hne : l ≠ [] := by
          obtain ⟨l', ls', _, e5⟩ := lines_cons hc s
          rw [e1] at e5
          cases e5
          simp
        have hb : blankLine l = false := by
          cases hb : blankLine l with
          | false => rfl
          | true => exact (wsLine_none hn l r e2 hne (List.all_eq_true.1 hb) e3).elim
        simp only [squeezeFrom, e1, if_true, Bool.false_eq_true, if_false]
        rw [squeeze_cons hb]

/-! ### The ends of the text -/

theorem takeWhile_all (p : Char → Bool) (s : Str) : ∀ x ∈ s.takeWhile p, p x = true := by
  induction s with
  | nil => simp
  | cons a s ih =>
    rw [List.takeWhile_cons]
    split
    · rename_i h
      intro x hx
      rcases List.mem_cons.1 hx with rfl | hx
      · exact h
      · exact ih x hx
    · simp

theorem strip_cons (c : Char) (s : Str) : ((c :: s).reverse.dropWhile (· = '\n')).reverse =
    if (c :: s).all (· = '\n') then [] else c :: (s.reverse.dropWhile (· = '\n')).reverse := by
  rw [List.reverse_cons, List.dropWhile_append]
  by_cases h : s.all (· = '\n') = true
  · have hd : s.reverse.dropWhile (· = '\n') = [] := by
      have : ∀ l : Str, (∀ x ∈ l, x = '\n') → l.dropWhile (· = '\n') = [] := by
        intro l hl
        induction l with
        | nil => rfl
        | cons a l ih => rw [List.dropWhile_cons, if_pos (by simpa using hl a (by simp)), ih (fun x hx => hl x (by simp [hx]))]
      refine this _ fun x hx => ?_
      simpa using List.all_eq_true.1 h x (by simpa using hx)
    rw [hd]
    by_cases hc : c = '\n'
    · simp [hc, h]
    · simp [hc]
  · have hd : (s.reverse.dropWhile (· = '\n')).isEmpty = false := by
      cases he : s.reverse.dropWhile (· = '\n') with
      | nil =>
        exfalso
        apply h
        rw [List.all_eq_true]
        intro x hx
        have e := List.takeWhile_append_dropWhile (p := fun c => decide (c = '\n')) (l := s.reverse)
        rw [he, List.append_nil] at e
        have hx : x ∈ s.reverse := by simpa using hx
        rw [← e] at hx
        exact takeWhile_all _ _ x hx
      | cons => rfl
    rw [hd]
    simp at h
    simp
    intro _
    exact h

/-- C100: line ends at both ends are removed. -/
theorem C100_edge_passes (s : Str) : (replace leadingNewlines s).bind (replace trailingNewlines) = some (stripNewlines s) := by
  have h1 : replace leadingNewlines s = some (s.dropWhile (· = '\n')) := by
    rw [replace_eq' (fun p s => if p.isNone then s.dropWhile (· = '\n') else s) leadingNewlines_shrinks ?_ ?_ ?_ s]
    · rfl
    · intro p; cases p <;> rfl
    · intro prev s k o r hm
      unfold leadingNewlines at hm
      split at hm
      · rename_i hc
        simp only [Option.some.injEq, Prod.mk.injEq] at hm
        obtain ⟨rfl, rfl, rfl⟩ := hm
        simp only [Bool.and_eq_true] at hc
        refine ⟨rfl, ?_⟩
        simp only [lastOr_nil, hc.1, if_true, List.nil_append]
        induction s with
        | nil => rfl
        | cons a s ih =>
          rw [List.dropWhile_cons]
          split
          · rename_i ha
            by_cases hs : (s.takeWhile (· = '\n')).isEmpty = true
            · cases s with
              | nil => rfl
              | cons b s =>
                by_cases hb : b = '\n'
                · simp [hb, List.takeWhile_cons] at hs
                · simp [List.dropWhile_cons, hb]
            · exact ih ⟨hc.1, by simpa using hs⟩
          · rename_i ha
            rw [List.dropWhile_cons, if_neg ha]
      · cases hm
    · intro prev c s hm
      unfold leadingNewlines at hm
      split at hm
      · cases hm
      · rename_i hc
        cases prev with
        | some p => rfl
        | none =>
          have : c ≠ '\n' := by rintro rfl; simp [List.takeWhile_cons] at hc
          simp [List.dropWhile_cons, this]
  rw [h1]
  have h2 : ∀ s, replace trailingNewlines s = some (s.reverse.dropWhile (· = '\n')).reverse := by
    intro s
    refine replace_eq (fun s => (s.reverse.dropWhile (· = '\n')).reverse) trailingNewlines_shrinks rfl ?_ ?_ s
    · intro prev s k o r hm
      unfold trailingNewlines at hm
      split at hm
      · rename_i hc
        simp only [Option.some.injEq, Prod.mk.injEq] at hm
        obtain ⟨rfl, rfl, rfl⟩ := hm
        refine ⟨rfl, ?_⟩
        simp only [Bool.and_eq_true, Bool.not_eq_true'] at hc
        cases s with
        | nil => rfl
        | cons c s => rw [strip_cons, if_pos hc.2]; rfl
      · cases hm
    · intro prev c s hm
      unfold trailingNewlines at hm
      split at hm
      · cases hm
      · rename_i hc
        rw [strip_cons, if_neg (by simpa using hc)]
  exact h2 _

/-- C100: what the preprocessor does to white space. -/
theorem C100_whitespace (s : Str) : whitespaceSubst s = some (tidy s) := by
  unfold whitespaceSubst tidy
  rw [C04_newline_pass]
  simp only [Option.bind_eq_bind, Option.bind_some]
  rw [C100_indent_pass]
  simp only [Option.bind_some]
  rw [C100_blank_pass]
  simp only [Option.bind_some]
  rw [C04_concat_pass]
  simp only [Option.bind_some]
  rw [C04_tab_pass]
  simp only [Option.bind_some]
  rw [C04_null_pass]
  simp only [Option.bind_some]
  have e : ((joinLines (fromLines (squeeze (linesOf (fromLines ((linesOf (unixNewlines s)).map plainIndent)))))).flatMap
      fun c => if c = '\t' then [' ', ' ', ' ', ' '] else [c]).map (fun c => if c = '\x00' then ' ' else c) =
      (joinLines (fromLines (squeeze ((linesOf (unixNewlines s)).map plainIndent)))).flatMap plainChar := by
    have hl : linesOf (fromLines ((linesOf (unixNewlines s)).map plainIndent)) = (linesOf (unixNewlines s)).map plainIndent := by
      refine lines_from _ (by intro e; exact splitOn_ne_nil _ _ (List.map_eq_nil_iff.1 e)) ?_
      intro l hl
      obtain ⟨l', hl', rfl⟩ := List.mem_map.1 hl
      have := splitOn_pieces '\n' _ l' hl'
      intro hn
      rcases List.mem_append.1 hn with hn | hn
      · obtain ⟨x, _, e⟩ := List.mem_map.1 hn
        exact absurd e (by decide)
      · exact this ((List.dropWhile_suffix _).subset hn)
    rw [hl, List.map_flatMap]
    congr 1
    funext c
    unfold plainChar
    split
    · decide
    · split <;> simp_all
  rw [e]
  exact C100_edge_passes _

/-- C100: a text without typographic signs is tidied and otherwise unchanged. -/
theorem C100_preprocess (s : Str) (h1 : '`' ∉ tidy s) (h2 : ¬ [',', ','] <:+: tidy s)
    (h3 : ¬ ['.', '.', '.'] <:+: tidy s) (h4 : ¬ ['.', ' ', '.', ' ', '.'] <:+: tidy s) :
    preprocess s = some (tidy s) := by
  unfold preprocess
  rw [C100_whitespace]
  exact C05_typography_identity _ h1 h2 h3 h4

/-- Two blank lines, one of them with blanks, an indentation, a tab and a continued line. -/
example : tidy c!" \n\r\n\u00a0\u2007x\u00a0\n \t\n\r\n\ta\\\nb\n\n" = c!"  x\u00a0\n\n    ab" := by decide +kernel
example : preprocess c!" \n\r\n\u00a0\u2007x\u00a0\n \t\n\r\n\ta\\\nb\n\n" = some c!"  x\u00a0\n\n    ab" := by decide +kernel

/-! ### Typography -/

/-- Quotation marks written with `op` and `close`: at every place where `op` stands and `close` follows on the same line,
the shortest such piece is put between the marks `b` and `f`; everything else stays. -/
inductive Quoted (op close : Str) (b f : Char) : Str → Str → Prop where
  | nil : Quoted op close b f [] []
  | pair {content rest out : Str} : '\n' ∉ content →
      (∀ c' r', '\n' ∉ c' → op ++ content ++ close ++ rest = op ++ c' ++ close ++ r' → content.length ≤ c'.length) →
      Quoted op close b f rest out →
      Quoted op close b f (op ++ content ++ close ++ rest) (b :: (content ++ f :: out))
  | char {c : Char} {s out : Str} : (∀ c' r', '\n' ∉ c' → c :: s ≠ op ++ c' ++ close ++ r') →
      Quoted op close b f s out → Quoted op close b f (c :: s) (c :: out)

/-- Three dots, with blanks between them or not, and no dot after them. -/
def DotsThen (s r : Str) : Prop := (s = c!"..." ++ r ∨ s = c!". . ." ++ r) ∧ r.head? ≠ some '.'

/-- Three dots without a dot before or after them become an ellipsis; `prev` is the character before the text. -/
inductive Dotted : Option Char → Str → Str → Prop where
  | nil {prev} : Dotted prev [] []
  | dots {prev s r out} : prev ≠ some '.' → DotsThen s r → Dotted (some '…') r out → Dotted prev s ('…' :: out)
  | char {prev c s out} : (prev ≠ some '.' → ∀ r, ¬ DotsThen (c :: s) r) → Dotted (some c) s out → Dotted prev (c :: s) (c :: out)

/-- A pass, step by step. -/
theorem replace_rel {m : Matcher} (R : Option Char → Str → Str → Prop) (P : Option Char → Str → Prop)
    (hnil : ∀ p, R p [] []) (h0 : ∀ s, P none s)
    (h1 : ∀ prev s k o r, P prev s → m prev s = some (k, o, r) → P (lastOr prev (k ++ o)) r ∧
      ∀ t, R (lastOr prev (k ++ o)) r t → R prev s (k ++ o ++ t))
    (h2 : ∀ prev c s, P prev (c :: s) → m prev (c :: s) = none → P (some c) s ∧ ∀ t, R (some c) s t → R prev (c :: s) (c :: t))
    {s t : Str} (h : replace m s = some t) : R none s t := by
  have aux : ∀ a prev mid, P prev (a ++ mid) → (∀ a1 c a2, a = a1 ++ c :: a2 → m (lastOr prev a1) (c :: a2 ++ mid) = none) →
      P (lastOr prev a) mid ∧ ∀ t, R (lastOr prev a) mid t → R prev (a ++ mid) (a ++ t) := by
    intro a
    induction a with
    | nil => intro prev mid hp _; exact ⟨by simpa using hp, fun t ht => by simpa using ht⟩
    | cons c a ih =>
      intro prev mid hp h
      obtain ⟨g1, g2⟩ := h2 prev c (a ++ mid) hp (h [] c a rfl)
      obtain ⟨g3, g4⟩ := ih (some c) mid g1 (by
        intro a1 d a2 e
        have := h (c :: a1) d a2 (by simp [e])
        rwa [lastOr_cons] at this)
      rw [lastOr_cons]
      exact ⟨g3, fun t ht => g2 _ (g4 t ht)⟩
  have lo : ∀ (d a : Str), (d ++ a).getLast? = lastOr d.getLast? a := by
    intro d a; simp [lastOr, List.getLast?_append]
  refine replace_inv (fun done rest => P done.getLast? rest ∧ ∀ u, R done.getLast? rest u → R none s (done ++ u))
    (fun t => R none s t) ⟨h0 s, fun u hu => hu⟩ ?_ ?_ h
  · intro done rest a mid k o r hI e _ hm hnone
    subst e
    obtain ⟨g1, g2⟩ := aux a _ mid hI.1 hnone
    obtain ⟨g3, g4⟩ := h1 _ _ _ _ _ g1 hm
    rw [List.append_assoc (done ++ a), lo, lo]
    refine ⟨g3, fun u hu => ?_⟩
    have := hI.2 _ (g2 _ (g4 u hu))
    simpa using this
  · intro done rest hI hnone
    obtain ⟨_, g2⟩ := aux rest done.getLast? [] (by simpa using hI.1) (by
      intro a1 c a2 e
      have := hnone a1 c a2 e
      simpa using this)
    have := g2 [] (hnil _)
    simp only [List.append_nil] at this
    exact hI.2 _ this

theorem lazyTo_min {close : Str} : ∀ {s a r : Str}, lazyTo close s = some (a, r) →
    ∀ a' r', '\n' ∉ a' → s = a' ++ close ++ r' → a.length ≤ a'.length := by
  intro s
  induction s with
  | nil =>
    intro a r h a' r' _ _
    simp only [lazyTo, Option.map_eq_some_iff] at h
    obtain ⟨_, _, e⟩ := h
    cases e
    simp
  | cons c s ih =>
    intro a r h a' r' hn e
    unfold lazyTo at h
    split at h
    · cases h; simp
    · rename_i hp
      cases a' with
      | nil =>
        exfalso
        have : stripPfx close (c :: s) = some r' := stripPfx_some.2 (by simpa using e)
        rw [hp] at this
        cases this
      | cons d a' =>
        simp only [List.cons_append, List.cons.injEq] at e
        obtain ⟨rfl, e⟩ := e
        split at h
        · cases h
        · simp only [Option.map_eq_some_iff] at h
          obtain ⟨⟨x, y⟩, hx, e'⟩ := h
          cases e'
          have := ih hx a' r' (fun h => hn (List.mem_cons_of_mem _ h)) (by simpa using e)
          simp only [List.length_cons]
          omega

theorem lazyTo_none {close : Str} : ∀ {s : Str}, lazyTo close s = none →
    ∀ a' r', '\n' ∉ a' → s ≠ a' ++ close ++ r' := by
  intro s
  induction s with
  | nil =>
    intro h a' r' _ e
    have hc : close = [] := by
      have := congrArg List.length e
      simp only [List.length_append, List.length_nil] at this
      exact List.length_eq_zero_iff.1 (by omega)
    subst hc
    simp [lazyTo, stripPfx] at h
  | cons c s ih =>
    intro h a' r' hn e
    unfold lazyTo at h
    split at h
    · cases h
    · rename_i hp
      cases a' with
      | nil =>
        have : stripPfx close (c :: s) = some r' := stripPfx_some.2 (by simpa using e)
        rw [hp] at this
        cases this
      | cons d a' =>
        simp only [List.cons_append, List.cons.injEq] at e
        obtain ⟨rfl, e⟩ := e
        split at h
        · rename_i hc; exact hn (by simp [hc])
        · simp only [Option.map_eq_none_iff] at h
          exact ih h a' r' (fun h => hn (List.mem_cons_of_mem _ h)) (by simpa using e)

theorem surround_quoted {op close : Str} {b f : Char} {s t : Str} (h : replace (surround op close b f) s = some t) :
    Quoted op close b f s t := by
  refine replace_rel (fun _ => Quoted op close b f) (fun _ _ => True) (fun _ => .nil) (fun _ => trivial) ?_ ?_ h
  · intro prev s k o r _ hm
    refine ⟨trivial, fun t ht => ?_⟩
    have hm' := hm
    obtain ⟨content, rfl, rfl, rfl, hn⟩ := surround_some hm
    unfold surround at hm'
    simp only [Option.bind_eq_bind, Option.bind_eq_some_iff] at hm'
    obtain ⟨r1, g1, ⟨c2, r2⟩, g2, g3⟩ := hm'
    rw [stripPfx_some] at g1
    simp only [Option.some.injEq, Prod.mk.injEq, List.cons.injEq, true_and, List.append_cancel_right_eq] at g3
    obtain ⟨rfl, rfl⟩ := g3
    have := Quoted.pair (op := op) (close := close) (b := b) (f := f) hn ?_ ht
    · simpa using this
    · intro c' r' hn' e
      refine lazyTo_min g2 c' r' hn' ?_
      have e := g1.symm.trans e
      simpa using e
  · intro prev c s _ hm
    refine ⟨trivial, fun t ht => .char ?_ ht⟩
    intro c' r' hn e
    unfold surround at hm
    rw [e] at hm
    have : stripPfx op (op ++ c' ++ close ++ r') = some (c' ++ close ++ r') := stripPfx_some.2 (by simp)
    rw [this] at hm
    simp only [Option.bind_eq_bind, Option.bind_some] at hm
    cases hl : lazyTo close (c' ++ close ++ r') with
    | none => exact lazyTo_none hl c' r' hn rfl
    | some x => rw [hl] at hm; simp at hm

theorem dots_iff {s r : Str} : dots s = some r ↔ DotsThen s r := by
  constructor
  · exact dots_some
  · rintro ⟨e | e, h⟩ <;> subst e <;> simp [dots, stripPfx, h]

theorem ellipsis_dotted {s t : Str} (h : replace ellipsis s = some t) : Dotted none s t := by
  refine replace_rel Dotted (fun p s => p = none ∨ p = some '.' ∨ ∀ r, ¬ DotsThen s r) (fun _ => .nil) (fun _ => .inl rfl) ?_ ?_ h
  · intro prev s k o r _ hm
    obtain ⟨rfl, d, rfl, hd, hk, hr⟩ := ellipsis_some hm
    have hdt : DotsThen (d ++ r) r := ⟨by rcases hd with rfl | rfl; exact .inl rfl; exact .inr rfl, hr⟩
    have hlast : lastOr prev (k ++ ['\u2026']) = some '…' := by simp [lastOr]
    rw [hlast]
    refine ⟨.inr (.inr ?_), fun t ht => ?_⟩
    · rintro r' ⟨e | e, _⟩ <;> (rw [e] at hr; simp at hr)
    · rcases hk with ⟨rfl, rfl⟩ | ⟨c, rfl, hc⟩
      · exact .dots (by simp) hdt ht
      · refine .char ?_ (.dots (by simpa using hc) hdt ht)
        rintro _ r' ⟨e | e, _⟩ <;> (simp at e; exact hc e.1)
  · intro prev c s hp hm
    unfold ellipsis at hm
    split at hm
    · cases hm
    · rename_i h1
      dsimp only at hm
      have h3 : c = '.' ∨ dots s = none := by
        by_cases hc : c = '.'
        · exact .inl hc
        · rw [if_neg hc] at hm; exact .inr (by simpa using hm)
      refine ⟨?_, fun t ht => .char ?_ ht⟩
      · rcases h3 with rfl | h3
        · exact .inr (.inl rfl)
        · refine .inr (.inr fun r hr => ?_)
          rw [dots_iff.2 hr] at h3
          cases h3
      · intro hne r hr
        rcases hp with rfl | rfl | hp
        · simp only [Option.isNone_none, if_true] at h1
          rw [dots_iff.2 hr] at h1
          cases h1
        · exact hne rfl
        · exact hp r hr

theorem Quoted.unique {op close : Str} {b f : Char} {s t : Str} (h : Quoted op close b f s t) (ho : op ≠ []) :
    ∀ {t'}, Quoted op close b f s t' → t = t' := by
  have cut : ∀ {c1 r1 c2 r2 : Str}, op ++ c1 ++ close ++ r1 = op ++ c2 ++ close ++ r2 → c1.length = c2.length → c1 = c2 ∧ r1 = r2 := by
    intro c1 r1 c2 r2 e hl
    simp only [List.append_assoc, List.append_cancel_left_eq] at e
    obtain ⟨rfl, e⟩ := List.append_inj e hl
    simp only [List.append_cancel_left_eq] at e
    exact ⟨rfl, e⟩
  induction h with
  | nil =>
    intro t' h'
    generalize hs : ([] : Str) = s at h'
    cases h' with
    | nil => rfl
    | pair _ _ _ =>
      exfalso
      have := congrArg List.length hs
      simp only [List.length_append, List.length_nil] at this
      exact ho (List.length_eq_zero_iff.1 (by omega))
    | char => cases hs
  | @pair c1 r1 o1 hn hmin _ ih =>
    intro t' h'
    generalize hs : op ++ c1 ++ close ++ r1 = s at h'
    cases h' with
    | nil => exfalso; have := congrArg List.length hs; simp at this; exact ho this.1
    | @pair c2 r2 o2 hn2 hmin2 h2 =>
      have l1 := hmin _ _ hn2 hs
      have l2 := hmin2 _ _ hn hs.symm
      obtain ⟨rfl, rfl⟩ := cut hs (by omega)
      rw [ih h2]
    | char hno _ => exact (hno c1 r1 hn hs.symm).elim
  | @char c s o hno _ ih =>
    intro t' h'
    generalize hs : c :: s = s' at h'
    cases h' with
    | nil => cases hs
    | @pair c2 r2 _ hn2 _ _ => exact (hno c2 r2 hn2 hs).elim
    | char _ h2 => cases hs; rw [ih h2]

theorem DotsThen.unique {s r r' : Str} (h : DotsThen s r) (h' : DotsThen s r') : r = r' := by
  have := dots_iff.2 h
  rw [dots_iff.2 h'] at this
  cases this
  rfl

theorem Dotted.unique {p : Option Char} {s t : Str} (h : Dotted p s t) : ∀ {t'}, Dotted p s t' → t = t' := by
  induction h with
  | nil =>
    intro t' h'
    cases h' with
    | nil => rfl
    | dots _ h => rcases h.1 with e | e <;> simp at e
  | @dots prev s r o hp hd _ ih =>
    intro t' h'
    cases h' with
    | nil => rcases hd.1 with e | e <;> simp at e
    | dots _ hd' h2 => cases hd.unique hd'; rw [ih h2]
    | char hno _ => exact (hno hp _ hd).elim
  | char hno _ ih =>
    intro t' h'
    cases h' with
    | dots hp hd _ => exact (hno hp _ hd).elim
    | char _ h2 => rw [ih h2]

/-- C100: preprocessing is exactly this: white space is tidied; then ``` ``…'' ``` and `,,…''` become double, `` `…' `` single
quotation marks, and three dots an ellipsis. -/
theorem C100_preprocess_iff (s t : Str) : preprocess s = some t ↔ ∃ a b c,
    Quoted c!"``" c!"''" '“' '”' (tidy s) a ∧ Quoted c!",," c!"''" '„' '”' a b ∧
    Quoted c!"`" c!"'" '‘' '’' b c ∧ Dotted none c t := by
  obtain ⟨t0, ht0⟩ := C03_preprocess_total s
  have key : ∃ a b c, Quoted c!"``" c!"''" '“' '”' (tidy s) a ∧ Quoted c!",," c!"''" '„' '”' a b ∧
    Quoted c!"`" c!"'" '‘' '’' b c ∧ Dotted none c t0 := by
    unfold preprocess at ht0
    rw [C100_whitespace] at ht0
    simp only [Option.bind_some, typographySubst, Option.bind_eq_bind, Option.bind_eq_some_iff] at ht0
    obtain ⟨a, ha, b, hb, c, hc, ht⟩ := ht0
    exact ⟨a, b, c, surround_quoted ha, surround_quoted hb, surround_quoted hc, ellipsis_dotted ht⟩
  constructor
  · intro h
    rw [ht0] at h
    cases h
    exact key
  · rintro ⟨a', b', c', h1, h2, h3, h4⟩
    obtain ⟨a, b, c, g1, g2, g3, g4⟩ := key
    cases g1.unique (by simp) h1
    cases g2.unique (by simp) h2
    cases g3.unique (by simp) h3
    cases g4.unique h4
    exact ht0

example : preprocess c!"``a' b''\n``c\n'' `d'...e. . .\n...." = some c!"“a' b”\n``c\n'' ‘d’…e…\n...." := by decide +kernel

end Ftml.Preproc
