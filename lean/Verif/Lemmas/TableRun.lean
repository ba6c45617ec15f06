import Verif.Lemmas.PageList
/-
Pages: tables.
-/
namespace Ftml
open M Markup Lexer
variable {env : Env}

/-! ### Contents on one line -/

theorem tline_line {ol : Nat} {xs ys : List ETok} (hy : TLine ol true ys)
    (hc : ∀ x ∈ xs, Classed (x.token, x.slice)) (hn : ∀ x ∈ xs, x.slice ≠ c!"\n") : TLine ol true (xs ++ ys) := by
  induction xs with
  | nil => exact hy
  | cons x xs ih =>
    have ih := ih (fun z hz => hc z (by simp [hz])) (fun z hz => hn z (by simp [hz]))
    have h0 := hc x (by simp)
    have h1 := classed_stop h0 (hn x (by simp))
    have h2 := classed_column h0
    rw [List.cons_append, TLine, if_neg (by simp [h1.2]), if_neg (by simp [h2]), if_neg h1.2.1]
    unfold Classed at h0
    dsimp only at h0
    rcases h0 with ⟨_, h⟩ | ⟨h, _⟩ | ⟨h, _⟩ | ⟨h, _⟩
    · exact (hn x (by simp) h).elim
    · rw [if_pos h]; exact ih
    · rw [if_neg (by intro e; rw [e] at h; cases h)]; exact ⟨.inr ⟨h, rfl⟩, ih⟩
    · rw [if_neg (by intro e; rw [e] at h; cases h)]; exact ⟨.inl h, ih⟩

theorem line_slices {body : List Inline} {xs : List ETok} (hline : (Inline.pieces.go body).all (· != c!"\n") = true)
    (hxs : xs.map ETok.pair = Inline.lex.go body) : ∀ x ∈ xs, x.slice ≠ c!"\n" := by
  intro x hx
  have hm : x.slice ∈ Inline.pieces.go body := by rw [← pair_slices hxs]; exact List.mem_map.2 ⟨x, hx, rfl⟩
  simpa using List.all_eq_true.1 hline _ hm

/-! ### The parts of the rule -/

/-- A turn of the loop over the contents of a cell. -/
def cellTurn (cons : M (PS Elements)) (acc : List Elem × List PErr) : M (Turn (List Elem × List PErr) (List Elem × List PErr × CellEnd)) := do
    let (elements, errors) := acc
    let (t, next) ← nextTwo
    if isColumnTok t && next.isSome then
      (if next = some .paragraphBreak || next = some .inputEnd then do
        let _ ← step
        pure (.done (elements, errors, .endTable))
      else if next = some .lineBreak then do
        stepN 2
        pure (.done (elements, errors, .endRow))
      else pure (.done (elements, errors, .nextCell)))
    else if t = .whitespace && elements.isEmpty then do
      let _ ← step
      pure (.more acc)
    else if t = .whitespace && (match next with | some n => isColumnTok n | none => false) then do
      let _ ← step
      pure (.more acc)
    else if t = .lineBreak || t = .paragraphBreak || t = .inputEnd then
      pure (.done (elements, errors, .finish))
    else do
      let r ← cons
      pure (.more (elements ++ r.item, errors ++ r.errors))

theorem tableCell_eq (cons : M (PS Elements)) (errors : List PErr) : tableCell cons errors = loop (cellTurn cons) ([], errors) := rfl

/-- A turn of the loop over the cells of a row. -/
def rowTurn (cons : M (PS Elements)) (acc : List Elem × List PErr) : M (Turn (List Elem × List PErr) (List Elem × List PErr × RowEnd)) := do
    let (cells, errors) := acc
    match ← parseCellStart with
    | none => pure (.done (cells, errors, .finish))
    | some cs => do
      let (es, errors, how) ← tableCell cons errors
      let cells' := cells ++ [.mk (.cell cs.header cs.span cs.align []) es]
      match how with
      | .endTable => pure (.done (cells', errors, .endTable))
      | .endRow => pure (.done (cells', errors, .endRow))
      | .nextCell => pure (.more (cells', errors))
      | .finish => pure (.done (cells, errors, .finish))

theorem tableRow_eq (cons : M (PS Elements)) (errors : List PErr) : tableRow cons errors = loop (rowTurn cons) ([], errors) := rfl

/-- A turn of the loop over the rows. -/
def tableTurn (cons : M (PS Elements)) (acc : List Elem × List PErr) : M (Turn (List Elem × List PErr) (List Elem × List PErr)) := do
    let (rows, errors) := acc
    let (cells, errors, how) ← tableRow cons errors
    match how with
    | .endTable => pure (.done (rows ++ [.mk (.row []) cells], errors))
    | .endRow => pure (.more (rows ++ [.mk (.row []) cells], errors))
    | .finish => if rows.isEmpty then fail .ruleFailed else pure (.done (rows, errors))

theorem ruleTable_eq (cons : M (PS Elements)) : ruleTable cons = (do
  let (rows, errors) ← loop (tableTurn cons) ([], [])
  okP false [.mk (.table (attrInsert [] c!"class" c!"wj-table").2) rows] errors) := rfl

theorem nextTwo_at {x y : ETok} {ys : List ETok} {p : PState} {sol : Bool} {sh : Shared} :
    nextTwo env ⟨p.at (x :: y :: ys) sol, sh⟩ = .ok (x.token, some y.token) ⟨p.at (x :: y :: ys) sol, sh⟩ := rfl

/-! ### Cells -/

theorem elems_comment {cx : Markup.Ctx} {i : Inline} (h : i.isComment = false) : i.elems cx ≠ [] := by
  cases i <;> simp [Inline.isComment, Inline.elems] at h ⊢

theorem line_sol {xs : List ETok} (hc : ∀ x ∈ xs, Classed (x.token, x.slice)) (hn : ∀ x ∈ xs, x.slice ≠ c!"\n") : solAfter xs = false := by
  unfold solAfter
  cases h : xs.getLast? with
  | none => rfl
  | some x =>
    have hx := List.mem_of_getLast? h
    have h0 := hc x hx
    unfold Classed at h0
    dsimp only at h0 ⊢
    rcases h0 with ⟨_, h⟩ | ⟨h, _⟩ | ⟨h, _⟩ | ⟨h, _⟩
    · exact (hn x hx h).elim
    · rw [h]; rfl
    · revert h; cases x.token <;> simp [isLineTok, isLineStartTok]
    · revert h; cases x.token <;> simp [isInlineTok, isLineStartTok]

theorem within_line {xs tail : List ETok} (hcl : ∀ x ∈ xs, Classed (x.token, x.slice)) (hne : ∀ x ∈ xs, x.slice ≠ c!"\n") :
    Within tail.length xs tail := by
  intro a b e hb
  obtain ⟨z, zs, rfl⟩ := List.exists_cons_of_ne_nil hb
  have hz : z ∈ xs := by rw [e]; simp
  have := classed_stop (hcl z hz) (hne z hz)
  rintro ((h | ⟨h, _⟩) | ⟨z', zs', e', h⟩)
  · rw [this.1] at h; cases h
  · exact this.2.1 h
  · cases e'
    rw [classed_column (hcl z hz)] at h; cases h

theorem notes_go_cons (i : Inline) (is : List Inline) : Inline.notes.go (i :: is) = i.notes ++ Inline.notes.go is := by
  rw [Inline.notes.go]

/-- The contents of a cell. -/
theorem cell_body {tail : List ETok} {fuel : Nat} {p : PState} {errs : List PErr} (htn : tail ≠ []) (hnf : p.inFootnote = false)
    (ht : TLine tail.length true tail) : ∀ (body : List Inline) (xs : List ETok) (es : List Elem) (sh : Shared) (n : Nat),
    Inline.ok.go body = true → (Inline.pieces.go body).all (· != c!"\n") = true → xs.map ETok.pair = Inline.lex.go body →
    (xs ++ tail) <:+ (tokenize env.text).tokens → Inline.height.go body ≤ fuel → p.depth + Inline.height.go body ≤ 100 →
    (es ≠ [] ∨ (body.dropWhile Inline.isComment).head?.any Inline.isBlank = false) → body.getLast?.any Inline.isBlank = false →
    body.length ≤ n → loopN (cellTurn (consume fuel)) n (es, errs) env ⟨p.at (xs ++ tail) false, sh⟩ =
      loopN (cellTurn (consume fuel)) (n - body.length) (es ++ Inline.elems.go env.cx body, errs) env
        ⟨p.at tail false, putNotes sh (notesOf env.cx body)⟩
  | [], xs, es, sh, n, _, _, hxs, _, _, _, _, _, _ => by
    simp [Inline.lex.go] at hxs
    subst hxs
    simp only [Inline.elems.go, List.append_nil, List.nil_append, List.length_nil, Nat.sub_zero]
    rfl
  | i :: is, xs, es, sh, n, hok, hline, hxs, hs, hf, hd, hes, hlast, hn => by
    obtain ⟨n, rfl⟩ : ∃ k, n = k + 1 := ⟨n - 1, by simp at hn; omega⟩
    have hcl := pair_classed hok hxs
    have hne := line_slices hline hxs
    have hl := tline_line ht hcl hne
    have hw := within_line (tail := tail) hcl hne
    simp only [Inline.ok.go, Bool.and_eq_true] at hok
    simp only [Inline.lex.go] at hxs
    simp only [Inline.height.go] at hf hd
    simp only [Inline.pieces.go, List.all_append, Bool.and_eq_true] at hline
    obtain ⟨ys, zs, rfl, hys, hzs⟩ := map_append_split hxs
    obtain ⟨w, r, hlex, _, _⟩ := inline_head i
    rw [hlex] at hys
    obtain ⟨x, ys, rfl, hx, hyr⟩ := List.map_eq_cons_iff.1 hys
    rw [List.append_assoc] at hs hl ⊢
    have he := inline_eats i (rest := zs ++ tail) hok.1 (by rw [hlex]; exact hys) (by simp [htn]) hs hl (sol := false) (fun _ => rfl) hw.left
    have hrun := he fuel p sh (by omega) (by omega) (fun h => by rw [hnf] at h; cases h)
    rw [line_sol (fun z hz => hcl z (List.mem_append_left _ hz)) (fun z hz => hne z (List.mem_append_left _ hz))] at hrun
    have ih := cell_body (fuel := fuel) (p := p) (errs := errs) htn hnf ht is zs (es ++ i.elems env.cx) (putNotes sh (i.notes.map (noteElems env.cx))) n hok.2 hline.2 hzs (List.IsSuffix.trans (List.suffix_append _ _) hs)
      (by omega) (by omega) (by
        rcases hes with h | h
        · exact .inl (by simp [h])
        · cases hi : i.isComment with
          | false => exact .inl (by simp [elems_comment hi])
          | true => rw [List.dropWhile_cons_of_pos hi] at h; exact .inr h) (by
        cases is with
        | nil => rfl
        | cons j js => simpa [List.getLast?_cons_cons] using hlast) (by simp at hn; omega)
    have hx0 := hcl x (by simp)
    have h1 := classed_column hx0
    obtain ⟨_, h3, h4, h5⟩ := classed_stop hx0 (hne x (by simp))
    have hws : x.token = .whitespace → i.isBlank = true ∧ ys = [] := by
      intro h
      have hx' : w.1 = .whitespace := by rw [← hx]; exact h
      obtain ⟨a, b⟩ := inline_blank hlex hx'
      rw [b] at hyr
      exact ⟨a, by simpa using hyr⟩
    obtain ⟨y, yr, hy⟩ : ∃ y yr, ys ++ (zs ++ tail) = y :: yr := List.exists_cons_of_ne_nil (by simp [htn])
    have h2 : x.token = .whitespace → isColumnTok y.token = false := by
      intro h
      obtain ⟨a, rfl⟩ := hws h
      cases is with
      | nil => simp [a] at hlast
      | cons j js =>
        obtain ⟨w', r', hlex', _, _⟩ := inline_head j
        simp only [Inline.lex.go, hlex', List.cons_append] at hzs
        obtain ⟨z, zr, rfl, _, _⟩ := List.map_eq_cons_iff.1 hzs
        simp only [List.nil_append, List.cons_append, List.cons.injEq] at hy
        rw [← hy.1]
        exact classed_column (hcl z (by simp))
    rw [loopN, bind_ok (a := .more (es ++ i.elems env.cx, errs)) (s' := ⟨p.at (zs ++ tail) false, putNotes sh (i.notes.map (noteElems env.cx))⟩)]
    · dsimp only
      rw [ih, putNotes_append]
      simp [Inline.elems.go, notesOf, notes_go_cons]
    · unfold cellTurn
      dsimp only
      rw [List.cons_append, hy] at hrun ⊢
      rw [bind_ok nextTwo_at]
      dsimp only
      rw [if_neg (by simp [h1])]
      have hw : ¬ ((decide (x.token = .whitespace) && es.isEmpty) = true) := by
        rw [Bool.and_eq_true, decide_eq_true_eq]
        rintro ⟨a, b⟩
        have hbl := (hws a).1
        rcases hes with h | h
        · cases es with
          | nil => exact h rfl
          | cons => cases b
        · have hc : i.isComment = false := by cases i <;> simp [Inline.isBlank, Inline.isComment] at hbl ⊢
          rw [List.dropWhile_cons_of_neg (by simp [hc])] at h
          simp [hbl] at h
      rw [if_neg hw]
      rw [if_neg (by
        rw [Bool.and_eq_true, decide_eq_true_eq]
        rintro ⟨a, b⟩
        rw [h2 a] at b; cases b)]
      rw [if_neg (by simp [h3, h4, h5])]
      rw [bind_ok hrun]
      simp [pure_ok]

theorem cell_blank {cons : M (PS Elements)} {w y : ETok} {ys : List ETok} {p : PState} {sol : Bool} {sh : Shared} {es : List Elem}
    {errs : List PErr} {n : Nat} (hw : w.token = .whitespace) (h : es = [] ∨ isColumnTok y.token = true) :
    loopN (cellTurn cons) (n + 1) (es, errs) env ⟨p.at (w :: y :: ys) sol, sh⟩ =
      loopN (cellTurn cons) n (es, errs) env ⟨p.at (y :: ys) false, sh⟩ := by
  rw [loopN, bind_ok (a := .more (es, errs)) (s' := ⟨p.at (y :: ys) false, sh⟩)]
  unfold cellTurn
  dsimp only
  rw [bind_ok nextTwo_at]
  dsimp only
  rw [if_neg (by simp [hw, isColumnTok])]
  by_cases he : es = []
  · rw [if_pos (by simp [hw, he]), bind_ok (step_at ..), hw]
    rfl
  · rw [if_neg (by simp [he]), if_pos (by simp [hw, h.resolve_left he]), bind_ok (step_at ..), hw]
    rfl

/-- How a cell ends, before the tokens `z :: zs`. -/
def cellEnd (z : ETok) : CellEnd :=
  if z.token = .paragraphBreak ∨ z.token = .inputEnd then .endTable else if z.token = .lineBreak then .endRow else .nextCell

/-- Where the parser is then. -/
def afterCell (k z : ETok) (zs : List ETok) (sol : Bool) : List ETok × Bool :=
  if z.token = .paragraphBreak ∨ z.token = .inputEnd then (z :: zs, false) else if z.token = .lineBreak then (zs, true)
  else (k :: z :: zs, sol)

theorem column_line {t : Token} (h : isColumnTok t = true) : isLineStartTok t = false := by
  revert h; cases t <;> simp [isColumnTok, isLineStartTok]

theorem cell_end {cons : M (PS Elements)} {k z : ETok} {zs : List ETok} {p : PState} {sol : Bool} {sh : Shared} {es : List Elem}
    {errs : List PErr} {n : Nat} (hk : isColumnTok k.token = true) (hz : z.token = .lineBreak → zs ≠ []) :
    loopN (cellTurn cons) (n + 1) (es, errs) env ⟨p.at (k :: z :: zs) sol, sh⟩ =
      .ok (es, errs, cellEnd z) ⟨p.at (afterCell k z zs sol).1 (afterCell k z zs sol).2, sh⟩ := by
  rw [loopN, bind_ok (a := .done (es, errs, cellEnd z)) (s' := ⟨p.at (afterCell k z zs sol).1 (afterCell k z zs sol).2, sh⟩)]
  · rfl
  unfold cellTurn cellEnd afterCell
  dsimp only
  rw [bind_ok nextTwo_at]
  dsimp only
  rw [if_pos (by simp [hk])]
  by_cases h1 : z.token = .paragraphBreak ∨ z.token = .inputEnd
  · rw [if_pos (by simpa using h1), if_pos h1, if_pos h1, bind_ok (step_at ..), column_line hk]
    rfl
  · rw [if_neg (by simpa using h1), if_neg h1, if_neg h1]
    by_cases h2 : z.token = .lineBreak
    · obtain ⟨a, as, rfl⟩ := List.exists_cons_of_ne_nil (hz h2)
      rw [if_pos (by simpa using h2), if_pos h2, if_pos h2]
      rw [bind_ok (a := ()) (s' := ⟨p.at (a :: as) true, sh⟩)]
      · rfl
      · rw [stepN, bind_ok (step_at ..), stepN, bind_ok (step_at ..), h2]
        rfl
    · rw [if_neg (by simpa using h2), if_neg h2, if_neg h2]
      rfl

theorem blanks_lex {n : Nat} {bs : List ETok} (h : bs.map ETok.pair = blanksLex n) : bs = [] ∨ ∃ w, bs = [w] ∧ w.token = .whitespace := by
  unfold blanksLex at h
  split at h
  · left; simpa using h
  · obtain ⟨w, rfl, hw⟩ := List.map_eq_singleton_iff.1 h
    exact .inr ⟨w, rfl, congrArg (·.1) hw⟩

theorem loop_at {σ β : Type} {body : σ → M (Turn σ β)} {a : σ} {toks : List ETok} {p : PState} {sol : Bool} {sh : Shared} (h : toks ≠ []) :
    loop body a env ⟨p.at toks sol, sh⟩ = loopN body toks.length a env ⟨p.at toks sol, sh⟩ := by
  obtain ⟨x, xs, rfl⟩ := List.exists_cons_of_ne_nil h
  rfl

theorem inlines_length : ∀ (body : List Inline), body.length ≤ (Inline.lex.go body).length
  | [] => Nat.le_refl _
  | i :: is => by
    have := inlines_length is
    have h := List.length_pos_iff.2 (inline_lex_ne i)
    simp only [Inline.lex.go, List.length_append, List.length_cons]
    omega

theorem tline_column {ol : Nat} {k : ETok} {ks : List ETok} (hk : isColumnTok k.token = true) : TLine ol true (k :: ks) := by
  rw [TLine]
  split
  · trivial
  · rfl

/-- A cell, from the tokens after its mark on. -/
theorem cell_run {c : Cell} {xs : List ETok} {k z : ETok} {zs : List ETok} {fuel : Nat} {p : PState} {sh : Shared} {errs : List PErr}
    (hok : c.ok = true) (hxs : xs.map ETok.pair = blanksLex c.before ++ (Inline.lex.go c.body ++ blanksLex c.after))
    (hk : isColumnTok k.token = true) (hz : z.token = .lineBreak → zs ≠ [])
    (hs : (xs ++ k :: z :: zs) <:+ (tokenize env.text).tokens) (hf : Inline.height.go c.body ≤ fuel)
    (hd : p.depth + Inline.height.go c.body ≤ 100) (hnf : p.inFootnote = false) :
    tableCell (consume fuel) errs env ⟨p.at (xs ++ k :: z :: zs) false, sh⟩ =
      .ok (Inline.elems.go env.cx c.body, errs, cellEnd z)
        ⟨p.at (afterCell k z zs false).1 (afterCell k z zs false).2, putNotes sh (notesOf env.cx c.body)⟩ := by
  simp only [Cell.ok, Bool.and_eq_true, Bool.not_eq_true'] at hok
  obtain ⟨⟨⟨⟨hok, hline⟩, hfirst⟩, hlast⟩, _⟩ := hok
  obtain ⟨bs, ys, rfl, hbs, hys⟩ := map_append_split hxs
  obtain ⟨ys, as, rfl, hys, has⟩ := map_append_split hys
  have hylen : c.body.length ≤ ys.length := by
    have h1 := inlines_length c.body
    have h2 := congrArg List.length hys
    rw [List.length_map] at h2
    omega
  have hktl : ∀ ol, TLine ol true (k :: z :: zs) := fun ol => tline_column hk
  have e0 : bs ++ (ys ++ as) ++ k :: z :: zs = bs ++ (ys ++ (as ++ k :: z :: zs)) := by simp
  have atl : TLine (as ++ k :: z :: zs).length true (as ++ k :: z :: zs) := by
    rcases blanks_lex has with rfl | ⟨w, rfl, hw⟩
    · exact hktl _
    · rw [List.singleton_append, TLine, if_neg (by simp [hw]), if_neg (by simp [hw, isColumnTok]), if_neg (by simp [hw]), if_pos hw]
      exact hktl _
  rw [e0] at hs ⊢
  have hs' : (ys ++ (as ++ k :: z :: zs)) <:+ (tokenize env.text).tokens := List.IsSuffix.trans (List.suffix_append bs _) hs
  -- after the contents
  have fin : ∀ n, as.length + 1 ≤ n → loopN (cellTurn (consume fuel)) n (Inline.elems.go env.cx c.body, errs) env ⟨p.at (as ++ k :: z :: zs) false, putNotes sh (notesOf env.cx c.body)⟩ =
      .ok (Inline.elems.go env.cx c.body, errs, cellEnd z)
        ⟨p.at (afterCell k z zs false).1 (afterCell k z zs false).2, putNotes sh (notesOf env.cx c.body)⟩ := by
    intro n hn
    obtain ⟨n, rfl⟩ : ∃ m, n = m + 1 := ⟨n - 1, by omega⟩
    rcases blanks_lex has with rfl | ⟨w, rfl, hw⟩
    · exact cell_end hk hz
    · obtain ⟨n, rfl⟩ : ∃ m, n = m + 1 := ⟨n - 1, by simp at hn; omega⟩
      rw [List.singleton_append, cell_blank hw (.inr hk)]
      exact cell_end hk hz
  have mid : ∀ n, ys.length + as.length + 1 ≤ n → loopN (cellTurn (consume fuel)) n ([], errs) env ⟨p.at (ys ++ (as ++ k :: z :: zs)) false, sh⟩ =
      .ok (Inline.elems.go env.cx c.body, errs, cellEnd z)
        ⟨p.at (afterCell k z zs false).1 (afterCell k z zs false).2, putNotes sh (notesOf env.cx c.body)⟩ := by
    intro n hn
    rw [cell_body (by simp) hnf atl c.body ys [] sh n hok hline hys hs' hf hd (.inr hfirst) hlast (by omega)]
    exact fin _ (by omega)
  rw [tableCell_eq, loop_at (by simp)]
  rcases blanks_lex hbs with rfl | ⟨w, rfl, hw⟩
  · exact mid _ (by simp; omega)
  · obtain ⟨y, yr, hy⟩ : ∃ y yr, ys ++ (as ++ k :: z :: zs) = y :: yr := List.exists_cons_of_ne_nil (by simp)
    rw [List.singleton_append, hy, List.length_cons, cell_blank hw (.inl rfl), ← hy]
    exact mid _ (by simp; omega)

/-- The start of a cell. -/
def startTurn (span : Nat) : M (Turn Nat (Option CellStart)) := do
    let t ← curTok
    match t with
    | .tableColumnTitle => do
      let _ ← step
      pure (.done (some ⟨none, true, span + 1⟩))
    | .tableColumnLeft => do
      let _ ← step
      pure (.done (some ⟨some .left, false, span + 1⟩))
    | .tableColumnCenter => do
      let _ ← step
      pure (.done (some ⟨some .center, false, span + 1⟩))
    | .tableColumnRight => do
      let _ ← step
      pure (.done (some ⟨some .right, false, span + 1⟩))
    | .tableColumn => do
      let _ ← step
      pure (.more (span + 1))
    | _ => if span > 0 then pure (.done (some ⟨none, false, span⟩)) else pure (.done none)

theorem parseCellStart_eq : parseCellStart = loop startTurn 0 := rfl

theorem start_column {x y : ETok} {ys : List ETok} {p : PState} {sol : Bool} {sh : Shared} {span : Nat} (hx : x.token = .tableColumn) :
    startTurn span env ⟨p.at (x :: y :: ys) sol, sh⟩ = .ok (.more (span + 1)) ⟨p.at (y :: ys) false, sh⟩ := by
  unfold startTurn
  rw [bind_ok (a := .tableColumn) (s' := ⟨p.at (x :: y :: ys) sol, sh⟩) (by rw [← hx]; rfl)]
  dsimp only
  rw [bind_ok (step_at ..), hx]
  rfl

theorem start_other {x : ETok} {xs : List ETok} {p : PState} {sol : Bool} {sh : Shared} {span : Nat} (hx : isColumnTok x.token = false) :
    startTurn span env ⟨p.at (x :: xs) sol, sh⟩ =
      .ok (.done (if span > 0 then some ⟨none, false, span⟩ else none)) ⟨p.at (x :: xs) sol, sh⟩ := by
  unfold startTurn
  rw [bind_ok (a := x.token) (s' := ⟨p.at (x :: xs) sol, sh⟩) rfl]
  by_cases hs : span > 0
  · simp only [if_pos hs]
    revert hx
    cases x.token <;> first | (intro h; rfl) | (intro h; cases h)
  · simp only [if_neg hs]
    revert hx
    cases x.token <;> first | (intro h; rfl) | (intro h; cases h)

theorem start_kind {kind : CellKind} (hk : kind ≠ .plain) {x y : ETok} {ys : List ETok} {p : PState} {sol : Bool} {sh : Shared} {span : Nat}
    (hx : x.token = cellTok kind) :
    startTurn span env ⟨p.at (x :: y :: ys) sol, sh⟩ = .ok (.done (some ⟨kind.align, kind == .title, span + 1⟩)) ⟨p.at (y :: ys) false, sh⟩ := by
  unfold startTurn
  rw [bind_ok (a := cellTok kind) (s' := ⟨p.at (x :: y :: ys) sol, sh⟩) (by rw [← hx]; rfl)]
  cases kind <;> first | exact (hk rfl).elim | (simp only [cellTok] at hx ⊢; rw [bind_ok (step_at ..), hx]; rfl)

theorem start_run {kind : CellKind} {m r : ETok} {rs : List ETok} {p : PState} {sh : Shared} (hm : m.token = cellTok kind)
    (hr : kind = .plain → isColumnTok r.token = false) : ∀ (cols : List ETok) (more span n : Nat) (sol : Bool),
    cols.map ETok.pair = List.replicate more (.tableColumn, c!"||") → more + 2 ≤ n →
    loopN startTurn n span env ⟨p.at (cols ++ m :: r :: rs) sol, sh⟩ =
      .ok (some ⟨kind.align, kind == .title, span + more + 1⟩) ⟨p.at (r :: rs) false, sh⟩
  | [], more, span, n, sol, hc, hn => by
    obtain rfl : more = 0 := by cases more with | zero => rfl | succ => simp [List.replicate_succ] at hc
    obtain ⟨n, rfl⟩ : ∃ k, n = k + 2 := ⟨n - 2, by omega⟩
    rw [List.nil_append]
    by_cases hk : kind = .plain
    · subst hk
      rw [loopN, bind_ok (start_column hm)]
      dsimp only
      rw [loopN, bind_ok (start_other (hr rfl)), if_pos (by omega)]
      rfl
    · rw [loopN, bind_ok (start_kind hk hm)]
      rfl
  | x :: cols, more, span, n, sol, hc, hn => by
    obtain ⟨more, rfl⟩ : ∃ k, more = k + 1 := by cases more with | zero => simp at hc | succ k => exact ⟨k, rfl⟩
    simp only [List.replicate_succ, List.map_cons, List.cons.injEq] at hc
    have hx : x.token = .tableColumn := congrArg (·.1) hc.1
    obtain ⟨n, rfl⟩ : ∃ k, n = k + 1 := ⟨n - 1, by omega⟩
    obtain ⟨y, yr, hy⟩ : ∃ y yr, cols ++ m :: r :: rs = y :: yr := List.exists_cons_of_ne_nil (by simp)
    rw [List.cons_append, hy, loopN, bind_ok (start_column hx), ← hy]
    dsimp only
    rw [start_run hm hr cols more (span + 1) n false hc.2 (by omega), show span + 1 + more + 1 = span + (more + 1) + 1 by omega]

theorem parse_start {c : Cell} {cols : List ETok} {m r : ETok} {rs : List ETok} {p : PState} {sol : Bool} {sh : Shared}
    (hm : m.token = cellTok c.kind) (hr : c.kind = .plain → isColumnTok r.token = false)
    (hc : cols.map ETok.pair = List.replicate c.more (.tableColumn, c!"||")) :
    parseCellStart env ⟨p.at (cols ++ m :: r :: rs) sol, sh⟩ =
      .ok (some ⟨c.kind.align, c.kind == .title, c.more + 1⟩) ⟨p.at (r :: rs) false, sh⟩ := by
  rw [parseCellStart_eq, loop_at (by simp)]
  have hl := congrArg List.length hc
  simp at hl
  have := start_run (env := env) (p := p) (sh := sh) (rs := rs) hm hr cols c.more 0 (cols ++ m :: r :: rs).length sol hc (by simp; omega)
  rw [Nat.zero_add] at this
  exact this

/-! ### Rows -/

/-- Tokens on the line of a row. -/
def OnRow (x : ETok) : Prop := x.token ≠ .lineBreak ∧ x.token ≠ .paragraphBreak ∧ x.token ≠ .inputEnd

theorem cellTok_column (k : CellKind) : isColumnTok (cellTok k) = true := by cases k <;> rfl

theorem column_onRow {x : ETok} (h : isColumnTok x.token = true) : OnRow x := by
  refine ⟨?_, ?_, ?_⟩ <;> intro e <;> rw [e] at h <;> cases h

theorem cell_onRow {c : Cell} {xs : List ETok} (hok : c.ok = true) (hxs : xs.map ETok.pair = cellLex c) : ∀ x ∈ xs, OnRow x := by
  intro x hx
  have hm : x.pair ∈ cellLex c := by rw [← hxs]; exact List.mem_map.2 ⟨x, hx, rfl⟩
  simp only [Cell.ok, Bool.and_eq_true] at hok
  simp only [cellLex, List.mem_append, List.mem_cons] at hm
  have hb : ∀ n, x.pair ∈ blanksLex n → OnRow x := by
    intro n h
    unfold blanksLex at h
    split at h
    · cases h
    · have : x.token = .whitespace := congrArg (·.1) (List.mem_singleton.1 h)
      exact ⟨by simp [this], by simp [this], by simp [this]⟩
  rcases hm with h | h | h | h | h
  · have : x.token = .tableColumn := congrArg (·.1) (List.mem_replicate.1 h).2
    exact column_onRow (by rw [this]; rfl)
  · have : x.token = cellTok c.kind := congrArg (·.1) h
    exact column_onRow (by rw [this, cellTok_column])
  · exact hb _ h
  · have hcl := inlines_classed c.body hok.1.1.1.1 _ h
    have hsl : x.slice ∈ Inline.pieces.go c.body := by
      rw [← inlines_pieces]; exact List.mem_map.2 ⟨_, h, rfl⟩
    exact (classed_stop hcl (by simpa using List.all_eq_true.1 hok.1.1.1.2 _ hsl)).2
  · exact hb _ h

theorem cells_onRow {cells : List Cell} {xs : List ETok} (hok : cells.all Cell.ok = true)
    (hxs : xs.map ETok.pair = cells.flatMap cellLex) : ∀ x ∈ xs, OnRow x := by
  induction cells generalizing xs with
  | nil => simp at hxs; simp [hxs]
  | cons c cs ih =>
    simp only [List.all_cons, Bool.and_eq_true] at hok
    simp only [List.flatMap_cons] at hxs
    obtain ⟨ys, zs, rfl, hys, hzs⟩ := map_append_split hxs
    intro x hx
    rcases List.mem_append.1 hx with h | h
    · exact cell_onRow hok.1 hys x h
    · exact ih hok.2 hzs x h

/-- The first token of a cell. -/
theorem cell_first {c : Cell} {xs : List ETok} (hxs : xs.map ETok.pair = cellLex c) :
    ∃ x r, xs = x :: r ∧ x.token = (if c.more = 0 then cellTok c.kind else .tableColumn) ∧ isColumnTok x.token = true := by
  unfold cellLex at hxs
  cases hm : c.more with
  | zero =>
    rw [hm] at hxs
    obtain ⟨x, r, rfl, hx, _⟩ := List.map_eq_cons_iff.1 hxs
    have : x.token = cellTok c.kind := congrArg (·.1) hx
    exact ⟨x, r, rfl, by simpa using this, by rw [this, cellTok_column]⟩
  | succ n =>
    rw [hm, List.replicate_succ, List.cons_append] at hxs
    obtain ⟨x, r, rfl, hx, _⟩ := List.map_eq_cons_iff.1 hxs
    have : x.token = .tableColumn := congrArg (·.1) hx
    exact ⟨x, r, rfl, by simpa using this, by rw [this]; rfl⟩

/-- What follows the mark of a plain cell. -/
theorem cell_second {c : Cell} {ys : List ETok} (hok : c.ok = true) (hk : c.kind = .plain)
    (hys : ys.map ETok.pair = blanksLex c.before ++ (Inline.lex.go c.body ++ blanksLex c.after)) :
    ∃ y yr, ys = y :: yr ∧ isColumnTok y.token = false := by
  simp only [Cell.ok, Bool.and_eq_true] at hok
  have h1 := hok.2
  have hok := hok.1.1.1.1
  obtain ⟨bs, ys, rfl, hbs, hys0⟩ := map_append_split hys
  clear hys
  obtain ⟨ys, as, rfl, hys, has⟩ := map_append_split hys0
  rcases blanks_lex hbs with rfl | ⟨w, rfl, hw⟩
  · cases hb : c.body with
    | nil =>
      rcases blanks_lex has with rfl | ⟨w, rfl, hw⟩
      · exfalso
        have e1 : c.before = 0 := by
          unfold blanksLex at hbs
          split at hbs
          · assumption
          · simp at hbs
        have e2 : c.after = 0 := by
          unfold blanksLex at has
          split at has
          · assumption
          · simp at has
        simp [hk, hb, e1, e2] at h1
      · rw [hb] at hys
        obtain rfl : ys = [] := by simpa [Inline.lex.go] using hys
        exact ⟨w, [], rfl, by rw [hw]; rfl⟩
    | cons i is =>
      have hcl := pair_classed hok hys
      rw [hb] at hys
      obtain ⟨w, r, hlex, _, _⟩ := inline_head i
      simp only [Inline.lex.go, hlex, List.cons_append] at hys
      obtain ⟨y, yr, rfl, _, _⟩ := List.map_eq_cons_iff.1 hys
      exact ⟨y, yr ++ as, rfl, classed_column (hcl y (by simp))⟩
  · exact ⟨w, ys ++ as, rfl, by rw [hw]; rfl⟩

theorem cellsHeight_mem {cells : List Cell} {c : Cell} (h : c ∈ cells) : Inline.height.go c.body ≤ cellsHeight cells := by
  induction cells with
  | nil => cases h
  | cons a cs ih =>
    rw [cellsHeight]
    rcases List.mem_cons.1 h with rfl | h
    · omega
    · have := ih h; omega

/-- A turn for a cell. -/
theorem row_turn {c : Cell} {xs : List ETok} {k z : ETok} {zs : List ETok} {fuel : Nat} {p : PState} {sh : Shared} {sol : Bool}
    {cells : List Elem} {errs : List PErr} (hok : c.ok = true) (hxs : xs.map ETok.pair = cellLex c) (hk : isColumnTok k.token = true)
    (hz : z.token = .lineBreak → zs ≠ []) (hs : (xs ++ k :: z :: zs) <:+ (tokenize env.text).tokens)
    (hf : Inline.height.go c.body ≤ fuel) (hd : p.depth + Inline.height.go c.body ≤ 100) (hnf : p.inFootnote = false) :
    rowTurn (consume fuel) (cells, errs) env ⟨p.at (xs ++ k :: z :: zs) sol, sh⟩ =
      .ok (match cellEnd z with
        | .endTable => .done (cells ++ [c.elem env.cx], errs, .endTable)
        | .endRow => .done (cells ++ [c.elem env.cx], errs, .endRow)
        | .nextCell => .more (cells ++ [c.elem env.cx], errs)
        | .finish => .done (cells, errs, .finish))
        ⟨p.at (afterCell k z zs false).1 (afterCell k z zs false).2, putNotes sh (notesOf env.cx c.body)⟩ := by
  unfold cellLex at hxs
  obtain ⟨cols, ms, rfl, hcols, hms⟩ := map_append_split hxs
  obtain ⟨m, ys, rfl, hm, hys⟩ := List.map_eq_cons_iff.1 hms
  have hm : m.token = cellTok c.kind := congrArg (·.1) hm
  have e0 : cols ++ m :: ys ++ k :: z :: zs = cols ++ m :: (ys ++ k :: z :: zs) := by simp
  rw [e0] at hs ⊢
  have hs' : (ys ++ k :: z :: zs) <:+ (tokenize env.text).tokens :=
    List.IsSuffix.trans (List.suffix_cons m _) (List.IsSuffix.trans (List.suffix_append cols _) hs)
  have hrun := cell_run (errs := errs) (sh := sh) hok hys hk hz hs' hf hd hnf
  obtain ⟨r, rs, hr⟩ : ∃ r rs, ys ++ k :: z :: zs = r :: rs := List.exists_cons_of_ne_nil (by simp)
  have hnc : c.kind = .plain → isColumnTok r.token = false := by
    intro h
    obtain ⟨y, yr, rfl, hy⟩ := cell_second hok h hys
    simp only [List.cons_append, List.cons.injEq] at hr
    rw [← hr.1]; exact hy
  rw [hr] at hrun ⊢
  unfold rowTurn
  dsimp only
  rw [bind_ok (parse_start hm hnc hcols)]
  dsimp only
  rw [bind_ok hrun]
  dsimp only
  unfold Cell.elem
  cases cellEnd z <;> rfl

/-- Where the parser is after a row or a table. -/
def afterRow (tail : List ETok) : List ETok × Bool :=
  if (tail.headD default).token = .lineBreak then (tail.tail, true) else (tail, false)

/-- How a row ends. -/
def rowEnd (tail : List ETok) : RowEnd := if (tail.headD default).token = .lineBreak then .endRow else .endTable

/-- The footnotes in some cells. -/
abbrev cellNotes (cx : Markup.Ctx) (cells : List Cell) : List (List Elem) := cells.flatMap fun c => notesOf cx c.body

theorem row_loop {tail : List ETok} {fuel : Nat} {p : PState} {errs : List PErr} (ht : EndsLine tail) (hnf : p.inFootnote = false) :
    ∀ (cells : List Cell) (xs : List ETok) (k : ETok) (acc : List Elem) (n : Nat) (sol : Bool) (sh : Shared), cells ≠ [] → cells.all Cell.ok = true →
    xs.map ETok.pair = cells.flatMap cellLex → isColumnTok k.token = true →
    (xs ++ k :: tail) <:+ (tokenize env.text).tokens → cellsHeight cells ≤ fuel → p.depth + cellsHeight cells ≤ 100 → cells.length ≤ n →
    loopN (rowTurn (consume fuel)) n (acc, errs) env ⟨p.at (xs ++ k :: tail) sol, sh⟩ =
      .ok (acc ++ cells.map (Cell.elem env.cx), errs, rowEnd tail) ⟨p.at (afterRow tail).1 (afterRow tail).2, putNotes sh (cellNotes env.cx cells)⟩
  | [], _, _, _, _, _, _, h, _, _, _, _, _, _, _ => (h rfl).elim
  | [c], xs, k, acc, n, sol, sh, _, hok, hxs, hk, hs, hf, hd, hn => by
    obtain ⟨n, rfl⟩ : ∃ m, n = m + 1 := ⟨n - 1, by simp at hn; omega⟩
    simp only [List.all_cons, List.all_nil, Bool.and_true] at hok
    simp only [List.flatMap_cons, List.flatMap_nil, List.append_nil] at hxs
    simp only [cellsHeight] at hf hd
    obtain ⟨z, zs, rfl, hzs⟩ := endsLine_next ht
    rw [loopN, bind_ok (row_turn hok hxs hk (fun h => hzs (by simp [h])) hs (by omega) (by omega) hnf)]
    have hcn : cellNotes env.cx [c] = notesOf env.cx c.body := by simp [cellNotes]
    rw [hcn]
    rcases ht with ⟨h, _⟩ | ⟨h, _⟩ | h <;> simp [cellEnd, afterCell, rowEnd, afterRow, h] <;> rfl
  | c :: c' :: cs, xs, k, acc, n, sol, sh, _, hok, hxs, hk, hs, hf, hd, hn => by
    obtain ⟨n, rfl⟩ : ∃ m, n = m + 1 := ⟨n - 1, by simp at hn; omega⟩
    rw [List.all_cons, Bool.and_eq_true] at hok
    rw [List.flatMap_cons] at hxs
    rw [cellsHeight] at hf hd
    obtain ⟨ys, zs, rfl, hys, hzs⟩ := map_append_split hxs
    have hrow := cells_onRow hok.2 hzs
    have hz0 := hzs
    rw [List.flatMap_cons] at hz0
    obtain ⟨us, vs, rfl, hus, hvs⟩ := map_append_split hz0
    obtain ⟨x, r, rfl, _, hx⟩ := cell_first hus
    have e0 : ys ++ (x :: r ++ vs) ++ k :: tail = ys ++ (x :: (r ++ vs ++ k :: tail)) := by simp
    obtain ⟨y, yr, hy⟩ : ∃ y yr, r ++ vs ++ k :: tail = y :: yr := List.exists_cons_of_ne_nil (by simp)
    have hyrow : OnRow y := by
      cases hrv : r ++ vs with
      | nil =>
        rw [hrv] at hy
        simp only [List.nil_append, List.cons.injEq] at hy
        rw [← hy.1]; exact column_onRow hk
      | cons a as =>
        rw [hrv] at hy
        simp only [List.cons_append, List.cons.injEq] at hy
        rw [← hy.1]
        exact hrow a (by rw [List.cons_append, hrv]; simp)
    rw [e0, hy] at hs
    rw [e0, hy, loopN, bind_ok (row_turn hok.1 hys hx (fun h => (hyrow.1 h).elim) hs (by omega) (by omega) hnf)]
    have hend : cellEnd y = .nextCell := by simp [cellEnd, hyrow.1, hyrow.2.1, hyrow.2.2]
    have haft : afterCell x y yr false = (x :: y :: yr, false) := by simp [afterCell, hyrow.1, hyrow.2.1, hyrow.2.2]
    rw [hend, haft]
    dsimp only
    rw [← hy]
    have e1 : x :: (r ++ vs ++ k :: tail) = (x :: r ++ vs) ++ k :: tail := by simp
    rw [e1, row_loop ht hnf (c' :: cs) (x :: r ++ vs) k _ n false _ (by simp) hok.2 hzs hk (by
      rw [← e1, hy]; exact List.IsSuffix.trans (List.suffix_append ys _) hs) (by omega) (by omega) (by simp at hn ⊢; omega), putNotes_append]
    simp [cellNotes]

theorem cells_length : ∀ (cells : List Cell), cells.length ≤ (cells.flatMap cellLex).length
  | [] => Nat.le_refl _
  | c :: cs => by
    have := cells_length cs
    simp only [List.flatMap_cons, List.length_append, List.length_cons]
    have h : 0 < (cellLex c).length := by simp [cellLex]; omega
    omega

theorem row_run {cells : List Cell} {xs tail : List ETok} {fuel : Nat} {p : PState} {sh : Shared} {errs : List PErr} {sol : Bool}
    (ht : EndsLine tail) (hne : cells ≠ []) (hok : cells.all Cell.ok = true) (hxs : xs.map ETok.pair = rowLex cells)
    (hs : (xs ++ tail) <:+ (tokenize env.text).tokens) (hf : cellsHeight cells ≤ fuel) (hd : p.depth + cellsHeight cells ≤ 100)
    (hnf : p.inFootnote = false) :
    tableRow (consume fuel) errs env ⟨p.at (xs ++ tail) sol, sh⟩ =
      .ok (cells.map (Cell.elem env.cx), errs, rowEnd tail)
        ⟨p.at (afterRow tail).1 (afterRow tail).2, putNotes sh (cellNotes env.cx cells)⟩ := by
  unfold rowLex at hxs
  obtain ⟨ys, ks, rfl, hys, hks⟩ := map_append_split hxs
  obtain ⟨k, rfl, hk⟩ := List.map_eq_singleton_iff.1 hks
  have hk : k.token = .tableColumn := congrArg (·.1) hk
  have hl := congrArg List.length hys
  rw [List.length_map] at hl
  have hl2 := cells_length cells
  rw [List.append_assoc, List.singleton_append] at hs ⊢
  rw [tableRow_eq, loop_at (by simp)]
  have := row_loop (env := env) (p := p) (errs := errs) ht hnf cells ys k [] (ys ++ k :: tail).length sol sh hne hok hys (by rw [hk]; rfl) hs hf hd
    (by simp; omega)
  rw [List.nil_append] at this
  exact this

/-! ### Tables -/

/-- The tokens do not go on with a table. -/
def noTable : List ETok → Prop
  | [] => False
  | x :: _ => isColumnTok x.token = false

/-- What a row stands for. -/
def rowElem (cx : Markup.Ctx) (cells : List Cell) : Elem := .mk (.row []) (cells.map (Cell.elem cx))

theorem table_loop {tail : List ETok} {fuel : Nat} {p : PState} (ht : EndsLine tail) (hnf : p.inFootnote = false) (hnext : noTable (afterRow tail).1) :
    ∀ (rows : List (List Cell)) (xs : List ETok) (acc : List Elem) (n : Nat) (sol : Bool) (sh : Shared), rows ≠ [] →
    (rows.all fun cells => !cells.isEmpty && cells.all Cell.ok) = true → xs.map ETok.pair = joinLex (rows.map rowLex) →
    (xs ++ tail) <:+ (tokenize env.text).tokens → cellsHeight rows.flatten ≤ fuel → p.depth + cellsHeight rows.flatten ≤ 100 →
    rows.length + 1 ≤ n → loopN (tableTurn (consume fuel)) n (acc, []) env ⟨p.at (xs ++ tail) sol, sh⟩ =
      .ok (acc ++ rows.map (rowElem env.cx), []) ⟨p.at (afterRow tail).1 (afterRow tail).2, putNotes sh (rows.flatMap (cellNotes env.cx))⟩
  | [], _, _, _, _, _, h, _, _, _, _, _, _ => (h rfl).elim
  | [cells], xs, acc, n, sol, sh, _, hok, hxs, hs, hf, hd, hn => by
    obtain ⟨n, rfl⟩ : ∃ m, n = m + 2 := ⟨n - 2, by simp at hn; omega⟩
    simp only [List.all_cons, List.all_nil, Bool.and_true, Bool.and_eq_true, Bool.not_eq_true', List.isEmpty_eq_false_iff] at hok
    simp only [List.map_cons, List.map_nil, joinLex] at hxs
    simp only [List.flatten_cons, List.flatten_nil, List.append_nil] at hf hd
    have hrun := row_run (errs := []) (sh := sh) (sol := sol) ht hok.1 hok.2 hxs hs hf hd hnf
    rw [List.flatMap_singleton]
    let shn := putNotes sh (cellNotes env.cx cells)
    rw [loopN]
    by_cases hl : (tail.headD default).token = .lineBreak
    · rw [bind_ok (a := .more (acc ++ [rowElem env.cx cells], [])) (s' := ⟨p.at (afterRow tail).1 (afterRow tail).2, shn⟩)]
      · dsimp only
        have haft : (afterRow tail).1 = tail.tail := by rw [afterRow, if_pos hl]
        rw [haft] at hnext ⊢
        cases htt : tail.tail with
        | nil => rw [htt] at hnext; exact hnext.elim
        | cons t ts =>
          rw [htt] at hnext
          rw [loopN, bind_ok (a := .done (acc ++ [rowElem env.cx cells], [])) (s' := ⟨p.at (t :: ts) (afterRow tail).2, shn⟩)]
          · rfl
          · unfold tableTurn
            dsimp only
            rw [bind_ok (a := ([], [], .finish)) (s' := ⟨p.at (t :: ts) (afterRow tail).2, shn⟩)]
            · simp [pure_ok]
            · rw [tableRow_eq]
              refine loop_one ?_
              unfold rowTurn
              dsimp only
              rw [bind_ok (a := none) (s' := ⟨p.at (t :: ts) (afterRow tail).2, shn⟩)]
              · rfl
              · rw [parseCellStart_eq]
                exact loop_one (start_other hnext)
      · unfold tableTurn
        dsimp only
        rw [bind_ok hrun]
        simp only [rowEnd, if_pos hl]
        rfl
    · rw [bind_ok (a := .done (acc ++ [rowElem env.cx cells], [])) (s' := ⟨p.at (afterRow tail).1 (afterRow tail).2, shn⟩)]
      · rfl
      · unfold tableTurn
        dsimp only
        rw [bind_ok hrun]
        simp only [rowEnd, if_neg hl]
        rfl
  | cells :: cells' :: rows, xs, acc, n, sol, sh, _, hok, hxs, hs, hf, hd, hn => by
    obtain ⟨n, rfl⟩ : ∃ m, n = m + 1 := ⟨n - 1, by simp at hn; omega⟩
    rw [List.all_cons, Bool.and_eq_true, Bool.and_eq_true, Bool.not_eq_true', List.isEmpty_eq_false_iff] at hok
    simp only [List.map_cons, joinLex] at hxs
    rw [List.flatten_cons] at hf hd
    obtain ⟨ys, zs, rfl, hys, hzs⟩ := map_append_split hxs
    obtain ⟨b, zs, rfl, hb, hzs⟩ := List.map_eq_cons_iff.1 hzs
    have hb : b.token = .lineBreak := congrArg (·.1) hb
    have e0 : ys ++ b :: zs ++ tail = ys ++ (b :: (zs ++ tail)) := by simp
    have hzt : zs ++ tail ≠ [] := by cases tail with | nil => exact ht.elim | cons => simp
    have hh : ∀ a b : List Cell, cellsHeight (a ++ b) = max (cellsHeight a) (cellsHeight b) := by
      intro a b
      induction a with
      | nil => simp [cellsHeight]
      | cons c cs ih => simp only [List.cons_append, cellsHeight, ih]; omega
    rw [hh] at hf hd
    rw [e0] at hs ⊢
    have hrun := row_run (errs := []) (sh := sh) (sol := sol) (fuel := fuel) (p := p) (tail := b :: (zs ++ tail)) (.inl ⟨hb, hzt⟩) hok.1.1 hok.1.2 hys hs (by omega) (by omega) hnf
    have haft : afterRow (b :: (zs ++ tail)) = (zs ++ tail, true) := by simp [afterRow, hb]
    rw [haft] at hrun
    rw [loopN, bind_ok (a := .more (acc ++ [rowElem env.cx cells], [])) (s' := ⟨p.at (zs ++ tail) true, putNotes sh (cellNotes env.cx cells)⟩)]
    · dsimp only
      rw [table_loop ht hnf hnext (cells' :: rows) zs _ n true _ (by simp) hok.2 hzs
        (List.IsSuffix.trans (List.suffix_cons b _) (List.IsSuffix.trans (List.suffix_append ys _) hs)) (by omega) (by omega) (by simp at hn ⊢; omega), putNotes_append]
      simp
    · unfold tableTurn
      dsimp only
      rw [bind_ok hrun]
      have : rowEnd (b :: (zs ++ tail)) = .endRow := by simp [rowEnd, hb]
      rw [this]
      rfl

theorem row_first {cells : List Cell} {xs : List ETok} (hne : cells ≠ []) (hxs : xs.map ETok.pair = rowLex cells) :
    ∃ x r, xs = x :: r ∧ isColumnTok x.token = true := by
  cases cells with
  | nil => exact (hne rfl).elim
  | cons c cs =>
    unfold rowLex at hxs
    rw [List.flatMap_cons, List.append_assoc] at hxs
    obtain ⟨ys, zs, rfl, hys, _⟩ := map_append_split hxs
    obtain ⟨x, r, rfl, _, hx⟩ := cell_first hys
    exact ⟨x, r ++ zs, rfl, hx⟩

theorem table_first {rows : List (List Cell)} {xs : List ETok} (hok : (Block.table rows).ok = true)
    (hxs : xs.map ETok.pair = (Block.table rows).lex) : ∃ x r, xs = x :: r ∧ isColumnTok x.token = true := by
  simp only [Block.ok, Bool.and_eq_true, Bool.not_eq_true', List.isEmpty_eq_false_iff] at hok
  simp only [Block.lex] at hxs
  cases rows with
  | nil => exact (hok.1 rfl).elim
  | cons cells rows =>
    have h1 := hok.2
    rw [List.all_cons, Bool.and_eq_true, Bool.and_eq_true, Bool.not_eq_true', List.isEmpty_eq_false_iff] at h1
    cases rows with
    | nil => exact row_first h1.1.1 (by simpa [joinLex] using hxs)
    | cons cells' rows =>
      simp only [List.map_cons, joinLex] at hxs
      obtain ⟨ys, zs, rfl, hys, _⟩ := map_append_split hxs
      obtain ⟨x, r, rfl, hx⟩ := row_first h1.1.1 hys
      exact ⟨x, r ++ zs, rfl, hx⟩

theorem table_run {rows : List (List Cell)} {xs tail : List ETok} {fuel : Nat} {p : PState} {sh : Shared}
    (hok : (Block.table rows).ok = true) (hxs : xs.map ETok.pair = (Block.table rows).lex) (ht : EndsLine tail)
    (hs : (xs ++ tail) <:+ (tokenize env.text).tokens) (hf : (Block.table rows).height ≤ fuel)
    (hd : p.depth + (Block.table rows).height ≤ 100) (hnf : p.inFootnote = false) (hnext : noTable (afterRow tail).1) :
    consume fuel env ⟨p.at (xs ++ tail) true, sh⟩ =
      .ok ⟨(Block.table rows).elems env.cx, [], false⟩
        ⟨p.at (afterRow tail).1 (afterRow tail).2, putNotes sh ((Block.table rows).notes.map (noteElems env.cx))⟩ := by
  obtain ⟨x, r, rfl, hx⟩ := table_first hok hxs
  simp only [Block.height] at hf hd
  simp only [Block.ok, Bool.and_eq_true, Bool.not_eq_true', List.isEmpty_eq_false_iff] at hok
  simp only [Block.lex] at hxs
  obtain ⟨fuel, rfl⟩ : ∃ k, fuel = k + 1 := ⟨fuel - 1, by omega⟩
  have hrne : ∀ cells : List Cell, rowLex cells ≠ [] := by intro cells; simp [rowLex]
  have hlen := joinLex_length hrne rows
  have hxlen : rows.length ≤ (x :: r).length := by
    have := congrArg List.length hxs
    rw [List.length_map] at this
    omega
  have hne : (afterRow tail).1 ≠ [] := by
    intro e; rw [e] at hnext; exact hnext
  have hal : (afterRow tail).1.length ≤ tail.length := by
    unfold afterRow; split <;> simp
  have hloop := table_loop (p := { p with depth := p.depth + 1, rule := .table }) (fuel := fuel) ht hnf hnext rows (x :: r) [] (x :: r ++ tail).length true sh
    hok.1 hok.2 hxs hs (by omega) (by dsimp only; omega) (by
      obtain ⟨t, ts, rfl, _⟩ := endsLine_next ht
      simp at hxlen ⊢; omega)
  have hnotes : rows.flatMap (cellNotes env.cx) = (Block.table rows).notes.map (noteElems env.cx) := by
    simp only [Block.notes, cellNotes, List.map_flatMap]
  rw [List.nil_append, hnotes] at hloop
  have hrules : rulesFor x.token = [.table] := by
    revert hx; cases x.token <;> first | (intro h; rfl) | (intro h; cases h)
  refine consume_rule (rs1 := []) (rs2 := []) (r := .table) (by omega) hrules (by simp) (fun _ => rfl)
    (noParts_cons (by simp) noParts_nil) ?_ (by simp; omega) hne
  show ruleTable (consume fuel) env _ = _
  rw [ruleTable_eq]
  have : loop (tableTurn (consume fuel)) ([], []) env ⟨({ p with depth := p.depth + 1, rule := .table } : PState).at (x :: (r ++ tail)) true, sh⟩ = _ := hloop
  show (_ : M _) env ⟨({ p with depth := p.depth + 1, rule := .table } : PState).at (x :: (r ++ tail)) true, sh⟩ = _
  rw [bind_ok this]
  rfl

end Ftml
