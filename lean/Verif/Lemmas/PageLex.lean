import Verif.Lemmas.InlineAll
import Verif.Lemmas.LexLocal
/-
Pages: which symbols they are read as.
-/
namespace Ftml
open M Markup Lexer
variable {env : Env}

private theorem dash_step (c : Char) (x : Char) (s : Str) : (Peg.lit [x]).run (c :: s) =
    if c == x then some ([c], s) else none := by
  simp only [Peg.run, stripPfx_cons, stripPfx_nil]
  by_cases h : c = x <;> simp [h]

private theorem three_run {x : Char} {n : Nat} {rest : Str} (hr : notStart (· == x) rest = true) :
    (gThreePlus [x]).run (List.replicate (n + 3) x ++ rest) = some (List.replicate (n + 3) x, rest) := by
  have h := plus_class (p := .lit [x]) (q := (· == x)) (c := x) (w := List.replicate n x) (rest := rest) rfl
    (fun c s => dash_step c x s) (by
      intro d hd
      rcases List.mem_cons.1 hd with rfl | hd
      · simp
      · simp [(List.mem_replicate.1 hd).2]) hr
  have e : List.replicate (n + 3) x ++ rest = x :: x :: (x :: List.replicate n x ++ rest) := by
    simp [List.replicate_succ]
  rw [e]
  have h' := h
  simp only [List.cons_append] at h' ⊢
  simp only [gThreePlus, Peg.run, stripPfx_cons, stripPfx_nil, if_true, Option.map_some, h']
  simp [List.replicate_succ]

theorem lex_tripleDash {n : Nat} {rest : Str} (h : fits (List.replicate (n + 3) '-') rest = true) :
    LexesTo .tripleDash (List.replicate (n + 3) '-') rest := by
  have hr : notStart (· == '-') rest = true := by
    cases rest with
    | nil => rfl
    | cons c rest =>
      have hl := last_ne (p := '-' :: '-' :: '-' :: List.replicate n '-') (by simp)
      simp only [List.replicate_succ, fits, apart, hl, if_false] at h
      simpa [notStart, isAlnumA, isAlphaA, isLowerA, isUpperA, isDigitA] using h
  have h3 := three_run (n := n) hr
  unfold LexesTo
  have hs : ∃ s, List.replicate (n + 3) '-' ++ rest = '-' :: '-' :: '-' :: s := ⟨List.replicate n '-' ++ rest, by simp [List.replicate_succ]⟩
  obtain ⟨s, hs⟩ := hs
  rw [hs] at h3 ⊢
  rw [runToken_char]
  have : alts'.filter (altFirst '-') = [[(.rightComment, .lit c!"--]")], [(.tripleDash, gThreePlus ['-'])], [(.doubleDash, .lit c!"--")],
    [(.other, Peg.any)]] := by rfl
  rw [this]
  simp only [runToken, runAlt, Peg.run, stripPfx_cons, stripPfx_nil]
  simp [h3]

/-- The token of the tildes. -/
def clearTok : ClearFloat → Token
  | .both => .clearFloatBoth
  | .left => .clearFloatLeft
  | .right => .clearFloatRight

theorem lex_clear {n : Nat} {side : ClearFloat} {rest : Str}
    (h : fits (List.replicate (n + 3) '~' ++ sideMark side) rest = true) :
    LexesTo (clearTok side) (List.replicate (n + 3) '~' ++ sideMark side) rest := by
  have hf : alts'.filter (altFirst '~') = [[(.clearFloatLeft, .seq (gThreePlus ['~']) (.lit ['<']))],
    [(.clearFloatRight, .seq (gThreePlus ['~']) (.lit ['>']))], [(.clearFloatBoth, gThreePlus ['~'])],
    [(.doubleTilde, .lit c!"~~")], [(.other, Peg.any)]] := by rfl
  unfold LexesTo
  have hrun : ∀ rest, notStart (· == '~') rest = true → (gThreePlus ['~']).run ('~' :: (List.replicate (n + 2) '~' ++ rest)) =
      some (List.replicate (n + 3) '~', rest) := fun rest hr => by
    have := three_run (x := '~') (n := n) hr
    rwa [List.replicate_succ (n := n + 2), List.cons_append] at this
  rw [List.append_assoc, List.replicate_succ (n := n + 2), List.cons_append, runToken_char, hf]
  cases side with
  | both =>
    dsimp only [sideMark, clearTok] at h ⊢
    simp only [List.append_nil, List.nil_append] at h ⊢
    have hr : notStart (· == '~') rest = true ∧ notStart (· == '<') rest = true ∧ notStart (· == '>') rest = true := by
      cases rest with
      | nil => exact ⟨rfl, rfl, rfl⟩
      | cons c rest =>
        simp only [List.replicate_succ, fits, apart, doubling] at h
        have hl : ((['~', '~', '~'] ++ List.replicate n '~').getLast? == some '~') = true := by
          have : ['~', '~', '~'] ++ List.replicate n '~' = List.replicate (n + 3) '~' := by simp [List.replicate_succ]
          rw [this, List.getLast?_replicate]; simp
        simp only [List.cons_append, List.nil_append, beq_iff_eq] at hl
        simp [notStart, isAlnumA, isAlphaA, isLowerA, isUpperA, isDigitA, hl] at h ⊢
        simp_all
    have h3 := hrun rest hr.1
    simp only [runToken, runAlt, Peg.run, h3]
    have hn : ∀ x, notStart (· == x) rest = true → stripPfx [x] rest = none := by
      intro x hx
      cases rest with
      | nil => rfl
      | cons c rest => simp [notStart] at hx; simp [stripPfx_cons, hx]
    simp [hn _ hr.2.1, hn _ hr.2.2, List.replicate_succ]
  | left =>
    dsimp only [sideMark, clearTok]
    have h3 := hrun (['<'] ++ rest) rfl
    simp only [runToken, runAlt, Peg.run, h3]
    simp [stripPfx_cons, stripPfx_nil, List.replicate_succ]
  | right =>
    dsimp only [sideMark, clearTok]
    have h3 := hrun (['>'] ++ rest) rfl
    simp only [runToken, runAlt, Peg.run, h3]
    simp [stripPfx_cons, stripPfx_nil, List.replicate_succ]

theorem lex_heading {level : Nat} {toc : Bool} {rest : Str} (h1 : 1 ≤ level) (h6 : level ≤ 6)
    (h : fits (List.replicate level '+' ++ if toc then [] else ['*']) rest = true) :
    LexesTo .heading (List.replicate level '+' ++ if toc then [] else ['*']) rest := by
  have hf : alts'.filter (altFirst '+') = [[(.heading, gHeading)], [(.other, Peg.any)]] := by rfl
  have hc : level = 1 ∨ level = 2 ∨ level = 3 ∨ level = 4 ∨ level = 5 ∨ level = 6 := by omega
  unfold LexesTo
  cases rest with
  | nil =>
    rcases hc with rfl | rfl | rfl | rfl | rfl | rfl <;> cases toc <;> rfl
  | cons d rest =>
    have hd : (level = 1 ∧ toc = true ∧ d ≠ '+' ∧ d ≠ '*') ∨ d = ' ' := by
      rcases hc with rfl | rfl | rfl | rfl | rfl | rfl <;> cases toc <;>
        simp [fits, apart, doubling, List.replicate, isAlnumA, isAlphaA, isLowerA, isUpperA, isDigitA] at h <;> simp [h]
    have key : ∀ (l : Nat) (t : Bool), 1 ≤ l → List.replicate l '+' ++ (if t then [] else ['*']) ++ d :: rest =
        '+' :: (List.replicate (l - 1) '+' ++ (if t then [] else ['*']) ++ d :: rest) := by
      intro l t hl
      obtain ⟨l, rfl⟩ : ∃ k, l = k + 1 := ⟨l - 1, by omega⟩
      simp [List.replicate_succ]
    rw [key level toc h1, runToken_char, hf]
    rcases hd with ⟨rfl, rfl, h1, h2⟩ | rfl
    · simp [runToken, runAlt, gHeading, Peg.run, repeatUpTo, stripPfx_cons, stripPfx_nil, h1, h2]
    · rcases hc with rfl | rfl | rfl | rfl | rfl | rfl <;> cases toc <;>
        simp [runToken, runAlt, gHeading, Peg.run, repeatUpTo, stripPfx_cons, stripPfx_nil, List.replicate]

theorem lex_quote {n : Nat} {rest : Str} (h : fits (List.replicate (n + 1) '>') rest = true) :
    LexesTo .quote (List.replicate (n + 1) '>') rest := by
  cases n with
  | zero => exact lex_char (c := '>') (by decide) h
  | succ n =>
    have hr : notStart (· == '>') rest = true := by
      cases rest with
      | nil => rfl
      | cons c rest =>
        have hl := last_ne (p := '>' :: '>' :: List.replicate n '>') (by simp)
        simp only [List.replicate_succ, fits, apart, hl, if_false] at h
        simp [isAlnumA, isAlphaA, isLowerA, isUpperA, isDigitA] at h
        simp [notStart, h]
    have h3 := plus_class (p := .lit ['>']) (q := (· == '>')) (c := '>') (w := '>' :: List.replicate n '>') (rest := rest) rfl
      (fun c s => dash_step c '>' s) (by
        intro d hd
        simp only [List.mem_cons, List.mem_replicate] at hd
        rcases hd with rfl | rfl | ⟨_, rfl⟩ <;> rfl) hr
    have hs : List.replicate (n + 1 + 1) '>' ++ rest = '>' :: ('>' :: (List.replicate n '>' ++ rest)) := by simp [List.replicate_succ]
    simp only [List.cons_append] at h3
    unfold LexesTo
    rw [hs, runToken_char]
    have : alts'.filter (altFirst '>') = [[(.rightRaw, .lit c!">@")], [(.quote, .plus (.lit ['>']))], [(.other, Peg.any)]] := by rfl
    rw [this]
    simp only [runToken, runAlt, h3]
    simp [Peg.run, stripPfx_cons, List.replicate_succ]

/-- The token of the mark of an item. -/
def markTok : ListKind → Token
  | .bullet => .bulletItem
  | .numbered => .numberedItem

/-- The tokens of a line of a list. -/
def listLineLex : Nat × ListKind × List Inline → List (Token × Str)
  | (depth, kind, body) =>
    (if depth = 0 then [] else [(.whitespace, List.replicate depth ' ')]) ++ (markTok kind, kind.mark) :: (.whitespace, c!" ") :: Inline.lex.go body

/-- The tokens of a line of a quote. -/
def quoteLineLex : Nat × Unit × List Inline → List (Token × Str)
  | (depth, _, body) => (.quote, List.replicate (depth + 1) '>') :: (.whitespace, c!" ") :: Inline.lex.go body

/-- The token of the mark of a cell. -/
def cellTok : CellKind → Token
  | .plain => .tableColumn
  | .title => .tableColumnTitle
  | .left => .tableColumnLeft
  | .center => .tableColumnCenter
  | .right => .tableColumnRight

/-- Blanks, if any. -/
def blanksLex (n : Nat) : List (Token × Str) := if n = 0 then [] else [(.whitespace, List.replicate n ' ')]

/-- The tokens of a cell. -/
def cellLex (c : Cell) : List (Token × Str) :=
  List.replicate c.more (.tableColumn, c!"||") ++ (cellTok c.kind, c.kind.mark) ::
    (blanksLex c.before ++ (Inline.lex.go c.body ++ blanksLex c.after))

/-- The tokens of a row of a table. -/
def rowLex (cells : List Cell) : List (Token × Str) := cells.flatMap cellLex ++ [(.tableColumn, c!"||")]

/-- The tokens of a definition. -/
def definitionLex : List Inline × List Inline → List (Token × Str)
  | (key, value) => (.colon, c!":") :: (.whitespace, c!" ") :: (Inline.lex.go key ++
      (.whitespace, c!" ") :: (.colon, c!":") :: (.whitespace, c!" ") :: Inline.lex.go value)

/-- Lines with line ends between them. -/
def joinLex : List (List (Token × Str)) → List (Token × Str)
  | [] => []
  | [l] => l
  | l :: ls => l ++ (.lineBreak, c!"\n") :: joinLex ls

theorem joinLex_pieces {α : Type} (f : α → List (Token × Str)) (g : α → List Str) (h : ∀ a, (f a).map (·.2) = g a) :
    ∀ ls : List α, (joinLex (ls.map f)).map (·.2) = joinLines (ls.map g)
  | [] => rfl
  | [l] => by simp [joinLex, joinLines, h]
  | l :: l' :: ls => by
    have := joinLex_pieces f g h (l' :: ls)
    simp only [List.map_cons] at this
    simp only [List.map_cons, joinLex, joinLines, List.map_append, h, this]

theorem joinLex_mem {ls : List (List (Token × Str))} {x : Token × Str} (h : x ∈ joinLex ls) :
    x = (.lineBreak, c!"\n") ∨ ∃ l ∈ ls, x ∈ l := by
  induction ls with
  | nil => simp [joinLex] at h
  | cons l ls ih =>
    cases ls with
    | nil => exact .inr ⟨l, by simp, h⟩
    | cons l' ls =>
      simp only [joinLex, List.mem_append, List.mem_cons] at h
      rcases h with h | h | h
      · exact .inr ⟨l, by simp, h⟩
      · exact .inl h
      · rcases ih h with h | ⟨a, ha, h⟩
        · exact .inl h
        · exact .inr ⟨a, by simp at ha; simp [ha], h⟩

/-- The tokens of the start of a box. -/
def _root_.Ftml.Markup.Section.openLex : Section → List (Token × Str)
  | .box name args _ | .collapsible name args _ =>
    (.leftBlock, c!"[[") :: (.identifier, name) :: (args.flatMap Arg.lex ++ [(.rightBlock, c!"]]")])
  | .align side => (.leftBlock, c!"[[") :: ((alignMark side).map Plain.lex ++ [(.rightBlock, c!"]]")])
  | .tabs name _ => [(.leftBlock, c!"[["), (.identifier, name), (.rightBlock, c!"]]")]
  | .tab name label _ =>
    (.leftBlock, c!"[[") :: (.identifier, name) :: (.whitespace, c!" ") :: (label.map Plain.lex ++ [(.rightBlock, c!"]]")])
/-- The tokens of the end of a box. -/
def _root_.Ftml.Markup.Section.closeLex : Section → List (Token × Str)
  | .box _ _ close | .collapsible _ _ close | .tabs _ close | .tab _ _ close => [(.leftBlockEnd, c!"[[/"), (.identifier, close), (.rightBlock, c!"]]")]
  | .align side => (.leftBlockEnd, c!"[[/") :: ((alignMark side).map Plain.lex ++ [(.rightBlock, c!"]]")])

/-- The tokens of the start of a block with other contents than markup. -/
def _root_.Ftml.Markup.Foreign.openLex : Foreign → List (Token × Str)
  | .code name args _ => (.leftBlock, c!"[[") :: (.identifier, name) :: (args.flatMap Arg.lex ++ [(.rightBlock, c!"]]")])
  | .html name _ | .math name none _ => [(.leftBlock, c!"[["), (.identifier, name), (.rightBlock, c!"]]")]
  | .math name (some label) _ =>
    (.leftBlock, c!"[[") :: (.identifier, name) :: (.whitespace, c!" ") :: (label.map Plain.lex ++ [(.rightBlock, c!"]]")])
/-- The tokens of its end. -/
def _root_.Ftml.Markup.Foreign.closeLex : Foreign → List (Token × Str)
  | .code _ _ close | .html _ close | .math _ _ close =>
    [(.leftBlockEnd, c!"[[/"), (.identifier, close), (.rightBlock, c!"]]")]
/-- The tokens of its contents. -/
noncomputable def textsLex (text : Str) : List (Token × Str) :=
  if text = [] then [] else textLex text ++ [(.lineBreak, c!"\n")]

/-- The tokens of a block without contents. -/
def _root_.Ftml.Markup.Gadget.lex : Gadget → List (Token × Str)
  | .contents side name args =>
    (.leftBlock, c!"[[") :: ((imageMark side).map Plain.lex ++ (.identifier, name) :: (args.flatMap Arg.lex ++ [(.rightBlock, c!"]]")]))
  | .frame name url args =>
    (.leftBlock, c!"[[") :: (.identifier, name) :: (.whitespace, c!" ") :: (.url, url) :: (args.flatMap Arg.lex ++ [(.rightBlock, c!"]]")])
  | .video name arg args | .module name arg args =>
    (.leftBlock, c!"[[") :: (.identifier, name) :: (.whitespace, c!" ") :: (.identifier, arg) :: (args.flatMap Arg.lex ++ [(.rightBlock, c!"]]")])

/-- The tokens of tags. -/
def _root_.Ftml.Markup.Tag.openLex (t : Markup.Tag) : List (Token × Str) :=
  (.leftBlock, c!"[[") :: (.identifier, t.name) :: (t.args.flatMap Arg.lex ++ [(.rightBlock, c!"]]")])
/-- The tokens of closing tags. -/
def _root_.Ftml.Markup.Tag.closeLex (t : Markup.Tag) : List (Token × Str) :=
  [(.leftBlockEnd, c!"[[/"), (.identifier, t.close), (.rightBlock, c!"]]")]
/-- The tokens of items. -/
noncomputable def _root_.Ftml.Markup.Item.lex (i : Item) : List (Token × Str) := i.tag.openLex ++ (Inline.lex.go i.body ++ i.tag.closeLex)
/-- The tokens of parts between tags. -/
def aroundLex (t : Markup.Tag) (parts : List (List (Token × Str))) : List (Token × Str) :=
  t.openLex ++ (.lineBreak, c!"\n") :: (parts.flatMap (fun p => p ++ [(.lineBreak, c!"\n")]) ++ t.closeLex)
/-- The tokens of lists and tables made of blocks. -/
noncomputable def _root_.Ftml.Markup.Grid.lex : Grid → List (Token × Str)
  | .list tag items => aroundLex tag (items.map Item.lex)
  | .table tag rows => aroundLex tag (rows.map fun r => aroundLex r.1 (r.2.map Item.lex))

/-- The tokens of bibliographies. -/
noncomputable def _root_.Ftml.Markup.Biblio.lex (b : Biblio) : List (Token × Str) := aroundLex b.tag (b.items.map definitionLex)

/-- The token between two blocks. -/
def sepLex (tight : Bool) : Token × Str := if tight then (.lineBreak, c!"\n") else (.paragraphBreak, c!"\n\n")

/-- The tokens of a block. -/
noncomputable def _root_.Ftml.Markup.Block.lex : Block → List (Token × Str)
  | .para body => Inline.lex.go body
  | .heading level toc gap body =>
    (.heading, List.replicate level '+' ++ if toc then [] else ['*']) ::
      (.whitespace, List.replicate (gap + 1) ' ') :: Inline.lex.go body
  | .rule more => [(.tripleDash, List.replicate (more + 3) '-')]
  | .center gap body => (.equals, c!"=") :: (.whitespace, List.replicate (gap + 1) ' ') :: Inline.lex.go body
  | .clear more side => [(clearTok side, List.replicate (more + 3) '~' ++ sideMark side)]
  | .list kind items => joinLex ((Outline.lines.go 0 kind items).map listLineLex)
  | .quote items => joinLex ((Outline.lines.go 0 () items).map quoteLineLex)
  | .table rows => joinLex (rows.map rowLex)
  | .definitions items => joinLex (items.map definitionLex)
  | .within s body => s.openLex ++ (.lineBreak, c!"\n") :: (go body ++ s.closeLex)
  | .foreign v text => v.openLex ++ (.lineBreak, c!"\n") :: (textsLex text ++ v.closeLex)
  | .gadget g => g.lex
  | .grid g => g.lex
  | .biblio b => b.lex
where
  /-- of the contents of a box -/
  go : List (Block × Bool) → List (Token × Str)
    | [] => []
    | (b, tight) :: bs => b.lex ++ sepLex tight :: go bs

/-- The tokens of a page. -/
noncomputable def _root_.Ftml.Markup.Page.lex : Page → List (Token × Str)
  | [] => []
  | [(b, _)] => b.lex
  | (b, tight) :: x :: bs => b.lex ++ sepLex tight :: lex (x :: bs)

theorem open_section_str (w : Section) : w.openLex.map (·.2) = w.opening := by
  cases w with
  | align side => simp [Section.openLex, Section.opening, ← plains_str]
  | tab name label close => simp [Section.openLex, Section.opening, ← plains_str]
  | _ => simp [Section.openLex, Section.opening, ← args_str]

theorem close_section_str (w : Section) : w.closeLex.map (·.2) = w.closing := by
  cases w <;> simp [Section.closeLex, Section.closing, ← plains_str]

theorem definition_str (d : List Inline × List Inline) : (definitionLex d).map (·.2) = definitionLine d := by
  obtain ⟨key, value⟩ := d
  simp [definitionLex, definitionLine, inlines_pieces]

private theorem flat_pieces {b : Block} (hb : b.isBox = false) : b.lex.map (·.2) = b.pieces := by
  cases b with
  | within | foreign | gadget | grid | biblio => cases hb
  | list kind items =>
    refine joinLex_pieces _ _ ?_ _
    rintro ⟨d, k, body⟩
    by_cases hd : d = 0 <;> simp [listLineLex, listLine, inlines_pieces, hd]
  | quote items =>
    refine joinLex_pieces _ _ ?_ _
    rintro ⟨d, k, body⟩
    simp [quoteLineLex, quoteLine, inlines_pieces]
  | table rows =>
    refine joinLex_pieces _ _ ?_ _
    intro cells
    have hb : ∀ n, (blanksLex n).map (·.2) = blanksOf n := by
      intro n; unfold blanksLex blanksOf; split <;> rfl
    have hc : ∀ c : Cell, (cellLex c).map (·.2) = c.pieces := by
      intro c; simp [cellLex, Cell.pieces, hb, inlines_pieces]
    simp [rowLex, rowLine, List.map_flatMap, hc]
  | definitions items =>
    exact joinLex_pieces _ _ definition_str _
  | _ => simp [Block.lex, Block.pieces, inlines_pieces]

theorem open_foreign_str (v : Foreign) : v.openLex.map (·.2) = v.opening := by
  cases v with
  | code => simp [Foreign.openLex, Foreign.opening, ← args_str]
  | html => rfl
  | math name label close => cases label <;> simp [Foreign.openLex, Foreign.opening, ← plains_str]

theorem close_foreign_str (v : Foreign) : v.closeLex.map (·.2) = v.closing := by cases v <;> rfl

theorem cell_sym {c : Cell} (h : c.ok = true) : ∀ x ∈ cellLex c, Sym x := by
  simp only [Cell.ok, Bool.and_eq_true] at h
  have hb : ∀ n, ∀ x ∈ blanksLex n, Sym x := by
    intro n x hx
    unfold blanksLex at hx
    split at hx
    · simp at hx
    · rename_i hn
      obtain ⟨n, rfl⟩ := Nat.exists_eq_succ_of_ne_zero hn
      simp at hx; subst hx
      exact ⟨by simp, fun rest hf => lex_blanks hf⟩
  intro x hx
  simp only [cellLex, List.mem_append, List.mem_cons, List.mem_replicate] at hx
  rcases hx with ⟨_, rfl⟩ | rfl | hx | hx | hx
  · exact ⟨by simp, fun rest hf => lex_column hf⟩
  · cases c.kind
    · exact ⟨by simp [CellKind.mark], fun rest hf => lex_column hf⟩
    · exact ⟨by simp [CellKind.mark], fun rest _ => lex_columnTitle rest⟩
    · exact ⟨by simp [CellKind.mark], fun rest _ => lex_columnLeft rest⟩
    · exact ⟨by simp [CellKind.mark], fun rest _ => lex_columnCenter rest⟩
    · exact ⟨by simp [CellKind.mark], fun rest _ => lex_columnRight rest⟩
  · exact hb _ x hx
  · exact inlines_sym _ h.1.1.1.1 x hx
  · exact hb _ x hx

theorem definition_sym {d : List Inline × List Inline} (hc : definitionOk d = true) : ∀ x ∈ definitionLex d, Sym x := by
  have hbl : ∀ n, Sym (.whitespace, List.replicate (n + 1) ' ') := fun n =>
    ⟨by simp, fun rest hf => lex_blanks hf⟩
  intro x hx
  obtain ⟨key, value⟩ := d
  simp only [definitionOk, Bool.and_eq_true] at hc
  have hcol : Sym (.colon, c!":") := ⟨by simp, fun rest hf => lex_char (c := ':') (by decide) hf⟩
  simp only [definitionLex, List.mem_append, List.mem_cons] at hx
  rcases hx with rfl | rfl | hx | rfl | rfl | rfl | hx
  · exact hcol
  · exact hbl 0
  · exact inlines_sym key hc.1.1.1.1.1.1.1 x hx
  · exact hbl 0
  · exact hcol
  · exact hbl 0
  · exact inlines_sym value hc.1.1.1.1.1.1.2 x hx

private theorem flat_sym {b : Block} (hb : b.isBox = false) (h : b.ok = true) : ∀ x ∈ b.lex, Sym x := by
  have hbl : ∀ n, Sym (.whitespace, List.replicate (n + 1) ' ') := fun n =>
    ⟨by simp, fun rest hf => lex_blanks hf⟩
  intro x hx
  cases b with
  | within | foreign | gadget | grid | biblio => cases hb
  | para body =>
    simp only [Block.ok, Bool.and_eq_true] at h
    exact inlines_sym body h.1.1 x hx
  | heading level toc gap body =>
    simp only [Block.ok, Bool.and_eq_true, decide_eq_true_eq] at h
    simp only [Block.lex, List.mem_cons] at hx
    rcases hx with rfl | rfl | hx
    · refine ⟨?_, fun rest hf => lex_heading h.1.1.1 h.1.1.2 hf⟩
      intro e
      have := congrArg List.length e
      simp at this
      omega
    · exact hbl gap
    · exact inlines_sym body h.1.2 x hx
  | rule more =>
    simp only [Block.lex, List.mem_singleton] at hx
    subst hx
    exact ⟨by simp [List.replicate_succ], fun rest hf => lex_tripleDash hf⟩
  | center gap body =>
    simp only [Block.ok, Bool.and_eq_true] at h
    simp only [Block.lex, List.mem_cons] at hx
    rcases hx with rfl | rfl | hx
    · exact ⟨by simp, fun rest hf => lex_char (c := '=') (by decide) hf⟩
    · exact hbl gap
    · exact inlines_sym body h.1 x hx
  | clear more side =>
    simp only [Block.lex, List.mem_singleton] at hx
    subst hx
    exact ⟨by simp [List.replicate_succ], fun rest hf => lex_clear hf⟩
  | list kind items =>
    simp only [Block.ok, Bool.and_eq_true] at h
    rcases joinLex_mem hx with rfl | ⟨l, hl, hx⟩
    · exact ⟨by simp, fun rest hf => lex_newline hf⟩
    · obtain ⟨⟨d, k, body⟩, hm, rfl⟩ := List.mem_map.1 hl
      have hb := List.all_eq_true.1 h.2 _ hm
      simp only [lineOk, Bool.and_eq_true] at hb
      simp only [listLineLex, List.mem_append, List.mem_cons] at hx
      rcases hx with hx | rfl | rfl | hx
      · split at hx
        · simp at hx
        · rename_i hd
          obtain ⟨d, rfl⟩ := Nat.exists_eq_succ_of_ne_zero hd
          simp at hx; subst hx
          exact hbl d
      · cases k
        · exact ⟨by simp [ListKind.mark], fun rest hf => lex_char (c := '*') (by decide) hf⟩
        · exact ⟨by simp [ListKind.mark], fun rest hf => lex_char (c := '#') (by decide) hf⟩
      · exact hbl 0
      · exact inlines_sym body hb.1.2 x hx
  | quote items =>
    simp only [Block.ok, Bool.and_eq_true] at h
    rcases joinLex_mem hx with rfl | ⟨l, hl, hx⟩
    · exact ⟨by simp, fun rest hf => lex_newline hf⟩
    · obtain ⟨⟨d, k, body⟩, hm, rfl⟩ := List.mem_map.1 hl
      have hb := List.all_eq_true.1 h.2 _ hm
      simp only [lineOk, Bool.and_eq_true] at hb
      simp only [quoteLineLex, List.mem_cons] at hx
      rcases hx with rfl | rfl | hx
      · exact ⟨by simp, fun rest hf => lex_quote hf⟩
      · exact hbl 0
      · exact inlines_sym body hb.1.2 x hx
  | table rows =>
    simp only [Block.ok, Bool.and_eq_true] at h
    rcases joinLex_mem hx with rfl | ⟨l, hl, hx⟩
    · exact ⟨by simp, fun rest hf => lex_newline hf⟩
    · obtain ⟨cells, hm, rfl⟩ := List.mem_map.1 hl
      have hc := List.all_eq_true.1 h.2 _ hm
      simp only [Bool.and_eq_true] at hc
      simp only [rowLex, List.mem_append, List.mem_flatMap, List.mem_singleton] at hx
      rcases hx with ⟨c, hcm, hx⟩ | rfl
      · exact cell_sym (List.all_eq_true.1 hc.2 _ hcm) x hx
      · exact ⟨by simp, fun rest hf => lex_column hf⟩
  | definitions items =>
    simp only [Block.ok, Bool.and_eq_true] at h
    rcases joinLex_mem hx with rfl | ⟨l, hl, hx⟩
    · exact ⟨by simp, fun rest hf => lex_newline hf⟩
    · obtain ⟨d, hm, rfl⟩ := List.mem_map.1 hl
      exact definition_sym (List.all_eq_true.1 h.2 _ hm) x hx

theorem sep_sym (t : Bool) : Sym (sepLex t) := by
  cases t
  · exact ⟨by simp [sepLex], fun rest hf => lex_paragraphBreak hf⟩
  · exact ⟨by simp [sepLex], fun rest hf => lex_newline hf⟩

theorem section_sym {w : Section} (h : w.ok = true) : (∀ x ∈ w.openLex, Sym x) ∧ ∀ x ∈ w.closeLex, Sym x := by
  have h1 : Sym (.leftBlock, c!"[[") := ⟨by simp, fun rest hf => lex_leftBlock hf⟩
  have h2 : Sym (.rightBlock, c!"]]") := ⟨by simp, fun rest hf => lex_rightBlock hf⟩
  have h3 : Sym (.leftBlockEnd, c!"[[/") := ⟨by simp, fun rest _ => lex_leftBlockEnd rest⟩
  have hm : ∀ a : Alignment, (alignMark a).all Plain.ok = true := by intro a; cases a <;> rfl
  cases w with
  | box name args close =>
    simp only [Section.ok, Bool.and_eq_true] at h
    constructor <;> intro x hx <;>
      simp only [Section.openLex, Section.closeLex, List.mem_cons, List.mem_append, List.not_mem_nil, or_false] at hx
    · rcases hx with rfl | rfl | hx | rfl
      · exact h1
      · exact plain_sym (p := .word name) h.1.1.1.1
      · exact arg_sym h.1.1.2 x hx
      · exact h2
    · rcases hx with rfl | rfl | rfl
      · exact h3
      · exact plain_sym (p := .word close) h.1.1.1.2
      · exact h2
  | align side =>
    constructor <;> intro x hx <;>
      simp only [Section.openLex, Section.closeLex, List.mem_cons, List.mem_append, List.not_mem_nil, or_false] at hx
    · rcases hx with rfl | hx | rfl
      · exact h1
      · exact plains_sym (hm side) x hx
      · exact h2
    · rcases hx with rfl | hx | rfl
      · exact h3
      · exact plains_sym (hm side) x hx
      · exact h2
  | collapsible name args close =>
    simp only [Section.ok, Bool.and_eq_true, beq_iff_eq] at h
    constructor <;> intro x hx <;>
      simp only [Section.openLex, Section.closeLex, List.mem_cons, List.mem_append, List.not_mem_nil, or_false] at hx
    · rcases hx with rfl | rfl | hx | rfl
      · exact h1
      · exact plain_sym (p := .word name) (lower_word h.1.1.1.1 rfl)
      · exact arg_sym h.1.1.2 x hx
      · exact h2
    · rcases hx with rfl | rfl | rfl
      · exact h3
      · exact plain_sym (p := .word close) (lower_word h.1.1.1.2 rfl)
      · exact h2

  | tabs name close =>
    simp only [Section.ok, Bool.and_eq_true, List.contains_iff_mem, List.mem_cons, List.not_mem_nil, or_false] at h
    have hw : ∀ {n : Str}, lowerA n = c!"tabview" ∨ lowerA n = c!"tabs" → (Plain.word n).ok = true := fun h => by
      rcases h with h | h <;> exact lower_word h rfl
    constructor <;> intro x hx <;>
      simp only [Section.openLex, Section.closeLex, List.mem_cons, List.not_mem_nil, or_false] at hx
    · rcases hx with rfl | rfl | rfl
      · exact h1
      · exact plain_sym (p := .word name) (hw h.1)
      · exact h2
    · rcases hx with rfl | rfl | rfl
      · exact h3
      · exact plain_sym (p := .word close) (hw h.2)
      · exact h2
  | tab name label close =>
    simp only [Section.ok, Bool.and_eq_true, beq_iff_eq] at h
    constructor <;> intro x hx <;>
      simp only [Section.openLex, Section.closeLex, List.mem_cons, List.mem_append, List.not_mem_nil, or_false] at hx
    · rcases hx with rfl | rfl | rfl | hx | rfl
      · exact h1
      · exact plain_sym (p := .word name) (lower_word h.1.1 rfl)
      · exact ⟨by simp, fun rest hf => lex_blanks (n := 0) hf⟩
      · refine plains_sym ?_ x hx
        have := h.2
        simp only [valueOk, Bool.and_eq_true] at this
        exact this.1.1
      · exact h2
    · rcases hx with rfl | rfl | rfl
      · exact h3
      · exact plain_sym (p := .word close) (lower_word h.1.2 rfl)
      · exact h2

theorem foreign_sym {v : Foreign} {text : Str} (h : v.ok text = true) :
    (∀ x ∈ v.openLex, Sym x) ∧ ∀ x ∈ v.closeLex, Sym x := by
  have h1 : Sym (.leftBlock, c!"[[") := ⟨by simp, fun rest hf => lex_leftBlock hf⟩
  have h2 : Sym (.rightBlock, c!"]]") := ⟨by simp, fun rest hf => lex_rightBlock hf⟩
  have h3 : Sym (.leftBlockEnd, c!"[[/") := ⟨by simp, fun rest _ => lex_leftBlockEnd rest⟩
  cases v with
  | code name args close =>
    simp only [Foreign.ok, Bool.and_eq_true, beq_iff_eq] at h
    constructor <;> intro x hx <;>
      simp only [Foreign.openLex, Foreign.closeLex, List.mem_cons, List.mem_append, List.not_mem_nil, or_false] at hx
    · rcases hx with rfl | rfl | hx | rfl
      · exact h1
      · exact plain_sym (p := .word name) (lower_word h.1.1 rfl)
      · exact arg_sym h.2 x hx
      · exact h2
    · rcases hx with rfl | rfl | rfl
      · exact h3
      · exact plain_sym (p := .word close) (lower_word h.1.2 rfl)
      · exact h2
  | html name close =>
    simp only [Foreign.ok, Bool.and_eq_true, beq_iff_eq] at h
    constructor <;> intro x hx <;>
      simp only [Foreign.openLex, Foreign.closeLex, List.mem_cons, List.not_mem_nil, or_false] at hx
    · rcases hx with rfl | rfl | rfl
      · exact h1
      · exact plain_sym (p := .word name) (lower_word h.1 rfl)
      · exact h2
    · rcases hx with rfl | rfl | rfl
      · exact h3
      · exact plain_sym (p := .word close) (lower_word h.2 rfl)
      · exact h2
  | math name label close =>
    simp only [Foreign.ok, Bool.and_eq_true, beq_iff_eq] at h
    constructor
    · intro x hx
      cases label with
      | none =>
        simp only [Foreign.openLex, List.mem_cons, List.not_mem_nil, or_false] at hx
        rcases hx with rfl | rfl | rfl
        · exact h1
        · exact plain_sym (p := .word name) (lower_word h.1.1.1 rfl)
        · exact h2
      | some label =>
        simp only [Foreign.openLex, List.mem_cons, List.mem_append, List.not_mem_nil, or_false] at hx
        rcases hx with rfl | rfl | rfl | hx | rfl
        · exact h1
        · exact plain_sym (p := .word name) (lower_word h.1.1.1 rfl)
        · exact ⟨by simp, fun rest hf => lex_blanks (n := 0) hf⟩
        · refine plains_sym ?_ x hx
          have := h.1.2
          simp only [Option.all_some, valueOk, Bool.and_eq_true] at this
          exact this.1.1
        · exact h2
    · intro x hx
      simp only [Foreign.closeLex, List.mem_cons, List.not_mem_nil, or_false] at hx
      rcases hx with rfl | rfl | rfl
      · exact h3
      · exact plain_sym (p := .word close) (lower_word h.1.1.2 rfl)
      · exact h2

theorem gadget_str (g : Gadget) : g.lex.map (·.2) = g.pieces := by
  cases g with
  | contents => simp [Gadget.lex, Gadget.pieces, ← args_str, ← plains_str]
  | _ => simp [Gadget.lex, Gadget.pieces, ← args_str]

theorem contents_side {side : Option FloatAlign} (h : (side == none || side == some ⟨.left, true⟩ || side == some ⟨.right, true⟩) = true) :
    side = none ∨ side = some ⟨.left, true⟩ ∨ side = some ⟨.right, true⟩ := by
  simpa [or_assoc] using h

theorem gadget_sym {g : Gadget} (h : g.ok = true) : ∀ x ∈ g.lex, Sym x := by
  have h1 : Sym (.leftBlock, c!"[[") := ⟨by simp, fun rest hf => lex_leftBlock hf⟩
  have h2 : Sym (.rightBlock, c!"]]") := ⟨by simp, fun rest hf => lex_rightBlock hf⟩
  have h3 : Sym (.whitespace, c!" ") := ⟨by simp, fun rest hf => lex_blanks (n := 0) hf⟩
  intro x hx
  cases g with
  | contents side name args =>
    simp only [Gadget.ok, Bool.and_eq_true, beq_iff_eq] at h
    simp only [Gadget.lex, List.mem_cons, List.mem_append, List.not_mem_nil, or_false] at hx
    rcases hx with rfl | hx | rfl | hx | rfl
    · exact h1
    · refine plains_sym ?_ x hx
      rcases contents_side h.1.1 with rfl | rfl | rfl <;> decide
    · exact plain_sym (p := .word name) (lower_word h.1.2 rfl)
    · exact arg_sym h.2 x hx
    · exact h2
  | frame name url args =>
    simp only [Gadget.ok, Bool.and_eq_true, beq_iff_eq] at h
    simp only [Gadget.lex, List.mem_cons, List.mem_append, List.not_mem_nil, or_false] at hx
    rcases hx with rfl | rfl | rfl | rfl | hx | rfl
    · exact h1
    · exact plain_sym (p := .word name) (lower_word h.1.1.1 rfl)
    · exact h3
    · exact ⟨url_ne h.1.1.2, fun rest hf => lex_url h.1.1.2 hf⟩
    · exact arg_sym h.2 x hx
    · exact h2
  | video name host args =>
    simp only [Gadget.ok, Bool.and_eq_true, beq_iff_eq, List.contains_iff_mem, List.mem_cons, List.not_mem_nil, or_false] at h
    simp only [Gadget.lex, List.mem_cons, List.mem_append, List.not_mem_nil, or_false] at hx
    rcases hx with rfl | rfl | rfl | rfl | hx | rfl
    · exact h1
    · exact plain_sym (p := .word name) (lower_word h.1.1.1 rfl)
    · exact h3
    · rcases h.1.1.2 with e | e <;> exact plain_sym (p := .word host) (lower_word e rfl)
    · exact arg_sym h.1.2 x hx
    · exact h2
  | module name which args =>
    simp only [Gadget.ok, Bool.and_eq_true, List.contains_iff_mem, List.mem_cons, List.not_mem_nil, or_false] at h
    obtain ⟨⟨⟨⟨e1, e2⟩, e3⟩, _⟩, _⟩ := h
    simp only [Gadget.lex, List.mem_cons, List.mem_append, List.not_mem_nil, or_false] at hx
    rcases hx with rfl | rfl | rfl | rfl | hx | rfl
    · exact h1
    · rcases e1 with e | e <;> exact plain_sym (p := .word name) (lower_word e rfl)
    · exact h3
    · rcases e2 with e | e | e | e | e <;> exact plain_sym (p := .word which) (lower_word e rfl)
    · exact arg_sym e3 x hx
    · exact h2

theorem around_str (t : Markup.Tag) (ls : List (List (Token × Str))) (ps : List (List Str)) (h : ls.map (·.map (·.2)) = ps) :
    (aroundLex t ls).map (·.2) = t.around ps := by
  subst h
  simp only [aroundLex, Tag.around, Tag.openLex, Tag.opening, Tag.closeLex, Tag.closing, List.map_append, List.map_cons, List.map_flatMap,
    ← args_str, List.flatMap_map, List.map_nil]

theorem item_str (i : Item) : i.lex.map (·.2) = i.pieces := by
  simp [Item.lex, Item.pieces, Tag.openLex, Tag.opening, Tag.closeLex, Tag.closing, inlines_pieces, ← args_str]

theorem items_str (is : List Item) : (is.map Item.lex).map (·.map (·.2)) = is.map Item.pieces := by
  simp [Function.comp_def, item_str]

theorem grid_str (g : Grid) : g.lex.map (·.2) = g.pieces := by
  cases g with
  | list tag items => exact around_str _ _ _ (items_str items)
  | table tag rows =>
    refine around_str _ _ _ ?_
    simp only [List.map_map]
    refine List.map_congr_left fun r _ => ?_
    exact around_str _ _ _ (items_str r.2)

theorem tag_word {k : Str} {t : Markup.Tag} (h : t.is k = true) (hk : (Plain.word k).ok = true) :
    (Plain.word t.name).ok = true ∧ (Plain.word t.close).ok = true ∧ lowerA t.name = k ∧ lowerA t.close = k ∧ t.args.all Arg.ok = true := by
  simp only [Tag.is, Bool.and_eq_true, beq_iff_eq] at h
  exact ⟨lower_word h.1.1 hk, lower_word h.1.2 hk, h.1.1, h.1.2, h.2⟩

theorem tag_sym {k : Str} {t : Markup.Tag} (h : t.is k = true) (hk : (Plain.word k).ok = true) :
    (∀ x ∈ t.openLex, Sym x) ∧ (∀ x ∈ t.closeLex, Sym x) := by
  obtain ⟨w1, w2, _, _, ha⟩ := tag_word h hk
  have h2 : Sym (.rightBlock, c!"]]") := ⟨by simp, fun rest hf => lex_rightBlock hf⟩
  constructor
  · intro x hx
    simp only [Tag.openLex, List.mem_cons, List.mem_append, List.not_mem_nil, or_false] at hx
    rcases hx with rfl | rfl | hx | rfl
    · exact ⟨by simp, fun rest hf => lex_leftBlock hf⟩
    · exact plain_sym (p := .word t.name) w1
    · exact arg_sym ha x hx
    · exact h2
  · intro x hx
    simp only [Tag.closeLex, List.mem_cons, List.not_mem_nil, or_false] at hx
    rcases hx with rfl | rfl | rfl
    · exact ⟨by simp, fun rest _ => lex_leftBlockEnd rest⟩
    · exact plain_sym (p := .word t.close) w2
    · exact h2

theorem around_sym {k : Str} {t : Markup.Tag} (h : t.is k = true) (hk : (Plain.word k).ok = true) {ls : List (List (Token × Str))}
    (hl : ∀ l ∈ ls, ∀ x ∈ l, Sym x) : ∀ x ∈ aroundLex t ls, Sym x := by
  have hn : Sym (.lineBreak, c!"\n") := ⟨by simp, fun rest hf => lex_newline hf⟩
  intro x hx
  simp only [aroundLex, List.mem_append, List.mem_cons, List.mem_flatMap, List.not_mem_nil, or_false] at hx
  rcases hx with hx | rfl | ⟨l, hl1, hx | rfl⟩ | hx
  · exact (tag_sym h hk).1 x hx
  · exact hn
  · exact hl l hl1 x hx
  · exact hn
  · exact (tag_sym h hk).2 x hx

theorem item_sym {k : Str} {i : Item} (h : i.tag.is k = true) (hk : (Plain.word k).ok = true) (hf : i.fine = true) : ∀ x ∈ i.lex, Sym x := by
  simp only [Item.fine, Bool.and_eq_true] at hf
  intro x hx
  simp only [Item.lex, List.mem_append] at hx
  rcases hx with hx | hx | hx
  · exact (tag_sym h hk).1 x hx
  · exact inlines_sym _ hf.1.1 x hx
  · exact (tag_sym h hk).2 x hx

theorem grid_sym {g : Grid} (h : g.ok = true) : ∀ x ∈ g.lex, Sym x := by
  cases g with
  | list tag items =>
    simp only [Grid.ok, Bool.and_eq_true, Bool.or_eq_true, List.all_eq_true] at h
    have hl : ∀ l ∈ items.map Item.lex, ∀ x ∈ l, Sym x := by
      intro l hl
      obtain ⟨i, hi, rfl⟩ := List.mem_map.1 hl
      exact item_sym (h.2 i hi).1 rfl (h.2 i hi).2
    rcases h.1.1 with e | e
    · exact around_sym e rfl hl
    · exact around_sym e rfl hl
  | table tag rows =>
    simp only [Grid.ok, Bool.and_eq_true, List.all_eq_true] at h
    refine around_sym h.1.1 rfl fun l hl => ?_
    obtain ⟨r, hr, rfl⟩ := List.mem_map.1 hl
    refine around_sym (h.2 r hr).1.1 rfl fun l hl => ?_
    obtain ⟨i, hi, rfl⟩ := List.mem_map.1 hl
    have := (h.2 r hr).2 i hi
    simp only [Item.isCell, Bool.or_eq_true] at this
    rcases this.1 with e | e
    · exact item_sym e rfl this.2
    · exact item_sym e rfl this.2

theorem biblio_str (b : Biblio) : b.lex.map (·.2) = b.pieces :=
  around_str _ _ _ (by simp [Function.comp_def, definition_str])

theorem biblio_sym {b : Biblio} (h : b.ok = true) : ∀ x ∈ b.lex, Sym x := by
  simp only [Biblio.ok, Bool.and_eq_true, List.all_eq_true] at h
  refine around_sym h.1.1.1 rfl fun l hl => ?_
  obtain ⟨i, hi, rfl⟩ := List.mem_map.1 hl
  exact definition_sym (h.2 i hi).1.1

theorem text_whole {text : Str} (h : textOk text = true) (hne : text ≠ []) : Whole text := by
  simp only [textOk, Bool.and_eq_true] at h
  refine ⟨text.dropLast, text.getLast hne, (List.dropLast_concat_getLast hne).symm, ?_⟩
  have := h.2
  rw [List.getLast?_eq_some_getLast hne] at this
  simpa using this

theorem text_groups {text : Str} (h : textOk text = true) : Grouped (textsLex text) (textPieces text) := by
  unfold textsLex textPieces
  split
  · exact .nil
  · rename_i hne
    have hw := text_whole h hne
    obtain ⟨h1, h2⟩ := textLex_spec hw
    have hs : slices (textLex text ++ [(.lineBreak, c!"\n")]) = text ++ c!"\n" := by
      rw [slices_append, h1]; rfl
    rw [← hs]
    refine Syms.grouped ⟨by rw [hs]; simp, ?_⟩
    intro rest hf
    refine LexList.append (h2 _ (.inr ⟨rest, rfl⟩)) ?_
    have hn : fits c!"\n" rest = true := by
      cases rest with
      | nil => rfl
      | cons c rest =>
        rw [hs] at hf
        obtain ⟨a, t, rfl⟩ := List.exists_cons_of_ne_nil hne
        have hl : (a :: (t ++ c!"\n")).getLast? = some '\n' := by
          rw [← List.cons_append, List.getLast?_append]; rfl
        have e : apart (a :: (t ++ c!"\n")) c = (c != '\n' && c != '\r') := by
          cases t <;> (simp only [List.nil_append, List.cons_append] at hl ⊢; simp only [apart, hl, if_true])
        simp only [List.cons_append, fits, e] at hf
        simp at hf
        simp [fits, apart, isAlnumA, isAlphaA, isLowerA, isUpperA, isDigitA, doubling, hf]
    exact ((Sym.syms ⟨by simp, fun rest hf => lex_newline hf⟩ : Syms [(.lineBreak, c!"\n")])).2 rest hn

mutual
theorem block_groups : ∀ (b : Block), b.ok = true → Grouped b.lex b.pieces
  | .within s body, h => by
    simp only [Block.ok, Bool.and_eq_true] at h
    have h1 := grouped_of (section_sym h.1.1).1
    have h2 := grouped_of (section_sym h.1.1).2
    rw [open_section_str] at h1
    rw [close_section_str] at h2
    exact h1.append (.cons ⟨by simp, fun rest hf => lex_newline hf⟩ ((blocks_groups body h.1.2).append h2))
  | .foreign v text, h => by
    simp only [Block.ok, Bool.and_eq_true] at h
    have h1 := grouped_of (foreign_sym h.1).1
    have h2 := grouped_of (foreign_sym h.1).2
    rw [open_foreign_str] at h1
    rw [close_foreign_str] at h2
    exact h1.append (.cons ⟨by simp, fun rest hf => lex_newline hf⟩ ((text_groups h.2).append h2))
  | .gadget g, h => by
    simp only [Block.ok] at h
    have h1 := grouped_of (gadget_sym h)
    rw [gadget_str] at h1
    exact h1
  | .grid g, h => by
    simp only [Block.ok] at h
    have h1 := grouped_of (grid_sym h)
    rw [grid_str] at h1
    exact h1
  | .biblio b, h => by
    simp only [Block.ok] at h
    have h1 := grouped_of (biblio_sym h)
    rw [biblio_str] at h1
    exact h1
  | .para _, h | .heading .., h | .rule _, h | .center .., h | .clear .., h | .list .., h | .quote _, h | .table _, h
  | .definitions _, h => by
    rw [← flat_pieces rfl]; exact grouped_of (flat_sym rfl h)
theorem blocks_groups : ∀ (d : List (Block × Bool)), Block.ok.go d = true → Grouped (Block.lex.go d) (Block.pieces.go d)
  | [], _ => .nil
  | (b, t) :: d, h => by
    simp only [Block.ok.go, Bool.and_eq_true] at h
    refine (block_groups b h.1).append ?_
    have := Grouped.cons (sep_sym t) (blocks_groups d h.2)
    cases t <;> exact this
end

theorem page_groups : ∀ d : Page, (d.all (·.1.ok)) = true → Grouped (Page.lex d) (Page.pieces d)
  | [], _ => .nil
  | [(b, _)], h => by
    simp at h
    exact block_groups b h
  | (b, tight) :: y :: bs, h => by
    rw [List.all_cons, Bool.and_eq_true] at h
    refine (block_groups b h.1).append ?_
    have := Grouped.cons (sep_sym tight) (page_groups (y :: bs) h.2)
    cases tight <;> exact this

end Ftml
