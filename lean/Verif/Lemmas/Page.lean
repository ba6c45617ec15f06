import Verif.Lemmas.DefinitionRun
import Verif.Lemmas.GadgetRun
import Verif.Lemmas.BibRun
/-
Pages are parsed to their meaning: the induction.
-/
namespace Ftml
open M Markup Lexer
variable {env : Env}

/-! ### Where the blocks of a page are -/

/-- The tokens are those of the blocks, up to `T`: the end of the input or (`c`) the end of a box. -/
def Laid (env : Env) (c : Bool) (T : List ETok) (d : Page) (toks : List ETok) : Prop :=
  ∃ xs, toks = xs ++ T ∧ xs.map ETok.pair = (if c then Block.lex.go d else Page.lex d) ∧
    (if c then (T.headD default).token = .leftBlockEnd ∧ 2 ≤ T.length else ∃ e, T = [e] ∧ e.token = .inputEnd) ∧
    toks <:+ (tokenize env.text).tokens

theorem Laid.end_ne {c : Bool} {T : List ETok} {d : Page} {toks : List ETok} (h : Laid env c T d toks) : T ≠ [] := by
  obtain ⟨xs, rfl, _, h, _⟩ := h
  cases c with
  | false => obtain ⟨e, rfl, _⟩ := h; simp
  | true =>
    rintro rfl
    simp at h

theorem Laid.nil {c : Bool} {T toks : List ETok} (h : Laid env c T [] toks) : toks = T ∧
    ((T.headD default).token = .inputEnd ∨ (T.headD default).token = .leftBlockEnd) := by
  obtain ⟨xs, rfl, hx, he, _⟩ := h
  have : xs = [] := by cases c <;> simpa [Page.lex, Block.lex.go] using hx
  subst this
  refine ⟨rfl, ?_⟩
  cases c with
  | false => obtain ⟨e, rfl, he⟩ := he; exact .inl he
  | true => exact .inr he.1

/-- What follows a block. -/
def Follow (env : Env) (c : Bool) (T : List ETok) (t : Bool) (d : Page) (tail rest : List ETok) : Prop :=
  Laid env c T d rest ∧ ((c = false ∧ d = [] ∧ tail = rest) ∨ ((c = true ∨ d ≠ []) ∧ ∃ s, tail = s :: rest ∧ s.pair = sepLex t))

theorem Laid.cons {c : Bool} {T : List ETok} {b : Block} {t : Bool} {d : Page} {toks : List ETok} (h : Laid env c T ((b, t) :: d) toks) :
    ∃ xs tail rest, toks = xs ++ tail ∧ xs.map ETok.pair = b.lex ∧ toks <:+ (tokenize env.text).tokens ∧ Follow env c T t d tail rest := by
  obtain ⟨xs, rfl, hx, he, hs⟩ := h
  have sep : ∀ {l}, xs.map ETok.pair = b.lex ++ sepLex t :: l → (if c then Block.lex.go d else Page.lex d) = l → (c = true ∨ d ≠ []) →
      ∃ ys tail rest, xs ++ T = ys ++ tail ∧ ys.map ETok.pair = b.lex ∧ (xs ++ T) <:+ (tokenize env.text).tokens ∧
        Follow env c T t d tail rest := by
    intro l hx hl hcd
    obtain ⟨ys, zs, rfl, hy, hz⟩ := map_append_split hx
    obtain ⟨s, zs, rfl, hs0, hz⟩ := List.map_eq_cons_iff.1 hz
    refine ⟨ys, s :: (zs ++ T), zs ++ T, by simp, hy, hs, ⟨zs, rfl, by rw [hl]; exact hz, he, ?_⟩, .inr ⟨hcd, s, rfl, hs0⟩⟩
    have e1 : ys ++ s :: zs ++ T = ys ++ (s :: (zs ++ T)) := by simp
    rw [e1] at hs
    exact List.IsSuffix.trans (List.suffix_cons s _) (List.IsSuffix.trans (List.suffix_append ys _) hs)
  cases c with
  | true => exact sep hx rfl (.inl rfl)
  | false =>
    cases d with
    | nil =>
      have hs2 : T <:+ (tokenize env.text).tokens := List.IsSuffix.trans (List.suffix_append xs _) hs
      exact ⟨xs, T, T, rfl, by simpa [Page.lex] using hx, hs, ⟨[], rfl, rfl, he, hs2⟩, .inl ⟨rfl, rfl, rfl⟩⟩
    | cons y d => exact sep hx rfl (.inr (by simp))

theorem Laid.ne {c : Bool} {T : List ETok} {d : Page} {toks : List ETok} (h : Laid env c T d toks) : toks ≠ [] := by
  have := h.end_ne
  obtain ⟨xs, rfl, _⟩ := h; simp [this]

theorem Laid.suffix {c : Bool} {T : List ETok} {d : Page} {toks : List ETok} (h : Laid env c T d toks) :
    toks <:+ (tokenize env.text).tokens := by
  obtain ⟨_, _, _, _, h⟩ := h; exact h

theorem sep_tok {s : ETok} {t : Bool} (h : s.pair = sepLex t) : s.token = if t then .lineBreak else .paragraphBreak := by
  have : s.token = (sepLex t).1 := congrArg (·.1) h
  rw [this]; cases t <;> rfl

theorem Follow.endsLine {c : Bool} {T : List ETok} {t : Bool} {d : Page} {tail rest : List ETok} (h : Follow env c T t d tail rest) :
    EndsLine tail := by
  obtain ⟨hl, ⟨rfl, rfl, rfl⟩ | ⟨hd, s, rfl, hs⟩⟩ := h
  · obtain ⟨xs, rfl, hx, ⟨e, rfl, he⟩, _⟩ := hl
    have : xs = [] := by simpa [Page.lex] using hx
    subst this
    exact .inr (.inr he)
  · have := sep_tok hs
    cases t
    · exact .inr (.inl ⟨this, hl.ne⟩)
    · exact .inl ⟨this, hl.ne⟩

theorem Follow.tail_ne {c : Bool} {T : List ETok} {t : Bool} {d : Page} {tail rest : List ETok} (h : Follow env c T t d tail rest) :
    tail ≠ [] := by
  have := h.endsLine
  cases tail <;> first | exact this.elim | simp

theorem Follow.noEnd {c : Bool} {T : List ETok} {t : Bool} {d : Page} {tail rest : List ETok} (h : Follow env c T t d tail rest) :
    (tail.headD default).token ≠ .leftBlockEnd := by
  have := h.endsLine
  cases tail with
  | nil => exact this.elim
  | cons x xs => rcases this with ⟨h, _⟩ | ⟨h, _⟩ | h <;> simp [h]

/-- A line is in order or nothing is left. -/
def Fresh (d : Page) (sol : Bool) : Prop := d = [] ∨ sol = true

theorem Follow.afterClose {c : Bool} {T : List ETok} {t : Bool} {d : Page} {tail rest : List ETok} (h : Follow env c T t d tail rest)
    (sol : Bool) : ∃ sol', afterClose tail sol = (rest, sol') ∧ Fresh d sol' := by
  obtain ⟨hl, ⟨rfl, rfl, rfl⟩ | ⟨hd, s, rfl, hs⟩⟩ := h
  · obtain ⟨xs, rfl, hx, ⟨e, rfl, he⟩, _⟩ := hl
    have : xs = [] := by simpa [Page.lex] using hx
    subst this
    exact ⟨sol, by simp [Ftml.afterClose, he], .inl rfl⟩
  · have := sep_tok hs
    refine ⟨true, ?_, .inr rfl⟩
    cases t <;> simp [Ftml.afterClose, this, isLineStartTok]

theorem Follow.length {c : Bool} {T : List ETok} {t : Bool} {d : Page} {tail rest : List ETok} (h : Follow env c T t d tail rest) :
    rest.length ≤ tail.length := by
  obtain ⟨hl, ⟨rfl, rfl, rfl⟩ | ⟨hd, s, rfl, hs⟩⟩ := h <;> simp

/-! ### How blocks start -/

/-- Blocks whose contents and order are in order. -/
structure Fine (d : Page) : Prop where
  ok : ∀ b ∈ d, b.1.ok = true
  gaps : Page.gapsOk d = true
  tabs : Page.noTabs d = true

theorem Fine.tail {b : Block × Bool} {d : Page} (h : Fine (b :: d)) : Fine d := by
  obtain ⟨h1, h2, h3⟩ := h
  refine ⟨fun x hx => h1 x (by simp [hx]), ?_, by simp only [Page.noTabs, List.all_cons, Bool.and_eq_true] at h3; exact h3.2⟩
  cases d with
  | nil => rfl
  | cons y d =>
    obtain ⟨b, t⟩ := b
    obtain ⟨b', t'⟩ := y
    simp only [Page.gapsOk, Bool.and_eq_true] at h2
    exact h2.2

/-- It is a list of definitions. -/
def isDefs : Block → Bool
  | .definitions _ => true
  | _ => false

theorem block_skip {b : Block} {xs tail : List ETok} (hok : b.ok = true) (hb : b.isPara = false) (hb' : b.isBox = false) (hb2 : isDefs b = false) (hx : xs.map ETok.pair = b.lex) :
    skipNext (xs ++ tail) = true := by
  cases b with
  | para => cases hb
  | within | foreign | gadget | grid | biblio => cases hb'
  | heading l t g body =>
    obtain ⟨x, xs, rfl, hx, _⟩ := List.map_eq_cons_iff.1 hx
    have hx : x.token = .heading := congrArg (·.1) hx
    simp [skipNext, hx, isSkipTok]
  | rule n =>
    obtain ⟨x, xs, rfl, hx, _⟩ := List.map_eq_cons_iff.1 hx
    have hx : x.token = .tripleDash := congrArg (·.1) hx
    simp [skipNext, hx, isSkipTok]
  | center g body =>
    obtain ⟨x, xs, rfl, hx, _⟩ := List.map_eq_cons_iff.1 hx
    have hx : x.token = .equals := congrArg (·.1) hx
    simp [skipNext, hx, isSkipTok]
  | clear n s =>
    obtain ⟨x, xs, rfl, hx, _⟩ := List.map_eq_cons_iff.1 hx
    have hx : x.token = clearTok s := congrArg (·.1) hx
    cases s <;> simp [skipNext, hx, isSkipTok, clearTok]
  | list kind items =>
    simp only [Block.ok, Bool.and_eq_true] at hok
    obtain ⟨x, xs, rfl, hx2⟩ := list_head hok.1.1 hx
    cases kind <;> simp [skipNext, hx2, isSkipTok, markTok]
  | quote items =>
    simp only [Block.ok, Bool.and_eq_true] at hok
    obtain ⟨x, xs, rfl, hx2⟩ := quote_head (lines_ne hok.1.1 hok.1.2) hx
    simp [skipNext, hx2, isSkipTok]
  | table rows =>
    obtain ⟨x, xs, rfl, hx2⟩ := table_first hok hx
    show isSkipTok x.token = true
    revert hx2
    cases x.token <;> first | (intro h; cases h; done) | (intro h; rfl)
  | definitions => cases hb2

/-- The next block does not go on with text. -/
theorem Laid.skip {c : Bool} {T : List ETok} {b : Block} {t : Bool} {d : Page} {toks : List ETok} (h : Laid env c T ((b, t) :: d) toks)
    (hok : b.ok = true) (hb : b.isPara = false) (hb' : b.isBox = false) (hb2 : isDefs b = false) : skipNext toks = true := by
  obtain ⟨xs, tail, rest, rfl, hx, _, _⟩ := h.cons
  exact block_skip hok hb hb' hb2 hx

/-- The next block is not on the next line if it starts with a block, unless it is a box. -/
def Parted (t : Bool) (d : Page) : Prop := t = true → ∀ b t' d', d = (b, t') :: d' → b.isBox = false → startsBlock b.pieces = false

theorem Fine.parted {b : Block} {t : Bool} {d : Page} (h : Fine ((b, t) :: d)) : Parted t d := by
  rintro rfl b' t' d' rfl hb
  have := h.2
  simp [Page.gapsOk, hb] at this
  exact this.1.1.2

theorem within_of {xs tail : List ETok} (hc : ∀ x ∈ xs, Classed (x.token, x.slice)) : Within tail.length xs tail := by
  intro a b e hb
  obtain ⟨z, zs, rfl⟩ := List.exists_cons_of_ne_nil hb
  have hcx := hc z (by rw [e]; simp)
  unfold Classed at hcx
  dsimp only at hcx
  rintro ((h | ⟨_, h⟩) | ⟨z', zs', e', h⟩)
  rotate_left
  · simp at h
    omega
  · cases e'
    rw [classed_column (hc z (by rw [e]; simp))] at h; cases h
  · rcases hcx with ⟨h1, _⟩ | ⟨h1, _⟩ | ⟨h1, _⟩ | ⟨h1, _⟩
    · rw [h1] at h; cases h
    · rw [h1] at h; cases h
    · revert h h1; cases z.token <;> simp [isLineTok, isStop]
    · revert h h1; cases z.token <;> simp [isInlineTok, isStop]

/-- The tokens of a block of text. -/
theorem para_tline {c : Bool} {T : List ETok} {body : List Inline} {t : Bool} {d : Page} {xs tail rest : List ETok}
    (hok : (Block.para body).ok = true) (hx : xs.map ETok.pair = Inline.lex.go body) (ht : Follow env c T t d tail rest) :
    TLine tail.length false (xs ++ tail) ∧ Within tail.length xs tail := by
  simp only [Block.ok, Bool.and_eq_true] at hok
  have hcl := pair_classed hok.1.1 hx
  have hlo : linesOk false (xs.map (·.slice)) = true := by rw [pair_slices hx]; exact hok.2
  exact ⟨tline_of ht.endsLine.stops hcl hlo, within_of hcl⟩

/-- The symbol a table starts with. -/
def tableHead : List (List Cell) → Token
  | (c :: _) :: _ => if c.more = 0 then cellTok c.kind else .tableColumn
  | _ => .tableColumn

theorem tableHead_column (rows : List (List Cell)) : isColumnTok (tableHead rows) = true := by
  unfold tableHead
  split
  · split
    · exact cellTok_column _
    · rfl
  · rfl

/-- The symbol a block starts with. -/
def headOf : Block → Token
  | .para _ => .other
  | .heading .. => .heading
  | .rule _ => .tripleDash
  | .center .. => .equals
  | .clear _ s => clearTok s
  | .list kind _ => markTok kind
  | .quote _ => .quote
  | .table rows => tableHead rows
  | .definitions _ => .colon
  | .within .. | .foreign .. | .gadget _ | .grid _ | .biblio _ => .leftBlock

theorem section_head (s : Section) : ∃ l, s.openLex = (.leftBlock, c!"[[") :: l := by
  cases s <;> exact ⟨_, rfl⟩

theorem foreign_head (v : Foreign) : ∃ l, v.openLex = (.leftBlock, c!"[[") :: l := by
  cases v with
  | math _ label _ => cases label <;> exact ⟨_, rfl⟩
  | _ => exact ⟨_, rfl⟩

theorem gadget_head (g : Gadget) : ∃ l, g.lex = (.leftBlock, c!"[[") :: l := by
  cases g <;> exact ⟨_, rfl⟩

theorem table_head {rows : List (List Cell)} {xs : List ETok} (hok : (Block.table rows).ok = true)
    (hxs : xs.map ETok.pair = (Block.table rows).lex) : ∃ x r, xs = x :: r ∧ x.token = tableHead rows := by
  simp only [Block.ok, Bool.and_eq_true, Bool.not_eq_true', List.isEmpty_eq_false_iff] at hok
  simp only [Block.lex] at hxs
  cases rows with
  | nil => exact (hok.1 rfl).elim
  | cons cells rows =>
    have h1 := hok.2
    rw [List.all_cons, Bool.and_eq_true, Bool.and_eq_true, Bool.not_eq_true', List.isEmpty_eq_false_iff] at h1
    cases cells with
    | nil => exact (h1.1.1 rfl).elim
    | cons c cs =>
      have : ∃ l, xs.map ETok.pair = cellLex c ++ l := by
        cases rows with
        | nil => exact ⟨_, by simpa [joinLex, rowLex] using hxs⟩
        | cons r rows => exact ⟨_, by simpa [joinLex, rowLex] using hxs⟩
      obtain ⟨l, hl⟩ := this
      obtain ⟨ys, zs, rfl, hys, _⟩ := map_append_split hl
      obtain ⟨x, r, rfl, hx, _⟩ := cell_first hys
      exact ⟨x, r ++ zs, rfl, hx⟩

theorem block_head {b : Block} {xs : List ETok} (hok : b.ok = true) (hb : b.isPara = false) (hx : xs.map ETok.pair = b.lex) :
    ∃ x zs, xs = x :: zs ∧ x.token = headOf b := by
  cases b with
  | para => cases hb
  | list kind items =>
    simp only [Block.ok, Bool.and_eq_true] at hok
    exact list_head hok.1.1 hx
  | quote items =>
    simp only [Block.ok, Bool.and_eq_true] at hok
    exact quote_head (lines_ne hok.1.1 hok.1.2) hx
  | table rows => exact table_head hok hx
  | definitions ds =>
    simp only [Block.ok, Bool.and_eq_true, Bool.not_eq_true', List.isEmpty_eq_false_iff] at hok
    obtain ⟨x, y, r, rfl, hx, _⟩ := defs_head hok.1 hx
    exact ⟨x, y :: r, rfl, hx⟩
  | within s body =>
    obtain ⟨l, hl⟩ := section_head s
    simp only [Block.lex, hl, List.cons_append] at hx
    obtain ⟨x, xs, rfl, hx, _⟩ := List.map_eq_cons_iff.1 hx
    exact ⟨x, xs, rfl, congrArg (·.1) hx⟩
  | foreign v text =>
    obtain ⟨l, hl⟩ := foreign_head v
    simp only [Block.lex, hl, List.cons_append] at hx
    obtain ⟨x, xs, rfl, hx, _⟩ := List.map_eq_cons_iff.1 hx
    exact ⟨x, xs, rfl, congrArg (·.1) hx⟩
  | gadget g =>
    obtain ⟨l, hl⟩ := gadget_head g
    simp only [Block.lex, hl] at hx
    obtain ⟨x, xs, rfl, hx, _⟩ := List.map_eq_cons_iff.1 hx
    exact ⟨x, xs, rfl, congrArg (·.1) hx⟩
  | grid g =>
    obtain ⟨l, hl⟩ := grid_head g
    simp only [Block.lex, hl] at hx
    obtain ⟨x, xs, rfl, hx, _⟩ := List.map_eq_cons_iff.1 hx
    exact ⟨x, xs, rfl, congrArg (·.1) hx⟩
  | biblio b =>
    obtain ⟨l, hl⟩ := biblio_head b
    simp only [Block.lex, hl] at hx
    obtain ⟨x, xs, rfl, hx, _⟩ := List.map_eq_cons_iff.1 hx
    exact ⟨x, xs, rfl, congrArg (·.1) hx⟩
  | _ =>
    obtain ⟨x, xs, rfl, hx, _⟩ := List.map_eq_cons_iff.1 hx
    exact ⟨x, xs, rfl, congrArg (·.1) hx⟩

/-- How the tokens of a page may start. -/
def startsAs (d : Page) (t : Token) : Prop :=
  (d = [] ∧ (t = .inputEnd ∨ t = .leftBlockEnd)) ∨ (∃ body r d', d = (.para body, r) :: d' ∧ lineOpen t = true ∧
    (t = .whitespace → ∃ n is, body = .plain (.blanks n) :: is) ∧ isStop t = false ∧ t ≠ .leftBlockEnd) ∨
  (∃ b r d', d = (b, r) :: d' ∧ b.isPara = false ∧ t = headOf b)

theorem charTok_blank (c : Char) : charTok c ≠ .whitespace := by
  unfold charTok
  repeat' split
  all_goals simp

theorem inline_blanks {i : Inline} {x : Token × Str} {r : List (Token × Str)} (h : i.lex = x :: r) (hx : x.1 = .whitespace) :
    ∃ n, i = .plain (.blanks n) := by
  cases i with
  | plain p =>
    simp only [Inline.lex, List.cons.injEq] at h
    rw [← h.1] at hx
    cases p with
    | word => cases hx
    | char c => exact (charTok_blank c hx).elim
    | blanks n => exact ⟨n, rfl⟩
  | newline => simp only [Inline.lex, List.cons.injEq] at h; rw [← h.1] at hx; cases hx
  | styled s body => simp only [Inline.lex, List.cons.injEq] at h; rw [← h.1] at hx; cases s <;> cases hx
  | color n body => simp only [Inline.lex, List.cons.injEq] at h; rw [← h.1] at hx; cases hx
  | raw body => simp only [Inline.lex, List.cons.injEq] at h; rw [← h.1] at hx; cases hx
  | comment body => simp only [Inline.lex, List.cons.injEq] at h; rw [← h.1] at hx; cases hx
  | wrap w body =>
    have := (inline_blank h hx).1
    cases this
  | leaf l =>
    have := (inline_blank h hx).1
    cases this
  | note name body close => simp only [Inline.lex, List.cons.injEq] at h; rw [← h.1] at hx; cases hx

theorem laid_starts {c : Bool} {T : List ETok} {d : Page} {toks : List ETok} (h : Laid env c T d toks) (hf : Fine d) :
    startsAs d (toks.headD default).token := by
  cases d with
  | nil =>
    obtain ⟨rfl, he⟩ := h.nil
    exact .inl ⟨rfl, he⟩
  | cons x d =>
    obtain ⟨b, t⟩ := x
    obtain ⟨xs, tail, rest, rfl, hx, _, hfo⟩ := h.cons
    have hok := hf.1 (b, t) (by simp)
    cases hb : b.isPara with
    | false =>
      obtain ⟨x, zs, rfl, hx2⟩ := block_head hok hb hx
      exact .inr (.inr ⟨b, t, d, rfl, hb, hx2⟩)
    | true =>
      cases b with
      | para body =>
        obtain ⟨htl, _⟩ := para_tline hok hx hfo
        simp only [Block.ok, Bool.and_eq_true] at hok
        cases body with
        | nil => simp at hok
        | cons i is =>
          obtain ⟨x, r, hi, _, hsp⟩ := inline_head i
          simp only [Block.lex, Inline.lex.go, hi, List.cons_append] at hx
          obtain ⟨y, zs, rfl, hy, _⟩ := List.map_eq_cons_iff.1 hx
          have hyt : y.token = x.1 := congrArg (·.1) hy
          refine .inr (.inl ⟨_, t, d, rfl, tline_false htl, ?_, ?_, ?_⟩)
          · intro hw
            obtain ⟨n, rfl⟩ := inline_blanks hi (by rw [← hy]; exact hw)
            exact ⟨n, is, rfl⟩
          · show isStop y.token = false
            rw [hyt]; exact hsp.2.2
          · show y.token ≠ _
            rw [hyt]; exact inline_noEnd hi
      | _ => cases hb

theorem headOf_tok (b : Block) : headOf b ≠ .inputEnd ∧ headOf b ≠ .paragraphBreak ∧ headOf b ≠ .leftBlockEnd ∧ headOf b ≠ .lineBreak := by
  cases b with
  | clear n s => cases s <;> simp [headOf, clearTok]
  | list k => cases k <;> simp [headOf, markTok]
  | table rows =>
    have := tableHead_column rows
    refine ⟨?_, ?_, ?_, ?_⟩ <;> (intro e; simp only [headOf] at e; rw [e] at this; cases this)
  | _ => simp [headOf]

/-- No block starts with a stop. -/
theorem laid_goes {c : Bool} {T : List ETok} {d : Page} {toks : List ETok} (h : Laid env c T d toks) (hf : Fine d) (hd : d ≠ []) :
    (toks.headD default).token ≠ .inputEnd ∧ (toks.headD default).token ≠ .paragraphBreak ∧ (toks.headD default).token ≠ .leftBlockEnd := by
  rcases laid_starts h hf with ⟨h, _⟩ | ⟨_, _, _, _, _, _, h1, h2⟩ | ⟨b, _, _, _, _, h⟩
  · exact (hd h).elim
  · refine ⟨?_, ?_, h2⟩ <;> (intro e; rw [e] at h1; cases h1)
  · rw [h]
    have := headOf_tok b
    exact ⟨this.1, this.2.1, this.2.2.1⟩

/-! ### The paragraph stack -/

theorem pushElements_false {es : List Elem} (hb : ∀ e ∈ es, isBr e = false) : ∀ (s : PStack), es ≠ [] →
    PStack.pushElements false es s = ⟨[], s.intoElements ++ es, s.errors⟩ := by
  induction es with
  | nil => intro s h; exact (h rfl).elim
  | cons e es ih =>
    intro s _
    rw [PStack.pushElements]
    have he := hb e (by simp)
    rw [if_neg (by rw [Bool.and_eq_true]; intro h; have h2 : isBr e = true := h.2; rw [he] at h2; cases h2)]
    have h1 : s.pushElement e false = ⟨[], s.intoElements ++ [e], s.errors⟩ := by
      obtain ⟨c, f, er⟩ := s
      simp only [PStack.pushElement, PStack.intoElements, PStack.endParagraph, Bool.false_eq_true, if_false]
      cases c <;> rfl
    rw [h1]
    cases es with
    | nil => simp [PStack.pushElements]
    | cons e2 es =>
      rw [ih (fun e he => hb e (by simp [he])) _ (by simp)]
      simp [PStack.intoElements, PStack.endParagraph]

theorem endParagraph_into (s : PStack) : s.endParagraph.intoElements = s.intoElements ∧ s.endParagraph.current = [] ∧
    s.endParagraph.errors = s.errors := by
  obtain ⟨c, f, er⟩ := s
  cases c <;> simp [PStack.intoElements, PStack.endParagraph]

/-! ### Separators -/

theorem eats_skip {x : ETok} {rest : List ETok} {sol : Bool} (hx : x.token = .lineBreak) (hr : skipNext rest = true)
    (hs : rest <:+ (tokenize env.text).tokens) : Eats env 1 sol [x] rest [] true [] := by
  obtain ⟨y, ys, rfl⟩ : ∃ y ys, rest = y :: ys := by
    cases rest with
    | nil => cases hr
    | cons y ys => exact ⟨y, ys, rfl⟩
  have hy : isSkipTok y.token = true := hr
  refine eats_tok (by simp) (rs1 := [.blockSkipNewline, .definitionListSkipNewline]) (r := .lineBreak) (rs2 := [])
    (by rw [hx]; rfl) ?_ (by simp [RuleId.needsLineStart]) noParts_nil ?_
  · intro r hr'
    simp at hr'
    rcases hr' with rfl | rfl
    · refine fails_blockSkip ?_ ?_ <;> (intro e; rw [e] at hy; cases hy)
    · refine fails_defSkip ?_
      intro e; rw [e] at hy; cases hy
  · intro cons p sh
    show ruleLineBreak env _ = _
    unfold ruleLineBreak
    rw [bind_ok (evaluateFn_ok (b := true) (s' := ⟨p.at (y :: ys) (isLineStartTok x.token), sh⟩) ?_)]
    · rfl
    · rw [bind_ok (step_at ..)]
      unfold getOptionalSpace getOptionalToken
      rw [bind_ok (s' := ⟨p.at (y :: ys) (isLineStartTok x.token), sh⟩) (a := ())]
      · rw [bind_ok (s' := ⟨p.at (y :: ys) (isLineStartTok x.token), sh⟩) (a := y.token) rfl, hy]
        rfl
      · rw [bind_ok (s' := ⟨p.at (y :: ys) (isLineStartTok x.token), sh⟩) (a := y.token) rfl]
        rw [if_neg (by intro e; rw [e] at hy; cases hy)]
        rfl

theorem eats_defSkip {x : ETok} {rest : List ETok} {sol : Bool} (hx : x.token = .lineBreak) {y z : ETok} {zs : List ETok}
    (hr : rest = y :: z :: zs) (hy : y.token = .colon) (hz : z.token = .whitespace) : Eats env 1 sol [x] rest [] true [] := by
  subst hr
  refine eats_tok (by simp) (rs1 := [.blockSkipNewline]) (r := .definitionListSkipNewline) (rs2 := [.lineBreak])
    (by rw [hx]; rfl) ?_ (by simp [RuleId.needsLineStart]) noParts_nil ?_
  · intro r hr'
    simp at hr'
    subst hr'
    refine fails_blockSkip ?_ ?_ <;> (intro e; rw [e] at hy; cases hy)
  · intro cons p sh
    show ruleDefinitionListSkip env _ = _
    unfold ruleDefinitionListSkip
    rw [bind_ok (a := (x.token, some y.token, some z.token)) (s' := ⟨p.at (x :: y :: z :: zs) sol, sh⟩) rfl]
    rw [if_pos (by rw [hx, hy, hz])]
    rfl

/-- Text may go on only in a fresh paragraph. -/
def Ready (d : Page) (s : PStack) : Prop := s.current = [] ∨ ∀ b t d', d = (b, t) :: d' → b.isPara = false

/-- Parsing goes on up to the end and gives the meaning of the blocks. -/
def Finishes (env : Env) (fuel : Nat) (p : PState) (c : Bool) (T : List ETok) (d : Page) (toks : List ETok) (sol : Bool) (sh : Shared)
    (s : PStack) : Prop :=
  ∃ E sol' s', (E = T ∨ c = true ∧ ∃ x, E = x :: T ∧ x.token = .lineBreak) ∧
    Gathers env (consume fuel) p toks sol sh s E sol' (addNotes env.cx sh d) s' ∧
    s'.errors = s.errors ∧ s'.intoElements = s.intoElements ++ Page.elems env.cx d

theorem goesOn_break {x : ETok} {rest : List ETok} (hx : x.token = .lineBreak) (hr : rest ≠ [])
    (h : (rest.headD default).token ≠ .leftBlockEnd) : GoesOn (x :: rest) := by
  have := List.length_pos_iff.2 hr
  exact ⟨by simp [hx], by simp [hx], ⟨by simp [hx], fun _ _ => h⟩, by simp; omega⟩

theorem sep_finishes {c : Bool} {T : List ETok} {t : Bool} {d : Page} {tail rest : List ETok} (h : Follow env c T t d tail rest) (hf : Fine d)
    (hp : Parted t d) {fuel : Nat} {p : PState} {sol : Bool} {sh : Shared} {s : PStack} (hfu : 1 ≤ fuel) (hd : p.depth + 1 ≤ 100)
    (hr : t = false ∨ Ready d s)
    (next : ∀ sol' s', Fresh d sol' → Ready d s' → s'.intoElements = s.intoElements → s'.errors = s.errors →
      Finishes env fuel p c T d rest sol' sh s') : Finishes env fuel p c T d tail sol sh s := by
  have via : ∀ {sol' s'}, Gathers env (consume fuel) p tail sol sh s rest sol' sh s' → Fresh d sol' → Ready d s' →
      s'.intoElements = s.intoElements → s'.errors = s.errors → Finishes env fuel p c T d tail sol sh s := by
    intro sol' s' hg h1 h2 h3 h4
    obtain ⟨E, sol2, s2, k1, k2, k3, k4⟩ := next sol' s' h1 h2 h3 h4
    exact ⟨E, sol2, s2, k1, hg.trans k2, by rw [k3, h4], by rw [k4, h3]⟩
  obtain ⟨hl, ⟨rfl, rfl, rfl⟩ | ⟨hdn, x, rfl, hs⟩⟩ := h
  · exact via .nil (.inl rfl) (.inr (by simp)) rfl rfl
  have hx := sep_tok hs
  have hne := hl.ne
  cases t with
  | false =>
    obtain ⟨y, ys, rfl⟩ := List.exists_cons_of_ne_nil hne
    obtain ⟨h1, h2, h3⟩ := endParagraph_into s
    exact via (.brk hx .nil) (.inr rfl) (.inl h2) h1 h3
  | true =>
    have hr := hr.resolve_left (by simp)
    have hx : x.token = .lineBreak := hx
    cases d with
    | nil =>
      obtain ⟨rfl, _⟩ := hl.nil
      refine ⟨x :: rest, sol, s, .inr ⟨hdn.resolve_right (by simp), x, rfl, hx⟩, ?_, rfl, by simp [Page.elems]⟩
      simpa [addNotes_nil] using Gathers.nil
    | cons b0 d =>
    obtain ⟨b, t'⟩ := b0
    have hgo := laid_goes hl hf (by simp)
    have hgoes := goesOn_break hx hne hgo.2.2
    have hsol : solAfter [x] = true := by simp [solAfter, hx, isLineStartTok]
    cases hb : b.isPara with
    | false =>
      have hready : Ready ((b, t') :: d) s := .inr (by
        intro b' t'' d' e
        simp only [List.cons.injEq, Prod.mk.injEq] at e
        rw [← e.1.1]; exact hb)
      have heat : Eats env 1 sol [x] rest [] true [] := by
        cases hb' : b.isBox with
        | false =>
          cases hb2 : isDefs b with
          | false => exact eats_skip (sol := sol) hx (hl.skip (hf.1 (b, t') (by simp)) hb hb' hb2) hl.suffix
          | true =>
            cases b with
            | definitions ds =>
              have hok := hf.1 (.definitions ds, t') (by simp)
              simp only [Block.ok, Bool.and_eq_true, Bool.not_eq_true', List.isEmpty_eq_false_iff] at hok
              obtain ⟨xs, tail, rest', e, hxs, _, _⟩ := hl.cons
              obtain ⟨y, z, zs, rfl, hy, hz⟩ := defs_head hok.1 hxs
              exact eats_defSkip (sol := sol) hx (by rw [e]; rfl) hy hz
            | _ => cases hb2
        | true =>
          cases b with
          | within w body =>
            have hok := hf.1 (.within w body, t') (by simp)
            simp only [Block.ok, Bool.and_eq_true] at hok
            obtain ⟨xs, tail, rest', e, hxs, hsuf, hfo⟩ := hl.cons
            simp only [Block.lex] at hxs
            obtain ⟨os, ys, rfl, hos, hys⟩ := map_append_split hxs
            obtain ⟨y, ys, rfl, _, _⟩ := List.map_eq_cons_iff.1 hys
            have e' : rest = os ++ (y :: ys ++ tail) := by rw [e]; simp
            rw [e'] at hsuf ⊢
            refine eats_rule (n := 0) (xs := []) (by simp) (rs1 := []) (r := .blockSkipNewline) (rs2 := [.definitionListSkipNewline, .lineBreak])
              (by rw [hx]; rfl) (by simp) (by simp [RuleId.needsLineStart]) noParts_nil ?_
            intro fuel p sh _ _
            have := section_skip (env := env) (w := x) (p := p) (sol := sol) (sh := sh) hok.1.1 hos (rest := y :: ys ++ tail) (by simp) hsuf
            exact this
          | foreign v text =>
            have hok := hf.1 (.foreign v text, t') (by simp)
            simp only [Block.ok, Bool.and_eq_true] at hok
            obtain ⟨xs, tail, rest', e, hxs, hsuf, hfo⟩ := hl.cons
            simp only [Block.lex] at hxs
            obtain ⟨os, ys, rfl, hos, hys⟩ := map_append_split hxs
            obtain ⟨y, ys, rfl, _, _⟩ := List.map_eq_cons_iff.1 hys
            have e' : rest = os ++ (y :: ys ++ tail) := by rw [e]; simp
            rw [e'] at hsuf ⊢
            refine eats_rule (n := 0) (xs := []) (by simp) (rs1 := []) (r := .blockSkipNewline) (rs2 := [.definitionListSkipNewline, .lineBreak])
              (by rw [hx]; rfl) (by simp) (by simp [RuleId.needsLineStart]) noParts_nil ?_
            intro fuel p sh _ _
            have := foreign_skip (env := env) (w := x) (p := p) (sol := sol) (sh := sh) hok.1 hos (rest := y :: ys ++ tail) (by simp) hsuf
            exact this
          | gadget g =>
            have hok := hf.1 (.gadget g, t') (by simp)
            simp only [Block.ok] at hok
            obtain ⟨xs, tail, rest', e, hxs, hsuf, hfo⟩ := hl.cons
            simp only [Block.lex] at hxs
            rw [e] at hsuf ⊢
            refine eats_rule (n := 0) (xs := []) (List.append_ne_nil_of_right_ne_nil _ hfo.tail_ne) (rs1 := []) (r := .blockSkipNewline) (rs2 := [.definitionListSkipNewline, .lineBreak])
              (by rw [hx]; rfl) (by simp) (by simp [RuleId.needsLineStart]) noParts_nil ?_
            intro fuel p sh _ _
            have := gadget_skip (env := env) (w := x) (p := p) (sol := sol) (sh := sh) hok hxs hfo.tail_ne hsuf
            exact this
          | grid g =>
            have hok := hf.1 (.grid g, t') (by simp)
            simp only [Block.ok] at hok
            obtain ⟨xs, tail, rest', e, hxs, hsuf, hfo⟩ := hl.cons
            simp only [Block.lex] at hxs
            rw [e] at hsuf ⊢
            refine eats_rule (n := 0) (xs := []) (List.append_ne_nil_of_right_ne_nil _ hfo.tail_ne) (rs1 := []) (r := .blockSkipNewline) (rs2 := [.definitionListSkipNewline, .lineBreak])
              (by rw [hx]; rfl) (by simp) (by simp [RuleId.needsLineStart]) noParts_nil ?_
            intro fuel p sh _ _
            have := grid_skip (env := env) (w := x) (p := p) (sol := sol) (sh := sh) hok hxs hfo.tail_ne hsuf
            exact this
          | biblio bb =>
            have hok := hf.1 (.biblio bb, t') (by simp)
            simp only [Block.ok] at hok
            obtain ⟨xs, tail, rest', e, hxs, hsuf, hfo⟩ := hl.cons
            simp only [Block.lex] at hxs
            rw [e] at hsuf ⊢
            refine eats_rule (n := 0) (xs := []) (List.append_ne_nil_of_right_ne_nil _ hfo.tail_ne) (rs1 := []) (r := .blockSkipNewline) (rs2 := [.definitionListSkipNewline, .lineBreak])
              (by rw [hx]; rfl) (by simp) (by simp [RuleId.needsLineStart]) noParts_nil ?_
            intro fuel p sh _ _
            have := biblio_skip (env := env) (w := x) (p := p) (sol := sol) (sh := sh) hok hxs hfo.tail_ne hsuf
            exact this
          | _ => cases hb'
      have := heat fuel p sh hfu hd (fun _ => rfl)
      refine via (s' := s) (.cons hgoes this (by simp) ?_) (.inr rfl) hready rfl rfl
      rw [hsol]
      exact .nil
    | true =>
      have hcur : s.current = [] := by
        rcases hr with h | h
        · exact h
        · rw [h b t' d rfl] at hb; cases hb
      cases b with
      | para body =>
        obtain ⟨xs, tail, rest', e, hxs, hsuf, hfo⟩ := hl.cons
        have hok := hf.1 (.para body, t') (by simp)
        obtain ⟨htl, hw⟩ := para_tline hok hxs hfo
        rw [e] at hsuf hgoes
        have hxne : xs ≠ [] := by
          rintro rfl
          simp only [Block.ok, Bool.and_eq_true] at hok
          simp only [Block.lex, List.map_nil] at hxs
          cases body with
          | nil => simp at hok
          | cons i is => simp [Inline.lex.go] at hxs; exact inline_lex_ne i hxs.1
        have hw' : Within tail.length [x] (xs ++ tail) := by
          intro a c e1 hc
          have : a = [] ∧ c = [x] := by
            cases a with
            | nil => exact ⟨rfl, e1.symm⟩
            | cons z a => simp at e1; exact (hc e1.2.2).elim
          rw [this.2]
          rintro ((h | ⟨_, h⟩) | ⟨z', zs', e', h⟩)
          · rw [hx] at h; cases h
          · simp at h; omega
          · cases e'; rw [hx] at h; cases h
        have hnb : noBlockNext (xs ++ tail) = true := by
          have h1 := hp rfl _ _ _ rfl rfl
          have h2 := hok
          simp only [Block.ok, Bool.and_eq_true] at h2
          obtain ⟨z, zs, rfl⟩ := List.exists_cons_of_ne_nil hxne
          have hcz : Classed z.pair := inlines_classed body h2.1.1 _ (by
            rw [← show (z :: zs).map ETok.pair = Inline.lex.go body from hxs]; simp)
          have hpe : Block.pieces (.para body) = (z :: zs).map (·.slice) := by
            show Inline.pieces.go body = _
            rw [← inlines_pieces, ← show (z :: zs).map ETok.pair = Inline.lex.go body from hxs, List.map_map]
            rfl
          rw [hpe] at h1
          simp only [List.map_cons, startsBlock, Bool.or_eq_false_iff, decide_eq_false_iff_not] at h1
          simp only [List.cons_append, noBlockNext, Bool.and_eq_true, bne_iff_ne, ne_eq]
          exact ⟨fun e => h1.1 (hcz.leftBlock e), fun e => h1.2 (hcz.leftBlockStar e)⟩
        have heat := newline_eats (sol := sol) (b := false) hx (by simp [hxne]) (by
          rw [TLine, if_neg (by simp [hx]), if_neg (by simp [hx, isColumnTok]), if_pos hx]; exact .inr ⟨hnb, htl⟩) hw' hsuf
        have hrun := heat fuel p sh hfu hd (fun _ => rfl)
        have hpush : PStack.pushElements true [eLineBreak] s = s := by
          rw [pushElements_true, hcur]
          obtain ⟨c, f, er⟩ := s
          dsimp only at hcur
          subst hcur
          rfl
        refine via (sol' := true) (s' := s) ?_ (.inr rfl) (.inl hcur) rfl rfl
        rw [e]
        refine .cons hgoes hrun (by simp) ?_
        rw [hsol, hpush]
        exact .nil
      | _ => cases hb

end Ftml
