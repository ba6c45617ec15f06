import Verif.Lemmas.PageAll
import Verif.Lemmas.GridRun
import Verif.Props.LexerShape
import Verif.Props.MarkupMore
import Verif.Props.Parse
import Verif.Props.Html
/-
C103: a block written with `_` behind its name.
-/
namespace Ftml.Markup
open Lexer

/-- The blocks that can be written with `_` behind their name: `[[span_]]`, `[[a_]]` or `[[*a_]]`, `[[div_]]`. -/
inductive Scored where
  | span
  | link (newTab : Bool)
  | div

/-- Their names. -/
def Scored.names : Scored → List Str
  | .span => [c!"span"]
  | .link _ => [c!"a", c!"anchor"]
  | .div => [c!"div"]

/-- What they stand for. -/
def Scored.kind (cx : Ctx) (args : List Arg) : Scored → Kind
  | .span => .container .span (attrsOf cx args)
  | .link newTab => .anchor (if newTab then some .newTab else none) (attrsOf cx args)
  | .div => .container .div (attrsOf cx args)

/-- A page that is one such block, perhaps with a line break before and after its contents. -/
structure ScoredPage where
  block : Scored
  name : Str
  args : List Arg
  before : Bool
  body : List Inline
  after : Bool
  close : Str

/-- The contents with the line breaks around them. -/
def ScoredPage.inside (d : ScoredPage) : List Inline :=
  (if d.before then [.newline] else []) ++ (d.body ++ if d.after then [.newline] else [])

/-- Its source, cut into symbols. -/
def ScoredPage.pieces (d : ScoredPage) : List Str :=
  (match d.block with | .link true => c!"[[*" | _ => c!"[[") :: d.name :: c!"_" :: (d.args.flatMap Arg.pieces ++
    (c!"]]" :: (Inline.pieces.go d.inside ++ [c!"[[/", d.close, c!"]]"])))

/-- Its source. -/
def ScoredPage.write (d : ScoredPage) : Str := d.pieces.flatten

/-- Its meaning: the block, directly on the page or in the paragraph of the line it is in, and in it the contents, not in a
paragraph and without the line breaks at their ends. -/
def ScoredPage.elems (cx : Ctx) (d : ScoredPage) : List Elem :=
  let block := .mk (d.block.kind cx d.args) (Inline.elems.go cx d.body)
  match d.block with
  | .div => [block]
  | _ => [.mk (.container .paragraph []) [block]]

/-- It is neither a line break nor nothing. -/
def Inline.shows : Inline → Bool
  | .newline => false
  | .comment _ => false
  | _ => true

/-- Which of them are meant here: the names and options are what they should be, the contents have no footnotes, something is
at both ends of them, and no two symbols run together and no line starts with one that means something there. -/
def ScoredPage.ok (d : ScoredPage) : Bool :=
  d.block.names.contains (lowerA d.name) && d.block.names.contains (lowerA d.close) && d.args.all Arg.ok &&
  Inline.ok.go d.body && (Inline.notes.go d.body).isEmpty && d.body.head?.any Inline.shows && d.body.getLast?.any Inline.shows &&
  !(d.args.isEmpty && !d.before && d.body.head?.any Inline.isBlank) && Inline.height.go d.body < 99 &&
  separate d.pieces && linesOk false d.pieces

end Ftml.Markup

namespace Ftml
open M Markup Lexer
variable {env : Env}

/-! ### Its tokens -/

private theorem lex_underscore {rest : Str} (h : fits c!"_" rest = true) : LexesTo .underscore c!"_" rest := by lexc
private theorem underscore_sym : Sym (.underscore, c!"_") := ⟨by simp, fun _ h => lex_underscore h⟩
private theorem leftBlockStar_sym : Sym (.leftBlockStar, c!"[[*") := ⟨by simp, fun rest _ => lex_leftBlockStar rest⟩
private theorem leftBlockEnd_sym : Sym (.leftBlockEnd, c!"[[/") := ⟨by simp, fun rest _ => lex_leftBlockEnd rest⟩

private def _root_.Ftml.Markup.Scored.star : Scored → Bool
  | .link t => t
  | _ => false

private def _root_.Ftml.Markup.Scored.skips : Scored → Bool
  | .div => true
  | _ => false

private def openTok (d : ScoredPage) : Token × Str :=
  match d.block with | .link true => (.leftBlockStar, c!"[[*") | _ => (.leftBlock, c!"[[")

private def headLex (d : ScoredPage) : List (Token × Str) :=
  openTok d :: (.identifier, d.name) :: (.underscore, c!"_") :: (d.args.flatMap Arg.lex ++ [(.rightBlock, c!"]]")])

private def tailLex (d : ScoredPage) : List (Token × Str) :=
  [(.leftBlockEnd, c!"[[/"), (.identifier, d.close), (.rightBlock, c!"]]")]

private def lexAll (d : ScoredPage) : List (Token × Str) := headLex d ++ (Inline.lex.go d.inside ++ tailLex d)

private theorem lexAll_pieces (d : ScoredPage) : (lexAll d).map (·.2) = d.pieces := by
  have h1 : (openTok d).2 = match d.block with | .link true => c!"[[*" | _ => c!"[[" := by
    unfold openTok; split <;> rfl
  simp only [lexAll, headLex, tailLex, ScoredPage.pieces, List.map_append, List.map_cons, List.map_nil, args_str, inlines_pieces, h1,
    List.cons_append, List.append_assoc, List.nil_append]

private theorem scored_word {d : ScoredPage} {n : Str} (h : lowerA n ∈ d.block.names) : (Plain.word n).ok = true := by
  cases hb : d.block <;> simp only [hb, Scored.names, List.mem_cons, List.not_mem_nil, or_false] at h
  · exact lower_word h rfl
  · rcases h with h | h <;> exact lower_word h rfl
  · exact lower_word h rfl

private theorem inside_ok {d : ScoredPage} (h : Inline.ok.go d.body = true) : Inline.ok.go d.inside = true := by
  have app : ∀ a b, Inline.ok.go (a ++ b) = (Inline.ok.go a && Inline.ok.go b) := by
    intro a b
    induction a with
    | nil => rfl
    | cons i a ih => simp only [List.cons_append, Inline.ok.go, ih, Bool.and_assoc]
  unfold ScoredPage.inside
  rw [app, app, h]
  cases d.before <;> cases d.after <;> rfl

private theorem scored_lexed {d : ScoredPage} (h : d.ok = true) : LexList (lexAll d) [] ∧ slices (lexAll d) = d.write := by
  simp only [ScoredPage.ok, Bool.and_eq_true, List.contains_iff_mem] at h
  obtain ⟨⟨⟨⟨⟨⟨⟨⟨⟨⟨h1, h2⟩, h3⟩, h4⟩, _⟩, _⟩, _⟩, _⟩, _⟩, h9⟩, _⟩ := h
  have hg : Grouped (lexAll d) ((lexAll d).map (·.2)) := grouped_of (by
    intro x hx
    simp only [lexAll, headLex, tailLex, List.mem_append, List.mem_cons, List.not_mem_nil, or_false] at hx
    rcases hx with (rfl | rfl | rfl | hx | rfl) | hx | rfl | rfl | rfl
    · unfold openTok; split
      · exact leftBlockStar_sym
      · exact leftBlock_sym
    · exact word_sym (scored_word h1)
    · exact underscore_sym
    · exact arg_sym h3 x hx
    · exact rightBlock_sym
    · exact inlines_sym _ (inside_ok h4) x hx
    · exact leftBlockEnd_sym
    · exact word_sym (scored_word h2)
    · exact rightBlock_sym)
  rw [lexAll_pieces] at hg
  exact lexList_of hg h9

/-! ### Line breaks at the ends -/

private theorem leaf_shown (cx : Markup.Ctx) (l : Leaf) : Elem.isNewline (.mk (l.kind cx) []) = false := by
  cases l <;> rfl

private theorem shown_elems {cx : Markup.Ctx} {i : Inline} (h : i.shows = true) : ∃ e, i.elems cx = [e] ∧ e.isNewline = false := by
  cases i with
  | leaf l => exact ⟨_, rfl, leaf_shown cx l⟩
  | wrap w body => exact ⟨_, rfl, by cases w <;> rfl⟩
  | newline => cases h
  | comment => cases h
  | _ => exact ⟨_, rfl, rfl⟩

private theorem inlineElems_append (cx : Markup.Ctx) (a b : List Inline) : Inline.elems.go cx (a ++ b) = Inline.elems.go cx a ++ Inline.elems.go cx b := by
  induction a with
  | nil => rfl
  | cons i a ih => simp only [List.cons_append, Inline.elems.go, ih, List.append_assoc]

private theorem strip_ends {p : Elem → Bool} {B E W : List Elem} (hB : ∀ e ∈ B, p e = true) (hW : ∀ e ∈ W, p e = true)
    (h1 : ∃ e r, E = e :: r ∧ p e = false) (h2 : ∃ e r, E = r ++ [e] ∧ p e = false) : stripBoth p (B ++ (E ++ W)) = E := by
  unfold stripBoth
  have d1 : ∀ (l m : List Elem), (∀ e ∈ l, p e = true) → (∃ e r, m = e :: r ∧ p e = false) → (l ++ m).dropWhile p = m := by
    intro l m hl hm
    obtain ⟨e, r, rfl, he⟩ := hm
    induction l with
    | nil => simp [he]
    | cons x l ih =>
      rw [List.cons_append, List.dropWhile_cons, if_pos (hl x (by simp))]
      exact ih fun e h => hl e (by simp [h])
  have e1 : (B ++ (E ++ W)).dropWhile p = E ++ W := d1 _ _ hB (by
    obtain ⟨e, r, rfl, he⟩ := h1
    exact ⟨e, r ++ W, rfl, he⟩)
  rw [e1, List.reverse_append, d1 _ _ (by simpa using hW), List.reverse_reverse]
  obtain ⟨e, r, rfl, he⟩ := h2
  exact ⟨e, r.reverse, by simp, he⟩

private theorem strip_inside {cx : Markup.Ctx} {d : ScoredPage} (h1 : d.body.head?.any Inline.shows = true)
    (h2 : d.body.getLast?.any Inline.shows = true) : stripNewlines (Inline.elems.go cx d.inside) = Inline.elems.go cx d.body := by
  unfold ScoredPage.inside stripNewlines
  rw [inlineElems_append, inlineElems_append]
  refine strip_ends ?_ ?_ ?_ ?_
  · cases d.before <;> simp [Inline.elems.go, Inline.elems, Elem.isNewline]
  · cases d.after <;> simp [Inline.elems.go, Inline.elems, Elem.isNewline]
  · cases hb : d.body with
    | nil => rw [hb] at h1; cases h1
    | cons i is =>
      rw [hb] at h1
      obtain ⟨e, he, hn⟩ := shown_elems (cx := cx) (i := i) (by simpa using h1)
      exact ⟨e, Inline.elems.go cx is, by simp only [Inline.elems.go, he, List.cons_append, List.nil_append], hn⟩
  · rcases List.eq_nil_or_concat d.body with hb | ⟨is, i, hb⟩
    · rw [hb] at h1; cases h1
    · rw [hb] at h2 ⊢
      rw [List.concat_eq_append] at h2 ⊢
      obtain ⟨e, he, hn⟩ := shown_elems (cx := cx) (i := i) (by simpa using h2)
      exact ⟨e, Inline.elems.go cx is, by simp [inlineElems_append, Inline.elems.go, he], hn⟩

/-! ### Starting such a block -/

private theorem ruleBlock_scored {star : Bool} {cons : M (PS Elements)} {p : PState} {o : ETok} {ns : List ETok} {c : ETok}
    {rest : List ETok} {sol : Bool} {sh : Shared} {br : BlockRule} {name : Str}
    (ho : o.token = if star then .leftBlockStar else .leftBlock) (hne : ns ≠ [])
    (hn : ∀ x ∈ ns, endsName x.token = false ∧ x.token ≠ .inputEnd) (hc : c.token = .whitespace ∨ c.token = .rightBlock)
    (hr : rest ≠ []) (ht : trim (slicesOf ns) = slicesOf ns)
    (hs : (ns ++ c :: rest) <:+ (tokenize env.text).tokens)
    (hus : stripSfx c!"_" (slicesOf ns) = some name) (hbr : getBlockRule name = some br)
    (hst : star = true → br.info.star = true) (hsc : br.info.score = true)
    (hsp : c.token = .whitespace → (rest.headD default).token ≠ .whitespace)
    {out : Res (PS Elements)}
    (hrun : br.parse cons ⟨name, star, true, c.token == .whitespace⟩ env ⟨({ p with rule := .blk br.info.name } : PState).at
      (if c.token = .whitespace then rest else if (rest.headD default).token = .whitespace then rest.tail else rest) false, sh⟩ = out)
    (hw : rest.tail ≠ []) :
    ruleBlock cons star env ⟨p.at (o :: (ns ++ c :: rest)) sol, sh⟩ = out := by
  unfold ruleBlock
  rw [bind_ok (s' := ⟨({ p with rule := if star then .blockStar else .block } : PState).at (o :: (ns ++ c :: rest)) sol, sh⟩) (a := ()) rfl]
  unfold getOptionalSpace
  rw [bind_ok (optTok_no (by cases star <;> simp [ho]))]
  rw [bind_ok (blockName_open (p := { p with rule := if star then .blockStar else .block }) ho hne hn hc hr ht hs)]
  dsimp only
  rw [hus]
  dsimp only
  rw [hbr]
  dsimp only
  rw [bind_ok (s' := ⟨({ p with rule := .blk br.info.name } : PState).at rest false, sh⟩) (a := ()) rfl]
  have h1 : (!br.info.star && star) = false := by
    cases star with
    | false => simp
    | true => simp [hst rfl]
  simp only [h1, hsc, Bool.not_true, Bool.false_and, Bool.false_eq_true, if_false]
  by_cases hcw : c.token = .whitespace
  · rw [bind_ok (optTok_no (hsp hcw))]
    simpa [hcw] using hrun
  · simp only [if_neg hcw] at hrun
    by_cases hrw : (rest.headD default).token = .whitespace
    · rw [if_pos hrw] at hrun
      obtain ⟨y, ys, rfl⟩ := List.exists_cons_of_ne_nil hr
      obtain ⟨z, zs, rfl⟩ : ∃ z zs, ys = z :: zs := List.exists_cons_of_ne_nil (by simpa using hw)
      rw [bind_ok (optTok_yes (by simpa using hrw))]
      exact hrun
    · rw [if_neg hrw] at hrun
      rw [bind_ok (optTok_no hrw)]
      exact hrun

/-- What such a block does with its parts. -/
private theorem scored_rule (s : Scored) : ∃ br, (∀ n ∈ s.names, getBlockRule n = some br) ∧ br.info.score = true ∧
    (s.star = true → br.info.star = true) ∧ br.info.newlines = s.skips ∧ (∀ n ∈ s.names, n ∈ br.info.names) ∧
    ∀ {env : Env} {cons : M (PS Elements)} {nm : Str} {ih : Bool} {p : PState} {sh sh' : Shared} {solT : Bool} {X T rest : List ETok}
      {args : List Arg} {es : List Elem},
      getHeadMap br.info ih env ⟨p.at X false, sh⟩ = .ok (rawArgs args) ⟨p.at T solT, sh⟩ →
      getBody cons br.info false env ⟨p.at T solT, sh⟩ = .ok ⟨es, [], true⟩ ⟨p.at rest false, sh'⟩ →
      br.parse cons ⟨nm, s.star, true, ih⟩ env ⟨p.at X false, sh⟩ =
        .ok ⟨[.mk (s.kind env.cx args) (if s.skips then es else stripNewlines es)], [], !s.skips⟩ ⟨p.at rest false, sh'⟩ := by
  cases s with
  | span =>
    refine ⟨blockRules[45]'(by decide +kernel), ?_, rfl, by simp [Scored.star], rfl, by decide, ?_⟩
    · intro n hn
      simp only [Scored.names, List.mem_cons, List.not_mem_nil, or_false] at hn
      subst hn
      exact getBlockRule_idx (k := 45) (by decide +kernel) rfl
    · intro env cons nm ih p sh sh' solT X T rest args es h1 h2
      show blkSpan (blockRules[45]'(by decide +kernel)).info cons ⟨nm, false, true, ih⟩ env _ = _
      unfold blkSpan
      rw [bind_ok (m := noStar _ _ _) (a := ()) (s' := _) rfl, bind_ok h1, bind_ok h2]
      dsimp only
      rw [bind_ok (toAttrs_args args _)]
      rfl
  | link t =>
    refine ⟨blockRules[4]'(by decide +kernel), ?_, rfl, fun _ => rfl, rfl, by show ∀ n ∈ [c!"a", c!"anchor"], _; decide +kernel, ?_⟩
    · intro n hn
      simp only [Scored.names, List.mem_cons, List.not_mem_nil, or_false] at hn
      rcases hn with rfl | rfl <;> exact getBlockRule_idx (k := 4) (by decide +kernel) rfl
    · intro env cons nm ih p sh sh' solT X T rest args es h1 h2
      show blkAnchor (blockRules[4]'(by decide +kernel)).info cons ⟨nm, t, true, ih⟩ env _ = _
      unfold blkAnchor
      rw [bind_ok h1, bind_ok (toAttrs_args args _), bind_ok h2]
      rfl
  | div =>
    refine ⟨blockRules[15]'(by decide +kernel), ?_, rfl, by simp [Scored.star], rfl, by decide, ?_⟩
    · intro n hn
      simp only [Scored.names, List.mem_cons, List.not_mem_nil, or_false] at hn
      subst hn
      exact getBlockRule_idx (k := 15) (by decide +kernel) rfl
    · intro env cons nm ih p sh sh' solT X T rest args es h1 h2
      show blkDiv (blockRules[15]'(by decide +kernel)).info cons ⟨nm, false, true, ih⟩ env _ = _
      unfold blkDiv
      rw [bind_ok (m := noStar _ _ _) (a := ()) (s' := _) rfl, bind_ok h1]
      refine (bind_ok (a := ⟨es, [], true⟩) (s' := ⟨p.at rest false, sh'⟩) h2).trans ?_
      dsimp only
      rw [bind_ok (toAttrs_args args _)]
      rfl

/-! ### Reading it -/

private theorem lines_drop {a c : List Str} : ∀ {b : Bool}, linesOk b (a ++ c) = true → ∃ b', linesOk b' c = true := by
  induction a with
  | nil => exact fun h => ⟨_, h⟩
  | cons p a ih =>
    intro b h
    rw [List.cons_append, linesOk] at h
    split at h
    · simp only [Bool.and_eq_true] at h
      exact ih h.2
    · split at h
      · exact ih h
      · simp only [Bool.and_eq_true] at h
        exact ih h.2

private theorem inside_notes {d : ScoredPage} (h : (Inline.notes.go d.body).isEmpty = true) : Inline.notes.go d.inside = [] := by
  have app : ∀ a b, Inline.notes.go (a ++ b) = Inline.notes.go a ++ Inline.notes.go b := by
    intro a b
    induction a with
    | nil => rfl
    | cons i a ih => simp only [List.cons_append, Inline.notes.go, ih, List.append_assoc]
  rw [List.isEmpty_iff] at h
  unfold ScoredPage.inside
  rw [app, app, h]
  cases d.before <;> cases d.after <;> rfl

private theorem inside_height {d : ScoredPage} (h : Inline.height.go d.body < 99) : Inline.height.go d.inside < 99 := by
  have app : ∀ a b, Inline.height.go (a ++ b) = max (Inline.height.go a) (Inline.height.go b) := by
    intro a b
    induction a with
    | nil => simp [Inline.height.go]
    | cons i a ih => simp only [List.cons_append, Inline.height.go, ih, Nat.max_assoc]
  unfold ScoredPage.inside
  rw [app, app]
  cases d.before <;> cases d.after <;> simp [Inline.height.go, Inline.height] <;> omega

private theorem go_lex_append (a b : List Inline) : Inline.lex.go (a ++ b) = Inline.lex.go a ++ Inline.lex.go b := by
  induction a with
  | nil => rfl
  | cons i a ih => simp only [List.cons_append, Inline.lex.go, ih, List.append_assoc]

/-- Whether line breaks at the start and the end of the contents are read with the tags. -/
private def eaten (d : ScoredPage) (b : Bool) : List Inline := if d.block.skips && b then [.newline] else []

/-- The rest. -/
private def kept (d : ScoredPage) : List Inline :=
  if d.block.skips then d.body else d.inside

private theorem inside_parts (d : ScoredPage) : d.inside = eaten d d.before ++ (kept d ++ eaten d d.after) := by
  unfold eaten kept ScoredPage.inside
  cases d.block.skips <;> cases d.before <;> cases d.after <;> simp

private theorem eaten_tokens {d : ScoredPage} {b : Bool} {B : List ETok} (h : B.map ETok.pair = Inline.lex.go (eaten d b)) :
    ((d.block.skips && b) = false ∧ B = []) ∨ ((d.block.skips && b) = true ∧ ∃ x, B = [x] ∧ x.token = .lineBreak) := by
  unfold eaten at h
  cases hb : d.block.skips && b with
  | false =>
    rw [hb] at h
    simp [Inline.lex.go] at h
    exact .inl ⟨rfl, h⟩
  | true =>
    rw [hb] at h
    simp only [if_true, Inline.lex.go, Inline.lex, List.append_nil] at h
    obtain ⟨x, rfl, hx⟩ := List.map_eq_singleton_iff.1 h
    exact .inr ⟨rfl, x, rfl, congrArg (·.1) hx⟩

private theorem first_token {is : List Inline} {ys T : List ETok} (P : Inline → Bool) (t : Token)
    (hP : ∀ {i : Inline} {x r}, i.lex = x :: r → x.1 = t → P i = true)
    (hne : is ≠ []) (hn : is.head?.any P = false) (hys : ys.map ETok.pair = Inline.lex.go is) : ((ys ++ T).headD default).token ≠ t := by
  cases is with
  | nil => exact absurd rfl hne
  | cons j body =>
    obtain ⟨x2, r2, hx2, _⟩ := inline_head j
    simp only [Inline.lex.go, hx2, List.cons_append] at hys
    obtain ⟨y, ys, rfl, hy, _⟩ := List.map_eq_cons_iff.1 hys
    show y.token ≠ t
    intro e
    have hyt : y.token = x2.1 := congrArg (·.1) hy
    have := hP hx2 (by rw [← hyt]; exact e)
    simp [this] at hn

private theorem kept_facts {d : ScoredPage} (h : d.ok = true) : kept d ≠ [] ∧ Inline.ok.go (kept d) = true ∧ Inline.notes.go (kept d) = [] ∧
    Inline.height.go (kept d) < 99 ∧
    (d.args = [] → (kept d ++ eaten d d.after).head?.any Inline.isBlank = false ∨ eaten d d.before ≠ []) ∧
    (d.block.skips = true → (kept d).head?.any Inline.isNewline = false ∧ (kept d).getLast?.any Inline.isNewline = false) := by
  simp only [ScoredPage.ok, Bool.and_eq_true, Bool.not_eq_true', decide_eq_true_eq] at h
  obtain ⟨⟨⟨⟨⟨⟨⟨⟨⟨⟨_, _⟩, _⟩, h4⟩, h5⟩, h6⟩, h7⟩, h8⟩, h9⟩, _⟩, _⟩ := h
  have hne : d.body ≠ [] := by intro e; rw [e] at h6; cases h6
  have key : ∀ i : Inline, i.shows = true → i.isNewline = false := by
    intro i hi
    cases i <;> first | rfl | cases hi
  have hh : d.body.head?.any Inline.isNewline = false := by
    cases hb : d.body.head? with
    | none => rfl
    | some i => rw [hb] at h6; simpa using key i (by simpa using h6)
  have hl : d.body.getLast?.any Inline.isNewline = false := by
    cases hb : d.body.getLast? with
    | none => rfl
    | some i => rw [hb] at h7; simpa using key i (by simpa using h7)
  obtain ⟨i, is, hb⟩ := List.exists_cons_of_ne_nil hne
  unfold kept eaten
  cases hs : d.block.skips with
  | true =>
    refine ⟨hne, h4, by simpa using h5, h9, ?_, fun _ => ⟨hh, hl⟩⟩
    intro ha
    cases hbf : d.before with
    | true => exact .inr (by simp)
    | false =>
      left
      rw [ha, hbf, hb] at h8
      simpa [hb] using h8
  | false =>
    refine ⟨?_, inside_ok h4, inside_notes h5, inside_height h9, ?_, by simp⟩
    · simp [ScoredPage.inside, hne]
    · intro ha
      left
      unfold ScoredPage.inside
      cases hbf : d.before with
      | true => rfl
      | false =>
        rw [ha, hbf, hb] at h8
        simpa [hb] using h8

/-- The meaning of the contents. -/
private theorem kept_elems {cx : Markup.Ctx} {d : ScoredPage} (h : d.ok = true) :
    (if d.block.skips then Inline.elems.go cx (kept d) else stripNewlines (Inline.elems.go cx (kept d))) = Inline.elems.go cx d.body := by
  simp only [ScoredPage.ok, Bool.and_eq_true, Bool.not_eq_true', decide_eq_true_eq] at h
  obtain ⟨⟨⟨⟨⟨⟨⟨⟨⟨⟨_, _⟩, _⟩, _⟩, _⟩, h6⟩, h7⟩, _⟩, _⟩, _⟩, _⟩ := h
  unfold kept
  cases d.block.skips with
  | true => rfl
  | false => exact strip_inside h6 h7

/-- Such a block is read as a whole. -/
private theorem scored_eats {d : ScoredPage} (h : d.ok = true) {xs : List ETok} {e : ETok} {sol : Bool}
    (hxs : xs.map ETok.pair = lexAll d) (hs : (xs ++ [e]) <:+ (tokenize env.text).tokens) (he : e.token = .inputEnd) :
    Eats env 99 sol xs [e] [.mk (d.block.kind env.cx d.args) (Inline.elems.go env.cx d.body)] (!d.block.skips) [] := by
  obtain ⟨k1, k2, k3, k4, k5, k6⟩ := kept_facts h
  have hel := kept_elems (cx := env.cx) h
  have h' := h
  simp only [ScoredPage.ok, Bool.and_eq_true, List.contains_iff_mem] at h'
  obtain ⟨⟨⟨⟨⟨⟨⟨⟨⟨⟨h1, h2⟩, h3⟩, h4⟩, _⟩, _⟩, _⟩, _⟩, _⟩, _⟩, h10⟩ := h'
  -- the tokens
  obtain ⟨hd, ts, rfl, hhd, hts⟩ := map_append_split (by unfold lexAll at hxs; exact hxs)
  obtain ⟨is, cs, rfl, his, hcs⟩ := map_append_split hts
  obtain ⟨l, hd, rfl, hl, hhd⟩ := List.map_eq_cons_iff.1 hhd
  obtain ⟨m, hd, rfl, hm, hhd⟩ := List.map_eq_cons_iff.1 hhd
  obtain ⟨u, hd, rfl, hu, hhd⟩ := List.map_eq_cons_iff.1 hhd
  obtain ⟨as, rs, rfl, has, hrs⟩ := map_append_split hhd
  obtain ⟨r, rfl, hr0⟩ := List.map_eq_singleton_iff.1 hrs
  have hrt : r.token = .rightBlock := congrArg (·.1) hr0
  have hms : m.slice = d.name := congrArg (·.2) hm
  have hmt : m.token = .identifier := congrArg (·.1) hm
  have hus : u.slice = c!"_" := congrArg (·.2) hu
  have hut : u.token = .underscore := congrArg (·.1) hu
  have hlt : l.token = if d.block.star then .leftBlockStar else .leftBlock := by
    have : l.token = (openTok d).1 := congrArg (·.1) hl
    rw [this]
    unfold openTok Scored.star
    cases d.block with
    | link t => cases t <;> rfl
    | _ => rfl
  have hcs' := hcs
  obtain ⟨o, cs, rfl, ho, hcs⟩ := List.map_eq_cons_iff.1 hcs
  obtain ⟨n, cs, rfl, hn, hcs⟩ := List.map_eq_cons_iff.1 hcs
  obtain ⟨c, rfl, hc⟩ := List.map_eq_singleton_iff.1 hcs
  have hot : o.token = .leftBlockEnd := congrArg (·.1) ho
  have hnt : n.token = .identifier := congrArg (·.1) hn
  have hns : n.slice = d.close := congrArg (·.2) hn
  have hct : c.token = .rightBlock := congrArg (·.1) hc
  have wn := scored_word h1
  have wc := scored_word h2
  -- its lines
  have hcl : ∀ x ∈ is ++ [o, n, c], Classed (x.token, x.slice) := by
    intro x hx
    rcases List.mem_append.1 hx with hx | hx
    · exact pair_classed (inside_ok h4) his x hx
    · simp only [List.mem_cons, List.not_mem_nil, or_false] at hx
      rcases hx with rfl | rfl | rfl
      · exact inlines_classed [.wrap (.box c!"b" [] c!"b") []] (by decide) _ (by
          rw [show (x.token, x.slice) = (.leftBlockEnd, c!"[[/") from ho]; decide)
      · exact pair_classed (is := [.plain (.word d.close)]) (by simpa [Inline.ok.go, Inline.ok] using wc) (xs := [x])
          (by simp [Inline.lex.go, Inline.lex, Plain.lex, Plain.str]; exact ⟨hnt, hns⟩) x (by simp)
      · exact inlines_classed [.wrap (.box c!"b" [] c!"b") []] (by decide) _ (by
          rw [show (x.token, x.slice) = (.rightBlock, c!"]]") from hc]; decide)
  obtain ⟨b0, hb0⟩ : ∃ b0, linesOk b0 ((is ++ [o, n, c]).map (·.slice)) = true := by
    have : d.pieces = ((match d.block with | .link true => c!"[[*" | _ => c!"[[") :: d.name :: c!"_" :: (d.args.flatMap Arg.pieces ++
        [c!"]]"])) ++ ((is ++ [o, n, c]).map (·.slice)) := by
      have e1 : (is ++ [o, n, c]).map (·.slice) = Inline.pieces.go d.inside ++ [c!"[[/", d.close, c!"]]"] := by
        rw [List.map_append, pair_slices his]
        have e1 : o.slice = c!"[[/" := congrArg (·.2) ho
        have e2 : c.slice = c!"]]" := congrArg (·.2) hc
        simp [e1, e2, hns]
      rw [e1]
      unfold ScoredPage.pieces
      simp
    rw [this] at h10
    exact lines_drop h10
  have htl : TLine 1 b0 (is ++ [o, n, c] ++ [e]) := tline_of (ys := [e]) (show Stops 1 [e] from Or.inl (by simp [isStop, he])) hcl hb0
  have hwi : Within 1 (is ++ [o, n, c]) [e] := within_of (tail := [e]) hcl
  rw [inside_parts, go_lex_append, go_lex_append] at his
  obtain ⟨B, zs, rfl, hB, hzs⟩ := map_append_split his
  obtain ⟨ys, W, rfl, hys, hW⟩ := map_append_split hzs
  obtain ⟨br, q1, q2, q3, q4, q5, q6⟩ := scored_rule d.block
  have hT : ys ++ (W ++ ([o, n, c] ++ [e])) ≠ [] := by simp
  have e0 : l :: m :: u :: (as ++ [r]) ++ (B ++ (ys ++ W) ++ [o, n, c]) ++ [e] =
      l :: ([m, u] ++ (as ++ r :: (B ++ (ys ++ (W ++ ([o, n, c] ++ [e])))))) := by simp
  have hs0 := hs
  rw [e0] at hs
  have hs1 := List.IsSuffix.trans (List.suffix_cons l _) hs
  have hs2 := List.IsSuffix.trans (List.suffix_append [m, u] _) hs1
  have hs3 : (ys ++ (W ++ ([o, n, c] ++ [e]))) <:+ (tokenize env.text).tokens := by
    refine List.IsSuffix.trans ?_ hs2
    exact (List.suffix_append B _).trans ((List.suffix_cons r _).trans (List.suffix_append as _))
  have hs4 : (n :: c :: [e]) <:+ (tokenize env.text).tokens := by
    refine List.IsSuffix.trans ?_ hs3
    exact (List.suffix_cons o _).trans ((List.suffix_append W _).trans (List.suffix_append ys _))
  -- the start of the contents
  obtain ⟨b1, sol2, t1, t2, t3⟩ : ∃ b1 sol2, TLine 1 b1 (ys ++ (W ++ ([o, n, c] ++ [e]))) ∧ (b1 = true → sol2 = false) ∧
      HeadEnd br.info (B ++ (ys ++ (W ++ ([o, n, c] ++ [e])))) (ys ++ (W ++ ([o, n, c] ++ [e]))) sol2 := by
    have htl' : TLine 1 b0 (B ++ (ys ++ (W ++ ([o, n, c] ++ [e])))) := by simpa using htl
    rcases eaten_tokens hB with ⟨f1, rfl⟩ | ⟨f1, x, rfl, f2⟩
    · refine ⟨b0, false, htl', fun _ => rfl, .inl ⟨rfl, rfl, fun hnl => ?_⟩⟩
      rw [q4] at hnl
      show ((ys ++ (W ++ ([o, n, c] ++ [e]))).headD default).token ≠ _
      exact first_token Inline.isNewline .lineBreak (fun h1 h2 => (inline_break h1 h2).1) k1 (k6 hnl).1 hys
    · obtain ⟨b1, g1, g2⟩ := TLine.after (xs := [x]) htl' (by simp) (by
        have := Within.left (xs := [x]) (ys := ys ++ W ++ [o, n, c]) (rest := [e]) (ol := 1) (by simpa using hwi)
        simpa using this)
      refine ⟨b1, true, g1, fun hb1 => ?_, .inr ⟨?_, hT, rfl, x, rfl, f2⟩⟩
      · have := g2 hb1
        simp [solAfter, f2, isLineStartTok] at this
      · rw [q4]; simp only [Bool.and_eq_true] at f1; exact f1.1
  have hbare : d.args = [] → ((B ++ (ys ++ (W ++ ([o, n, c] ++ [e])))).headD default).token ≠ .whitespace := by
    intro ha
    rcases eaten_tokens hB with ⟨f1, rfl⟩ | ⟨f1, x, rfl, f2⟩
    · rcases k5 ha with g | g
      · have g : (kept d).head?.any Inline.isBlank = false := by
          obtain ⟨i, is, hk⟩ := List.exists_cons_of_ne_nil k1
          rw [hk] at g ⊢
          exact g
        show ((ys ++ (W ++ ([o, n, c] ++ [e]))).headD default).token ≠ _
        exact first_token Inline.isBlank .whitespace (fun h1 h2 => (inline_blank h1 h2).1) k1 g hys
      · exfalso
        apply g
        unfold eaten
        rw [if_neg (by simp [f1])]
    · simp [f2]
  have n1 : slicesOf [m, u] = d.name ++ c!"_" := by simp [slicesOf, hms, hus]
  have hsol : solAfter (l :: (m :: u :: (as ++ [r]) ++ (B ++ (ys ++ W) ++ [o, n, c]))) = false := by
    have := solAfter_append (l :: (m :: u :: (as ++ [r]) ++ (B ++ (ys ++ W) ++ [o, n]))) c
    rw [hct] at this
    simpa [isLineStartTok] using this
  show Eats env (98 + 1) sol (l :: (m :: u :: (as ++ [r]) ++ (B ++ (ys ++ W) ++ [o, n, c]))) [e] _ _ _
  refine eats_put' (by simp) (rs1 := []) (rs2 := []) (r := if d.block.star then .blockStar else .block) (r' := .blk br.info.name)
    (by rw [hlt]; cases d.block.star <;> rfl) (by simp) (by cases d.block.star <;> simp [RuleId.needsLineStart])
    (noParts_cons (by cases d.block <;> simp [Scored.kind]) noParts_nil) ?_
  intro fuel p sh hf hdp hfn
  obtain ⟨sol', hch⟩ := body_chain (kept d) (xs := ys) (rest := W ++ ([o, n, c] ++ [e])) (sol := sol2) (b := b1) (ol := 1)
    (G := fun t => NoEnd br.info.newlines t ∧ 2 ≤ t.length) (fuel := fuel) (p := { p with rule := .blk br.info.name }) (sh := sh)
    (fun _ => by simp [notesOf, k3]) k2 hys (by simp) hs3 t1 t2
    (by have := Within.mid (xs := B) (ys := ys) (zs := W ++ [o, n, c]) (rest := [e]) (ol := 1) (by simpa using hwi); simpa using this)
    (by omega) (by show p.depth + _ ≤ 100; omega)
    (fun a i c' e' ys' hy' => goes_wrap (fun hnl => by rw [q4] at hnl; exact (k6 hnl).2) e' hy' (by simp))
  have hbody := body_lines (b := br.info) (ns := [n]) (W := W) (o := o) (c := c) (rest := [e]) hch (by
      rcases eaten_tokens hW with ⟨f1, rfl⟩ | ⟨f1, x, rfl, f2⟩
      · exact .inl rfl
      · refine .inr ⟨x, rfl, f2, ?_, by simpa using k1⟩
        rw [q4]; simp only [Bool.and_eq_true] at f1; exact f1.1) hot
    (endName_one hnt (by rw [hns]; exact trim_word wc)) hct (by simp)
    (by rw [show slicesOf [n] = d.close by simp [slicesOf, hns]]; exact names_lower wc _ (q5 _ h2)) hs4
  rw [outElems_inline, outSafe_inline, show notesOf env.cx (kept d) = [] by simp [notesOf, k3]] at hbody
  obtain ⟨d', tl, p1, p2, p3, p4, p5⟩ := head_parts (env := env) (b := br.info) (p := { p with rule := .blk br.info.name }) (sh := sh) (sol2 := sol2)
    h3 has hrt (by simp) hs2 t3 hbare
  have := q6 (nm := d.name) (ih := d'.token == .whitespace) p5 hbody
  rw [hel] at this
  rw [hsol]
  have hfr : ruleFn (consume fuel) (if d.block.star then RuleId.blockStar else RuleId.block) = ruleBlock (consume fuel) d.block.star := by
    cases d.block.star <;> rfl
  rw [hfr]
  have e1 : l :: (m :: u :: (as ++ [r]) ++ (B ++ (ys ++ W) ++ [o, n, c])) ++ [e] = l :: ([m, u] ++ d' :: tl) := by
    rw [← p1]; simp
  rw [e1]
  rw [p1] at hs1
  refine ruleBlock_scored (ns := [m, u]) (br := br) (name := d.name) hlt (by simp) ?_ p2 p3 ?_ hs1 ?_ ?_ q3 q2 p4 this ?_
  · intro x hx
    simp only [List.mem_cons, List.not_mem_nil, or_false] at hx
    rcases hx with rfl | rfl
    · simp [hmt, endsName]
    · simp [hut, endsName]
  · rw [n1]
    refine trim_none fun x hx => ?_
    rcases List.mem_append.1 hx with hx | hx
    · exact alnum_notWS ((word_chars wn).2 x hx)
    · simp at hx; subst hx; decide
  · rw [n1]; exact stripSfx_append _ _
  · rw [getBlockRule_lower wn]; exact q1 _ h1
  · have := congrArg List.length p1
    intro e
    have h5 := congrArg List.length e
    simp at this h5
    omega

/-- C103: a block written with `_` behind its name is read as the block around its contents, which are not put in a
paragraph, and the line breaks between the tags and the contents are left out; nothing is reported. -/
theorem C103_scored_block {d : ScoredPage} (h : d.ok = true) (wd : World) (info : PageInfo) (settings : Settings) :
    ∃ o, parse wd (tokenize d.write) info settings = some (.ok o) ∧ o.errors = [] ∧
      o.tree = ⟨d.elems ⟨settings, wd, info⟩ ++ [.mk (.footnoteBlock none false) []], [], [], [], [], [], byteLen d.write⟩ := by
  obtain ⟨hl, hsl⟩ := scored_lexed h
  obtain ⟨xs, e, ht, hx, he⟩ : ∃ xs e, (tokenize d.write).tokens =
      ⟨.inputStart, [], 0, 0⟩ :: (xs ++ [e]) ∧ xs.map ETok.pair = lexAll d ∧ e.token = .inputEnd := by
    obtain ⟨mid, m1, _, m3⟩ := C07_tokens_tile d.write
    refine ⟨_, _, m1, ?_, rfl⟩
    rw [← hsl, tokenize_list hl] at m1
    simp only [List.cons.injEq, true_and, List.append_cancel_right_eq] at m1
    rw [← m1]
    exact addSpans_map _ _
  let env : Env := ⟨d.write, (tokenize d.write).tokens, info, settings, wd⟩
  let p0 : PState := ⟨⟨.inputStart, [], 0, 0⟩, xs ++ [e], .page, 0, .none, false, false, true⟩
  have hs : (xs ++ [e]) <:+ (tokenize env.text).tokens := by
    show _ <:+ (tokenize d.write).tokens
    rw [ht]; exact List.suffix_cons ..
  have hstart : consume maxRecursionDepth env ⟨p0.at (⟨.inputStart, [], 0, 0⟩ :: (xs ++ [e])) true, ⟨[], [], [], [], []⟩⟩ =
      .ok ⟨[], [], true⟩ ⟨p0.at (xs ++ [e]) true, ⟨[], [], [], [], []⟩⟩ :=
    eats_tok (env := env) (x := ⟨.inputStart, [], 0, 0⟩) (rest := xs ++ [e]) (sol := true) (r := .null) (rs1 := [])
      (rs2 := []) (es := []) (safe := true) (by simp) rfl (by simp) (by simp) noParts_nil (fun _ _ _ => rfl)
      maxRecursionDepth p0 _ (by decide) (by simp [p0]) (fun _ => rfl)
  obtain ⟨x, xs', hxs, hxt⟩ : ∃ x xs', xs = x :: xs' ∧ (x.token = .leftBlock ∨ x.token = .leftBlockStar) := by
    have hx' := hx
    simp only [lexAll, headLex, List.cons_append] at hx'
    obtain ⟨x, xs', rfl, h1, _⟩ := List.map_eq_cons_iff.1 hx'
    refine ⟨x, xs', rfl, ?_⟩
    have : x.token = (openTok d).1 := congrArg (·.1) h1
    rw [this]
    unfold openTok
    split
    · exact .inr rfl
    · exact .inl rfl
  have heats := scored_eats (env := env) (sol := true) h hx hs he maxRecursionDepth p0 ⟨[], [], [], [], []⟩ (by decide) (by simp [p0]) (fun _ => rfl)
  let B : Elem := .mk (d.block.kind env.cx d.args) (Inline.elems.go env.cx d.body)
  have hg : Gathers env (consume maxRecursionDepth) p0 (⟨.inputStart, [], 0, 0⟩ :: (xs ++ [e])) true ⟨[], [], [], [], []⟩
      PStack.new [e] (solAfter xs) ⟨[], [], [], [], []⟩ (PStack.pushElements (!d.block.skips) [B] PStack.new) :=
    .cons ⟨by simp, by simp, ⟨by simp, by simp⟩, by simp⟩ hstart (by simp) (by
      refine @Gathers.cons env _ p0 (xs ++ [e]) true _ _ _ [e] _ _ _ _ _ _ _ ?_ heats ?_ .nil
      · rw [hxs]
        rcases hxt with hxt | hxt <;> exact ⟨by simp [hxt], by simp [hxt], ⟨by simp [hxt], by simp [hxt]⟩, by simp⟩
      · rw [hxs]; simp)
  have hB : isBr B = false := by
    show isBr (.mk (d.block.kind env.cx d.args) _) = false
    cases d.block <;> rfl
  obtain ⟨hpe, hpi, safe, hsafe⟩ : (PStack.pushElements (!d.block.skips) [B] PStack.new).errors = [] ∧
      (PStack.pushElements (!d.block.skips) [B] PStack.new).intoElements = d.elems env.cx ∧
      ∃ safe, elementsParagraphSafe? (PStack.pushElements (!d.block.skips) [B] PStack.new).endParagraph.finished = some safe := by
    unfold ScoredPage.elems
    cases hk : d.block with
    | div =>
      rw [show (!Scored.div.skips) = false from rfl, pushElements_false (by simpa using hB) _ (by simp)]
      simp only [B, hk]
      exact ⟨rfl, rfl, _, rfl⟩
    | span =>
      rw [show (!Scored.span.skips) = true from rfl, pushElements_true]
      have : addTo PStack.new.current [B] = [B] := by simp [addTo, PStack.new, hB]
      rw [this]
      simp only [B, hk]
      exact ⟨rfl, rfl, _, rfl⟩
    | link t =>
      rw [show (!(Scored.link t).skips) = true from rfl, pushElements_true]
      have : addTo PStack.new.current [B] = [B] := by simp [addTo, PStack.new, hB]
      rw [this]
      simp only [B, hk]
      exact ⟨rfl, rfl, _, rfl⟩
  have hrun := gatherParagraphs_gathers (r := .page) (close := none) (p := p0) (toks2 := [e]) (sol2 := solAfter xs) hg (by simp) (by simp) ⟨he, rfl, rfl⟩
    (.inl ⟨he, rfl, rfl⟩) hpe hsafe
  rw [hpi] at hrun
  refine ⟨⟨⟨d.elems ⟨settings, wd, info⟩ ++ [.mk (.footnoteBlock none false) []],
      [], [], [], [], [], byteLen d.write⟩, []⟩, ?_, rfl, rfl⟩
  have hint := hrun
  rw [show gatherParagraphs (consume maxRecursionDepth) .page none env ⟨p0.at (⟨.inputStart, [], 0, 0⟩ :: (xs ++ [e])) true, ⟨[], [], [], [], []⟩⟩ =
    parseInternal env by
      unfold parseInternal
      rw [show env.tokens = ⟨.inputStart, [], 0, 0⟩ :: (xs ++ [e]) from ht]
      rfl] at hint
  show parseEnv env = _
  unfold parseEnv
  rw [hint]
  rfl

/-- A division with a class on lines of its own, whose contents are not a paragraph. -/
example (wd : World) (info : PageInfo) (settings : Settings) : ∃ o,
    parse wd (tokenize c!"[[div_ class=\"x\"]]\nsome **text**\nmore\n[[/DIV]]") info settings = some (.ok o) ∧ o.errors = [] ∧
      o.tree.elements = [.mk (.container .div [(c!"class", c!"x")]) [.mk (.text c!"some") [], .mk (.text c!" ") [],
        .mk (.container .bold []) [.mk (.text c!"text") []], .mk .lineBreak [], .mk (.text c!"more") []], .mk (.footnoteBlock none false) []] := by
  obtain ⟨o, h1, h2, h3⟩ := C103_scored_block (d := ⟨.div, c!"div", [⟨0, [.word c!"class"], c!"x"⟩], true,
    [.plain (.word c!"some"), .plain (.blanks 0), .styled .bold [.plain (.word c!"text")], .newline, .plain (.word c!"more")], true, c!"DIV"⟩)
    (by decide +kernel) wd info settings
  refine ⟨o, h1, h2, ?_⟩
  rw [h3]
  have : attrsOf ⟨settings, wd, info⟩ [⟨0, [.word c!"class"], c!"x"⟩] = [(c!"class", c!"x")] := rfl
  simp only [ScoredPage.elems, Scored.kind, this]
  rfl

/-- A link whose text is on a line of its own. -/
example (wd : World) (info : PageInfo) (settings : Settings) : ∃ o,
    parse wd (tokenize c!"[[*a_ target=\"x\"]]\na\n[[/anchor]]") info settings = some (.ok o) ∧ o.errors = [] ∧
      o.tree.elements = [.mk (.container .paragraph []) [.mk (.anchor (some .newTab) [(c!"target", c!"x")]) [.mk (.text c!"a") []]],
        .mk (.footnoteBlock none false) []] := by
  obtain ⟨o, h1, h2, h3⟩ := C103_scored_block (d := ⟨.link true, c!"a", [⟨0, [.word c!"target"], c!"x"⟩], true, [.plain (.word c!"a")],
    true, c!"anchor"⟩) (by decide +kernel) wd info settings
  refine ⟨o, h1, h2, ?_⟩
  rw [h3]
  have : attrsOf ⟨settings, wd, info⟩ [⟨0, [.word c!"target"], c!"x"⟩] = [(c!"target", c!"x")] := rfl
  simp only [ScoredPage.elems, Scored.kind, this]
  rfl

private def bodyOf (s : Str) : Str :=
  match parse plainHWorld.toWorld (tokenize s) somePage (Settings.fromMode .page .wikidot) with
  | some (.ok o) => match htmlRender 3 plainHWorld somePage (Settings.fromMode .page .wikidot) o.tree with
    | .ok out => out.body
    | _ => []
  | _ => []

/-- Without `_`, a span keeps the line breaks at its ends, and the contents of a division are a paragraph. With it a span also
loses a `[[lines]]` at its ends. -/
theorem C103_not_scored :
    bodyOf c!"[[span]]\na\n[[/span]]" = c!"<wj-body class=\"wj-body\"><p><span><br>a<br></span></p></wj-body>" ∧
    bodyOf c!"[[span_]]\na\n[[/span]]" = c!"<wj-body class=\"wj-body\"><p><span>a</span></p></wj-body>" ∧
    bodyOf c!"[[div]]\na\n[[/div]]" = c!"<wj-body class=\"wj-body\"><div><p>a</p></div></wj-body>" ∧
    bodyOf c!"[[div_]]\na\n[[/div]]" = c!"<wj-body class=\"wj-body\"><div>a</div></wj-body>" ∧
    bodyOf c!"[[span]][[lines 2]]a[[/span]]" = c!"<wj-body class=\"wj-body\"><p><span><br><br>a</span></p></wj-body>" ∧
    bodyOf c!"[[span_]][[lines 2]]a[[/span]]" = c!"<wj-body class=\"wj-body\"><p><span>a</span></p></wj-body>" := by
  decide +kernel

end Ftml
