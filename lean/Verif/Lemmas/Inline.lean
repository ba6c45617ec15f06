import Verif.Lemmas.Chain
/-
Inline markup is parsed to its meaning.
-/
namespace Ftml
open M Markup Lexer

theorem lex_leftComment (rest : Str) : LexesTo .leftComment c!"[!--" rest := by unfold LexesTo; lexs
theorem lex_rightComment (rest : Str) : LexesTo .rightComment c!"--]" rest := by unfold LexesTo; lexs

/-! ### Tokens of markup -/

/-- The token of a plain piece. -/
def _root_.Ftml.Markup.Plain.lex (p : Plain) : Token × Str :=
  (match p with | .word _ => .identifier | .char c => charTok c | .blanks _ => .whitespace, p.str)
/-- The token of the opening marker. -/
def _root_.Ftml.Markup.Style.openTok : Style → Token
  | .bold => .bold | .italics => .italics | .underline => .underline | .superscript => .superscript
  | .subscript => .subscript | .monospace => .leftMonospace | .strikethrough => .doubleDash | .struck => .doubleTilde
/-- The token of the closing marker. -/
def _root_.Ftml.Markup.Style.closeTok : Style → Token
  | .monospace => .rightMonospace
  | s => s.openTok
/-- The tokens of an argument. -/
def _root_.Ftml.Markup.Arg.lex (a : Arg) : List (Token × Str) :=
  (.whitespace, List.replicate (a.gap + 1) ' ') :: (a.key.map Plain.lex ++ [(.equals, c!"="), (.string, quote a.value)])
/-- The tokens of the start of a block. -/
def _root_.Ftml.Markup.Wrap.openLex : Wrap → List (Token × Str)
  | .box name args _ => (.leftBlock, c!"[[") :: (.identifier, name) :: (args.flatMap Arg.lex ++ [(.rightBlock, c!"]]")])
  | .anchor newTab name args _ => (if newTab then (.leftBlockStar, c!"[[*") else (.leftBlock, c!"[[")) ::
      (.identifier, name) :: (args.flatMap Arg.lex ++ [(.rightBlock, c!"]]")])
  | .size name value _ => (.leftBlock, c!"[[") :: (.identifier, name) :: (.whitespace, c!" ") ::
      (value.map Plain.lex ++ [(.rightBlock, c!"]]")])
/-- The tokens of the end of a block. -/
def _root_.Ftml.Markup.Wrap.closeLex (w : Wrap) : List (Token × Str) :=
  [(.leftBlockEnd, c!"[[/"), (.identifier, w.close), (.rightBlock, c!"]]")]
/-- The tokens of an address. -/
def _root_.Ftml.Markup.Address.lex : Address → List (Token × Str)
  | .web url => [(.url, url)]
  | .path more => (.other, c!"/") :: more.map Plain.lex
/-- The tokens of a site. -/
def siteLex : Option (List Plain) → List (Token × Str)
  | some s => (.colon, c!":") :: (s.map Plain.lex ++ [(.colon, c!":")])
  | none => []
/-- The tokens of a category. -/
def categoryLex : Option (List Plain) → List (Token × Str)
  | some s => s.map Plain.lex ++ [(.colon, c!":")]
  | none => []
/-- The tokens of a destination. -/
def _root_.Ftml.Markup.Dest.lex : Dest → List (Token × Str)
  | .page site category name more => siteLex site ++ (categoryLex category ++ (name.map Plain.lex ++ more.map Plain.lex))
  | .address a => a.lex
/-- The tokens of a label. -/
def labelLex : Option (List Plain) → List (Token × Str)
  | some l => (.pipe, c!"|") :: l.map Plain.lex
  | none => []
/-- The tokens of a picture. -/
def _root_.Ftml.Markup.Picture.lex : Picture → List (Token × Str)
  | .web url => [(.url, url)]
  | .own file => file.map Plain.lex
  | .ofPage name file => name.map Plain.lex ++ (.other, c!"/") :: file.map Plain.lex
  | .ofSite host name file => host.map Plain.lex ++ (.other, c!"/") :: (name.map Plain.lex ++ (.other, c!"/") :: file.map Plain.lex)
/-- The tokens of a mark. -/
def _root_.Ftml.Markup.Leaf.lex : Leaf → List (Token × Str)
  | .user avatar block name => (if avatar then (.leftBlockStar, c!"[[*") else (.leftBlock, c!"[[")) ::
      (.identifier, block) :: (.whitespace, c!" ") :: (name.map Plain.lex ++ [(.rightBlock, c!"]]")])
  | .cite mark label => (.leftParentheses, c!"((") :: (.identifier, mark) :: (.whitespace, c!" ") ::
      (label.map Plain.lex ++ [(.rightParentheses, c!"))")])
  | .citeBlock block label => (.leftBlock, c!"[[") :: (.identifier, block) :: (.whitespace, c!" ") ::
      (label.map Plain.lex ++ [(.rightBlock, c!"]]")])
  | .target name => (.leftBlockAnchor, c!"[[#") :: (.whitespace, c!" ") :: (name.map Plain.lex ++ [(.rightBlock, c!"]]")])
  | .math source => (.leftMath, c!"[[$") :: (source.map Plain.lex ++ [(.rightMath, c!"$]]")])
  | .link newTab dest label => (if newTab then (.leftLinkStar, c!"[[[*") else (.leftLink, c!"[[[")) ::
      (dest.lex ++ (labelLex label ++ [(.rightLink, c!"]]]")]))
  | .address newTab a gap label => (if newTab then (.leftBracketStar, c!"[*") else (.leftBracket, c!"[")) ::
      (a.lex ++ (.whitespace, List.replicate (gap + 1) ' ') :: (label.map Plain.lex ++ [(.rightBracket, c!"]")]))
  | .jump name gap label => (.leftBracketAnchor, c!"[#") ::
      (name.map Plain.lex ++ (.whitespace, List.replicate (gap + 1) ' ') :: (label.map Plain.lex ++ [(.rightBracket, c!"]")]))
  | .url s => [(.url, s)]
  | .var name => [(.variable, c!"{$" ++ name ++ c!"}")]
  | .image side block picture args => (.leftBlock, c!"[[") :: ((imageMark side).map Plain.lex ++ (.identifier, block) ::
      (.whitespace, c!" ") :: (picture.lex ++ (args.flatMap Arg.lex ++ [(.rightBlock, c!"]]")])))
  | .checkbox checked block args gap => (if checked then (.leftBlockStar, c!"[[*") else (.leftBlock, c!"[[")) ::
      (.identifier, block) :: (args.flatMap Arg.lex ++ [(.rightBlock, c!"]]"), (.whitespace, List.replicate (gap + 1) ' ')])
  | .radio checked block group args gap => (if checked then (.leftBlockStar, c!"[[*") else (.leftBlock, c!"[[")) ::
      (.identifier, block) :: (.whitespace, c!" ") :: (.identifier, group) ::
      (args.flatMap Arg.lex ++ [(.rightBlock, c!"]]"), (.whitespace, List.replicate (gap + 1) ' ')])
/-- The symbols in raw text and their tokens. -/
def idleTokens : List (Str × Token) :=
  [(c!"**", Token.bold), (c!"//", .italics), (c!"__", .underline), (c!"^^", .superscript), (c!",,", .subscript),
    (c!"{{", .leftMonospace), (c!"}}", .rightMonospace), (c!"##", .color), (c!"--", .doubleDash), (c!"~~", .doubleTilde),
    (c!"[!--", .leftComment), (c!"[[", .leftBlock), (c!"[[*", .leftBlockStar), (c!"[[/", .leftBlockEnd),
    (c!"[[#", .leftBlockAnchor), (c!"[[$", .leftMath), (c!"$]]", .rightMath), (c!"[[[", .leftLink),
    (c!"[[[*", .leftLinkStar), (c!"]]]", .rightLink), (c!"]]", .rightBlock), (c!"[", .leftBracket),
    (c!"[#", .leftBracketAnchor), (c!"[*", .leftBracketStar), (c!"((", .leftParentheses),
    (c!"))", .rightParentheses)]
/-- The token of a symbol in raw text. -/
def idleTok (s : Str) : Token := (idleTokens.lookup s).getD .other
/-- The token of a piece of raw text. -/
def _root_.Ftml.Markup.Sign.lex : Sign → Token × Str
  | .plain p => p.lex
  | .mark s => (idleTok s, s)
  | .url s => (.url, s)
  | .var name => (.variable, c!"{$" ++ name ++ c!"}")
  | .quoted s => (.string, quote s)
/-- The tokens of inline markup. -/
def _root_.Ftml.Markup.Inline.lex : Inline → List (Token × Str)
  | .plain p => [p.lex]
  | .newline => [(.lineBreak, c!"\n")]
  | .styled s body => (s.openTok, s.opening) :: (go body ++ [(s.closeTok, s.closing)])
  | .color name body => (.color, c!"##") :: (name.map Plain.lex ++ (.pipe, c!"|") :: (go body ++ [(.color, c!"##")]))
  | .raw body => (.raw, c!"@@") :: (body.map Sign.lex ++ [(.raw, c!"@@")])
  | .comment body => (.leftComment, c!"[!--") :: (body.map Sign.lex ++ [(.rightComment, c!"--]")])
  | .wrap w body => w.openLex ++ (go body ++ w.closeLex)
  | .leaf l => l.lex
  | .note name body close => (.leftBlock, c!"[[") :: (.identifier, name) :: (.rightBlock, c!"]]") ::
      (go body ++ [(.leftBlockEnd, c!"[[/"), (.identifier, close), (.rightBlock, c!"]]")])
where
  /-- of a sequence -/
  go : List Inline → List (Token × Str)
    | [] => []
    | i :: is => i.lex ++ go is

theorem plains_str (ps : List Plain) : (ps.map Plain.lex).map (·.2) = ps.map Plain.str := by
  simp [Plain.lex, Function.comp_def]

theorem sign_str (i : Sign) : i.lex.2 = i.str := by cases i <;> rfl
theorem signs_str (ss : List Sign) : (ss.map Sign.lex).map (·.2) = ss.map Sign.str := by
  simp [sign_str, Function.comp_def]

theorem args_str (args : List Arg) : (args.flatMap Arg.lex).map (·.2) = args.flatMap Arg.pieces := by
  induction args with
  | nil => rfl
  | cons a args ih =>
    have := plains_str a.key
    simp only [List.flatMap_cons, List.map_append, ih]
    simp [Arg.lex, Arg.pieces, ← this]
theorem open_str (w : Wrap) : w.openLex.map (·.2) = w.opening := by
  cases w with
  | box name args close => simp [Wrap.openLex, Wrap.opening, ← args_str]
  | anchor newTab name args close => cases newTab <;> simp [Wrap.openLex, Wrap.opening, ← args_str]
  | size name value close => simp [Wrap.openLex, Wrap.opening, ← plains_str]

theorem address_str (a : Address) : a.lex.map (·.2) = a.pieces := by
  cases a with
  | web url => rfl
  | path more => simp [Address.lex, Address.pieces, ← plains_str]
theorem site_str (s : Option (List Plain)) : (siteLex s).map (·.2) = sitePieces s := by
  cases s with
  | none => rfl
  | some s => simp [siteLex, sitePieces, ← plains_str]
theorem category_str (s : Option (List Plain)) : (categoryLex s).map (·.2) = categoryPieces s := by
  cases s with
  | none => rfl
  | some s => simp [categoryLex, categoryPieces, ← plains_str]
theorem dest_str (d : Dest) : d.lex.map (·.2) = d.pieces := by
  cases d with
  | page site category name more => simp only [Dest.lex, Dest.pieces, List.map_append, site_str, category_str, plains_str]
  | address a => exact address_str a
theorem label_str (l : Option (List Plain)) : (labelLex l).map (·.2) = labelPieces l := by
  cases l with
  | none => rfl
  | some l => simp [labelLex, labelPieces, ← plains_str]
theorem picture_str (p : Picture) : p.lex.map (·.2) = p.pieces := by
  cases p <;> simp [Picture.lex, Picture.pieces, ← plains_str]
theorem leaf_pieces (l : Leaf) : l.lex.map (·.2) = l.pieces := by
  cases l with
  | user avatar block name => cases avatar <;> simp [Leaf.lex, Leaf.pieces, ← plains_str]
  | link newTab dest label => cases newTab <;> simp [Leaf.lex, Leaf.pieces, ← dest_str, ← label_str]
  | address newTab a gap label => cases newTab <;> simp [Leaf.lex, Leaf.pieces, ← address_str, ← plains_str]
  | image side block picture args => simp [Leaf.lex, Leaf.pieces, ← picture_str, ← plains_str, ← args_str]
  | checkbox checked block args gap => cases checked <;> simp [Leaf.lex, Leaf.pieces, ← args_str]
  | radio checked block group args gap => cases checked <;> simp [Leaf.lex, Leaf.pieces, ← args_str]
  | _ => simp [Leaf.lex, Leaf.pieces, ← plains_str]

mutual
theorem inline_pieces : ∀ i : Inline, i.lex.map (·.2) = i.pieces
  | .plain p => rfl
  | .newline => rfl
  | .styled s body => by simp [Inline.lex, Inline.pieces, inlines_pieces body]
  | .color name body => by
    have := plains_str name
    simp only [List.map_map] at this
    simp [Inline.lex, Inline.pieces, inlines_pieces body, this]
  | .raw body => by
    have := signs_str body
    simp only [List.map_map] at this
    simp [Inline.lex, Inline.pieces, this]
  | .comment body => by
    have := signs_str body
    simp only [List.map_map] at this
    simp [Inline.lex, Inline.pieces, this]
  | .wrap w body => by
    simp only [Inline.lex, Inline.pieces, List.map_append, open_str, inlines_pieces body]
    rfl
  | .leaf l => leaf_pieces l
  | .note name body close => by simp [Inline.lex, Inline.pieces, inlines_pieces body]
theorem inlines_pieces : ∀ is : List Inline, (Inline.lex.go is).map (·.2) = Inline.pieces.go is
  | [] => rfl
  | i :: is => by simp [Inline.lex.go, Inline.pieces.go, inline_pieces i, inlines_pieces is]
end

theorem plain_sym {p : Plain} (h : p.ok = true) : Sym p.lex := by
  cases p with
  | word s => exact ⟨by intro h'; simp [Plain.lex, Plain.str] at h'; simp [Plain.ok, h'] at h, fun rest hf => lex_word h hf⟩
  | char c => exact ⟨by simp [Plain.lex, Plain.str], fun rest hf => lex_char h hf⟩
  | blanks n => exact ⟨by simp [Plain.lex, Plain.str], fun rest hf => lex_blanks hf⟩

theorem open_sym (s : Style) : Sym (s.openTok, s.opening) := by
  cases s
  case bold => exact ⟨by decide, fun rest _ => lex_bold rest⟩
  case italics => exact ⟨by decide, fun rest _ => lex_italics rest⟩
  case underline => exact ⟨by decide, fun rest _ => lex_underline rest⟩
  case superscript => exact ⟨by decide, fun rest _ => lex_superscript rest⟩
  case subscript => exact ⟨by decide, fun rest _ => lex_subscript rest⟩
  case monospace => exact ⟨by decide, fun rest _ => lex_leftMonospace rest⟩
  case strikethrough => exact ⟨by decide, fun rest h => lex_doubleDash h⟩
  case struck => exact ⟨by decide, fun rest h => lex_doubleTilde h⟩
theorem close_sym (s : Style) : Sym (s.closeTok, s.closing) := by
  cases s
  case monospace => exact ⟨by decide, fun rest _ => lex_rightMonospace rest⟩
  case bold => exact open_sym .bold
  case italics => exact open_sym .italics
  case underline => exact open_sym .underline
  case superscript => exact open_sym .superscript
  case subscript => exact open_sym .subscript
  case strikethrough => exact open_sym .strikethrough
  case struck => exact open_sym .struck

theorem plains_sym {ps : List Plain} (h : ps.all Plain.ok = true) : ∀ x ∈ ps.map Plain.lex, Sym x := by
  intro x hx
  obtain ⟨p, hp, rfl⟩ := List.mem_map.1 hx
  exact plain_sym (List.all_eq_true.1 h p hp)

theorem word_sym {s : Str} (h : (Plain.word s).ok = true) : Sym (.identifier, s) := plain_sym h

theorem arg_form {a : Arg} (h : a.ok = true) : a.key.all Plain.ok = true ∧ (∀ p ∈ a.key, (∃ s, p = .word s) ∨ p = .char '-') ∧
    a.key ≠ [] ∧ a.value.contains '\n' = false ∧ a.value.contains '\r' = false := by
  simp only [Arg.ok, Bool.and_eq_true, Bool.not_eq_true'] at h
  obtain ⟨⟨⟨h1, h2⟩, h4⟩, h5⟩ := h
  refine ⟨List.all_eq_true.2 fun p hp => ?_, fun p hp => ?_, by simpa using h2, h4, h5⟩
  · have := List.all_eq_true.1 h1 p hp; simp only [Bool.and_eq_true] at this; exact this.1
  · have := List.all_eq_true.1 h1 p hp
    simp only [Bool.and_eq_true] at this
    cases p with
    | word s => exact .inl ⟨s, rfl⟩
    | char c => exact .inr (by simpa using this.2)
    | blanks n => simp at this

theorem arg_sym {args : List Arg} (h : args.all Arg.ok = true) : ∀ x ∈ args.flatMap Arg.lex, Sym x := by
  intro x hx
  obtain ⟨a, ha, hx⟩ := List.mem_flatMap.1 hx
  obtain ⟨h1, _, _, h2, h3⟩ := arg_form (List.all_eq_true.1 h a ha)
  simp only [Arg.lex, List.mem_cons, List.mem_append, List.not_mem_nil, or_false] at hx
  rcases hx with rfl | hx | rfl | rfl
  · exact plain_sym (p := .blanks a.gap) rfl
  · exact plains_sym h1 x hx
  · exact ⟨by simp, fun rest h => lex_equals h⟩
  · exact ⟨by simp [quote], fun rest _ => lex_string h2 h3 rest⟩

theorem lower_word {s t : Str} (h : lowerA s = t) (ht : (Plain.word t).ok = true) : (Plain.word s).ok = true := by
  subst h
  simp only [Plain.ok, lowerA, Bool.and_eq_true, List.all_eq_true, Bool.not_eq_true', List.isEmpty_eq_false_iff,
    List.mem_map, forall_exists_index, and_imp, forall_apply_eq_imp_iff₂, ne_eq, List.map_eq_nil_iff] at ht ⊢
  refine ⟨ht.1, fun c hc => ?_⟩
  have := ht.2 c hc
  by_cases hu : isUpperA c = true
  · simp [isAlnumA, isAlphaA, hu]
  · simpa [lowerC, hu] using this

theorem rightBlock_sym : Sym (.rightBlock, c!"]]") := ⟨by simp, fun _ h => lex_rightBlock h⟩
theorem leftBlock_sym : Sym (.leftBlock, c!"[[") := ⟨by simp, fun _ h => lex_leftBlock h⟩

theorem wrap_names {w : Wrap} (h : w.ok = true) : (Plain.word w.close).ok = true := by
  cases w with
  | box name args close => simp only [Wrap.ok, Bool.and_eq_true] at h; exact h.1.1.1.2
  | anchor newTab name args close =>
    simp [Wrap.ok] at h
    rcases h.1.2 with h | h <;> exact lower_word h rfl
  | size name value close =>
    simp [Wrap.ok] at h
    exact lower_word h.1.1.1.2 rfl

theorem open_block_sym {w : Wrap} (h : w.ok = true) : ∀ x ∈ w.openLex, Sym x := by
  intro x hx
  cases w with
  | box name args close =>
    simp only [Wrap.ok, Bool.and_eq_true] at h
    simp only [Wrap.openLex, List.mem_cons, List.mem_append, List.not_mem_nil, or_false] at hx
    rcases hx with rfl | rfl | hx | rfl
    · exact leftBlock_sym
    · exact word_sym h.1.1.1.1
    · exact arg_sym h.1.1.2 x hx
    · exact rightBlock_sym
  | anchor newTab name args close =>
    simp only [Wrap.ok, Bool.and_eq_true] at h
    simp only [Wrap.openLex, List.mem_cons, List.mem_append, List.not_mem_nil, or_false] at hx
    rcases hx with rfl | rfl | hx | rfl
    · cases newTab
      · exact leftBlock_sym
      · exact ⟨by simp, fun rest _ => lex_leftBlockStar rest⟩
    · have := h.1.1
      simp at this
      rcases this with h | h <;> exact word_sym (lower_word h rfl)
    · exact arg_sym h.2 x hx
    · exact rightBlock_sym
  | size name value close =>
    simp only [Wrap.ok, Bool.and_eq_true] at h
    simp only [Wrap.openLex, List.mem_cons, List.mem_append, List.not_mem_nil, or_false] at hx
    rcases hx with rfl | rfl | rfl | hx | rfl
    · exact leftBlock_sym
    · exact word_sym (lower_word (by simpa using h.1.1.1.1) rfl)
    · exact plain_sym (p := .blanks 0) rfl
    · exact plains_sym h.1.1.2 x hx
    · exact rightBlock_sym

theorem without_ok {cs : Str} {ps : List Plain} (h : without cs ps = true) : ps.all Plain.ok = true := by
  refine List.all_eq_true.2 fun p hp => ?_
  have := List.all_eq_true.1 h p hp
  simp only [Bool.and_eq_true] at this
  exact this.1
theorem solid_ok {cs : Str} {ps : List Plain} (h : solid cs ps = true) : ps.all Plain.ok = true := by
  simp only [solid, Bool.and_eq_true] at h
  exact without_ok h.1
theorem value_ok {ps : List Plain} (h : valueOk ps = true) : ps.all Plain.ok = true := by
  simp only [valueOk, Bool.and_eq_true] at h
  exact h.1.1
theorem part_ok {ps : List Plain} (h : partOk ps = true) : ps.all Plain.ok = true := by
  simp only [partOk, Bool.and_eq_true] at h
  exact without_ok h.1.1
theorem url_ne {s : Str} (h : urlOk s = true) : s ≠ [] := by
  rintro rfl
  exact absurd h (by decide)

/-- The symbols of marks: plain pieces, or one of the symbols with a fixed text, or addresses and variables. -/
def LeafSym (x : Token × Str) : Prop :=
  (∃ p : Plain, p.ok = true ∧ x = p.lex) ∨
  x ∈ [(Token.leftBlockStar, c!"[[*"), (.leftBlock, c!"[["), (.rightBlock, c!"]]"), (.leftParentheses, c!"(("),
    (.rightParentheses, c!"))"), (.leftBlockAnchor, c!"[[#"), (.leftMath, c!"[[$"), (.rightMath, c!"$]]"),
    (.leftLinkStar, c!"[[[*"), (.leftLink, c!"[[["), (.rightLink, c!"]]]"), (.leftBracketStar, c!"[*"), (.leftBracket, c!"["),
    (.leftBracketAnchor, c!"[#")] ∨
  (∃ s, urlOk s = true ∧ x = (.url, s)) ∨ (∃ s, (Plain.word s).ok = true ∧ x = (.variable, c!"{$" ++ s ++ c!"}")) ∨
  ∃ v : Str, v.contains '\n' = false ∧ v.contains '\r' = false ∧ x = (.string, quote v)

theorem plains_leafSym {ps : List Plain} (h : ps.all Plain.ok = true) : ∀ x ∈ ps.map Plain.lex, LeafSym x := by
  intro x hx
  obtain ⟨p, hp, rfl⟩ := List.mem_map.1 hx
  exact .inl ⟨p, List.all_eq_true.1 h p hp, rfl⟩
theorem blank_leafSym (n : Nat) : LeafSym (.whitespace, List.replicate (n + 1) ' ') := .inl ⟨.blanks n, rfl, rfl⟩
theorem char_leafSym {c : Char} (h : (Plain.char c).ok = true) : LeafSym (charTok c, [c]) := .inl ⟨.char c, h, rfl⟩
theorem block_leafSym {s t : Str} (h : lowerA s = t) (ht : (Plain.word t).ok = true) : LeafSym (.identifier, s) :=
  .inl ⟨.word s, lower_word h ht, rfl⟩

theorem address_leafSym {a : Address} (h : a.ok = true) : ∀ x ∈ a.lex, LeafSym x := by
  intro x hx
  cases a with
  | web url =>
    simp [Address.lex] at hx
    exact .inr (.inr (.inl ⟨url, h, hx⟩))
  | path more =>
    simp only [Address.lex, List.mem_cons] at hx
    rcases hx with rfl | hx
    · exact char_leafSym (c := '/') (by decide)
    · exact plains_leafSym (solid_ok h) x hx

theorem dest_leafSym {d : Dest} (h : d.ok = true) : ∀ x ∈ d.lex, LeafSym x := by
  intro x hx
  cases d with
  | address a => simp only [Dest.ok, Bool.and_eq_true] at h; exact address_leafSym h.1 x hx
  | page site category name more =>
    simp only [Dest.ok, Bool.and_eq_true] at h
    obtain ⟨⟨⟨⟨⟨⟨⟨h1, h2⟩, h3⟩, h4⟩, _⟩, _⟩, _⟩, _⟩ := h
    simp only [Dest.lex, List.mem_append] at hx
    rcases hx with hx | hx | hx | hx
    · cases site with
      | none => simp [siteLex] at hx
      | some s =>
        simp only [siteLex, List.mem_cons, List.mem_append, List.not_mem_nil, or_false] at hx
        rcases hx with rfl | hx | rfl
        · exact char_leafSym (c := ':') (by decide)
        · exact plains_leafSym (part_ok h1) x hx
        · exact char_leafSym (c := ':') (by decide)
    · cases category with
      | none => simp [categoryLex] at hx
      | some s =>
        simp only [categoryLex, List.mem_cons, List.mem_append, List.not_mem_nil, or_false] at hx
        rcases hx with hx | rfl
        · exact plains_leafSym (part_ok h2) x hx
        · exact char_leafSym (c := ':') (by decide)
    · exact plains_leafSym (part_ok h3) x hx
    · exact plains_leafSym (without_ok h4) x hx

theorem side_ok (side : Option FloatAlign) : (imageMark side).all Plain.ok = true := by
  cases side with
  | none => rfl
  | some s => obtain ⟨a, f⟩ := s; cases a <;> cases f <;> decide +kernel
theorem file_leafSym {ps : List Plain} (h : fileOk ps = true) : ∀ x ∈ ps.map Plain.lex, LeafSym x := by
  simp only [fileOk, Bool.and_eq_true] at h
  exact plains_leafSym (solid_ok h.1)
theorem slash_leafSym : LeafSym (.other, c!"/") := char_leafSym (c := '/') (by decide)
theorem picture_leafSym {p : Picture} (h : p.ok = true) : ∀ x ∈ p.lex, LeafSym x := by
  intro x hx
  cases p with
  | web url =>
    simp only [Picture.ok, Bool.and_eq_true] at h
    simp [Picture.lex] at hx
    exact .inr (.inr (.inl ⟨url, h.2, hx⟩))
  | own file =>
    simp only [Picture.ok, Bool.and_eq_true] at h
    exact file_leafSym h.2.1 x hx
  | ofPage name file =>
    simp only [Picture.ok, Bool.and_eq_true] at h
    simp only [Picture.lex, List.mem_cons, List.mem_append] at hx
    rcases hx with hx | rfl | hx
    · exact file_leafSym h.2.1.1 x hx
    · exact slash_leafSym
    · exact file_leafSym h.2.1.2 x hx
  | ofSite host name file =>
    simp only [Picture.ok, Bool.and_eq_true] at h
    simp only [Picture.lex, List.mem_cons, List.mem_append] at hx
    rcases hx with hx | rfl | hx | rfl | hx
    · exact file_leafSym h.2.1.1.1 x hx
    · exact slash_leafSym
    · exact file_leafSym h.2.1.1.2 x hx
    · exact slash_leafSym
    · exact file_leafSym h.2.1.2 x hx
theorem args_leafSym {args : List Arg} (h : args.all Arg.ok = true) : ∀ x ∈ args.flatMap Arg.lex, LeafSym x := by
  intro x hx
  obtain ⟨a, ha, hx⟩ := List.mem_flatMap.1 hx
  obtain ⟨h1, _, _, h2, h3⟩ := arg_form (List.all_eq_true.1 h a ha)
  simp only [Arg.lex, List.mem_cons, List.mem_append, List.not_mem_nil, or_false] at hx
  rcases hx with rfl | hx | rfl | rfl
  · exact blank_leafSym a.gap
  · exact plains_leafSym h1 x hx
  · exact char_leafSym (c := '=') (by decide)
  · exact .inr (.inr (.inr (.inr ⟨a.value, h2, h3, rfl⟩)))

theorem leaf_leafSym {l : Leaf} (h : l.ok = true) : ∀ x ∈ l.lex, LeafSym x := by
  intro x hx
  have fixed : ∀ {x}, x ∈ _ → LeafSym x := fun h => .inr (.inl h)
  cases l with
  | user avatar block name =>
    simp only [Leaf.ok, Bool.and_eq_true, beq_iff_eq] at h
    simp only [Leaf.lex, List.mem_cons, List.mem_append, List.not_mem_nil, or_false] at hx
    rcases hx with rfl | rfl | rfl | hx | rfl
    · cases avatar <;> exact fixed (by decide)
    · exact block_leafSym h.1 rfl
    · exact blank_leafSym 0
    · exact plains_leafSym (value_ok h.2) x hx
    · exact fixed (by decide)
  | cite mark label =>
    simp only [Leaf.ok, Bool.and_eq_true, beq_iff_eq] at h
    simp only [Leaf.lex, List.mem_cons, List.mem_append, List.not_mem_nil, or_false] at hx
    rcases hx with rfl | rfl | rfl | hx | rfl
    · exact fixed (by decide)
    · exact .inl ⟨.word mark, h.1.1.1, rfl⟩
    · exact blank_leafSym 0
    · exact plains_leafSym (solid_ok h.1.2) x hx
    · exact fixed (by decide)
  | citeBlock block label =>
    simp only [Leaf.ok, Bool.and_eq_true, beq_iff_eq] at h
    simp only [Leaf.lex, List.mem_cons, List.mem_append, List.not_mem_nil, or_false] at hx
    rcases hx with rfl | rfl | rfl | hx | rfl
    · exact fixed (by decide)
    · exact block_leafSym h.1 rfl
    · exact blank_leafSym 0
    · exact plains_leafSym (value_ok h.2) x hx
    · exact fixed (by decide)
  | target name =>
    simp only [Leaf.ok, Bool.and_eq_true] at h
    simp only [Leaf.lex, List.mem_cons, List.mem_append, List.not_mem_nil, or_false] at hx
    rcases hx with rfl | rfl | hx | rfl
    · exact fixed (by decide)
    · exact blank_leafSym 0
    · exact plains_leafSym (solid_ok h.1) x hx
    · exact fixed (by decide)
  | math source =>
    simp only [Leaf.ok, Bool.and_eq_true] at h
    simp only [Leaf.lex, List.mem_cons, List.mem_append, List.not_mem_nil, or_false] at hx
    rcases hx with rfl | hx | rfl
    · exact fixed (by decide)
    · exact plains_leafSym h.1 x hx
    · exact fixed (by decide)
  | link newTab dest label =>
    simp only [Leaf.ok, Bool.and_eq_true] at h
    simp only [Leaf.lex, List.mem_cons, List.mem_append, List.not_mem_nil, or_false] at hx
    rcases hx with rfl | hx | hx | rfl
    · cases newTab <;> exact fixed (by decide)
    · exact dest_leafSym h.1 x hx
    · cases label with
      | none => simp [labelLex] at hx
      | some l =>
        simp only [labelLex, List.mem_cons] at hx
        have h2 := h.2
        simp only [Option.all_some, Bool.and_eq_true] at h2
        rcases hx with rfl | hx
        · exact char_leafSym (c := '|') (by decide)
        · exact plains_leafSym h2.1 x hx
    · exact fixed (by decide)
  | address newTab a gap label =>
    simp only [Leaf.ok, Bool.and_eq_true] at h
    simp only [Leaf.lex, List.mem_cons, List.mem_append, List.not_mem_nil, or_false] at hx
    rcases hx with rfl | hx | rfl | hx | rfl
    · cases newTab <;> exact fixed (by decide)
    · exact address_leafSym h.1.1 x hx
    · exact blank_leafSym gap
    · exact plains_leafSym (without_ok h.1.2) x hx
    · exact char_leafSym (c := ']') (by decide)
  | jump name gap label =>
    simp only [Leaf.ok, Bool.and_eq_true] at h
    simp only [Leaf.lex, List.mem_cons, List.mem_append, List.not_mem_nil, or_false] at hx
    rcases hx with rfl | hx | rfl | hx | rfl
    · exact fixed (by decide)
    · exact plains_leafSym (solid_ok h.1.1) x hx
    · exact blank_leafSym gap
    · exact plains_leafSym (without_ok h.1.2) x hx
    · exact char_leafSym (c := ']') (by decide)
  | url s =>
    simp [Leaf.lex] at hx
    exact .inr (.inr (.inl ⟨s, h, hx⟩))
  | var name =>
    simp only [Leaf.lex, List.mem_cons, List.not_mem_nil, or_false] at hx
    exact .inr (.inr (.inr (.inl ⟨name, h, hx⟩)))
  | image side block picture args =>
    simp only [Leaf.ok, Bool.and_eq_true, beq_iff_eq] at h
    simp only [Leaf.lex, List.mem_cons, List.mem_append, List.not_mem_nil, or_false] at hx
    rcases hx with rfl | hx | rfl | rfl | hx | hx | rfl
    · exact fixed (by decide)
    · exact plains_leafSym (side_ok side) x hx
    · exact block_leafSym h.1.1.1.2 rfl
    · exact blank_leafSym 0
    · exact picture_leafSym h.1.1.2 x hx
    · exact args_leafSym h.1.2 x hx
    · exact fixed (by decide)
  | checkbox checked block args gap =>
    simp only [Leaf.ok, Bool.and_eq_true, beq_iff_eq] at h
    simp only [Leaf.lex, List.mem_cons, List.mem_append, List.not_mem_nil, or_false] at hx
    rcases hx with rfl | rfl | hx | rfl | rfl
    · cases checked <;> exact fixed (by decide)
    · exact block_leafSym h.1 rfl
    · exact args_leafSym h.2 x hx
    · exact fixed (by decide)
    · exact blank_leafSym gap
  | radio checked block group args gap =>
    simp only [Leaf.ok, Bool.and_eq_true, beq_iff_eq] at h
    simp only [Leaf.lex, List.mem_cons, List.mem_append, List.not_mem_nil, or_false] at hx
    rcases hx with rfl | rfl | rfl | rfl | hx | rfl | rfl
    · cases checked <;> exact fixed (by decide)
    · exact block_leafSym h.1.1 rfl
    · exact blank_leafSym 0
    · exact .inl ⟨.word group, h.1.2, rfl⟩
    · exact args_leafSym h.2 x hx
    · exact fixed (by decide)
    · exact blank_leafSym gap

theorem LeafSym.sym {x : Token × Str} (h : LeafSym x) : Sym x := by
  rcases h with ⟨p, hp, rfl⟩ | h | ⟨s, hs, rfl⟩ | ⟨s, hs, rfl⟩ | ⟨v, h2, h3, rfl⟩
  rotate_left 4
  · exact ⟨by simp [quote], fun rest _ => lex_string h2 h3 rest⟩
  · exact plain_sym hp
  · simp only [List.mem_cons, List.not_mem_nil, or_false] at h
    rcases h with rfl | rfl | rfl | rfl | rfl | rfl | rfl | rfl | rfl | rfl | rfl | rfl | rfl | rfl
    · exact ⟨by simp, fun rest _ => lex_leftBlockStar rest⟩
    · exact leftBlock_sym
    · exact rightBlock_sym
    · exact ⟨by simp, fun rest _ => lex_leftParentheses rest⟩
    · exact ⟨by simp, fun rest _ => lex_rightParentheses rest⟩
    · exact ⟨by simp, fun rest _ => lex_leftBlockAnchor rest⟩
    · exact ⟨by simp, fun rest _ => lex_leftMath rest⟩
    · exact ⟨by simp, fun rest _ => lex_rightMath rest⟩
    · exact ⟨by simp, fun rest _ => lex_leftLinkStar rest⟩
    · exact ⟨by simp, fun rest h => lex_leftLink h⟩
    · exact ⟨by simp, fun rest h => lex_rightLink h⟩
    · exact ⟨by simp, fun rest _ => lex_leftBracketStar rest⟩
    · exact ⟨by simp, fun rest h => lex_leftBracket h⟩
    · exact ⟨by simp, fun rest _ => lex_leftBracketAnchor rest⟩
  · exact ⟨url_ne hs, fun rest h => lex_url hs h⟩
  · exact ⟨by simp, fun rest _ => lex_variable hs rest⟩

theorem sign_sym {i : Sign} (h : i.ok = true) : Sym i.lex := by
  cases i with
  | plain p => exact plain_sym h
  | url s => exact ⟨url_ne h, fun rest h' => lex_url h h'⟩
  | var s => exact ⟨by simp [Sign.lex], fun rest _ => lex_variable h rest⟩
  | quoted s =>
    simp only [Sign.ok, Bool.and_eq_true, Bool.not_eq_true'] at h
    exact LeafSym.sym (.inr (.inr (.inr (.inr ⟨s, h.1, h.2, rfl⟩))))
  | mark s =>
    simp only [Sign.ok, idleMarks, List.contains_eq_mem, decide_eq_true_eq, List.mem_cons, List.not_mem_nil, or_false] at h
    have style : ∀ (t : Style), s = t.opening → idleTok s = t.openTok → Sym (idleTok s, s) := by
      intro t e1 e2; rw [e2, e1]; exact open_sym t
    have fixed : (idleTok s, s) ∈ _ → Sym (idleTok s, s) := fun h => LeafSym.sym (.inr (.inl h))
    show Sym (idleTok s, s)
    rcases h with rfl | rfl | rfl | rfl | rfl | rfl | rfl | rfl | rfl | rfl | rfl | h
    · exact open_sym .bold
    · exact open_sym .italics
    · exact open_sym .underline
    · exact open_sym .superscript
    · exact open_sym .subscript
    · exact open_sym .monospace
    · exact close_sym .monospace
    · exact ⟨by simp, fun rest _ => lex_color rest⟩
    · exact open_sym .strikethrough
    · exact open_sym .struck
    · exact ⟨by simp, fun rest _ => lex_leftComment rest⟩
    · rcases h with rfl | rfl | rfl | h
      · exact leftBlock_sym
      · exact ⟨by simp, fun rest _ => lex_leftBlockStar rest⟩
      · exact ⟨by simp, fun rest _ => lex_leftBlockEnd rest⟩
      · rcases h with rfl | rfl | rfl | rfl | rfl | rfl | rfl | rfl | rfl | rfl | rfl | rfl <;> exact fixed (by decide)

theorem signs_sym {ss : List Sign} (h : ss.all Sign.ok = true) : ∀ x ∈ ss.map Sign.lex, Sym x := by
  intro x hx
  obtain ⟨i, hi, rfl⟩ := List.mem_map.1 hx
  exact sign_sym (List.all_eq_true.1 h i hi)

mutual
theorem inline_sym : ∀ (i : Inline), i.ok = true → ∀ x ∈ i.lex, Sym x
  | .plain p, h, x, hx => by
    simp [Inline.lex] at hx; rw [hx]; exact plain_sym h
  | .newline, h, x, hx => by
    simp [Inline.lex] at hx; rw [hx]; exact ⟨by decide, fun rest h => lex_newline h⟩
  | .styled s body, h, x, hx => by
    simp [Inline.ok] at h
    simp [Inline.lex] at hx
    rcases hx with rfl | hx | rfl
    · exact open_sym s
    · exact inlines_sym body h.1 x hx
    · exact close_sym s
  | .color name body, h, x, hx => by
    simp only [Inline.ok, Bool.and_eq_true] at h
    have hn : name.all Plain.ok = true := by
      refine List.all_eq_true.2 fun p hp => ?_
      have := List.all_eq_true.1 h.1.1 p hp
      simp at this; exact this.1
    simp only [Inline.lex, List.mem_cons, List.mem_append, List.not_mem_nil, or_false] at hx
    rcases hx with rfl | hx | rfl | hx | rfl
    · exact ⟨by simp, fun rest _ => lex_color rest⟩
    · exact plains_sym hn x hx
    · exact ⟨by simp, fun rest h => lex_pipe h⟩
    · exact inlines_sym body h.1.2 x hx
    · exact ⟨by simp, fun rest _ => lex_color rest⟩
  | .raw body, h, x, hx => by
    simp only [Inline.ok, Bool.and_eq_true] at h
    simp only [Inline.lex, List.mem_cons, List.mem_append, List.not_mem_nil, or_false] at hx
    rcases hx with rfl | hx | rfl
    · exact ⟨by simp, fun rest _ => lex_raw rest⟩
    · exact signs_sym h.1 x hx
    · exact ⟨by simp, fun rest _ => lex_raw rest⟩
  | .comment body, h, x, hx => by
    simp only [Inline.ok] at h
    simp only [Inline.lex, List.mem_cons, List.mem_append, List.not_mem_nil, or_false] at hx
    rcases hx with rfl | hx | rfl
    · exact ⟨by simp, fun rest _ => lex_leftComment rest⟩
    · exact signs_sym h x hx
    · exact ⟨by simp, fun rest _ => lex_rightComment rest⟩
  | .wrap w body, h, x, hx => by
    simp only [Inline.ok, Bool.and_eq_true] at h
    simp only [Inline.lex, Wrap.closeLex, List.mem_cons, List.mem_append, List.not_mem_nil, or_false] at hx
    rcases hx with hx | hx | rfl | rfl | rfl
    · exact open_block_sym h.1.1.1 x hx
    · exact inlines_sym body h.1.1.2 x hx
    · exact ⟨by simp, fun rest _ => lex_leftBlockEnd rest⟩
    · exact word_sym (wrap_names h.1.1.1)
    · exact rightBlock_sym
  | .leaf l, h, x, hx => (leaf_leafSym h x hx).sym
  | .note name body close, h, x, hx => by
    simp only [Inline.ok, Bool.and_eq_true, beq_iff_eq] at h
    obtain ⟨⟨⟨⟨⟨h1, h2⟩, h3⟩, _⟩, _⟩, _⟩ := h
    simp only [Inline.lex, List.mem_cons, List.mem_append, List.not_mem_nil, or_false] at hx
    rcases hx with rfl | rfl | rfl | hx | rfl | rfl | rfl
    · exact leftBlock_sym
    · exact word_sym (lower_word h1 rfl)
    · exact rightBlock_sym
    · exact inlines_sym body h3 x hx
    · exact ⟨by simp, fun rest _ => lex_leftBlockEnd rest⟩
    · exact word_sym (lower_word h2 rfl)
    · exact rightBlock_sym
theorem inlines_sym : ∀ (is : List Inline), Inline.ok.go is = true → ∀ x ∈ Inline.lex.go is, Sym x
  | [], _, x, hx => by simp [Inline.lex.go] at hx
  | i :: is, h, x, hx => by
    simp [Inline.ok.go] at h
    simp [Inline.lex.go] at hx
    rcases hx with hx | hx
    · exact inline_sym i h.1 x hx
    · exact inlines_sym is h.2 x hx
end

/-! ### Lines -/

/-- Tokens that mean something at the start of a line only. -/
def isLineTok : Token → Bool
  | .colon | .equals | .heading | .quote | .bulletItem | .numberedItem => true
  | _ => false
/-- Tokens that may stand anywhere. -/
def isInlineTok : Token → Bool
  | .identifier | .other | .pipe | .rightBracket | .leftMonospace | .rightMonospace | .bold | .italics | .underline
  | .superscript | .subscript | .color | .raw | .doubleDash | .doubleTilde | .leftComment | .rightComment
  | .leftBlock | .leftBlockStar | .leftBlockEnd | .rightBlock | .string
  | .leftBracket | .leftBracketAnchor | .leftBracketStar | .leftLink | .leftLinkStar | .rightLink | .leftMath | .rightMath
  | .leftBlockAnchor | .leftParentheses | .rightParentheses | .url | .variable => true
  | _ => false

/-- The next token does not start a block. -/
def noBlockNext : List ETok → Bool
  | x :: _ => x.token != .leftBlock && x.token != .leftBlockStar
  | [] => true

/-- The next token starts a block of its own. -/
def skipNext : List ETok → Bool
  | x :: _ => isSkipTok x.token
  | [] => false

/-- Tokens up to the next stop, where no line starts with a symbol that means something there; a line
break with fewer than `ol` tokens after it is a stop. -/
def TLine (ol : Nat) : Bool → List ETok → Prop
  | _, [] => True
  | begun, x :: xs =>
    if x.token = .paragraphBreak ∨ x.token = .inputEnd then True
    else if isColumnTok x.token = true then begun = true
    else if x.token = .lineBreak then xs.length < ol ∨ noBlockNext xs = true ∧ TLine ol false xs
    else if x.token = .whitespace then TLine ol begun xs
    else (isInlineTok x.token = true ∨ isLineTok x.token = true ∧ begun = true) ∧ TLine ol true xs

/-- A stop. -/
def isStop (t : Token) : Bool := t == .paragraphBreak || t == .inputEnd

/-- The tokens start with a stop. -/
def Stops (ol : Nat) : List ETok → Prop
  | [] => False
  | x :: xs => isStop x.token = true ∨ (x.token = .lineBreak ∧ xs.length < ol)

theorem TLine.stop {ol b xs} (h : Stops ol xs) : TLine ol b xs := by
  cases xs with
  | nil => exact h.elim
  | cons x xs =>
  unfold TLine
  rcases h with h | h
  · simp [isStop] at h
    rcases h with h | h
    · simp [h]
    · simp [h]
  · simp [h, isColumnTok]

/-- The tokens start with a stop or the end of a cell. -/
def Halts (ol : Nat) (xs : List ETok) : Prop := Stops ol xs ∨ ∃ x ys, xs = x :: ys ∧ isColumnTok x.token = true

/-- None of the tokens is a stop. -/
def Within (ol : Nat) (xs rest : List ETok) : Prop := ∀ a b, xs = a ++ b → b ≠ [] → ¬ Halts ol (b ++ rest)

theorem Within.left {ol xs ys rest} (h : Within ol (xs ++ ys) rest) : Within ol xs (ys ++ rest) := by
  intro a b e hb
  have := h a (b ++ ys) (by rw [e]; simp) (by simp [hb])
  rwa [List.append_assoc] at this
theorem Within.right {ol xs ys rest} (h : Within ol (xs ++ ys) rest) : Within ol ys rest := by
  intro a b e hb
  exact h (xs ++ a) b (by rw [e]; simp) hb
theorem Within.mid {ol xs ys zs rest} (h : Within ol (xs ++ ys ++ zs) rest) : Within ol ys (zs ++ rest) :=
  h.left.right

theorem TLine.after {ol : Nat} {xs rest : List ETok} : ∀ {b : Bool}, TLine ol b (xs ++ rest) → xs ≠ [] →
    Within ol xs rest → ∃ b', TLine ol b' rest ∧ (b' = true → solAfter xs = false) := by
  induction xs with
  | nil => intro b _ h; exact (h rfl).elim
  | cons x xs ih =>
    intro b h _ hst
    have hx := hst [] (x :: xs) rfl (by simp)
    have hcol : ¬ isColumnTok x.token = true := fun e => hx (.inr ⟨x, xs ++ rest, rfl, e⟩)
    have hx := fun h => hx (.inl h)
    simp only [Stops, List.cons_append, isStop, Bool.or_eq_true, beq_iff_eq, Bool.and_eq_true, imp_false, not_or, not_and] at hx
    rw [List.cons_append, TLine, if_neg (by simp [hx]), if_neg hcol] at h
    have go : ∀ b', TLine ol b' (xs ++ rest) → (b' = true → isLineStartTok x.token = false) →
        ∃ b', TLine ol b' rest ∧ (b' = true → solAfter (x :: xs) = false) := by
      intro b' h' hb
      cases xs with
      | nil => exact ⟨b', h', by simpa [solAfter] using hb⟩
      | cons y ys =>
        obtain ⟨b', h1, h2⟩ := ih h' (by simp) (hst.right (xs := [x]))
        exact ⟨b', h1, by simpa [solAfter] using h2⟩
    by_cases hl : x.token = .lineBreak
    · rw [if_pos hl] at h
      rcases h with h | h
      · exact absurd h (hx.2 hl)
      · exact go _ h.2 (by simp)
    · rw [if_neg hl] at h
      by_cases hw : x.token = .whitespace
      · rw [if_pos hw] at h
        exact go _ h (by simp [hw, isLineStartTok])
      · rw [if_neg hw] at h
        refine go _ h.2 (fun _ => ?_)
        rcases h.1 with h1 | ⟨h1, _⟩
        · revert h1; cases x.token <;> simp [isInlineTok, isLineStartTok]
        · revert h1; cases x.token <;> simp [isLineTok, isLineStartTok]

/-- What the token of a symbol tells about its text. -/
def Classed (x : Token × Str) : Prop :=
  (x.1 = .lineBreak ∧ x.2 = c!"\n") ∨ (x.1 = .whitespace ∧ ∃ n, x.2 = List.replicate (n + 1) ' ') ∨
  (isLineTok x.1 = true ∧ ∃ c, x.2 = [c] ∧ c ∈ lineChars) ∨
  (isInlineTok x.1 = true ∧ x.2 ≠ [] ∧ x.2.head? ≠ some ' ' ∧ x.2 ≠ c!"\n" ∧
    (x.1 = .leftBlock → x.2 = c!"[[") ∧ (x.1 = .leftBlockStar → x.2 = c!"[[*"))

theorem Stops.noBlock {ol : Nat} {ys : List ETok} (h : Stops ol ys) : noBlockNext ys = true := by
  cases ys with
  | nil => rfl
  | cons y ys =>
    rcases h with h | h
    · simp [isStop] at h
      simp only [noBlockNext, Bool.and_eq_true, bne_iff_ne, ne_eq]
      rcases h with h | h <;> simp [h]
    · simp [noBlockNext, h.1]
theorem Classed.leftBlock {x : Token × Str} (h : Classed x) (e : x.1 = .leftBlock) : x.2 = c!"[[" := by
  rcases h with h | h | h | h
  · rw [e] at h; cases h.1
  · rw [e] at h; cases h.1
  · rw [e] at h; cases h.1
  · exact h.2.2.2.2.1 e
theorem Classed.leftBlockStar {x : Token × Str} (h : Classed x) (e : x.1 = .leftBlockStar) : x.2 = c!"[[*" := by
  rcases h with h | h | h | h
  · rw [e] at h; cases h.1
  · rw [e] at h; cases h.1
  · rw [e] at h; cases h.1
  · exact h.2.2.2.2.2 e

theorem tline_of {ol : Nat} {xs ys : List ETok} (hy : Stops ol ys)
    (hc : ∀ x ∈ xs, Classed (x.token, x.slice)) : ∀ {b : Bool}, linesOk b (xs.map (·.slice)) = true →
    TLine ol b (xs ++ ys) := by
  induction xs with
  | nil => intro b _; exact .stop hy
  | cons x xs ih =>
    intro b h
    have ih := @ih (fun x hx => hc x (by simp [hx]))
    rw [List.map_cons, linesOk] at h
    rw [List.cons_append, TLine]
    have hcx := hc x (by simp)
    unfold Classed at hcx
    dsimp only at hcx
    rcases hcx with ⟨h1, h2⟩ | ⟨h1, n, h2⟩ | ⟨h1, c, h2, h3⟩ | ⟨h1, h2, h3, h4, _⟩
    · rw [if_pos h2, Bool.and_eq_true] at h
      rw [if_neg (by simp [h1]), if_neg (by simp [h1, isColumnTok]), if_pos h1]
      refine .inr ⟨?_, ih h.2⟩
      cases xs with
      | nil => exact hy.noBlock
      | cons y xs => 
        have hcy := hc y (by simp)
        have h := h.1
        simp only [List.map_cons, startsBlock, Bool.not_eq_true', Bool.or_eq_false_iff, decide_eq_false_iff_not] at h
        simp only [List.cons_append, noBlockNext, Bool.and_eq_true, bne_iff_ne, ne_eq]
        exact ⟨fun e => h.1 (hcy.leftBlock e), fun e => h.2 (hcy.leftBlockStar e)⟩
    · rw [if_neg (by rw [h2, List.replicate_succ]; simp), if_pos (by rw [h2]; simp)] at h
      rw [if_neg (by simp [h1]), if_neg (by simp [h1, isColumnTok]), if_neg (by simp [h1]), if_pos h1]
      exact ih h
    · have hne : c ≠ '\n' ∧ c ≠ ' ' := by
        simp [lineChars] at h3
        rcases h3 with rfl | rfl | rfl | rfl | rfl | rfl <;> decide
      rw [if_neg (by rw [h2]; simp [hne.1]), if_neg (by rw [h2]; simp [hne.2])] at h
      have hcon : lineChars.contains c = true := by simpa using h3
      rw [h2] at h
      simp only [isLineChar, hcon, Bool.not_true, Bool.or_false, Bool.and_eq_true] at h
      have : (x.token ≠ .paragraphBreak ∧ x.token ≠ .inputEnd) ∧ x.token ≠ .lineBreak ∧ x.token ≠ .whitespace ∧ ¬ isColumnTok x.token = true := by
        revert h1; cases x.token <;> simp [isLineTok, isColumnTok]
      rw [if_neg (by simp [this.1]), if_neg this.2.2.2, if_neg this.2.1, if_neg this.2.2.1]
      exact ⟨.inr ⟨h1, h.1⟩, ih h.2⟩
    · have hall : x.slice.all (· == ' ') = false := by
        cases hx : x.slice with
        | nil => exact (h2 hx).elim
        | cons c s => rw [hx] at h3; simp at h3; simp [h3]
      rw [if_neg h4, hall] at h
      simp only [Bool.false_eq_true, if_false, Bool.and_eq_true] at h
      have : (x.token ≠ .paragraphBreak ∧ x.token ≠ .inputEnd) ∧ x.token ≠ .lineBreak ∧ x.token ≠ .whitespace ∧ ¬ isColumnTok x.token = true := by
        revert h1; cases x.token <;> simp [isInlineTok, isColumnTok]
      rw [if_neg (by simp [this.1]), if_neg this.2.2.2, if_neg this.2.1, if_neg this.2.2.1]
      exact ⟨.inl h1, ih h.2⟩

theorem plain_classed {p : Plain} (h : p.ok = true) : Classed p.lex := by
  cases p with
  | word s =>
    refine .inr (.inr (.inr ⟨rfl, ?_, ?_, ?_, by simp [Plain.lex], by simp [Plain.lex]⟩))
    · intro e; simp [Plain.lex, Plain.str] at e; simp [Plain.ok, e] at h
    · intro e
      simp [Plain.lex, Plain.str] at e
      simp [Plain.ok] at h
      cases s with
      | nil => simp at e
      | cons c s => simp at e; exact absurd (h.2 c (by simp)) (by rw [e]; decide)
    · intro e
      simp [Plain.lex, Plain.str] at e
      simp [Plain.ok, e] at h
      exact absurd h (by decide)
  | blanks n => exact .inr (.inl ⟨rfl, n, rfl⟩)
  | char c =>
    simp [Plain.ok] at h
    by_cases hl : c ∈ lineChars
    · refine .inr (.inr (.inl ⟨?_, c, rfl, hl⟩))
      simp [lineChars] at hl
      rcases hl with rfl | rfl | rfl | rfl | rfl | rfl <;> rfl
    · refine .inr (.inr (.inr ⟨?_, by simp [Plain.lex, Plain.str], by simp [Plain.lex, Plain.str, h], by simp [Plain.lex, Plain.str, h], ?_, ?_⟩))
      all_goals simp [lineChars] at hl
      simp only [Plain.lex, charTok, hl, if_false]
      split
      · rfl
      · split <;> rfl
      all_goals
        simp only [Plain.lex, charTok, hl, if_false]
        split
        · simp
        · split <;> simp

theorem plains_classed {ps : List Plain} (h : ps.all Plain.ok = true) : ∀ x ∈ ps.map Plain.lex, Classed x := by
  intro x hx
  obtain ⟨p, hp, rfl⟩ := List.mem_map.1 hx
  exact plain_classed (List.all_eq_true.1 h p hp)

theorem open_classed (s : Style) : Classed (s.openTok, s.opening) := by
  refine .inr (.inr (.inr ?_)); cases s <;> exact ⟨rfl, by decide, by decide, by decide, by decide, by decide⟩
theorem close_classed (s : Style) : Classed (s.closeTok, s.closing) := by
  refine .inr (.inr (.inr ?_)); cases s <;> exact ⟨rfl, by decide, by decide, by decide, by decide, by decide⟩

theorem arg_classed {args : List Arg} (h : args.all Arg.ok = true) : ∀ x ∈ args.flatMap Arg.lex, Classed x := by
  intro x hx
  obtain ⟨a, ha, hx⟩ := List.mem_flatMap.1 hx
  obtain ⟨h1, _, _, h2, h3⟩ := arg_form (List.all_eq_true.1 h a ha)
  simp only [Arg.lex, List.mem_cons, List.mem_append, List.not_mem_nil, or_false] at hx
  rcases hx with rfl | hx | rfl | rfl
  · exact plain_classed (p := .blanks a.gap) rfl
  · exact plains_classed h1 x hx
  · exact .inr (.inr (.inl ⟨rfl, '=', rfl, by decide⟩))
  · exact .inr (.inr (.inr ⟨rfl, by simp [quote], by simp [quote], by simp [quote], by simp, by simp⟩))

theorem rightBlock_classed : Classed (.rightBlock, c!"]]") :=
  .inr (.inr (.inr ⟨rfl, by decide, by decide, by decide, by decide, by decide⟩))
theorem leftBlock_classed : Classed (.leftBlock, c!"[[") :=
  .inr (.inr (.inr ⟨rfl, by decide, by decide, by decide, by decide, by decide⟩))

theorem open_block_classed {w : Wrap} (h : w.ok = true) : ∀ x ∈ w.openLex, Classed x := by
  intro x hx
  cases w with
  | box name args close =>
    simp only [Wrap.ok, Bool.and_eq_true] at h
    simp only [Wrap.openLex, List.mem_cons, List.mem_append, List.not_mem_nil, or_false] at hx
    rcases hx with rfl | rfl | hx | rfl
    · exact leftBlock_classed
    · exact plain_classed (p := .word name) h.1.1.1.1
    · exact arg_classed h.1.1.2 x hx
    · exact rightBlock_classed
  | anchor newTab name args close =>
    simp only [Wrap.ok, Bool.and_eq_true] at h
    simp only [Wrap.openLex, List.mem_cons, List.mem_append, List.not_mem_nil, or_false] at hx
    rcases hx with rfl | rfl | hx | rfl
    · cases newTab
      · exact leftBlock_classed
      · exact .inr (.inr (.inr ⟨rfl, by decide, by decide, by decide, by decide, by decide⟩))
    · have := h.1.1
      simp at this
      rcases this with h | h <;> exact plain_classed (p := .word name) (lower_word h rfl)
    · exact arg_classed h.2 x hx
    · exact rightBlock_classed
  | size name value close =>
    simp only [Wrap.ok, Bool.and_eq_true] at h
    simp only [Wrap.openLex, List.mem_cons, List.mem_append, List.not_mem_nil, or_false] at hx
    rcases hx with rfl | rfl | rfl | hx | rfl
    · exact leftBlock_classed
    · exact plain_classed (p := .word name) (lower_word (by simpa using h.1.1.1.1) rfl)
    · exact plain_classed (p := .blanks 0) rfl
    · exact plains_classed h.1.1.2 x hx
    · exact rightBlock_classed

theorem url_head {s : Str} (h : urlOk s = true) : s.head? = some 'h' ∨ s.head? = some 'f' := by
  simp only [urlOk, List.any_eq_true, Bool.and_eq_true, decide_eq_true_eq] at h
  obtain ⟨p, hp, ⟨hpre, _⟩, _⟩ := h
  simp only [startsWith, Option.isSome_iff_exists] at hpre
  obtain ⟨m, hm⟩ := hpre
  rw [stripPfx_some.1 hm]
  simp at hp
  rcases hp with rfl | rfl | rfl <;> simp

theorem LeafSym.classed {x : Token × Str} (h : LeafSym x) : Classed x := by
  rcases h with ⟨p, hp, rfl⟩ | h | ⟨s, hs, rfl⟩ | ⟨s, hs, rfl⟩ | ⟨v, h2, h3, rfl⟩
  rotate_left 4
  · exact .inr (.inr (.inr ⟨rfl, by simp [quote], by simp [quote], by simp [quote], by simp, by simp⟩))
  · exact plain_classed hp
  · simp only [List.mem_cons, List.not_mem_nil, or_false] at h
    rcases h with rfl | rfl | rfl | rfl | rfl | rfl | rfl | rfl | rfl | rfl | rfl | rfl | rfl | rfl <;>
      exact .inr (.inr (.inr ⟨rfl, by decide, by decide, by decide, by decide, by decide⟩))
  · refine .inr (.inr (.inr ⟨rfl, url_ne hs, ?_, ?_, by simp, by simp⟩))
    · rcases url_head hs with h | h <;> simp [h]
    · intro e; have e : s = c!"\n" := e; subst e; exact absurd hs (by decide)
  · exact .inr (.inr (.inr ⟨rfl, by simp, by simp, by simp, by simp, by simp⟩))

theorem sign_classed {i : Sign} (h : i.ok = true) : Classed i.lex := by
  cases i with
  | plain p => exact plain_classed h
  | url s => exact LeafSym.classed (.inr (.inr (.inl ⟨s, h, rfl⟩)))
  | var s => exact LeafSym.classed (.inr (.inr (.inr (.inl ⟨s, h, rfl⟩))))
  | quoted s =>
    simp only [Sign.ok, Bool.and_eq_true, Bool.not_eq_true'] at h
    exact LeafSym.classed (.inr (.inr (.inr (.inr ⟨s, h.1, h.2, rfl⟩))))
  | mark s =>
    simp only [Sign.ok, idleMarks, List.contains_eq_mem, decide_eq_true_eq, List.mem_cons, List.not_mem_nil, or_false] at h
    refine .inr (.inr (.inr ?_))
    rcases h with rfl | rfl | rfl | rfl | rfl | rfl | rfl | rfl | rfl | rfl | rfl | rfl | rfl | rfl | rfl | rfl | rfl | rfl |
      rfl | rfl | rfl | rfl | rfl | rfl | rfl | rfl <;> exact ⟨rfl, by decide, by decide, by decide, by decide, by decide⟩
theorem signs_classed {ss : List Sign} (h : ss.all Sign.ok = true) : ∀ x ∈ ss.map Sign.lex, Classed x := by
  intro x hx
  obtain ⟨i, hi, rfl⟩ := List.mem_map.1 hx
  exact sign_classed (List.all_eq_true.1 h i hi)

mutual
theorem inline_classed : ∀ (i : Inline), i.ok = true → ∀ x ∈ i.lex, Classed x
  | .plain p, h, x, hx => by
    simp [Inline.lex] at hx; rw [hx]; exact plain_classed h
  | .newline, h, x, hx => by
    simp [Inline.lex] at hx; rw [hx]; exact .inl ⟨rfl, rfl⟩
  | .styled s body, h, x, hx => by
    simp [Inline.ok] at h
    simp [Inline.lex] at hx
    rcases hx with rfl | hx | rfl
    · exact open_classed s
    · exact inlines_classed body h.1 x hx
    · exact close_classed s
  | .color name body, h, x, hx => by
    simp only [Inline.ok, Bool.and_eq_true] at h
    have hn : name.all Plain.ok = true := by
      refine List.all_eq_true.2 fun p hp => ?_
      have := List.all_eq_true.1 h.1.1 p hp
      simp at this; exact this.1
    simp only [Inline.lex, List.mem_cons, List.mem_append, List.not_mem_nil, or_false] at hx
    rcases hx with rfl | hx | rfl | hx | rfl
    · exact .inr (.inr (.inr ⟨rfl, by decide, by decide, by decide, by decide, by decide⟩))
    · exact plains_classed hn x hx
    · exact .inr (.inr (.inr ⟨rfl, by decide, by decide, by decide, by decide, by decide⟩))
    · exact inlines_classed body h.1.2 x hx
    · exact .inr (.inr (.inr ⟨rfl, by decide, by decide, by decide, by decide, by decide⟩))
  | .raw body, h, x, hx => by
    simp only [Inline.ok, Bool.and_eq_true] at h
    simp only [Inline.lex, List.mem_cons, List.mem_append, List.not_mem_nil, or_false] at hx
    rcases hx with rfl | hx | rfl
    · exact .inr (.inr (.inr ⟨rfl, by decide, by decide, by decide, by decide, by decide⟩))
    · exact signs_classed h.1 x hx
    · exact .inr (.inr (.inr ⟨rfl, by decide, by decide, by decide, by decide, by decide⟩))
  | .comment body, h, x, hx => by
    simp only [Inline.ok] at h
    simp only [Inline.lex, List.mem_cons, List.mem_append, List.not_mem_nil, or_false] at hx
    rcases hx with rfl | hx | rfl
    · exact .inr (.inr (.inr ⟨rfl, by decide, by decide, by decide, by decide, by decide⟩))
    · exact signs_classed h x hx
    · exact .inr (.inr (.inr ⟨rfl, by decide, by decide, by decide, by decide, by decide⟩))
  | .wrap w body, h, x, hx => by
    simp only [Inline.ok, Bool.and_eq_true] at h
    simp only [Inline.lex, Wrap.closeLex, List.mem_cons, List.mem_append, List.not_mem_nil, or_false] at hx
    rcases hx with hx | hx | rfl | rfl | rfl
    · exact open_block_classed h.1.1.1 x hx
    · exact inlines_classed body h.1.1.2 x hx
    · exact .inr (.inr (.inr ⟨rfl, by decide, by decide, by decide, by decide, by decide⟩))
    · exact plain_classed (wrap_names h.1.1.1)
    · exact rightBlock_classed
  | .leaf l, h, x, hx => (leaf_leafSym h x hx).classed
  | .note name body close, h, x, hx => by
    simp only [Inline.ok, Bool.and_eq_true, beq_iff_eq] at h
    obtain ⟨⟨⟨⟨⟨h1, h2⟩, h3⟩, _⟩, _⟩, _⟩ := h
    simp only [Inline.lex, List.mem_cons, List.mem_append, List.not_mem_nil, or_false] at hx
    rcases hx with rfl | rfl | rfl | hx | rfl | rfl | rfl
    · exact .inr (.inr (.inr ⟨rfl, by decide, by decide, by decide, by decide, by decide⟩))
    · exact plain_classed (p := .word name) (lower_word h1 rfl)
    · exact rightBlock_classed
    · exact inlines_classed body h3 x hx
    · exact .inr (.inr (.inr ⟨rfl, by decide, by decide, by decide, by decide, by decide⟩))
    · exact plain_classed (p := .word close) (lower_word h2 rfl)
    · exact rightBlock_classed
theorem inlines_classed : ∀ (is : List Inline), Inline.ok.go is = true → ∀ x ∈ Inline.lex.go is, Classed x
  | [], _, x, hx => by simp [Inline.lex.go] at hx
  | i :: is, h, x, hx => by
    simp [Inline.ok.go] at h
    simp [Inline.lex.go] at hx
    rcases hx with hx | hx
    · exact inline_classed i h.1 x hx
    · exact inlines_classed is h.2 x hx
end

end Ftml
