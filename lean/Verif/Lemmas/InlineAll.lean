import Verif.Lemmas.NoteRun
/-
Inline markup is parsed to its meaning: the induction.
-/
namespace Ftml
open M Markup Lexer
variable {env : Env}

/-- The text of the tokens with a fixed text. -/
def tokStr : Token → Option Str
  | .bold => some c!"**" | .italics => some c!"//" | .underline => some c!"__" | .superscript => some c!"^^"
  | .subscript => some c!",," | .leftMonospace => some c!"{{" | .rightMonospace => some c!"}}"
  | .doubleDash => some c!"--" | .doubleTilde => some c!"~~" | .color => some c!"##"
  | _ => none

/-- The token is spelled as it should be. -/
def Spelled (x : Token × Str) : Prop :=
  (∀ t, tokStr x.1 = some t → x.2 = t) ∧ (x.1 = .whitespace → x.2.head? = some ' ') ∧ isStop x.1 = false

theorem plain_spelled (p : Plain) : Spelled p.lex := by
  refine ⟨?_, ?_, ?_⟩
  · intro t h
    have := plain_tok p
    revert h this
    generalize p.lex.1 = t'
    cases t' <;> simp [tokStr, isPlainTok, isLineTok]
  · intro h
    cases p with
    | word => cases h
    | blanks n => rfl
    | char c =>
      have := charTok_cases c
      have h : charTok c = .whitespace := h
      rw [h] at this
      simp [isLineTok] at this
  · have := plain_tok p
    revert this
    generalize p.lex.1 = t'
    cases t' <;> simp [isStop, isPlainTok, isLineTok]

theorem plains_spelled (ps : List Plain) : ∀ x ∈ ps.map Plain.lex, Spelled x := by
  intro x hx
  obtain ⟨p, _, rfl⟩ := List.mem_map.1 hx
  exact plain_spelled p

macro "spelled" : tactic => `(tactic|
  exact ⟨by intro t h; simp [tokStr, Style.openTok, Style.closeTok] at h; try exact h, by simp [Style.openTok, Style.closeTok], by rfl⟩)

theorem open_spelled (s : Style) : Spelled (s.openTok, s.opening) := by cases s <;> spelled
theorem close_spelled (s : Style) : Spelled (s.closeTok, s.closing) := by cases s <;> spelled

theorem args_spelled (args : List Arg) : ∀ x ∈ args.flatMap Arg.lex, Spelled x := by
  intro x hx
  obtain ⟨a, _, hx⟩ := List.mem_flatMap.1 hx
  simp only [Arg.lex, List.mem_cons, List.mem_append, List.not_mem_nil, or_false] at hx
  rcases hx with rfl | hx | rfl | rfl
  · exact plain_spelled (.blanks a.gap)
  · exact plains_spelled a.key x hx
  · spelled
  · spelled

theorem wrap_open_spelled (w : Wrap) : ∀ x ∈ w.openLex, Spelled x := by
  intro x hx
  cases w with
  | box name args close =>
    simp only [Wrap.openLex, List.mem_cons, List.mem_append, List.not_mem_nil, or_false] at hx
    rcases hx with rfl | rfl | hx | rfl
    · spelled
    · spelled
    · exact args_spelled args x hx
    · spelled
  | anchor t name args close =>
    simp only [Wrap.openLex, List.mem_cons, List.mem_append, List.not_mem_nil, or_false] at hx
    rcases hx with rfl | rfl | hx | rfl
    · cases t <;> spelled
    · spelled
    · exact args_spelled args x hx
    · spelled
  | size name value close =>
    simp only [Wrap.openLex, List.mem_cons, List.mem_append, List.not_mem_nil, or_false] at hx
    rcases hx with rfl | rfl | rfl | hx | rfl
    · spelled
    · spelled
    · exact plain_spelled (.blanks 0)
    · exact plains_spelled value x hx
    · spelled

/-- The first token of a block. -/
theorem wrap_head (w : Wrap) : ∃ r, w.openLex = (if w.star then (.leftBlockStar, c!"[[*") else (.leftBlock, c!"[[")) :: r ∧ r ≠ [] := by
  cases w with
  | anchor t name args close => exact ⟨_, rfl, by simp⟩
  | _ => exact ⟨_, rfl, by simp⟩

theorem address_spelled (a : Address) : ∀ x ∈ a.lex, Spelled x := by
  intro x hx
  cases a with
  | web url => simp [Address.lex] at hx; subst hx; spelled
  | path more =>
    simp only [Address.lex, List.mem_cons] at hx
    rcases hx with rfl | hx
    · spelled
    · exact plains_spelled more x hx

theorem dest_spelled (d : Dest) : ∀ x ∈ d.lex, Spelled x := by
  intro x hx
  cases d with
  | address a => exact address_spelled a x hx
  | page site category name more =>
    simp only [Dest.lex, List.mem_append] at hx
    rcases hx with hx | hx | hx | hx
    · cases site with
      | none => simp [siteLex] at hx
      | some q =>
        simp only [siteLex, List.mem_cons, List.mem_append, List.not_mem_nil, or_false] at hx
        rcases hx with rfl | hx | rfl
        · spelled
        · exact plains_spelled q x hx
        · spelled
    · cases category with
      | none => simp [categoryLex] at hx
      | some q =>
        simp only [categoryLex, List.mem_cons, List.mem_append, List.not_mem_nil, or_false] at hx
        rcases hx with hx | rfl
        · exact plains_spelled q x hx
        · spelled
    · exact plains_spelled name x hx
    · exact plains_spelled more x hx

theorem leaf_spelled (l : Leaf) : ∀ x ∈ l.lex, Spelled x := by
  intro x hx
  cases l with
  | user avatar block name =>
    simp only [Leaf.lex, List.mem_cons, List.mem_append, List.not_mem_nil, or_false] at hx
    rcases hx with rfl | rfl | rfl | hx | rfl
    · cases avatar <;> spelled
    · spelled
    · exact plain_spelled (.blanks 0)
    · exact plains_spelled _ x hx
    · spelled
  | cite mark label =>
    simp only [Leaf.lex, List.mem_cons, List.mem_append, List.not_mem_nil, or_false] at hx
    rcases hx with rfl | rfl | rfl | hx | rfl
    · spelled
    · spelled
    · exact plain_spelled (.blanks 0)
    · exact plains_spelled _ x hx
    · spelled
  | citeBlock mark label =>
    simp only [Leaf.lex, List.mem_cons, List.mem_append, List.not_mem_nil, or_false] at hx
    rcases hx with rfl | rfl | rfl | hx | rfl
    · spelled
    · spelled
    · exact plain_spelled (.blanks 0)
    · exact plains_spelled _ x hx
    · spelled
  | target name =>
    simp only [Leaf.lex, List.mem_cons, List.mem_append, List.not_mem_nil, or_false] at hx
    rcases hx with rfl | rfl | hx | rfl
    · spelled
    · exact plain_spelled (.blanks 0)
    · exact plains_spelled _ x hx
    · spelled
  | math source =>
    simp only [Leaf.lex, List.mem_cons, List.mem_append, List.not_mem_nil, or_false] at hx
    rcases hx with rfl | hx | rfl
    · spelled
    · exact plains_spelled _ x hx
    · spelled
  | link newTab dest label =>
    simp only [Leaf.lex, List.mem_cons, List.mem_append, List.not_mem_nil, or_false] at hx
    rcases hx with rfl | hx | hx | rfl
    · cases newTab <;> spelled
    · exact dest_spelled _ x hx
    · cases label with
      | none => simp [labelLex] at hx
      | some lab =>
        simp only [labelLex, List.mem_cons] at hx
        rcases hx with rfl | hx
        · spelled
        · exact plains_spelled _ x hx
    · spelled
  | address newTab a gap label =>
    simp only [Leaf.lex, List.mem_cons, List.mem_append, List.not_mem_nil, or_false] at hx
    rcases hx with rfl | hx | rfl | hx | rfl
    · cases newTab <;> spelled
    · exact address_spelled _ x hx
    · exact plain_spelled (.blanks gap)
    · exact plains_spelled _ x hx
    · spelled
  | jump name gap label =>
    simp only [Leaf.lex, List.mem_cons, List.mem_append, List.not_mem_nil, or_false] at hx
    rcases hx with rfl | hx | rfl | hx | rfl
    · spelled
    · exact plains_spelled _ x hx
    · exact plain_spelled (.blanks gap)
    · exact plains_spelled _ x hx
    · spelled
  | url s => simp only [Leaf.lex, List.mem_cons, List.not_mem_nil, or_false] at hx; subst hx; spelled
  | var s => simp only [Leaf.lex, List.mem_cons, List.not_mem_nil, or_false] at hx; subst hx; spelled
  | image side block picture args =>
    simp only [Leaf.lex, List.mem_cons, List.mem_append, List.not_mem_nil, or_false] at hx
    rcases hx with rfl | hx | rfl | rfl | hx | hx | rfl
    · spelled
    · exact plains_spelled _ x hx
    · spelled
    · exact plain_spelled (.blanks 0)
    · cases picture with
      | web url => simp only [Picture.lex, List.mem_cons, List.not_mem_nil, or_false] at hx; subst hx; spelled
      | own file => exact plains_spelled _ x hx
      | ofPage name file =>
        simp only [Picture.lex, List.mem_cons, List.mem_append] at hx
        rcases hx with hx | rfl | hx
        · exact plains_spelled _ x hx
        · spelled
        · exact plains_spelled _ x hx
      | ofSite host name file =>
        simp only [Picture.lex, List.mem_cons, List.mem_append] at hx
        rcases hx with hx | rfl | hx | rfl | hx
        · exact plains_spelled _ x hx
        · spelled
        · exact plains_spelled _ x hx
        · spelled
        · exact plains_spelled _ x hx
    · obtain ⟨a, ha, hx⟩ := List.mem_flatMap.1 hx
      simp only [Arg.lex, List.mem_cons, List.mem_append, List.not_mem_nil, or_false] at hx
      rcases hx with rfl | hx | rfl | rfl
      · exact plain_spelled (.blanks a.gap)
      · exact plains_spelled _ x hx
      · spelled
      · spelled
    · spelled
  | checkbox checked block args gap =>
    simp only [Leaf.lex, List.mem_cons, List.mem_append, List.not_mem_nil, or_false] at hx
    rcases hx with rfl | rfl | hx | rfl | rfl
    · cases checked <;> spelled
    · spelled
    · obtain ⟨a, ha, hx⟩ := List.mem_flatMap.1 hx
      simp only [Arg.lex, List.mem_cons, List.mem_append, List.not_mem_nil, or_false] at hx
      rcases hx with rfl | hx | rfl | rfl
      · exact plain_spelled (.blanks a.gap)
      · exact plains_spelled _ x hx
      · spelled
      · spelled
    · spelled
    · exact plain_spelled (.blanks gap)
  | radio checked block group args gap =>
    simp only [Leaf.lex, List.mem_cons, List.mem_append, List.not_mem_nil, or_false] at hx
    rcases hx with rfl | rfl | rfl | rfl | hx | rfl | rfl
    · cases checked <;> spelled
    · spelled
    · exact plain_spelled (.blanks 0)
    · spelled
    · obtain ⟨a, ha, hx⟩ := List.mem_flatMap.1 hx
      simp only [Arg.lex, List.mem_cons, List.mem_append, List.not_mem_nil, or_false] at hx
      rcases hx with rfl | hx | rfl | rfl
      · exact plain_spelled (.blanks a.gap)
      · exact plains_spelled _ x hx
      · spelled
      · spelled
    · spelled
    · exact plain_spelled (.blanks gap)

/-- The symbols marks start with. -/
def leafHeads : List Token := [.leftBlock, .leftBlockStar, .leftParentheses, .leftBlockAnchor, .leftMath, .leftLink,
  .leftLinkStar, .leftBracket, .leftBracketStar, .leftBracketAnchor, .url, .variable]

theorem leaf_head (l : Leaf) : ∃ x r, l.lex = x :: r ∧ x.1 ∈ leafHeads := by
  cases l with
  | user avatar block name => cases avatar <;> exact ⟨_, _, rfl, by decide⟩
  | link newTab dest label => cases newTab <;> exact ⟨_, _, rfl, by decide⟩
  | address newTab a gap label => cases newTab <;> exact ⟨_, _, rfl, by decide⟩
  | checkbox checked block args gap => cases checked <;> exact ⟨_, _, rfl, by decide⟩
  | radio checked block group args gap => cases checked <;> exact ⟨_, _, rfl, by decide⟩
  | _ => exact ⟨_, _, rfl, by simp [leafHeads]⟩

theorem leaf_first {l : Leaf} {x : Token × Str} {r} (h : l.lex = x :: r) : x.1 ∈ leafHeads := by
  obtain ⟨y, r', h', hy⟩ := leaf_head l
  rw [h] at h'
  cases h'
  exact hy

theorem sign_spelled (i : Sign) : Spelled i.lex := by
  cases i with
  | plain p => exact plain_spelled p
  | url s => exact ⟨(by intro t h; cases h), (by intro h; cases h), rfl⟩
  | var s => exact ⟨(by intro t h; cases h), (by intro h; cases h), rfl⟩
  | quoted s => exact ⟨(by intro t h; cases h), (by intro h; cases h), rfl⟩
  | mark s =>
    by_cases h : s ∈ idleMarks
    · simp only [idleMarks, List.mem_cons, List.not_mem_nil, or_false] at h
      rcases h with rfl | rfl | rfl | rfl | rfl | rfl | rfl | rfl | rfl | rfl | rfl | rfl | rfl | rfl | rfl | rfl | rfl | rfl |
        rfl | rfl | rfl | rfl | rfl | rfl | rfl | rfl <;>
        exact ⟨by intro t h; simp [Sign.lex, idleTok, idleTokens, List.lookup, tokStr] at h; try exact h, by simp [Sign.lex, idleTok, idleTokens, List.lookup], rfl⟩
    · have e : idleTok s = .other := by
        have all : ∀ p ∈ idleTokens, p.1 ∈ idleMarks := by decide
        unfold idleTok
        rw [List.lookup_eq_none_iff.2]
        · rfl
        · intro p hp
          simp only [bne_iff_ne, ne_eq]
          intro e
          rw [e] at h
          exact h (all p hp)
      refine ⟨fun t h => ?_, fun h => ?_, ?_⟩
      · simp [Sign.lex, e, tokStr] at h
      · simp [Sign.lex, e] at h
      · simp [Sign.lex, e, isStop]
theorem signs_spelled (ss : List Sign) : ∀ x ∈ ss.map Sign.lex, Spelled x := by
  intro x hx
  obtain ⟨p, _, rfl⟩ := List.mem_map.1 hx
  exact sign_spelled p

mutual
theorem inline_spelled : ∀ (i : Inline), ∀ x ∈ i.lex, Spelled x
  | .plain p, x, hx => by simp [Inline.lex] at hx; rw [hx]; exact plain_spelled p
  | .newline, x, hx => by simp [Inline.lex] at hx; rw [hx]; spelled
  | .styled s body, x, hx => by
    simp [Inline.lex] at hx
    rcases hx with rfl | hx | rfl
    · exact open_spelled s
    · exact inlines_spelled body x hx
    · exact close_spelled s
  | .color name body, x, hx => by
    simp only [Inline.lex, List.mem_cons, List.mem_append, List.not_mem_nil, or_false] at hx
    rcases hx with rfl | hx | rfl | hx | rfl
    · spelled
    · exact plains_spelled name x hx
    · spelled
    · exact inlines_spelled body x hx
    · spelled
  | .raw body, x, hx => by
    simp only [Inline.lex, List.mem_cons, List.mem_append, List.not_mem_nil, or_false] at hx
    rcases hx with rfl | hx | rfl
    · spelled
    · exact signs_spelled body x hx
    · spelled
  | .comment body, x, hx => by
    simp only [Inline.lex, List.mem_cons, List.mem_append, List.not_mem_nil, or_false] at hx
    rcases hx with rfl | hx | rfl
    · spelled
    · exact signs_spelled body x hx
    · spelled
  | .wrap w body, x, hx => by
    simp only [Inline.lex, List.mem_append] at hx
    rcases hx with hx | hx | hx
    · exact wrap_open_spelled w x hx
    · exact inlines_spelled body x hx
    · simp only [Wrap.closeLex, List.mem_cons, List.not_mem_nil, or_false] at hx
      rcases hx with rfl | rfl | rfl
      all_goals spelled
  | .leaf l, x, hx => leaf_spelled l x hx
  | .note name body close, x, hx => by
    simp only [Inline.lex, List.mem_cons, List.mem_append, List.not_mem_nil, or_false] at hx
    rcases hx with rfl | rfl | rfl | hx | rfl | rfl | rfl
    · spelled
    · spelled
    · spelled
    · exact inlines_spelled body x hx
    · spelled
    · spelled
    · spelled
theorem inlines_spelled : ∀ (is : List Inline), ∀ x ∈ Inline.lex.go is, Spelled x
  | [], x, hx => by simp [Inline.lex.go] at hx
  | i :: is, x, hx => by
    simp [Inline.lex.go] at hx
    rcases hx with hx | hx
    · exact inline_spelled i x hx
    · exact inlines_spelled is x hx
end

theorem inline_lex_ne (i : Inline) : i.lex ≠ [] := by
  cases i with
  | wrap w body =>
    obtain ⟨r', hr, _⟩ := wrap_head w
    simp [Inline.lex, hr]
  | leaf l => obtain ⟨x, r, h, _⟩ := leaf_head l; simp [Inline.lex, h]
  | _ => simp [Inline.lex]

/-- The first symbol. -/
theorem inline_head (i : Inline) : ∃ x r, i.lex = x :: r ∧ i.pieces.head? = some x.2 ∧ Spelled x := by
  obtain ⟨x, r, h⟩ := List.exists_cons_of_ne_nil (inline_lex_ne i)
  refine ⟨x, r, h, ?_, inline_spelled i x (by rw [h]; simp)⟩
  rw [← inline_pieces, h]
  rfl

theorem style_tokStr (s : Style) : tokStr s.openTok = some s.opening ∧ tokStr s.closeTok = some s.closing := by
  cases s <;> exact ⟨rfl, rfl⟩

/-- Only blanks start with a blank. -/
theorem inline_blank {i : Inline} {x : Token × Str} {r} (h : i.lex = x :: r) (hx : x.1 = .whitespace) :
    i.isBlank = true ∧ r = [] := by
  cases i with
  | plain p =>
    simp [Inline.lex] at h
    cases p with
    | blanks n => exact ⟨rfl, h.2⟩
    | word s => rw [← h.1] at hx; cases hx
    | char c =>
      rw [← h.1] at hx
      have := charTok_cases c
      have hx : charTok c = .whitespace := hx
      rw [hx] at this
      simp [isLineTok] at this
  | styled s body =>
    simp [Inline.lex] at h
    rw [← h.1] at hx
    cases s <;> cases hx
  | wrap w body =>
    obtain ⟨r', hr, _⟩ := wrap_head w
    simp only [Inline.lex, hr, List.cons_append, List.cons.injEq] at h
    rw [← h.1] at hx
    cases h' : w.star <;> simp [h'] at hx
  | leaf l =>
    have := leaf_first h
    rw [hx] at this
    exact absurd this (by decide)
  | _ => simp [Inline.lex] at h; rw [← h.1] at hx; cases hx

/-- A single symbol is not an opening marker. -/
theorem inline_single {i : Inline} {x : Token × Str} (h : i.lex = [x]) (s : Style) : x.1 ≠ s.openTok := by
  cases i with
  | plain p =>
    simp [Inline.lex] at h
    intro e
    have := plain_tok p
    rw [h, e] at this
    cases s <;> cases this
  | newline =>
    simp [Inline.lex] at h
    rw [← h]
    cases s <;> simp [Style.openTok]
  | styled s body => simp [Inline.lex] at h
  | color n body => simp [Inline.lex] at h
  | raw body => simp [Inline.lex] at h
  | comment body => simp [Inline.lex] at h
  | wrap w body =>
    obtain ⟨r', hr, hne⟩ := wrap_head w
    simp [Inline.lex, hr, hne] at h
  | leaf l =>
    have := leaf_first h
    intro e
    rw [e] at this
    cases s <;> exact absurd this (by decide)
  | note name body close => simp [Inline.lex] at h

/-- Nothing starts with the end of a block. -/
theorem inline_noEnd {i : Inline} {x : Token × Str} {r} (h : i.lex = x :: r) : x.1 ≠ .leftBlockEnd := by
  cases i with
  | plain p =>
    simp [Inline.lex] at h
    intro e
    have := plain_tok p
    rw [h.1, e] at this
    cases this
  | styled s body =>
    simp [Inline.lex] at h
    rw [← h.1]
    cases s <;> simp [Style.openTok]
  | wrap w body =>
    obtain ⟨r', hr, _⟩ := wrap_head w
    simp only [Inline.lex, hr, List.cons_append, List.cons.injEq] at h
    rw [← h.1]
    cases w.star <;> simp
  | leaf l =>
    have := leaf_first h
    intro e
    rw [e] at this
    exact absurd this (by decide)
  | _ => simp [Inline.lex] at h; rw [← h.1]; simp

/-- Only line breaks start with one. -/
theorem inline_break {i : Inline} {x : Token × Str} {r} (h : i.lex = x :: r) (hx : x.1 = .lineBreak) :
    i.isNewline = true ∧ r = [] := by
  cases i with
  | plain p =>
    simp [Inline.lex] at h
    have := plain_tok p
    rw [h.1, hx] at this
    cases this
  | newline => simp [Inline.lex] at h; exact ⟨rfl, h.2⟩
  | styled s body =>
    simp [Inline.lex] at h
    rw [← h.1] at hx
    cases s <;> cases hx
  | wrap w body =>
    obtain ⟨r', hr, _⟩ := wrap_head w
    simp only [Inline.lex, hr, List.cons_append, List.cons.injEq] at h
    rw [← h.1] at hx
    cases h' : w.star <;> simp [h'] at hx
  | leaf l =>
    have := leaf_first h
    rw [hx] at this
    exact absurd this (by decide)
  | _ => simp [Inline.lex] at h; rw [← h.1] at hx; cases hx

/-- Text goes on, whatever follows it. -/
theorem goes_para {c : List Inline} {i : Inline} {ys rest : List ETok}
    (hys : ys.map ETok.pair = i.lex ++ Inline.lex.go c) (hr : rest ≠ []) (hn : (rest.headD default).token ≠ .leftBlockEnd) :
    GoesOn (ys ++ rest) := by
  obtain ⟨x, r, hx, _, hsp⟩ := inline_head i
  rw [hx] at hys
  cases ys with
  | nil => simp at hys
  | cons y ys =>
  simp only [List.map_cons, List.cons_append, List.cons.injEq] at hys
  obtain ⟨hy, hys⟩ := hys
  have hyt : y.token = x.1 := congrArg (·.1) hy
  have h3 := hsp.2.2
  rw [← hyt] at h3
  have hpos := List.length_pos_iff.2 hr
  refine ⟨?_, ?_, ⟨by rw [hyt]; exact inline_noEnd hx, ?_⟩, by simp; omega⟩
  · intro e; simp only [List.cons_append, List.headD_cons] at e; rw [e] at h3; cases h3
  · intro e; simp only [List.cons_append, List.headD_cons] at e; rw [e] at h3; cases h3
  · intro _ hl
    obtain ⟨hi, rfl⟩ := inline_break hx (by rw [← hyt]; exact hl)
    cases c with
    | nil =>
      have : ys = [] := by simpa [Inline.lex.go] using hys
      subst this
      exact hn
    | cons j c =>
      obtain ⟨x2, r2, hx2, _⟩ := inline_head j
      simp only [List.nil_append, Inline.lex.go, hx2, List.cons_append] at hys
      cases ys with
      | nil => simp at hys
      | cons y2 ys =>
        simp only [List.map_cons, List.cons.injEq] at hys
        have hy2 : y2.token = x2.1 := congrArg (·.1) hys.1
        show y2.token ≠ _
        rw [hy2]
        exact inline_noEnd hx2

theorem goes_mid {c : List Inline} {i : Inline} {ys rest : List ETok} (hys : ys.map ETok.pair = i.lex ++ Inline.lex.go c) :
    ((ys ++ rest).headD default).token ≠ .inputEnd ∧ ((ys ++ rest).headD default).token ≠ .paragraphBreak := by
  obtain ⟨x, r, hx, _, hsp⟩ := inline_head i
  rw [hx] at hys
  cases ys with
  | nil => simp at hys
  | cons y ys =>
  simp only [List.map_cons, List.cons_append, List.cons.injEq] at hys
  obtain ⟨hy, hys⟩ := hys
  have hyt : y.token = x.1 := congrArg (·.1) hy
  have h3 := hsp.2.2
  rw [← hyt] at h3
  refine ⟨?_, ?_⟩
  · intro e; simp only [List.cons_append, List.headD_cons] at e; rw [e] at h3; cases h3
  · intro e; simp only [List.cons_append, List.headD_cons] at e; rw [e] at h3; cases h3

theorem goes_wrap {newlines : Bool} {body : List Inline}
    (hok : newlines = true → body.getLast?.any Inline.isNewline = false)
    {a c : List Inline} {i : Inline} (he : body = a ++ i :: c) {ys rest : List ETok}
    (hys : ys.map ETok.pair = i.lex ++ Inline.lex.go c) (hr : rest ≠ []) :
    NoEnd newlines (ys ++ rest) ∧ 2 ≤ (ys ++ rest).length := by
  obtain ⟨x, r, hx, _⟩ := inline_head i
  rw [hx] at hys
  cases ys with
  | nil => simp at hys
  | cons y ys =>
  simp only [List.map_cons, List.cons_append, List.cons.injEq] at hys
  obtain ⟨hy, hys⟩ := hys
  have hyt : y.token = x.1 := congrArg (·.1) hy
  refine ⟨⟨by rw [hyt]; exact inline_noEnd hx, ?_⟩, ?_⟩
  · intro hn hl
    obtain ⟨hi, rfl⟩ := inline_break hx (by rw [← hyt]; exact hl)
    cases c with
    | nil =>
      have := hok hn
      rw [he] at this
      simp [hi] at this
    | cons j c =>
      obtain ⟨x2, r2, hx2, _⟩ := inline_head j
      simp only [List.nil_append, Inline.lex.go, hx2, List.cons_append] at hys
      cases ys with
      | nil => simp at hys
      | cons y2 ys =>
        simp only [List.map_cons, List.cons.injEq] at hys
        have hy2 : y2.token = x2.1 := congrArg (·.1) hys.1
        show y2.token ≠ _
        rw [hy2]
        exact inline_noEnd hx2
  · have := List.length_pos_iff.2 hr
    simp
    omega

theorem goes_styled {s : Style} {body : List Inline} (hok : bodyOk s.opening s.closing body = true)
    {a c : List Inline} {i : Inline} (he : body = a ++ i :: c) {ys rest : List ETok}
    (hys : ys.map ETok.pair = i.lex ++ Inline.lex.go c) :
    Goes [.cur s.closeTok] [.cur .paragraphBreak, .pair s.openTok .whitespace, .pair .whitespace s.closeTok]
      (ys ++ rest) := by
  simp only [bodyOk, Bool.and_eq_true] at hok
  obtain ⟨hall, hlast⟩ := hok
  obtain ⟨x, r, hx, hp, hsp⟩ := inline_head i
  rw [hx] at hys
  cases ys with
  | nil => simp at hys
  | cons y ys =>
  simp only [List.map_cons, List.cons_append, List.cons.injEq] at hys
  obtain ⟨hy, hys⟩ := hys
  have hyt : y.token = x.1 := congrArg (·.1) hy
  have hi := List.all_eq_true.1 hall i (by rw [he]; simp)
  simp only [Bool.and_eq_true, bne_iff_ne] at hi
  have hclose : y.token ≠ s.closeTok := by
    rw [hyt]; intro e
    refine hi.1 ?_
    rw [hp, hsp.1 _ (by rw [e]; exact (style_tokStr s).2)]
  have hstop := hsp.2.2
  rw [← hyt] at hstop
  have hpb : y.token ≠ .paragraphBreak ∧ y.token ≠ .inputEnd := by
    constructor <;> (intro e; rw [e] at hstop; exact absurd hstop (by decide))
  refine ⟨by simp, ?_, ?_, by simpa using hpb.2⟩
  · simp [Meets, hclose]
  · have h1 : (y.token == s.openTok && (match ys ++ rest with | [] => false | n :: _ => n.token == .whitespace)) = false := by
      by_cases ho : y.token = s.openTok
      · cases r with
        | nil => exact absurd (by rw [← hyt, ho]) (inline_single hx s)
        | cons x2 r =>
          cases ys with
          | nil => simp at hys
          | cons y2 ys =>
            simp only [List.map_cons, List.cons_append, List.cons.injEq] at hys
            have hy2 : y2.token = x2.1 := congrArg (·.1) hys.1
            have h2 : y2.token ≠ .whitespace := by
              intro e
              have hx2 := (inline_spelled i x2 (by rw [hx]; simp)).2.1 (by rw [← hy2, e])
              have hi2 := hi.2
              rw [← inline_pieces, hx] at hi2
              have hx1 := hsp.1 _ (by rw [← hyt, ho]; exact (style_tokStr s).1)
              simp [hx2, hx1] at hi2
            simp [h2]
      · simp [ho]
    have h2 : (y.token == .whitespace && (match ys ++ rest with | [] => false | n :: _ => n.token == s.closeTok)) = false := by
      by_cases hw : y.token = .whitespace
      · obtain ⟨hb, rfl⟩ := inline_blank hx (by rw [← hyt, hw])
        cases c with
        | nil =>
          rw [he] at hlast
          simp [hb] at hlast
        | cons j c =>
          obtain ⟨x2, r2, hx2, hp2, hsp2⟩ := inline_head j
          simp only [List.nil_append, Inline.lex.go, hx2, List.cons_append] at hys
          cases ys with
          | nil => simp at hys
          | cons y2 ys =>
            simp only [List.map_cons, List.cons.injEq] at hys
            have hy2 : y2.token = x2.1 := congrArg (·.1) hys.1
            have hj := List.all_eq_true.1 hall j (by rw [he]; simp)
            simp only [Bool.and_eq_true, bne_iff_ne] at hj
            have : y2.token ≠ s.closeTok := by
              rw [hy2]; intro e
              refine hj.1 ?_
              rw [hp2, hsp2.1 _ (by rw [e]; exact (style_tokStr s).2)]
            simp [this]
      · simp [hw]
    have h1' : (y.token = s.openTok → (match ys ++ rest with | [] => false | n :: _ => n.token == .whitespace) = false) := by
      intro e; rw [e] at h1; simpa using h1
    have h2' : (y.token = .whitespace → (match ys ++ rest with | [] => false | n :: _ => n.token == s.closeTok) = false) := by
      intro e; rw [e] at h2; simpa using h2
    simp only [List.cons_append, Meets, List.any_cons, List.any_nil, Bool.or_false, Bool.or_eq_false_iff]
    exact ⟨by simpa using hpb.1, h1, h2⟩

theorem goes_color {body : List Inline} (hok : body.all (fun i => i.pieces.head? != some c!"##") = true)
    {a c : List Inline} {i : Inline} (he : body = a ++ i :: c) {ys rest : List ETok}
    (hys : ys.map ETok.pair = i.lex ++ Inline.lex.go c) :
    Goes [.cur .color] [.cur .paragraphBreak] (ys ++ rest) := by
  obtain ⟨x, r, hx, hp, hsp⟩ := inline_head i
  rw [hx] at hys
  cases ys with
  | nil => simp at hys
  | cons y ys =>
  simp only [List.map_cons, List.cons_append, List.cons.injEq] at hys
  obtain ⟨hy, hys⟩ := hys
  have hyt : y.token = x.1 := congrArg (·.1) hy
  have hi := List.all_eq_true.1 hok i (by rw [he]; simp)
  simp only [bne_iff_ne] at hi
  have hclose : y.token ≠ .color := by
    rw [hyt]; intro e
    refine hi ?_
    rw [hp, hsp.1 _ (by rw [e]; rfl)]
  have hstop := hsp.2.2
  rw [← hyt] at hstop
  have hpb : y.token ≠ .paragraphBreak ∧ y.token ≠ .inputEnd := by
    constructor <;> (intro e; rw [e] at hstop; exact absurd hstop (by decide))
  exact ⟨by simp, by simp [Meets, hclose], by simp [Meets, hpb.1], by simpa using hpb.2⟩

/-- The rule of a style. -/
def _root_.Ftml.Markup.Style.rule : Style → RuleId
  | .bold => .bold | .italics => .italics | .underline => .underline | .superscript => .superscript
  | .subscript => .subscript | .monospace => .monospace | .strikethrough => .strikethroughDash | .struck => .strikethroughTilde

theorem style_rule (s : Style) : (∃ rs, rulesFor s.openTok = [] ++ s.rule :: rs) ∧ s.rule.needsLineStart = false ∧
    (∀ cons, ruleFn cons s.rule = ruleDelimited cons s.container s.openTok s.closeTok) ∧
    s.container.paragraphSafe = true ∧ isLineStartTok s.openTok = false ∧ isLineStartTok s.closeTok = false ∧
    s.closeTok ≠ .inputEnd := by
  cases s <;> exact ⟨⟨_, rfl⟩, rfl, fun _ => rfl, rfl, rfl, rfl, by decide⟩

theorem hexify_eq (s : Str) : hexifyColor s = colorValue s := by
  have hx : ∀ c : Char, isHexA c = true ↔ c ∈ c!"0123456789abcdefABCDEF" := by
    intro c
    constructor
    · intro h
      have hn : ∀ n < 128, isHexA (Char.ofNat n) = true → Char.ofNat n ∈ c!"0123456789abcdefABCDEF" := by decide +kernel
      have hc : c.toNat < 128 := by
        simp [isHexA, isDigitA] at h
        omega
      have := hn c.toNat hc
      rw [Char.ofNat_toNat] at this
      exact this h
    · intro h
      revert c
      decide +kernel
  unfold hexifyColor colorValue
  have : (((s.length == 3 || s.length == 6) && s.all isHexA) = true) ↔
      ((s.length = 3 ∨ s.length = 6) ∧ ∀ c ∈ s, c ∈ c!"0123456789abcdefABCDEF") := by
    simp only [Bool.and_eq_true, Bool.or_eq_true, beq_iff_eq, List.all_eq_true, hx]
  by_cases h : ((s.length == 3 || s.length == 6) && s.all isHexA) = true
  · rw [if_pos h, if_pos (this.1 h)]
  · rw [if_neg h, if_neg (fun h' => h (this.2 h'))]

theorem outElems_inline (is : List Inline) : outElems (is.map fun i => (i.elems env.cx, true)) = Inline.elems.go env.cx is := by
  induction is with
  | nil => rfl
  | cons i is ih => simp only [outElems, List.map_cons, List.flatMap_cons, Inline.elems.go] at ih ⊢; rw [ih]
theorem outSafe_inline (is : List Inline) : outSafe (is.map fun i => (i.elems env.cx, true)) = true := by
  simp [outSafe]



/-- The footnotes of some markup. -/
abbrev notesOf (cx : Markup.Ctx) (is : List Inline) : List (List Elem) := (Inline.notes.go is).map (noteElems cx)

mutual
theorem inline_eats : ∀ (i : Inline) {xs rest : List ETok} {sol b : Bool} {ol : Nat}, i.ok = true → xs.map ETok.pair = i.lex →
    rest ≠ [] → (xs ++ rest) <:+ (tokenize env.text).tokens → TLine ol b (xs ++ rest) → (b = true → sol = false) →
    Within ol xs rest → Eats env i.height sol xs rest (i.elems env.cx) true (i.notes.map (noteElems env.cx))
  | .plain p, xs, rest, sol, b, ol, hok, hxs, hr, hs, hl, hb, hst => by
    simp only [Inline.lex] at hxs
    obtain ⟨x, rfl⟩ : ∃ x, xs = [x] := by
      cases xs with
      | nil => simp at hxs
      | cons x xs => simp at hxs; exact ⟨x, by rw [hxs.2]⟩
    simp only [List.map_cons, List.map_nil, List.cons.injEq, and_true] at hxs
    exact plain_eats hok hxs hr hl hb
  | .newline, xs, rest, sol, b, ol, hok, hxs, hr, hs, hl, hb, hst => by
    simp only [Inline.lex] at hxs
    obtain ⟨x, rfl⟩ : ∃ x, xs = [x] := by
      cases xs with
      | nil => simp at hxs
      | cons x xs => simp at hxs; exact ⟨x, by rw [hxs.2]⟩
    simp only [List.map_cons, List.map_nil, List.cons.injEq, and_true] at hxs
    have hx : x.token = .lineBreak := congrArg (·.1) hxs
    exact newline_eats hx hr hl hst (List.IsSuffix.trans (List.suffix_cons x _) hs)
  | .styled s body, xs, rest, sol, b, ol, hok, hxs, hr, hs, hl, hb, hst => by
    simp only [Inline.ok, Bool.and_eq_true] at hok
    simp only [Inline.lex] at hxs
    cases xs with
    | nil => simp at hxs
    | cons o xs =>
    simp only [List.map_cons, List.cons.injEq] at hxs
    obtain ⟨ho, hxs⟩ := hxs
    obtain ⟨ys, zs, rfl, hys, hzs⟩ := map_append_split hxs
    obtain ⟨c, rfl⟩ : ∃ c, zs = [c] := by
      cases zs with
      | nil => simp at hzs
      | cons x xs => simp at hzs; exact ⟨x, by rw [hzs.2]⟩
    simp only [List.map_cons, List.map_nil, List.cons.injEq, and_true] at hzs
    have hot : o.token = s.openTok := congrArg (·.1) ho
    have hct : c.token = s.closeTok := congrArg (·.1) hzs
    obtain ⟨⟨rs, hrules⟩, hnl, hrf, hps, hol, hcl, hci⟩ := style_rule s
    have hs' : (ys ++ ([c] ++ rest)) <:+ (tokenize env.text).tokens := by
      have : o :: (ys ++ [c]) ++ rest = o :: (ys ++ ([c] ++ rest)) := by simp
      rw [this] at hs
      exact List.IsSuffix.trans (List.suffix_cons o _) hs
    obtain ⟨b', hl', hb'⟩ := TLine.after (xs := [o]) (rest := ys ++ ([c] ++ rest)) (b := b) (by simpa using hl) (by simp)
      (by have := hst.left (xs := [o]) (ys := ys ++ [c]); simpa using this)
    refine eats_put hr (rs1 := []) (rs2 := rs) (r := s.rule) (by rw [hot]; exact hrules) (by simp) (by rw [hnl]; simp)
      (noParts_cons (by simp) noParts_nil) ?_
    intro fuel p sh hf hd hfn
    rw [hrf]
    unfold ruleDelimited
    have he : o :: (ys ++ [c]) ++ rest = o :: (ys ++ c :: rest) := by simp
    obtain ⟨w, ws, hw⟩ : ∃ w ws, ys ++ c :: rest = w :: ws := by cases ys <;> simp
    rw [he, hw, bind_ok (checkStep_at _ _ hot _ _ _ _), ← hw]
    obtain ⟨sol', hch⟩ := body_chain body (xs := ys) (rest := c :: rest) (sol := isLineStartTok s.openTok) (b := b') (ol := ol)
      (G := Goes [.cur s.closeTok] [.cur .paragraphBreak, .pair s.openTok .whitespace, .pair .whitespace s.closeTok])
      (fuel := fuel) (p := p) (sh := sh) hfn hok.1 hys (by simp) hs' hl' (fun _ => hol) (hst.mid (xs := [o]) (zs := [c])) hf hd
      (fun a i c' e ys' hy' => goes_styled hok.2 e hy')
    have hcc := collectContainer_chain (ct := s.container) (ek := none) hch (by simp [Meets, hct]) (fun _ => hr)
    have : (if c.token = .inputEnd then (c :: rest, sol') else (rest, isLineStartTok c.token)) = (rest, false) := by
      rw [if_neg (by rw [hct]; exact hci), hct, hcl]
    have hsol : solAfter (o :: (ys ++ [c])) = false := by
      have := solAfter_append (o :: ys) c
      rw [List.cons_append] at this
      rw [this, hct, hcl]
    rw [hcc, outElems_inline, outSafe_inline, hps, hsol]
    simp only [afterClose, this, Inline.elems, Bool.and_self]
    rfl
  | .color name body, xs, rest, sol, b, ol, hok, hxs, hr, hs, hl, hb, hst => by
    simp only [Inline.ok, Bool.and_eq_true] at hok
    simp only [Inline.lex] at hxs
    cases xs with
    | nil => simp at hxs
    | cons o xs =>
    simp only [List.map_cons, List.cons.injEq] at hxs
    obtain ⟨ho, hxs⟩ := hxs
    obtain ⟨ns, zs, rfl, hns, hzs⟩ := map_append_split hxs
    cases zs with
    | nil => simp at hzs
    | cons q zs =>
    simp only [List.map_cons, List.cons.injEq] at hzs
    obtain ⟨hq, hzs⟩ := hzs
    obtain ⟨ys, zs, rfl, hys, hzs⟩ := map_append_split hzs
    obtain ⟨c, rfl⟩ : ∃ c, zs = [c] := by
      cases zs with
      | nil => simp at hzs
      | cons x xs => simp at hzs; exact ⟨x, by rw [hzs.2]⟩
    simp only [List.map_cons, List.map_nil, List.cons.injEq, and_true] at hzs
    have hot : o.token = .color := congrArg (·.1) ho
    have hqt : q.token = .pipe := congrArg (·.1) hq
    have hct : c.token = .color := congrArg (·.1) hzs
    have e0 : o :: (ns ++ q :: (ys ++ [c])) ++ rest = o :: (ns ++ q :: (ys ++ c :: rest)) := by simp
    rw [e0] at hs hl
    have hs1 := List.IsSuffix.trans (List.suffix_cons o _) hs
    have hs' : (ys ++ c :: rest) <:+ (tokenize env.text).tokens :=
      List.IsSuffix.trans (List.suffix_cons q _) (List.IsSuffix.trans (List.suffix_append ns _) hs1)
    obtain ⟨b', hl', hb'⟩ := TLine.after (xs := o :: (ns ++ [q])) (rest := ys ++ c :: rest) (b := b) (by simpa using hl) (by simp)
      (by have := Within.left (xs := o :: (ns ++ [q])) (ys := ys ++ [c]) (rest := rest) (ol := ol) (by simpa using hst); simpa using this)
    obtain ⟨hnt, hnsl⟩ := plains_tok hns
    have hnq : ∀ x ∈ ns, x.token ≠ .pipe := by
      intro x hx e
      have hx' : x.pair ∈ name.map Plain.lex := by rw [← hns]; exact List.mem_map.2 ⟨x, hx, rfl⟩
      obtain ⟨pl, hpl, hpe⟩ := List.mem_map.1 hx'
      have hpo := List.all_eq_true.1 hok.1.1 pl hpl
      simp only [Bool.and_eq_true, bne_iff_ne] at hpo
      have htt : pl.lex.1 = .pipe := by rw [hpe]; exact e
      cases pl with
      | word => cases htt
      | blanks => cases htt
      | char ch =>
        have htt : charTok ch = .pipe := htt
        unfold charTok at htt
        split at htt
        · cases htt
        · split at htt
          · rename_i h; exact hpo.2 (by rw [h])
          · repeat' split at htt
            all_goals cases htt
    refine eats_put hr (rs1 := []) (rs2 := []) (r := .color) (by rw [hot]; rfl) (by simp) (by simp [RuleId.needsLineStart])
      (noParts_cons (by simp) noParts_nil) ?_
    intro fuel p sh hf hd hfn
    show ruleColor (consume fuel) env _ = _
    unfold ruleColor
    obtain ⟨w, ws, hw⟩ : ∃ w ws, ns ++ q :: (ys ++ c :: rest) = w :: ws := by cases ns <;> simp
    rw [e0, hw, bind_ok (checkStep_at _ _ hot _ _ _ _), ← hw]
    rw [bind_ok (collectText_at (xs := ns) (x := q) (rest := ys ++ c :: rest) ?_ (by simp [Meets, hqt]) (by simp)
      (by rw [hqt]; simp) hs1)]
    · obtain ⟨sol', hch⟩ := body_chain body (xs := ys) (rest := c :: rest) (sol := isLineStartTok q.token) (b := b') (ol := ol)
        (G := Goes [.cur .color] [.cur .paragraphBreak])
        (fuel := fuel) (p := p) (sh := sh) hfn hok.1.2 hys (by simp) hs' hl' (fun _ => by rw [hqt]; rfl)
        (Within.mid (xs := o :: (ns ++ [q])) (zs := [c]) (by simpa using hst)) hf hd (fun a i c' e ys' hy' => goes_color hok.2 e hy')
      have hcc := collectConsume_chain (ek := none) hch (by simp [Meets, hct]) (fun _ => hr)
      rw [bind_ok hcc, outElems_inline, outSafe_inline, hnsl, hexify_eq]
      have hsol : solAfter (o :: (ns ++ q :: (ys ++ [c]))) = false := by
        have := solAfter_append (o :: ns ++ q :: ys) c
        simp only [List.cons_append, List.append_assoc] at this
        rw [this, hct]; rfl
      rw [hsol]
      simp only [afterClose, hct, Inline.elems]
      rfl
    · intro a b' e hb0
      obtain ⟨z, zs, rfl⟩ := List.exists_cons_of_ne_nil hb0
      have hz : z ∈ ns := by rw [e]; simp
      have h1 := hnq z hz
      have h2 : z.token ≠ .paragraphBreak ∧ z.token ≠ .lineBreak ∧ z.token ≠ .inputEnd := by
        have := hnt z hz
        revert this; cases z.token <;> simp [isPlainTok, isLineTok]
      exact ⟨by simp, by simp [Meets, h1], by simp [Meets, h2], by simpa using h2.2.2⟩
  | .raw body, xs, rest, sol, b, ol, hok, hxs, hr, hs, hl, hb, hst => by
    simp only [Inline.ok, Bool.and_eq_true] at hok
    simp only [Inline.lex] at hxs
    cases xs with
    | nil => simp at hxs
    | cons o xs =>
    simp only [List.map_cons, List.cons.injEq] at hxs
    obtain ⟨ho, hxs⟩ := hxs
    obtain ⟨ys, zs, rfl, hys, hzs⟩ := map_append_split hxs
    obtain ⟨c, rfl⟩ : ∃ c, zs = [c] := by
      cases zs with
      | nil => simp at hzs
      | cons x xs => simp at hzs; exact ⟨x, by rw [hzs.2]⟩
    simp only [List.map_cons, List.map_nil, List.cons.injEq, and_true] at hzs
    have hot : o.token = .raw := congrArg (·.1) ho
    have hct : c.token = .raw := congrArg (·.1) hzs
    obtain ⟨hnt, hnsl⟩ := signs_tok hys hok.1
    have e0 : o :: (ys ++ [c]) ++ rest = o :: (ys ++ c :: rest) := by simp
    rw [e0] at hs
    refine eats_rule hr (rs1 := []) (rs2 := []) (r := .raw) (by rw [hot]; rfl) (by simp) (by simp [RuleId.needsLineStart])
      (noParts_cons (by simp) noParts_nil) (n := 0) ?_
    intro fuel p sh hf hd
    show ruleRaw env _ = _
    have hsol : solAfter (o :: (ys ++ [c])) = false := by
      have := solAfter_append (o :: ys) c
      rw [List.cons_append] at this
      rw [this, hct]; rfl
    have hyne : ys ≠ [] := by
      rintro rfl
      simp at hys
      simp [hys] at hok
    rw [e0, run_raw hr hyne hot hct (fun z hz => isRawTok_of (hnt z hz)) hs, hsol, hnsl]
    rfl
  | .comment body, xs, rest, sol, b, ol, hok, hxs, hr, hs, hl, hb, hst => by
    simp only [Inline.lex] at hxs
    cases xs with
    | nil => simp at hxs
    | cons o xs =>
    simp only [List.map_cons, List.cons.injEq] at hxs
    obtain ⟨ho, hxs⟩ := hxs
    obtain ⟨ys, zs, rfl, hys, hzs⟩ := map_append_split hxs
    obtain ⟨c, rfl⟩ : ∃ c, zs = [c] := by
      cases zs with
      | nil => simp at hzs
      | cons x xs => simp at hzs; exact ⟨x, by rw [hzs.2]⟩
    simp only [List.map_cons, List.map_nil, List.cons.injEq, and_true] at hzs
    have hot : o.token = .leftComment := congrArg (·.1) ho
    have hct : c.token = .rightComment := congrArg (·.1) hzs
    obtain ⟨hnt, hnsl⟩ := signs_tok hys (by simpa only [Inline.ok] using hok)
    have e0 : o :: (ys ++ [c]) ++ rest = o :: (ys ++ c :: rest) := by simp
    refine eats_rule hr (rs1 := []) (rs2 := []) (r := .comment) (by rw [hot]; rfl) (by simp) (by simp [RuleId.needsLineStart])
      noParts_nil (n := 0) ?_
    intro fuel p sh hf hd
    show ruleComment env _ = _
    have hsol : solAfter (o :: (ys ++ [c])) = false := by
      have := solAfter_append (o :: ys) c
      rw [List.cons_append] at this
      rw [this, hct]; rfl
    rw [e0, run_comment hr hot hct hnt, hsol]
    rfl
  | .wrap w body, xs, rest, sol, b, ol, hok, hxs, hr, hs, hl, hb, hst => by
    simp only [Inline.ok, Bool.and_eq_true, Bool.not_eq_true'] at hok
    obtain ⟨⟨⟨hw, hbody⟩, hbare⟩, hbr⟩ := hok
    simp only [Inline.lex] at hxs
    obtain ⟨os, zs, rfl, hos, hzs⟩ := map_append_split hxs
    obtain ⟨ys, cs, rfl, hys, hcs⟩ := map_append_split hzs
    have e0 : os ++ (ys ++ cs) ++ rest = os ++ (ys ++ (cs ++ rest)) := by simp
    rw [e0] at hs hl
    have hcsne : cs ≠ [] := by rintro rfl; simp [Wrap.closeLex] at hcs
    have hTne : cs ++ rest ≠ [] := by simp [hr]
    have hosne : os ≠ [] := by
      rintro rfl
      obtain ⟨_, hwh, _⟩ := wrap_head w
      rw [hwh] at hos
      simp at hos
    have hhead : ((cs ++ rest).headD default).token = .leftBlockEnd := by
      obtain ⟨o, cs, rfl, ho, _⟩ := List.map_eq_cons_iff.1 hcs
      exact congrArg (·.1) ho
    have hfirst : ∀ (P : Inline → Bool) (t : Token), (∀ {i : Inline} {x r}, i.lex = x :: r → x.1 = t → P i = true) →
        t ≠ .leftBlockEnd → body.head?.any P = false → ((ys ++ (cs ++ rest)).headD default).token ≠ t := by
      intro P t hP ht hn
      cases body with
      | nil =>
        simp [Inline.lex.go] at hys
        subst hys
        rw [List.nil_append, hhead]
        exact Ne.symm ht
      | cons j body =>
        obtain ⟨x2, r2, hx2, _⟩ := inline_head j
        simp only [Inline.lex.go, hx2, List.cons_append] at hys
        obtain ⟨y, ys, rfl, hy, _⟩ := List.map_eq_cons_iff.1 hys
        show y.token ≠ t
        intro e
        have hyt : y.token = x2.1 := congrArg (·.1) hy
        have := hP hx2 (by rw [← hyt]; exact e)
        simp [this] at hn
    obtain ⟨r', hrun⟩ := wrap_run (env := env) (w := w) (os := os) (ys := ys) (cs := cs) (rest := rest) (sol := sol) hw hos hcs hr hs
      (fun h => hfirst Inline.isBlank .whitespace (fun h1 h2 => (inline_blank h1 h2).1) (by simp) (by simpa [h] using hbare))
      (fun h => hfirst Inline.isNewline .lineBreak (fun h1 h2 => (inline_break h1 h2).1) (by simp) (by
        rw [h, Bool.true_and, Bool.or_eq_false_iff] at hbr; exact hbr.1))
    obtain ⟨b', hl', hb'⟩ := TLine.after (xs := os) (rest := ys ++ (cs ++ rest)) (b := b) hl hosne
      (by have := hst.left; rwa [List.append_assoc] at this)
    obtain ⟨o, os, rfl⟩ := List.exists_cons_of_ne_nil hosne
    have hot : o.token = if w.star then .leftBlockStar else .leftBlock := by
      obtain ⟨_, hwh, _⟩ := wrap_head w
      rw [hwh] at hos
      simp only [List.map_cons, List.cons.injEq] at hos
      have := congrArg (·.1) hos.1
      rw [show o.token = o.pair.1 from rfl, this]
      cases w.star <;> rfl
    have hsolc : solAfter (o :: os ++ (ys ++ cs)) = false := by
      obtain ⟨c1, c2, c3, rfl⟩ : ∃ c1 c2 c3, cs = [c1, c2, c3] := by
        obtain ⟨c1, cs, rfl, _, hcs⟩ := List.map_eq_cons_iff.1 hcs
        obtain ⟨c2, cs, rfl, _, hcs⟩ := List.map_eq_cons_iff.1 hcs
        obtain ⟨c3, rfl, _⟩ := List.map_eq_singleton_iff.1 hcs
        exact ⟨_, _, _, rfl⟩
      have hc3 : c3.token = .rightBlock := by
        simp only [List.map_cons, List.map_nil, Wrap.closeLex, List.cons.injEq] at hcs
        exact congrArg (·.1) hcs.2.2.1
      have := solAfter_append (o :: os ++ (ys ++ [c1, c2])) c3
      rw [List.append_assoc, List.append_assoc] at this
      rw [hc3] at this
      exact this
    show Eats env (Inline.height.go body + 1) sol (o :: (os ++ (ys ++ cs))) rest _ true (notesOf env.cx body)
    refine eats_put' hr (rs1 := []) (rs2 := []) (r := if w.star then .blockStar else .block) (r' := r')
      (by rw [hot]; cases w.star <;> rfl) (by simp) (by cases w.star <;> simp [RuleId.needsLineStart])
      (noParts_cons (by cases w <;> simp [Wrap.kind]) noParts_nil) ?_
    intro fuel p sh hf hd hfn
    obtain ⟨sol', hch⟩ := body_chain body (xs := ys) (rest := cs ++ rest) (sol := false) (b := b') (ol := ol)
      (G := fun t => NoEnd w.skipsBreaks t ∧ 2 ≤ t.length)
      (fuel := fuel) (p := { p with rule := r' }) (sh := sh) hfn hbody hys hTne (List.IsSuffix.trans (List.suffix_append (o :: os) _) hs) hl'
      (fun _ => rfl) (Within.mid (xs := o :: os) (zs := cs) (by simpa using hst)) hf hd
      (fun a i c' e ys' hy' => goes_wrap (fun h => by
        rw [h, Bool.true_and, Bool.or_eq_false_iff] at hbr; exact hbr.2) e hy' hTne)
    have := hrun (consume fuel) { p with rule := if w.star then .blockStar else .block } sh _ _ sol' hch
    rw [outElems_inline, outSafe_inline] at this
    have e1 : o :: (os ++ (ys ++ cs)) ++ rest = o :: os ++ (ys ++ (cs ++ rest)) := by simp
    rw [e1]
    have hs2 : solAfter (o :: (os ++ (ys ++ cs))) = false := hsolc
    rw [hs2]
    have hfn : ruleFn (consume fuel) (if w.star = true then RuleId.blockStar else RuleId.block) = ruleBlock (consume fuel) w.star := by
      cases w.star <;> rfl
    rw [hfn]
    exact this
  | .leaf l, xs, rest, sol, b, ol, hok, hxs, hr, hs, hl, hb, hst => leaf_eats hok hxs hr hs
  | .note name body close, xs, rest, sol, b, ol, hok, hxs, hr, hs, hl, hb, hst => by
    simp only [Inline.ok, Bool.and_eq_true, Bool.not_eq_true', beq_iff_eq] at hok
    obtain ⟨⟨⟨⟨⟨h1, h2⟩, hbody⟩, hnn⟩, hbl⟩, hbr⟩ := hok
    simp only [Inline.lex] at hxs
    obtain ⟨l, xs, rfl, hlp, hxs⟩ := List.map_eq_cons_iff.1 hxs
    obtain ⟨m, xs, rfl, hm, hxs⟩ := List.map_eq_cons_iff.1 hxs
    obtain ⟨r, xs, rfl, hrp, hxs⟩ := List.map_eq_cons_iff.1 hxs
    obtain ⟨ys, cs, rfl, hys, hcs⟩ := map_append_split hxs
    obtain ⟨o, cs, rfl, ho, hcs⟩ := List.map_eq_cons_iff.1 hcs
    obtain ⟨n, cs, rfl, hn, hcs⟩ := List.map_eq_cons_iff.1 hcs
    obtain ⟨c, rfl, hc⟩ := List.map_eq_singleton_iff.1 hcs
    have hlt : l.token = .leftBlock := congrArg (·.1) hlp
    have hrt : r.token = .rightBlock := congrArg (·.1) hrp
    have hot : o.token = .leftBlockEnd := congrArg (·.1) ho
    have hct : c.token = .rightBlock := congrArg (·.1) hc
    have e0 : l :: m :: r :: (ys ++ [o, n, c]) ++ rest = l :: m :: r :: (ys ++ o :: n :: c :: rest) := by simp
    rw [e0] at hs hl
    have hTne : o :: n :: c :: rest ≠ [] := by simp
    have hw : ((ys ++ o :: n :: c :: rest).headD default).token ≠ .whitespace := by
      cases body with
      | nil =>
        simp [Inline.lex.go] at hys
        subst hys
        simp [hot]
      | cons j body =>
        obtain ⟨x2, r2, hx2, _⟩ := inline_head j
        simp only [Inline.lex.go, hx2, List.cons_append] at hys
        obtain ⟨y, ys, rfl, hy, _⟩ := List.map_eq_cons_iff.1 hys
        show y.token ≠ _
        intro e
        have hyt : y.token = x2.1 := congrArg (·.1) hy
        have := (inline_blank hx2 (by rw [← hyt]; exact e)).1
        simp [this] at hbl
    obtain ⟨b', hl', hb'⟩ := TLine.after (xs := [l, m, r]) (rest := ys ++ o :: n :: c :: rest) (b := b) hl (by simp)
      (by have := Within.left (xs := [l, m, r]) (ys := ys ++ [o, n, c]) (rest := rest) (ol := ol) hst; simpa using this)
    have hsolc : solAfter (l :: m :: r :: (ys ++ [o, n, c])) = false := by
      have := solAfter_append (l :: m :: r :: (ys ++ [o, n])) c
      simp only [List.cons_append, List.append_assoc] at this
      rw [hct] at this
      exact this
    show Eats env (Inline.height.go body + 1) sol (l :: m :: r :: (ys ++ [o, n, c])) rest _ true [noteElems env.cx body]
    refine eats_put' hr (rs1 := []) (rs2 := []) (r := .block) (r' := .blk blockRules[18].info.name)
      (by rw [hlt]; rfl) (by simp) (by simp [RuleId.needsLineStart]) (noParts_cons (by simp) noParts_nil) ?_
    intro fuel p sh hf hd hfn
    have hp : p.inFootnote = false := by
      cases hpf : p.inFootnote with
      | false => rfl
      | true => cases hfn hpf
    have hno : notesOf env.cx body = [] := by
      rw [List.isEmpty_iff] at hnn
      simp [hnn]
    obtain ⟨sol', hch⟩ := body_chain body (xs := ys) (rest := o :: n :: c :: rest) (sol := false) (b := b') (ol := ol)
      (G := GoesOn) (fuel := fuel) (p := { p with rule := .blk blockRules[18].info.name, inFootnote := true }) (sh := sh)
      (fun _ => hno) hbody hys hTne (List.IsSuffix.trans (List.suffix_append [l, m, r] _) hs) hl'
      (fun _ => rfl) (Within.mid (xs := [l, m, r]) (zs := [o, n, c]) (by simpa using hst)) hf hd
      (fun a i c' e ys' hy' => by
        obtain ⟨g1, g2⟩ := goes_wrap (newlines := true) (fun _ => hbr) e hy' hTne
        obtain ⟨g3, g4⟩ := goes_mid hy' (rest := o :: n :: c :: rest)
        exact ⟨g3, g4, g1, g2⟩)
    have hg := hch.gathers (fun _ h => h) PStack.new
    rw [pushAll_safe, hno] at hg
    obtain ⟨safe, hsafe⟩ := addTo_safe (Inline.elems.go env.cx body) PStack.new.errors
    have := note_run (env := env) (sol := sol) (p := { p with rule := .block }) h1 h2 hlt hm hrt hot hn hct hr hs hw hp hg rfl hsafe
    rw [e0, hsolc]
    have hfr : ruleFn (consume fuel) RuleId.block = ruleBlock (consume fuel) false := rfl
    rw [hfr, this]
    have hun := unwrap_addTo (Inline.elems.go env.cx body) PStack.new.errors
    rw [← noteElems_eq] at hun
    show Res.ok _ _ = Res.ok _ _
    congr 2
    show ({ sh with footnotes := sh.footnotes ++ [_] } : Shared) = { sh with footnotes := sh.footnotes ++ [noteElems env.cx body] }
    rw [← hun]
    rfl
theorem body_chain : ∀ (is : List Inline) {xs rest : List ETok} {sol b : Bool} {ol : Nat} {G : List ETok → Prop} {fuel : Nat}
    {p : PState} {sh : Shared}, (p.inFootnote = true → notesOf env.cx is = []) → Inline.ok.go is = true → xs.map ETok.pair = Inline.lex.go is →
    rest ≠ [] → (xs ++ rest) <:+ (tokenize env.text).tokens → TLine ol b (xs ++ rest) → (b = true → sol = false) →
    Within ol xs rest → Inline.height.go is ≤ fuel → p.depth + Inline.height.go is ≤ 100 →
    (∀ a i c, is = a ++ i :: c → ∀ ys, ys.map ETok.pair = i.lex ++ Inline.lex.go c → G (ys ++ rest)) →
    ∃ sol', Calls env (consume fuel) G p (xs ++ rest) sol sh (is.map fun i => (i.elems env.cx, true)) rest sol'
      (putNotes sh (notesOf env.cx is))
  | [], xs, rest, sol, b, ol, G, fuel, p, sh, hfn, hok, hxs, hr, hs, hl, hb, hst, hf, hd, hG => by
    simp [Inline.lex.go] at hxs
    subst hxs
    exact ⟨sol, .nil⟩
  | i :: is, xs, rest, sol, b, ol, G, fuel, p, sh, hfn, hok, hxs, hr, hs, hl, hb, hst, hf, hd, hG => by
    simp only [Inline.ok.go, Bool.and_eq_true] at hok
    simp only [Inline.lex.go] at hxs
    simp only [Inline.height.go] at hf hd
    have hg0 := hG [] i is rfl xs hxs
    obtain ⟨ys, zs, rfl, hys, hzs⟩ := map_append_split hxs
    have hyne : ys ≠ [] := by
      rintro rfl
      exact inline_lex_ne i (by simpa using hys.symm)
    rw [List.append_assoc] at hs hl hg0 ⊢
    have he := inline_eats i (rest := zs ++ rest) hok.1 hys (by simp [hr]) hs hl hb hst.left
    obtain ⟨b', hl', hb'⟩ := TLine.after hl hyne hst.left
    have hfn' : p.inFootnote = true → i.notes.map (noteElems env.cx) = [] ∧ notesOf env.cx is = [] := by
      intro h
      have := hfn h
      simp only [notesOf, Inline.notes.go, List.map_append, List.append_eq_nil_iff] at this
      exact this
    obtain ⟨sol', hch⟩ := body_chain is (xs := zs) (rest := rest) (sol := solAfter ys) (b := b') (ol := ol) (G := G)
      (fuel := fuel) (p := p) (sh := putNotes sh (i.notes.map (noteElems env.cx))) (fun h => (hfn' h).2) hok.2 hzs hr (List.IsSuffix.trans (List.suffix_append ys _) hs) hl' hb'
      hst.right (by omega) (by omega)
      (fun a j c e ys hy => hG (i :: a) j c (by rw [e]; rfl) ys hy)
    have hrun := he fuel p sh (by omega) (by omega) (fun h => (hfn' h).1)
    have hlen := List.length_pos_iff.2 hyne
    rw [putNotes_append, ← List.map_append] at hch
    exact ⟨sol', .cons hg0 hrun (by simp; omega) (by simp [hr]) hch⟩
end

end Ftml
