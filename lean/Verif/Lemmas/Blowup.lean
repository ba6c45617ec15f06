import Verif.Lemmas.PageAll
/-
Blocks that are never closed: their contents are parsed once as contents of the block and once more as text.
-/
namespace Ftml
open M Markup Lexer
variable {env : Env}

/-- A place where `consume` is called inside a block: not the end of the block, of a paragraph or of the input. -/
def Open (toks : List ETok) : Prop :=
  2 ≤ toks.length ∧ (toks.headD default).token ≠ .inputEnd ∧ (toks.headD default).token ≠ .paragraphBreak ∧
    (toks.headD default).token ≠ .leftBlockEnd ∧ (toks.headD default).token ≠ .lineBreak

/-- Calls of `consume` one after another, with the elements they give. -/
inductive Run (env : Env) (cons : M (PS Elements)) (p : PState) :
    List ETok → Bool → Shared → List Elem → List ETok → Bool → Shared → Prop where
  | nil {toks sol sh} : Run env cons p toks sol sh [] toks sol sh
  | cons {toks sol sh es errs toks1 sol1 sh1 fs toks' sol' sh'} : Open toks →
      cons env ⟨p.at toks sol, sh⟩ = .ok ⟨es, errs, true⟩ ⟨p.at toks1 sol1, sh1⟩ → toks1.length < toks.length → toks1 ≠ [] →
      Run env cons p toks1 sol1 sh1 fs toks' sol' sh' →
      Run env cons p toks sol sh (es ++ fs) toks' sol' sh'

theorem Run.length_le {cons p toks sol sh es toks' sol' sh'} (h : Run env cons p toks sol sh es toks' sol' sh') :
    toks'.length ≤ toks.length := by
  induction h with
  | nil => exact Nat.le_refl _
  | cons _ _ h _ _ ih => omega

/-- At the end of the input `consume` fails. -/
theorem consume_end {n : Nat} {p : PState} {e : ETok} {sol : Bool} {sh : Shared} (he : e.token = .inputEnd)
    (hd : p.depth + 1 ≤ 100) : ∃ x s', consume (n + 1) env ⟨p.at [e] sol, sh⟩ = .err x s' ∧ s'.sh = sh ∧ x.kind = .endOfInput := by
  rw [consume_enter hd]
  have h1 : rulesFor ([e].headD default).token = [.null] := by simp [he, rulesFor]
  rw [h1, consumeRules]
  let q : PState := { p with depth := p.depth + 1 }
  have h2 : tryConsume .null (ruleFn (consume n) .null) env ⟨q.at [e] sol, sh⟩ = .ok ⟨[], [], true⟩ ⟨q.at [e] sol, sh⟩ :=
    tryConsume_ok (by simp [RuleId.needsLineStart]) rfl rfl
  refine ⟨mkErr .endOfInput q.rule e, ⟨q.at [e] (isLineStartTok e.token), sh⟩, ?_, rfl, rfl⟩
  rw [bind_ok (a := ([] : List ETok).length) (s' := ⟨q.at [e] sol, sh⟩) rfl]
  rw [bind_ok (attempt_ok h2)]
  rfl

theorem verifyEnd_end {b : BlockInfo} {first : Bool} {p : PState} {e : ETok} {sol : Bool} {sh : Shared}
    (h : e.token = .inputEnd) (hb : b.newlines = false) :
    verifyEndBlock first b env ⟨p.at [e] sol, sh⟩ = .ok none ⟨p.at [e] sol, sh⟩ := by
  unfold verifyEndBlock saveEvaluateFn
  rw [hb]
  simp only [Bool.false_and, Bool.false_eq_true, if_false]
  obtain ⟨x, hx⟩ := getEndBlock_no (env := env) (p := p) (sol := sol) (sh := sh) (toks := [e]) (by simp [h])
  rw [bind_ok (onClone_err (bind_err hx))]
  rfl

/-- The contents of a block that is never closed: all of the rest is read, and then there is an error. -/
theorem body_unclosed {n : Nat} {b : BlockInfo} {p : PState} {toks sol sh es e sol' sh'} (hb : b.newlines = false)
    (he : e.token = .inputEnd) (hd : p.depth + 1 ≤ 100)
    (h : Run env (consume (n + 1)) p toks sol sh es [e] sol' sh') : ∃ x s',
    getBody (consume (n + 1)) b false env ⟨p.at toks sol, sh⟩ = .err x s' ∧ s'.sh = sh' ∧ x.kind = .endOfInput := by
  have key : ∀ k (first : Bool) (a1 : List Elem) (a2 : List PErr) (a3 : Bool), toks.length ≤ k → ∃ x s',
      loopN (fun (acc : List Elem × List PErr × Bool × Bool) => do
        let (es, errors, ps, first) := acc
        match ← verifyEndBlock first b with
        | some _ => pure (.done (⟨es, errors, ps⟩ : PS (List Elem)))
        | none => do
          let old ← remLen
          let r ← consume (n + 1)
          let now ← remLen
          if now = old then do
            let _ ← step
            pure (.more (es ++ r.item, errors ++ r.errors, ps && r.psafe, false))
          else pure (.more (es ++ r.item, errors ++ r.errors, ps && r.psafe, false))) k (a1, a2, a3, first) env
        ⟨p.at toks sol, sh⟩ = .err x s' ∧ s'.sh = sh' ∧ x.kind = .endOfInput := by
    generalize hT : [e] = T at h
    induction h with
    | @nil toks sol sh =>
      intro k first a1 a2 a3 hk
      subst hT
      obtain ⟨k, rfl⟩ : ∃ j, k = j + 1 := ⟨k - 1, by simp at hk; omega⟩
      obtain ⟨x, s', h1, h2, h3⟩ := consume_end (env := env) (n := n) (p := p) (sol := sol) (sh := sh) he hd
      refine ⟨x, s', ?_, h2, h3⟩
      rw [loopN]
      refine bind_err ?_
      dsimp only
      rw [bind_ok (verifyEnd_end he hb)]
      dsimp only
      rw [bind_ok (s' := ⟨p.at [e] sol, sh⟩) (a := ([] : List ETok).length) rfl]
      exact bind_err h1
    | @cons toks sol sh es1 errs toks1 sol1 sh1 fs toks' sol' sh' hg hrun hlt hne _ ih =>
      intro k first a1 a2 a3 hk
      obtain ⟨hlen, _, _, hend, _⟩ := hg
      obtain ⟨x, y, ys, rfl⟩ : ∃ x y ys, toks = x :: y :: ys := by
        cases toks with
        | nil => simp at hlen
        | cons x t => cases t with
          | nil => simp at hlen
          | cons y ys => exact ⟨x, y, ys, rfl⟩
      obtain ⟨k, rfl⟩ : ∃ j, k = j + 1 := ⟨k - 1, by simp at hk; omega⟩
      obtain ⟨x1, s1, i1, i2, i3⟩ := ih hT k false (a1 ++ es1) (a2 ++ errs) (a3 && true) (by omega)
      refine ⟨x1, s1, ?_, i2, i3⟩
      rw [loopN]
      refine (bind_ok (a := .more (a1 ++ es1, a2 ++ errs, a3 && true, false)) (s' := ⟨p.at toks1 sol1, sh1⟩) ?_).trans ?_
      · dsimp only
        rw [bind_ok (verifyEnd_no ⟨by simpa using hend, fun h1 _ => by simp [hb] at h1⟩)]
        dsimp only
        rw [bind_ok (s' := ⟨p.at (x :: y :: ys) sol, sh⟩) (a := (y :: ys).length) rfl]
        rw [bind_ok hrun]
        rw [bind_ok (s' := ⟨p.at toks1 sol1, sh1⟩) (a := toks1.tail.length) rfl]
        have := List.length_pos_iff.2 hne
        rw [if_neg (by simp at hlt ⊢; omega)]
        rfl
      · exact i1
  have h1 : 0 < toks.length := by have := h.length_le; simp at this; omega
  exact key (toks.tail.length + 1) true [] [] true (by rw [List.length_tail]; omega)

/-- When no rule applies the token is text. -/
theorem fallback_at {c x y : ETok} {ys : List ETok} {errs : List PErr} {p : PState} {sol : Bool} {sh : Shared}
    (h : ∀ e ∈ errs, e.kind ≠ .recursionDepthExceeded) :
    consumeFallback c errs env ⟨({ p with depth := p.depth + 1 } : PState).at (x :: y :: ys) sol, sh⟩ =
      .ok ⟨[eText c.slice], errs ++ [mkErr .noRulesMatch .fallback c], true⟩ ⟨p.at (y :: ys) (isLineStartTok x.token), sh⟩ := by
  unfold consumeFallback
  rw [bind_ok (step_at ..)]
  cases h1 : errs.getLast? with
  | none => rfl
  | some e =>
    dsimp only
    rw [if_neg (h e (List.mem_of_getLast? h1))]
    rfl

/-- The tokens of `[[span]]` again and again, then a footnote and the end. -/
inductive Unclosed (e : ETok) : Nat → List ETok → Prop
  | zero {l m r x o n c : ETok} : l.token = .leftBlock → m.pair = (.identifier, c!"footnote") → r.token = .rightBlock →
      x.pair = (.identifier, c!"x") → o.token = .leftBlockEnd → n.pair = (.identifier, c!"footnote") → c.token = .rightBlock →
      Unclosed e 0 [l, m, r, x, o, n, c, e]
  | succ {k : Nat} {l m r : ETok} {T : List ETok} : l.pair = (.leftBlock, c!"[[") → m.pair = (.identifier, c!"span") →
      r.pair = (.rightBlock, c!"]]") → Unclosed e k T → Unclosed e (k + 1) (l :: m :: r :: T)

/-- The elements they give. -/
def unclosedElems : Nat → List Elem
  | 0 => [.mk .footnote []]
  | k + 1 => eText c!"[[" :: eText c!"span" :: eText c!"]]" :: unclosedElems k

theorem Unclosed.ne {e : ETok} {k : Nat} {T : List ETok} (h : Unclosed e k T) : 8 ≤ T.length ∧ (T.headD default).token = .leftBlock := by
  induction h with
  | zero h => exact ⟨by simp, h⟩
  | succ h _ _ _ ih => exact ⟨by simp; omega, congrArg (·.1) h⟩

theorem span_rule : getBlockRule c!"span" = some (mkBlock c!"block-span" [c!"span"] false true false blkSpan) :=
  getBlockRule_idx (k := 45) (by decide +kernel) rfl

/-- The start of a block that is never closed: the block fails after reading everything, and the brackets are text. -/
theorem open_fails {n : Nat} {p : PState} {l m r e : ETok} {T : List ETok} {sol sol' : Bool} {sh sh' : Shared} {es : List Elem}
    (hl : l.pair = (.leftBlock, c!"[[")) (hm : m.pair = (.identifier, c!"span")) (hr : r.token = .rightBlock)
    (he : e.token = .inputEnd) (hT : 2 ≤ T.length ∧ (T.headD default).token = .leftBlock)
    (hs : (l :: m :: r :: T) <:+ (tokenize env.text).tokens) (hd : p.depth + 2 ≤ 100)
    (h : Run env (consume (n + 1)) { p with depth := p.depth + 1, rule := .blk c!"block-span" } T false sh es [e] sol' sh') :
    ∃ errs, consume (n + 2) env ⟨p.at (l :: m :: r :: T) sol, sh⟩ =
      .ok ⟨[eText c!"[["], errs, true⟩ ⟨p.at (m :: r :: T) false, sh'⟩ := by
  have hlt : l.token = .leftBlock := congrArg (·.1) hl
  have hls : l.slice = c!"[[" := congrArg (·.2) hl
  have w : (Plain.word c!"span").ok = true := by decide
  obtain ⟨n1, n2, n3, n4, _⟩ := word_name hm w
  have hne : T ≠ [] := by intro e; simp [e] at hT
  have hw : (T.headD default).token ≠ .whitespace := by rw [hT.2]; decide
  let q : PState := { p with depth := p.depth + 1 }
  let br := mkBlock c!"block-span" [c!"span"] false true false blkSpan
  obtain ⟨x, s', b1, b2, b3⟩ := body_unclosed (env := env) (b := br.info) rfl he (by simpa using hd) h
  have hrun : ruleBlock (consume (n + 1)) false env ⟨({ q with rule := .block } : PState).at (l :: ([m] ++ r :: T)) sol, sh⟩ = .err x s' := by
    refine ruleBlock_runs (ns := [m]) (c := r) (rest := T) (br := br) hlt (by simp) n2 (.inr hr) hne n3
      (List.IsSuffix.trans (List.suffix_cons l _) hs) n4 (by rw [n1]; exact span_rule) (by simp) (by simp [hr])
      (bc := blkSpan br.info (consume (n + 1)) ⟨slicesOf [m], false, false, r.token == .whitespace⟩) rfl ?_ (fun h => absurd h hw)
    rw [if_neg (by simp [hr]), if_neg hw]
    have hih : (r.token == Token.whitespace) = false := by simp [hr]
    rw [hih]
    unfold blkSpan
    rw [bind_ok (m := noStar _ _ _) (a := ()) (s' := _) rfl]
    rw [bind_ok (getHeadMap_none (b := br.info) (.inl ⟨rfl, rfl, by intro h; cases h⟩))]
    exact bind_err b1
  rw [consume_enter (by omega)]
  have h1 : rulesFor ((l :: m :: r :: T).headD default).token = [.block] := by simp [hlt, rulesFor]
  have hnext := consumeRules_next (rs := []) (c := l) (errs := []) (tryConsume_fails (r := .block) (by simp [RuleId.needsLineStart]) hrun)
  rw [b2] at hnext
  rw [h1]
  refine ⟨[x] ++ [mkErr .noRulesMatch .fallback l], ?_⟩
  have hf := fallback_at (env := env) (c := l) (x := l) (y := m) (ys := r :: T) (errs := [x]) (p := p) (sol := sol) (sh := sh')
    (by simp [b3])
  rw [hls, hlt] at hf
  exact hnext.trans hf

/-- A closing bracket is text. -/
theorem close_text {n : Nat} {p : PState} {r : ETok} {T : List ETok} {sol : Bool} {sh : Shared}
    (hr : r.pair = (.rightBlock, c!"]]")) (hT : T ≠ []) (hd : p.depth + 1 ≤ 100) :
    ∃ errs, consume (n + 1) env ⟨p.at (r :: T) sol, sh⟩ = .ok ⟨[eText c!"]]"], errs, true⟩ ⟨p.at T false, sh⟩ := by
  have hrt : r.token = .rightBlock := congrArg (·.1) hr
  have hrs : r.slice = c!"]]" := congrArg (·.2) hr
  obtain ⟨y, ys, rfl⟩ := List.exists_cons_of_ne_nil hT
  rw [consume_enter hd]
  have h1 : rulesFor ((r :: y :: ys).headD default).token = [] := by simp [hrt, rulesFor]
  rw [h1]
  have hf := fallback_at (env := env) (c := r) (x := r) (y := y) (ys := ys) (errs := []) (p := p) (sol := sol) (sh := sh) (by simp)
  rw [hrs, hrt] at hf
  exact ⟨_, hf⟩

/-- The footnote. -/
theorem note_eats {l m r x o n c : ETok} {rest : List ETok} {sol : Bool} (hl : l.token = .leftBlock)
    (hm : m.pair = (.identifier, c!"footnote")) (hr : r.token = .rightBlock) (hx : x.pair = (.identifier, c!"x"))
    (ho : o.token = .leftBlockEnd) (hn : n.pair = (.identifier, c!"footnote")) (hc : c.token = .rightBlock) (hrest : rest ≠ [])
    (hs : (l :: m :: r :: x :: o :: n :: c :: rest) <:+ (tokenize env.text).tokens) :
    Eats env 2 sol [l, m, r, x, o, n, c] rest [.mk .footnote []] true [[eText c!"x"]] := by
  have hxt : x.token = .identifier := congrArg (·.1) hx
  have hxs : x.slice = c!"x" := congrArg (·.2) hx
  refine eats_put' hrest (rs1 := []) (rs2 := []) (r := .block) (r' := .blk blockRules[18].info.name) (by simp [hl, rulesFor]) (by simp)
    (by simp [RuleId.needsLineStart]) (noParts_cons (by simp) noParts_nil) ?_
  intro fuel p sh hf hd hfn
  have hp : p.inFootnote = false := by
    cases h : p.inFootnote with
    | false => rfl
    | true => exact absurd (hfn h) (by simp)
  have hx1 := eats_text (env := env) (x := x) (rest := o :: n :: c :: rest) (sol := false) (rs1 := []) (by simp) (by simp [hxt, rulesFor]) (by simp)
  have hx2 := hx1 fuel { p with rule := .blk blockRules[18].info.name, inFootnote := true } sh hf hd (by simp)
  have hsol : solAfter [x] = false := by simp [solAfter, hxt, isLineStartTok]
  rw [hsol, hxs] at hx2
  have hg : Gathers env (consume fuel) { p with rule := .blk blockRules[18].info.name, inFootnote := true } ([x] ++ o :: n :: c :: rest) false sh
      PStack.new (o :: n :: c :: rest) false sh ⟨[eText c!"x"], [], []⟩ :=
    .cons ⟨by simp [hxt], by simp [hxt], ⟨by simp [hxt], by simp [hxt]⟩, by simp⟩ hx2 (by simp) .nil
  have := note_run (env := env) (name := c!"footnote") (close := c!"footnote") (by decide) (by decide) hl hm hr ho hn hc hrest (ys := [x]) (sol := sol) hs
    (by simp [hxt]) (p := { p with rule := .block }) hp hg rfl (safe := false) rfl
  have h2 : solAfter [l, m, r, x, o, n, c] = false := by simp [solAfter, hc, isLineStartTok]
  rw [h2]
  exact this

theorem runs_unclosed {e : ETok} (he : e.token = .inputEnd) : ∀ {k : Nat} {T : List ETok}, Unclosed e k T →
    T <:+ (tokenize env.text).tokens → ∀ (n : Nat) (p : PState) (sh : Shared) (sol : Bool), k + 1 ≤ n → p.depth + (k + 2) ≤ 100 →
    p.inFootnote = false → Run env (consume (n + 1)) p T sol sh (unclosedElems k) [e] false
      { sh with footnotes := sh.footnotes ++ List.replicate (2 ^ k) [eText c!"x"] } := by
  intro k T h
  induction h with
  | @zero l m r x o n c hl hm hr hx ho hn hc =>
    intro hs f p sh sol hf hd hp
    have h1 := note_eats (env := env) (sol := sol) hl hm hr hx ho hn hc (rest := [e]) (by simp) hs (f + 1) p sh (by omega) (by omega) (by simp [hp])
    have h2 : solAfter [l, m, r, x, o, n, c] = false := by simp [solAfter, hc, isLineStartTok]
    rw [h2] at h1
    refine .cons (es := [.mk .footnote []]) (fs := []) ⟨by simp, by simp [hl], by simp [hl], by simp [hl], by simp [hl]⟩ h1 (by simp) (by simp) ?_
    exact .nil
  | @succ k l m r T hl hm hr hT ih =>
    intro hs f p sh sol hf hd hp
    have hlt : l.token = .leftBlock := congrArg (·.1) hl
    have hmt : m.token = .identifier := congrArg (·.1) hm
    have hms : m.slice = c!"span" := congrArg (·.2) hm
    have hrt : r.token = .rightBlock := congrArg (·.1) hr
    obtain ⟨f, rfl⟩ : ∃ j, f = j + 1 := ⟨f - 1, by omega⟩
    have hTn := hT.ne
    have hTne : T ≠ [] := by intro e; simp [e] at hTn
    have hs' : T <:+ (tokenize env.text).tokens := List.IsSuffix.trans (List.suffix_append [l, m, r] T) hs
    have r1 := ih hs' f { p with depth := p.depth + 1, rule := .blk c!"block-span" } sh false (by omega) (by simp; omega) hp
    obtain ⟨e1, c1⟩ := open_fails (env := env) (sol := sol) hl hm hrt he ⟨by omega, hTn.2⟩ hs (by omega) r1
    let sh1 : Shared := { sh with footnotes := sh.footnotes ++ List.replicate (2 ^ k) [eText c!"x"] }
    have c2 := eats_text (env := env) (x := m) (rest := r :: T) (sol := false) (rs1 := []) (by simp) (by simp [hmt, rulesFor]) (by simp)
      (f + 2) p sh1 (by omega) (by omega) (by simp)
    have hsol : solAfter [m] = false := by simp [solAfter, hmt, isLineStartTok]
    rw [hsol, hms] at c2
    obtain ⟨e3, c3⟩ := close_text (env := env) (n := f + 1) (p := p) (sol := false) (sh := sh1) hr hTne (by omega)
    have r2 := ih hs' (f + 1) p sh1 false (by omega) (by omega) hp
    have hE : ({ sh1 with footnotes := sh1.footnotes ++ List.replicate (2 ^ k) [eText c!"x"] } : Shared) =
        { sh with footnotes := sh.footnotes ++ List.replicate (2 ^ (k + 1)) [eText c!"x"] } := by
      simp only [sh1, List.append_assoc, List.replicate_append_replicate]
      rw [show 2 ^ k + 2 ^ k = 2 ^ (k + 1) by omega]
    rw [hE] at r2
    exact .cons (es := [eText c!"[["]) (fs := eText c!"span" :: eText c!"]]" :: unclosedElems k)
      ⟨by simp, by simp [hlt], by simp [hlt], by simp [hlt], by simp [hlt]⟩ c1 (by simp) (by simp)
      (.cons (es := [eText c!"span"]) (fs := eText c!"]]" :: unclosedElems k)
        ⟨by simp, by simp [hmt], by simp [hmt], by simp [hmt], by simp [hmt]⟩ c2 (by simp) (by simp)
        (.cons (es := [eText c!"]]"]) (fs := unclosedElems k)
          ⟨by simp; omega, by simp [hrt], by simp [hrt], by simp [hrt], by simp [hrt]⟩ c3 (by simp) hTne r2))

/-- `gather_paragraphs` over such calls, at the top of the page. -/
theorem gathers_run {cons : M (PS Elements)} {p : PState} {toks sol sh es e sol' sh'} (he : e.token = .inputEnd)
    (h : Run env cons { p with rule := .page } toks sol sh es [e] sol' sh') : ∃ errs safe,
    gatherParagraphs cons .page none env ⟨p.at toks sol, sh⟩ =
      .ok ⟨PStack.intoElements ⟨addTo [] es, [], []⟩, errs, safe⟩ ⟨({ p with rule := .page } : PState).at [e] sol', sh'⟩ := by
  unfold gatherParagraphs
  rw [bind_ok (s' := ⟨({ p with rule := .page } : PState).at toks sol, sh⟩) (a := ()) rfl]
  have key : ∀ n (first : Bool) (s0 : PStack), toks.length ≤ n → s0.finished = [] → ∃ errs,
      loopN (fun (acc : PStack × Bool) => do
    let (s, first) := acc
    let t ← curTok
    if t = .inputEnd then
      (if (none : Option (Bool → M Bool)).isSome then fail .endOfInput else pure (.done s))
    else if t = .paragraphBreak then do
      let _ ← step
      pure (.more (s.endParagraph, first))
    else do
      let stop ← (match (none : Option (Bool → M Bool)) with
        | some c => do
          match ← attempt (c first) with
          | .ok b => pure b
          | .error _ => pure false
        | none => pure false)
      if stop then pure (.done s)
      else do
        let out ← cons
        let s := PStack.pushElements out.psafe out.item s
        pure (.more ({ s with errors := s.errors ++ out.errors }, false))) n (s0, first) env
        ⟨({ p with rule := .page } : PState).at toks sol, sh⟩ =
        .ok ⟨addTo s0.current es, [], errs⟩ ⟨({ p with rule := .page } : PState).at [e] sol', sh'⟩ := by
    generalize hT : [e] = T at h
    induction h with
    | @nil toks sol sh =>
      intro n first s0 hn hs
      subst hT
      obtain ⟨n, rfl⟩ : ∃ j, n = j + 1 := ⟨n - 1, by simp at hn; omega⟩
      refine ⟨s0.errors, ?_⟩
      rw [loopN]
      rw [bind_ok (a := .done s0) (s' := ⟨({ p with rule := .page } : PState).at [e] sol, sh⟩)]
      · obtain ⟨c, f, er⟩ := s0
        cases hs
        have : addTo c [] = c := by cases c <;> simp [addTo]
        rw [this]
        rfl
      · dsimp only
        rw [bind_ok (s' := ⟨({ p with rule := .page } : PState).at [e] sol, sh⟩) (a := e.token) rfl]
        rw [if_pos he]
        rfl
    | @cons toks sol sh es1 errs toks1 sol1 sh1 fs toks' sol' sh' hg hrun hlt hne _ ih =>
      intro n first s0 hn hs
      obtain ⟨n, rfl⟩ : ∃ j, n = j + 1 := ⟨n - 1, by omega⟩
      obtain ⟨er, i1⟩ := ih hT n false ⟨addTo s0.current es1, [], s0.errors ++ errs⟩ (by omega) rfl
      refine ⟨er, ?_⟩
      rw [loopN]
      rw [bind_ok (a := .more (⟨addTo s0.current es1, [], s0.errors ++ errs⟩, false)) (s' := ⟨({ p with rule := .page } : PState).at toks1 sol1, sh1⟩)]
      · dsimp only at i1 ⊢
        rw [← addTo_addTo]
        exact i1
      · dsimp only
        rw [bind_ok (s' := ⟨({ p with rule := .page } : PState).at toks sol, sh⟩) (a := (toks.headD default).token) rfl]
        rw [if_neg hg.2.1, if_neg hg.2.2.1]
        rw [bind_ok (s' := ⟨({ p with rule := .page } : PState).at toks sol, sh⟩) (a := false) rfl]
        simp only [Bool.false_eq_true, if_false]
        rw [bind_ok hrun]
        rw [pushElements_true, hs]
        rfl
  have h1 : 0 < toks.length := by have := h.length_le; simp at this; omega
  obtain ⟨er, k1⟩ := key (toks.tail.length + 1) true PStack.new (by rw [List.length_tail]; omega) rfl
  refine ⟨er, (addTo ([] : List Elem) es).isEmpty, ?_⟩
  refine (bind_ok k1).trans ?_
  cases hc : addTo ([] : List Elem) es with
  | nil => 
    show PStack.intoResult ⟨addTo [] es, _, _⟩ env _ = _
    rw [hc]; rfl
  | cons a as => 
    show PStack.intoResult ⟨addTo [] es, _, _⟩ env _ = _
    rw [hc]
    rfl

end Ftml
