import Verif.Lemmas.PageLex
/-
Pages: what the rules for blocks do.
-/
namespace Ftml
open M Markup Lexer
variable {env : Env}

/-- A rule that succeeds after the rules before it have failed. -/
theorem consume_rule {x : ETok} {toks rest : List ETok} {sol sol' : Bool} {r : RuleId} {rs1 rs2 : List RuleId}
    {out : PS Elements} {fuel : Nat} {p : PState} {sh sh' : Shared} (hd : p.depth + 1 ≤ 100)
    (hrules : rulesFor x.token = rs1 ++ r :: rs2) (hfail : ∀ r' ∈ rs1, Fails env r' (x :: toks) sol)
    (hline : r.needsLineStart = true → sol = true) (hp : NoParts out.item)
    (hrun : ruleFn (consume fuel) r env ⟨({ p with depth := p.depth + 1, rule := r } : PState).at (x :: toks) sol, sh⟩ =
        .ok out ⟨({ p with depth := p.depth + 1, rule := r } : PState).at rest sol', sh'⟩)
    (hlt : rest.length ≤ toks.length) (hr : rest ≠ []) :
    consume (fuel + 1) env ⟨p.at (x :: toks) sol, sh⟩ = .ok out ⟨p.at rest sol', sh'⟩ := by
  rw [consume_enter hd]
  have : (x :: toks).headD default = x := rfl
  rw [this, hrules]
  obtain ⟨errs, he⟩ := consumeRules_skip (cons := consume fuel) (c := x) (p := { p with depth := p.depth + 1 })
    (sh := sh) (rs2 := r :: rs2) hfail []
  rw [he]
  exact consumeRules_moved (tryConsume_ok hline hrun (hp _)) (by simp; omega) hr

theorem require_true (s : St) : require true env s = .ok () s := rfl

/-! ### One-line contents -/

theorem linesOk_line {ps : List Str} (h : ps.all (· != c!"\n") = true) : linesOk true ps = true := by
  induction ps with
  | nil => rfl
  | cons p ps ih =>
    simp only [List.all_cons, Bool.and_eq_true, bne_iff_ne] at h
    have := ih h.2
    rw [linesOk, if_neg h.1]
    split
    · exact this
    · simp [this]

/-- The tokens end a line. -/
def EndsLine : List ETok → Prop
  | [] => False
  | x :: xs => (x.token = .lineBreak ∧ xs ≠ []) ∨ (x.token = .paragraphBreak ∧ xs ≠ []) ∨ x.token = .inputEnd

theorem EndsLine.stops {xs : List ETok} (h : EndsLine xs) : Stops xs.length xs := by
  cases xs with
  | nil => exact h
  | cons x xs =>
    rcases h with ⟨h, _⟩ | ⟨h, _⟩ | h
    · exact .inr ⟨h, by simp⟩
    · exact .inl (by rw [h]; rfl)
    · exact .inl (by rw [h]; rfl)

theorem pair_classed {is : List Inline} (hok : Inline.ok.go is = true) {xs : List ETok}
    (hx : xs.map ETok.pair = Inline.lex.go is) : ∀ x ∈ xs, Classed (x.token, x.slice) := by
  intro x hxm
  refine inlines_classed is hok _ ?_
  rw [← hx]
  exact List.mem_map.2 ⟨x, hxm, rfl⟩

theorem pair_slices {is : List Inline} {xs : List ETok}
    (hx : xs.map ETok.pair = Inline.lex.go is) : xs.map (·.slice) = Inline.pieces.go is := by
  rw [← inlines_pieces, ← hx, List.map_map]
  rfl

theorem classed_stop {x : ETok} (h : Classed (x.token, x.slice)) (hn : x.slice ≠ c!"\n") :
    isStop x.token = false ∧ x.token ≠ .lineBreak ∧ x.token ≠ .paragraphBreak ∧ x.token ≠ .inputEnd := by
  unfold Classed at h
  dsimp only at h
  have : x.token ≠ .lineBreak ∧ x.token ≠ .paragraphBreak ∧ x.token ≠ .inputEnd := by
    rcases h with ⟨_, h2⟩ | ⟨h1, _⟩ | ⟨h1, _⟩ | ⟨h1, _⟩
    · exact (hn h2).elim
    · rw [h1]; simp
    · revert h1; cases x.token <;> simp [isLineTok]
    · revert h1; cases x.token <;> simp [isInlineTok]
  exact ⟨by simp [isStop, this], this⟩

theorem classed_column {x : ETok} (h : Classed (x.token, x.slice)) : isColumnTok x.token = false := by
  unfold Classed at h
  dsimp only at h
  rcases h with ⟨h1, _⟩ | ⟨h1, _⟩ | ⟨h1, _⟩ | ⟨h1, _⟩
  · rw [h1]; rfl
  · rw [h1]; rfl
  · revert h1; cases x.token <;> simp [isLineTok, isColumnTok]
  · revert h1; cases x.token <;> simp [isInlineTok, isColumnTok]

/-- The contents of a line, up to its end. -/
theorem line_chain {body : List Inline} {xs tail : List ETok} {close : List Cond} {fuel : Nat} {p : PState} {sh : Shared}
    (hok : Inline.ok.go body = true) (hline : (Inline.pieces.go body).all (· != c!"\n") = true)
    (hxs : xs.map ETok.pair = Inline.lex.go body) (ht : EndsLine tail)
    (hs : (xs ++ tail) <:+ (tokenize env.text).tokens) (hf : Inline.height.go body ≤ fuel)
    (hd : p.depth + Inline.height.go body ≤ 100) (hnf : p.inFootnote = false)
    (hclose : ∀ x ys, x.token ≠ .lineBreak → x.token ≠ .paragraphBreak → x.token ≠ .inputEnd → Meets close (x :: ys) = false) :
    ∃ sol', Calls env (consume fuel) (Goes close []) p (xs ++ tail) false sh (body.map fun i => (i.elems env.cx, true)) tail sol'
      (putNotes sh (notesOf env.cx body)) := by
  have hcl := pair_classed hok hxs
  have hne : ∀ x ∈ xs, x.slice ≠ c!"\n" := by
    intro x hx
    have hm : x.slice ∈ Inline.pieces.go body := by rw [← pair_slices hxs]; exact List.mem_map.2 ⟨x, hx, rfl⟩
    simpa using List.all_eq_true.1 hline _ hm
  have hl : TLine tail.length true (xs ++ tail) := tline_of ht.stops hcl (by rw [pair_slices hxs]; exact linesOk_line hline)
  have hw : Within tail.length xs tail := by
    intro a b e hb
    obtain ⟨z, zs, rfl⟩ := List.exists_cons_of_ne_nil hb
    have hz : z ∈ xs := by rw [e]; simp
    have := classed_stop (hcl z hz) (hne z hz)
    rintro ((h | ⟨h, _⟩) | ⟨z', zs', e', h⟩)
    · rw [this.1] at h; cases h
    · exact this.2.1 h
    · cases e'
      rw [classed_column (hcl z hz)] at h; cases h
  refine body_chain body (fun h => by rw [hnf] at h; cases h) hok hxs (by cases tail with | nil => exact ht.elim | cons => simp) hs hl (fun _ => rfl) hw hf hd ?_
  intro a i c e ys hy
  have hys : ∃ y zs, ys = y :: zs := by
    cases ys with
    | nil => simp at hy; exact (inline_lex_ne i hy.1).elim
    | cons y zs => exact ⟨y, zs, rfl⟩
  obtain ⟨y, zs, rfl⟩ := hys
  have hmem : y.pair ∈ Inline.lex.go body := by
    have happ : ∀ (a b : List Inline), Inline.lex.go (a ++ b) = Inline.lex.go a ++ Inline.lex.go b := by
      intro a b
      induction a with
      | nil => rfl
      | cons i a ih => simp [Inline.lex.go, ih]
    rw [e, happ, Inline.lex.go, ← hy]
    simp
  have hyc := inlines_classed body hok _ hmem
  have hyn : y.slice ≠ c!"\n" := by
    have hm : y.slice ∈ Inline.pieces.go body := by
      rw [← inlines_pieces]; exact List.mem_map.2 ⟨_, hmem, rfl⟩
    simpa using List.all_eq_true.1 hline _ hm
  have := classed_stop hyc hyn
  exact ⟨by simp, hclose _ _ this.2.1 this.2.2.1 this.2.2.2, rfl, this.2.2.2⟩

/-- The tokens after the end of a line. -/
theorem afterClose_length (xs : List ETok) (sol : Bool) : (afterClose xs sol).1.length ≤ xs.length := by
  cases xs with
  | nil => exact Nat.le_refl _
  | cons x xs => simp only [afterClose]; split <;> simp
theorem afterClose_ne {xs : List ETok} {sol : Bool} (h : EndsLine xs) : (afterClose xs sol).1 ≠ [] := by
  cases xs with
  | nil => exact h.elim
  | cons x xs =>
    simp only [afterClose]
    split
    · simp
    · rename_i hn
      rcases h with ⟨_, h⟩ | ⟨_, h⟩ | h
      · exact h
      · exact h
      · exact (hn h).elim

theorem meets_lineEnds {x : ETok} {ys : List ETok} (h1 : x.token ≠ .lineBreak) (h2 : x.token ≠ .paragraphBreak)
    (h3 : x.token ≠ .inputEnd) : Meets lineEnds (x :: ys) = false := by simp [Meets, lineEnds, h1, h2, h3]
theorem endsLine_meets {xs : List ETok} (h : EndsLine xs) : Meets lineEnds xs = true := by
  cases xs with
  | nil => exact h.elim
  | cons x xs => rcases h with ⟨h, _⟩ | ⟨h, _⟩ | h <;> simp [Meets, lineEnds, h]

/-- Centered lines. -/
theorem center_run {gap : Nat} {body : List Inline} {xs tail : List ETok} {fuel : Nat} {p : PState} {sh : Shared}
    (hok : (Block.center gap body).ok = true) (hxs : xs.map ETok.pair = (Block.center gap body).lex) (ht : EndsLine tail)
    (hs : (xs ++ tail) <:+ (tokenize env.text).tokens) (hf : (Block.center gap body).height ≤ fuel)
    (hd : p.depth + (Block.center gap body).height ≤ 100) (hnf : p.inFootnote = false) :
    ∃ sol', consume fuel env ⟨p.at (xs ++ tail) true, sh⟩ =
      .ok ⟨(Block.center gap body).elems env.cx, [], false⟩
        ⟨p.at (afterClose tail sol').1 (afterClose tail sol').2, putNotes sh (notesOf env.cx body)⟩ := by
  simp only [Block.height] at hf hd
  simp only [Block.ok, Bool.and_eq_true] at hok
  obtain ⟨fuel, rfl⟩ : ∃ k, fuel = k + 1 := ⟨fuel - 1, by omega⟩
  simp only [Block.lex] at hxs
  obtain ⟨x, xs, rfl, hx, hxs⟩ := List.map_eq_cons_iff.1 hxs
  obtain ⟨w, ys, rfl, hw, hys⟩ := List.map_eq_cons_iff.1 hxs
  have hx : x.token = .equals := congrArg (·.1) hx
  have hw : w.token = .whitespace := congrArg (·.1) hw
  have hs' : (ys ++ tail) <:+ (tokenize env.text).tokens :=
    List.IsSuffix.trans (List.suffix_cons w _) (List.IsSuffix.trans (List.suffix_cons x _) hs)
  obtain ⟨sol', hch⟩ := line_chain (close := lineEnds) (fuel := fuel) (p := { p with depth := p.depth + 1, rule := .center }) (sh := sh)
    hok.1 hok.2 hys ht hs' (by omega) (by dsimp only; omega) hnf (fun x ys => meets_lineEnds)
  obtain ⟨t, ts, rfl⟩ : ∃ t ts, tail = t :: ts := by cases tail with | nil => exact ht.elim | cons t ts => exact ⟨t, ts, rfl⟩
  refine ⟨sol', consume_rule (rs1 := []) (rs2 := [.text]) (r := .center) (by omega) (by rw [hx]; rfl) (by simp) (fun _ => rfl)
    (noParts_cons (by simp) noParts_nil) ?_ ?_ (afterClose_ne ht)⟩
  · show ruleCenter (consume fuel) env _ = _
    unfold ruleCenter
    obtain ⟨z, zs, hz⟩ : ∃ z zs, ys ++ t :: ts = z :: zs := by cases ys <;> simp
    have e : x :: w :: ys ++ t :: ts = x :: w :: z :: zs := by simp [hz]
    show (_ : M _) env ⟨({ p with depth := p.depth + 1, rule := .center } : PState).at (x :: w :: (ys ++ t :: ts)) true, sh⟩ = _
    rw [hz]
    rw [bind_ok (s' := ⟨({ p with depth := p.depth + 1, rule := .center } : PState).at (x :: w :: z :: zs) true, sh⟩) (a := x.token) rfl]
    rw [bind_ok (s' := ⟨({ p with depth := p.depth + 1, rule := .center } : PState).at (x :: w :: z :: zs) true, sh⟩) (a := ()) (by rw [hx]; rfl)]
    rw [bind_ok (step_at ..)]
    rw [bind_ok (s' := ⟨({ p with depth := p.depth + 1, rule := .center } : PState).at (w :: z :: zs) (isLineStartTok x.token), sh⟩) (a := w.token) rfl]
    rw [bind_ok (s' := ⟨({ p with depth := p.depth + 1, rule := .center } : PState).at (w :: z :: zs) (isLineStartTok x.token), sh⟩) (a := ()) (by rw [hw]; rfl)]
    rw [bind_ok (step_at ..), hw, ← hz]
    have := collectContainer_chain (ct := .align .center) (ek := none) hch (endsLine_meets ht) (by
      intro hn
      rcases ht with ⟨_, h⟩ | ⟨_, h⟩ | h
      · exact h
      · exact h
      · exact (hn h).elim)
    refine Eq.trans this ?_
    rw [outElems_inline, outSafe_inline]
    rfl
  · have := afterClose_length (t :: ts) sol'
    simp at this ⊢
    omega

/-- Horizontal rules. -/
theorem hrule_run {more : Nat} {xs tail : List ETok} {fuel : Nat} {p : PState} {sh : Shared}
    (hxs : xs.map ETok.pair = (Block.rule more).lex) (ht : EndsLine tail) (hf : 1 ≤ fuel) (hd : p.depth + 1 ≤ 100) :
    consume fuel env ⟨p.at (xs ++ tail) true, sh⟩ = .ok ⟨(Block.rule more).elems env.cx, [], false⟩
      ⟨p.at (if (tail.headD default).token = .lineBreak then tail.tail else tail) ((tail.headD default).token == .lineBreak), sh⟩ := by
  obtain ⟨fuel, rfl⟩ : ∃ k, fuel = k + 1 := ⟨fuel - 1, by omega⟩
  simp only [Block.lex] at hxs
  obtain ⟨x, rfl, hx0⟩ := List.map_eq_singleton_iff.1 hxs
  have hx : x.token = .tripleDash := congrArg (·.1) hx0
  obtain ⟨t, ts, rfl⟩ : ∃ t ts, tail = t :: ts := by cases tail with | nil => exact ht.elim | cons t ts => exact ⟨t, ts, rfl⟩
  have hne : (if t.token = .lineBreak then ts else t :: ts) ≠ [] := by
    split
    · rename_i h
      rcases ht with ⟨_, h⟩ | ⟨_, h⟩ | h'
      · exact h
      · exact h
      · rw [h] at h'; cases h'
    · simp
  refine consume_rule (rs1 := []) (rs2 := []) (r := .horizontalRule) hd (by rw [hx]; rfl) (by simp) (fun _ => rfl)
    (noParts_cons (by simp) noParts_nil) ?_ ?_ hne
  · show ruleHorizontalRule env _ = _
    unfold ruleHorizontalRule
    show (_ : M _) env ⟨({ p with depth := p.depth + 1, rule := .horizontalRule } : PState).at (x :: t :: ts) true, sh⟩ = _
    rw [bind_ok (checkStep_at _ _ hx _ _ _ _)]
    unfold getOptionalLineBreak getOptionalToken
    by_cases hl : t.token = .lineBreak
    · simp only [List.headD_cons, hl, if_true] at hne ⊢
      obtain ⟨u, us, rfl⟩ := List.exists_cons_of_ne_nil hne
      rw [bind_ok (a := ()) (s' := ⟨({ p with depth := p.depth + 1, rule := .horizontalRule } : PState).at (u :: us) true, sh⟩)]
      · rfl
      · rw [bind_ok (a := t.token) (s' := ⟨({ p with depth := p.depth + 1, rule := .horizontalRule } : PState).at (t :: u :: us) (isLineStartTok .tripleDash), sh⟩) rfl]
        rw [if_pos hl, bind_ok (step_at ..), hl]
        rfl
    · simp only [List.headD_cons, hl, if_false]
      rw [bind_ok (a := ()) (s' := ⟨({ p with depth := p.depth + 1, rule := .horizontalRule } : PState).at (t :: ts) false, sh⟩)]
      · have : (t.token == .lineBreak) = false := by simpa using hl
        rw [this]; rfl
      · rw [bind_ok (a := t.token) (s' := ⟨({ p with depth := p.depth + 1, rule := .horizontalRule } : PState).at (t :: ts) (isLineStartTok .tripleDash), sh⟩) rfl]
        rw [if_neg hl]
        rfl
  · show (if t.token = .lineBreak then ts else t :: ts).length ≤ (t :: ts).length
    split <;> simp

/-- Float clearings. -/
theorem clear_run {more : Nat} {side : ClearFloat} {xs tail : List ETok}
    (hxs : xs.map ETok.pair = (Block.clear more side).lex) (ht : tail ≠ []) :
    Eats env 1 true xs tail ((Block.clear more side).elems env.cx) false [] := by
  simp only [Block.lex] at hxs
  obtain ⟨x, rfl, hx0⟩ := List.map_eq_singleton_iff.1 hxs
  have hx : x.token = clearTok side := congrArg (·.1) hx0
  refine eats_tok (rs1 := []) (rs2 := []) (r := .clearFloat) ht (by rw [hx]; cases side <;> rfl) (by simp) (fun _ => rfl)
    (noParts_cons (by simp) noParts_nil) ?_
  intro cons p sh
  show ruleClearFloat env _ = _
  unfold ruleClearFloat
  rw [bind_ok (a := clearTok side) (s' := ⟨p.at (x :: tail) true, sh⟩) (by rw [← hx]; rfl)]
  have : getOptionalLineBreak env ⟨p.at (x :: tail) true, sh⟩ = .ok () ⟨p.at (x :: tail) true, sh⟩ := by
    unfold getOptionalLineBreak getOptionalToken
    rw [bind_ok (a := clearTok side) (s' := ⟨p.at (x :: tail) true, sh⟩) (by rw [← hx]; rfl)]
    cases side <;> rfl
  cases side <;> (dsimp only [clearTok]; rw [bind_ok this]; rfl)

end Ftml
