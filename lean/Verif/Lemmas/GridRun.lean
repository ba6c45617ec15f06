import Verif.Lemmas.DefinitionRun
import Verif.Lemmas.GadgetRun
/-
Lists and tables made of blocks.
-/
namespace Ftml
open M Markup Lexer
variable {env : Env}

/-! ### Tags -/

/-- The block of this name. -/
structure TagRule (k : Str) (br : BlockRule) : Prop where
  word : (Plain.word k).ok = true
  rule : getBlockRule k = some br
  lines : br.info.newlines = true
  name : k ∈ br.info.names

theorem tagRule_at (i : Nat) {k : Str} (hi : i < blockRules.length) (hw : (Plain.word k).ok = true)
    (h : (blockRules.findIdx? fun r => r.info.names.any fun n => eqIgnoreCase (stripScore k) n) = some i)
    (h1 : blockRules[i].info.newlines = true) (h2 : k ∈ blockRules[i].info.names) : TagRule k blockRules[i] :=
  ⟨hw, getBlockRule_idx h (List.getElem?_eq_getElem hi), h1, h2⟩

theorem liRule : TagRule c!"li" blockRules[32] := tagRule_at 32 (by decide) rfl (by decide +kernel) rfl (by decide)
theorem olRule : TagRule c!"ol" blockRules[38] := tagRule_at 38 (by decide) rfl (by decide +kernel) rfl (by decide)
theorem ulRule : TagRule c!"ul" blockRules[57] := tagRule_at 57 (by decide) rfl (by decide +kernel) rfl (by decide)
theorem tableRule : TagRule c!"table" blockRules[50] := tagRule_at 50 (by decide) rfl (by decide +kernel) rfl (by decide)
theorem hcellRule : TagRule c!"hcell" blockRules[51] := tagRule_at 51 (by decide) rfl (by decide +kernel) rfl (by decide)
theorem cellRule : TagRule c!"cell" blockRules[52] := tagRule_at 52 (by decide) rfl (by decide +kernel) rfl (by decide)
theorem rowRule : TagRule c!"row" blockRules[54] := tagRule_at 54 (by decide) rfl (by decide +kernel) rfl (by decide)

/-- What a block sees after its name. -/
theorem tag_run {k : Str} {br : BlockRule} (hk : TagRule k br) {t : Markup.Tag} (ht : t.is k = true) {os T T2 : List ETok} {sol2 : Bool}
    (hos : os.map ETok.pair = t.openLex) (hT : T ≠ []) (hTw : (T.headD default).token ≠ .whitespace) (hb : HeadEnd br.info T T2 sol2)
    (hs : (os ++ T) <:+ (tokenize env.text).tokens) :
    ∃ (ih : Bool) (X : List ETok), (∀ (p : PState) (sh : Shared), getHeadMap br.info ih env ⟨p.at X false, sh⟩ = .ok (rawArgs t.args) ⟨p.at T2 sol2, sh⟩) ∧
      ∀ (cons : M (PS Elements)) (p : PState) (sh : Shared) (sol : Bool) (out : Res (PS Elements)),
        br.parse cons ⟨t.name, false, false, ih⟩ env ⟨({ p with rule := .blk br.info.name } : PState).at X false, sh⟩ = out →
        ruleBlock cons false env ⟨p.at (os ++ T) sol, sh⟩ = out := by
  obtain ⟨w1, _, n1', _, hargs⟩ := tag_word ht hk.word
  obtain ⟨l, os, rfl, hl, hos⟩ := List.map_eq_cons_iff.1 hos
  obtain ⟨m, os, rfl, hm, hos⟩ := List.map_eq_cons_iff.1 hos
  obtain ⟨as, rs, rfl, has, hrs⟩ := map_append_split hos
  obtain ⟨r, rfl, hr0⟩ := List.map_eq_singleton_iff.1 hrs
  have hrt : r.token = .rightBlock := congrArg (·.1) hr0
  obtain ⟨n1, n2, n3, n4, _⟩ := word_name hm w1
  have e0 : l :: m :: (as ++ [r]) ++ T = l :: ([m] ++ (as ++ r :: T)) := by simp
  rw [e0] at hs ⊢
  have hs1 := List.IsSuffix.trans (List.suffix_cons l _) hs
  have hs2 := List.IsSuffix.trans (List.suffix_append [m] _) hs1
  obtain ⟨d, tl, q1, h1, h2, h3, _⟩ := head_parts (env := env) (b := br.info) (p := ⟨default, [], .text, 0, .none, false, false, false⟩) (sh := ⟨[], [], [], [], []⟩)
    hargs has hrt hT hs2 hb (fun _ => hTw)
  have hhead : ∀ (p : PState) (sh : Shared), getHeadMap br.info (d.token == .whitespace) env ⟨p.at (if d.token = .whitespace then tl else
        if (tl.headD default).token = .whitespace then tl.tail else tl) false, sh⟩ =
          .ok (rawArgs t.args) ⟨p.at T2 sol2, sh⟩ := by
    intro p sh
    obtain ⟨d', tl', q1', _, _, _, h4⟩ := head_parts (env := env) (b := br.info) (p := p) (sh := sh)
      hargs has hrt hT hs2 hb (fun _ => hTw)
    rw [q1] at q1'
    cases q1'
    exact h4
  refine ⟨_, _, hhead, fun cons p sh sol out hrun => ?_⟩
  rw [q1]
  rw [q1] at hs1
  refine ruleBlock_runs (ns := [m]) (c := d) (rest := tl) (br := br) (congrArg (·.1) hl) (by simp) n2 h1 h2 n3 hs1 n4
    (by rw [n1, getBlockRule_lower w1, n1']; exact hk.rule) (by simp) h3 rfl (by rw [n1]; exact hrun) ?_
  intro hw
  -- a blank after the name and arguments is excluded
  rcases h1 with h1 | h1
  · exact absurd hw (h3 h1)
  · cases args : t.args with
    | nil =>
      rw [args] at has
      simp at has
      subst has
      simp only [List.nil_append, List.cons.injEq] at q1
      rw [← q1.2] at hw
      exact absurd hw hTw
    | cons a as' =>
      rw [args, List.flatMap_cons, Arg.lex, List.cons_append] at has
      obtain ⟨w, as2, rfl, hw2, _⟩ := List.map_eq_cons_iff.1 has
      have hwt : w.token = .whitespace := congrArg (·.1) hw2
      simp only [List.cons_append, List.cons.injEq] at q1
      rw [← q1.1, hwt] at h1
      cases h1

/-- The line break before a tag is left out. -/
theorem tag_skip {k : Str} {br : BlockRule} (hk : TagRule k br) {t : Markup.Tag} (ht : t.is k = true) {os rest : List ETok} {w : ETok} {p : PState}
    {sol : Bool} {sh : Shared} (hos : os.map ETok.pair = t.openLex) (hr : rest ≠ []) (hs : (os ++ rest) <:+ (tokenize env.text).tokens) :
    ruleBlockSkip env ⟨p.at (w :: (os ++ rest)) sol, sh⟩ = .ok ⟨[], [], true⟩ ⟨p.at (os ++ rest) (isLineStartTok w.token), sh⟩ := by
  obtain ⟨w1, _, n1', _, hargs⟩ := tag_word ht hk.word
  obtain ⟨l, os, rfl, hl, hos⟩ := List.map_eq_cons_iff.1 hos
  obtain ⟨m, os, rfl, hm, hos⟩ := List.map_eq_cons_iff.1 hos
  obtain ⟨as, rs, rfl, has, hrs⟩ := map_append_split hos
  obtain ⟨r, rfl, hr0⟩ := List.map_eq_singleton_iff.1 hrs
  have hrt : r.token = .rightBlock := congrArg (·.1) hr0
  have hlt : l.token = .leftBlock := congrArg (·.1) hl
  obtain ⟨n1, n2, n3, n4, _⟩ := word_name hm w1
  have e0 : l :: m :: (as ++ [r]) ++ rest = l :: ([m] ++ (as ++ r :: rest)) := by simp
  rw [e0] at hs ⊢
  obtain ⟨c, tl, e, hc, htl⟩ : ∃ c tl, as ++ r :: rest = c :: tl ∧ (c.token = .whitespace ∨ c.token = .rightBlock) ∧ tl ≠ [] := by
    cases args : t.args with
    | nil => rw [args] at has; simp at has; subst has; exact ⟨r, rest, rfl, .inr hrt, hr⟩
    | cons a as' =>
      rw [args, List.flatMap_cons, Arg.lex, List.cons_append] at has
      obtain ⟨w, as', rfl, hw, _⟩ := List.map_eq_cons_iff.1 has
      exact ⟨w, as' ++ r :: rest, rfl, .inl (congrArg (·.1) hw), by simp⟩
  rw [e] at hs ⊢
  unfold ruleBlockSkip
  rw [bind_ok (step_at ..)]
  rw [bind_ok (evaluateFn_ok (b := true) (s' := ⟨p.at tl false, sh⟩) ?_)]
  · rfl
  · rw [if_neg (by simp [hlt])]
    rw [bind_ok (blockName_open (star := false) (by simp [hlt]) (by simp) n2 hc htl n3 (List.IsSuffix.trans (List.suffix_cons l _) hs))]
    dsimp only
    rw [n1, getBlockRule_lower w1, n1', hk.rule]
    dsimp only
    rw [hk.lines]
    rfl

/-- The tokens of a closing tag. -/
theorem close_tokens {k : Str} {br : BlockRule} (hk : TagRule k br) {t : Markup.Tag} (ht : t.is k = true) {cs : List ETok}
    (hcs : cs.map ETok.pair = t.closeLex) : ∃ o n c, cs = [o, n, c] ∧ o.token = .leftBlockEnd ∧ EndName [n] ∧ c.token = .rightBlock ∧
      br.info.names.any (fun m => eqIgnoreCase (stripScore (slicesOf [n])) m) = true ∧ n.token = .identifier := by
  obtain ⟨_, w2, _, n2', _⟩ := tag_word ht hk.word
  obtain ⟨o, cs', rfl, ho, hcs⟩ := List.map_eq_cons_iff.1 hcs
  obtain ⟨n, cs', rfl, hn, hcs⟩ := List.map_eq_cons_iff.1 hcs
  obtain ⟨c, rfl, hc⟩ := List.map_eq_singleton_iff.1 hcs
  obtain ⟨e1, _, _, _, e5⟩ := word_name hn w2
  exact ⟨o, n, c, rfl, congrArg (·.1) ho, e5, congrArg (·.1) hc, by rw [e1]; exact names_lower w2 _ (by rw [n2']; exact hk.name), congrArg (·.1) hn⟩

/-! ### Contents without paragraphs -/

/-- As `bodyNoParagraphs_chain`, perhaps with a line break before the closing tag. -/
theorem body_lines {b : BlockInfo} {cons : M (PS Elements)} {p : PState} {toks sol sh outs W o ns c rest sol' sh'}
    (h : Calls env cons (fun t => NoEnd b.newlines t ∧ 2 ≤ t.length) p toks sol sh outs (W ++ o :: (ns ++ c :: rest)) sol' sh')
    (hW : W = [] ∨ ∃ w, W = [w] ∧ w.token = .lineBreak ∧ b.newlines = true ∧ outs ≠ [])
    (ho : o.token = .leftBlockEnd) (hn : EndName ns) (hc : c.token = .rightBlock) (hr : rest ≠ [])
    (hb : b.names.any (fun m => eqIgnoreCase (stripScore (slicesOf ns)) m) = true)
    (hs : (ns ++ c :: rest) <:+ (tokenize env.text).tokens) :
    getBody cons b false env ⟨p.at toks sol, sh⟩ =
      .ok ⟨outElems outs, [], outSafe outs⟩ ⟨p.at rest false, sh'⟩ := by
  have key : ∀ k (first : Bool) (es : List Elem) (ps : Bool), toks.length ≤ k → (W = [] ∨ outs ≠ [] ∨ first = false) →
      loopN (fun (acc : List Elem × List PErr × Bool × Bool) => do
        let (es, errors, ps, first) := acc
        match ← verifyEndBlock first b with
        | some _ => pure (.done (⟨es, errors, ps⟩ : PS (List Elem)))
        | none => do
          let old ← remLen
          let r ← cons
          let now ← remLen
          if now = old then do
            let _ ← step
            pure (.more (es ++ r.item, errors ++ r.errors, ps && r.psafe, false))
          else pure (.more (es ++ r.item, errors ++ r.errors, ps && r.psafe, false))) k (es, [], ps, first) env
        ⟨p.at toks sol, sh⟩ = .ok ⟨es ++ outElems outs, [], ps && outSafe outs⟩ ⟨p.at rest false, sh'⟩ := by
    have hWb : W = [] ∨ ∃ w, W = [w] ∧ w.token = .lineBreak ∧ b.newlines = true := by
      rcases hW with h | ⟨w, h1, h2, h3, _⟩
      · exact .inl h
      · exact .inr ⟨w, h1, h2, h3⟩
    clear hW
    generalize hT : W ++ o :: (ns ++ c :: rest) = T at h
    induction h with
    | @nil toks sol sh =>
      intro k first es ps hk hf
      subst hT
      obtain ⟨k, rfl⟩ : ∃ j, k = j + 1 := ⟨k - 1, by simp at hk; omega⟩
      rw [loopN]
      refine (bind_ok (a := .done ⟨es, [], ps⟩) (s' := ⟨p.at rest false, sh⟩) ?_).trans ?_
      · dsimp only
        have hv := verifyEnd_yes (env := env) (b := b) (first := first) (p := p) (sol := sol) (sh := sh) (W := W) (ns := ns) (by
          rcases hWb with h | ⟨w, h1, h2, h3⟩
          · exact .inl h
          · refine .inr ⟨w, h1, h2, h3, ?_⟩
            rcases hf with h | h | h
            · rw [h] at h1; cases h1
            · exact absurd rfl h
            · exact h) ho hn hc hr hb hs
        rw [bind_ok hv]
        rfl
      · simp [pure_ok]
    | @cons toks sol sh es1 safe toks1 sol1 sh1 outs toks' sol' sh' hg hrun hlt hne _ ih =>
      intro k first es ps hk hf
      obtain ⟨hend, hlen⟩ := hg
      obtain ⟨x, y, ys, rfl⟩ : ∃ x y ys, toks = x :: y :: ys := by
        cases toks with
        | nil => simp at hlen
        | cons x t => cases t with
          | nil => simp at hlen
          | cons y ys => exact ⟨x, y, ys, rfl⟩
      obtain ⟨k, rfl⟩ : ∃ j, k = j + 1 := ⟨k - 1, by simp at hk; omega⟩
      rw [loopN]
      refine (bind_ok (a := .more (es ++ es1, [], ps && safe, false)) (s' := ⟨p.at toks1 sol1, sh1⟩) ?_).trans ?_
      · dsimp only
        rw [bind_ok (verifyEnd_no ⟨hend.1, fun h1 h2 => hend.2 (by simp at h1; exact h1.1) h2⟩)]
        dsimp only
        rw [bind_ok (s' := ⟨p.at (x :: y :: ys) sol, sh⟩) (a := (y :: ys).length) rfl]
        rw [bind_ok hrun]
        rw [bind_ok (s' := ⟨p.at toks1 sol1, sh1⟩) (a := toks1.tail.length) rfl]
        have := List.length_pos_iff.2 hne
        rw [if_neg (by simp at hlt ⊢; omega)]
        rfl
      · dsimp only
        rw [ih hT k false (es ++ es1) (ps && safe) (by omega) (.inr (.inr rfl))]
        simp [Bool.and_assoc]
  have h1 : 0 < toks.length := by have := h.length_le; simp at this; omega
  have := key (toks.tail.length + 1) true [] true (by rw [List.length_tail]; omega) (by
    rcases hW with h | ⟨w, h1, h2, h3, h4⟩
    · exact .inl h
    · exact .inr (.inl h4))
  rw [Bool.true_and, List.nil_append] at this
  exact this

theorem withAccepts_ok {α : Type} {a : Accepts} {m : M α} {p : PState} {X Y : List ETok} {sol sol' : Bool} {sh sh' : Shared} {r : α}
    (h : m env ⟨({ p with accepts := a } : PState).at X sol, sh⟩ = .ok r ⟨({ p with accepts := a } : PState).at Y sol', sh'⟩) :
    withAccepts a m env ⟨p.at X sol, sh⟩ = .ok r ⟨p.at Y sol', sh'⟩ := by
  unfold withAccepts
  rw [bind_ok (m := getP) (a := p.at X sol) (s' := ⟨p.at X sol, sh⟩) rfl]
  rw [bind_ok (m := setAccepts a) (a := ()) (s' := ⟨({ p with accepts := a } : PState).at X sol, sh⟩) rfl]
  rw [bind_ok (attempt_ok h)]
  rfl

/-! ### Parts -/

/-- Something that is read as a part of a list or table. -/
structure Chunk where
  lx : List (Token × Str)
  e : Elem
  ns : List (List Elem)

/-- `consume` reads the chunk as a part, if it is on a line of its own and parts of this kind are accepted; the nesting is at most `n`. -/
structure ChunkOk (env : Env) (n : Nat) (k : PartKind) (a : Accepts) (c : Chunk) : Prop where
  head : ∃ r, c.lx = (.leftBlock, c!"[[") :: r
  eats : ∀ {xs rest : List ETok} {w : ETok}, xs.map ETok.pair = c.lx → rest ≠ [] → w.token = .lineBreak → (xs ++ w :: rest) <:+ (tokenize env.text).tokens →
    ∀ (fuel : Nat) (p : PState) (sh : Shared) (sol : Bool), n ≤ fuel → p.depth + n ≤ 100 → p.inFootnote = false → p.accepts = a →
    consume fuel env ⟨p.at (xs ++ w :: rest) sol, sh⟩ = .ok ⟨[.mk (.part k) [c.e]], [], false⟩ ⟨p.at (w :: rest) false, putNotes sh c.ns⟩
  skips : ∀ {xs rest : List ETok} {v w : ETok}, xs.map ETok.pair = c.lx → rest ≠ [] → (xs ++ w :: rest) <:+ (tokenize env.text).tokens →
    ∀ (p : PState) (sh : Shared) (sol : Bool), ruleBlockSkip env ⟨p.at (v :: (xs ++ w :: rest)) sol, sh⟩ =
      .ok ⟨[], [], true⟩ ⟨p.at (xs ++ w :: rest) (isLineStartTok v.token), sh⟩

theorem ChunkOk.mono {n m : Nat} {k : PartKind} {a : Accepts} {c : Chunk} (h : ChunkOk env n k a c) (hm : n ≤ m) : ChunkOk env m k a c :=
  ⟨h.head, fun h1 h2 h3 h4 fuel p sh sol h5 h6 => h.eats h1 h2 h3 h4 fuel p sh sol (by omega) (by omega), h.skips⟩

theorem skip_call {x : ETok} {toks : List ETok} {sol : Bool} {fuel : Nat} {p : PState} {sh : Shared} (hf : 1 ≤ fuel) (hd : p.depth + 1 ≤ 100)
    (hx : x.token = .lineBreak) (ht : toks ≠ [])
    (h : ∀ p : PState, ruleBlockSkip env ⟨p.at (x :: toks) sol, sh⟩ = .ok ⟨[], [], true⟩ ⟨p.at toks (isLineStartTok x.token), sh⟩) :
    consume fuel env ⟨p.at (x :: toks) sol, sh⟩ = .ok ⟨[], [], true⟩ ⟨p.at toks true, sh⟩ := by
  obtain ⟨fuel, rfl⟩ : ∃ k, fuel = k + 1 := ⟨fuel - 1, by omega⟩
  rw [consume_enter (by omega)]
  have : (x :: toks).headD default = x := rfl
  rw [this, show rulesFor x.token = [] ++ .blockSkipNewline :: [.definitionListSkipNewline, .lineBreak] by rw [hx]; rfl]
  refine consumeRules_moved (tryConsume_ok (p := { p with depth := p.depth + 1 }) (by simp [RuleId.needsLineStart]) ?_ rfl) (by simp) ht
  have := h { p with depth := p.depth + 1, rule := .blockSkipNewline }
  rw [hx] at this
  exact this

theorem chunks_calls {n : Nat} {k : PartKind} {a : Accepts} {fuel : Nat} {p : PState} {T : List ETok} (hn : 1 ≤ n) (hf : n ≤ fuel) (hd : p.depth + n ≤ 100)
    (hnf : p.inFootnote = false) (ha : p.accepts = a) (hT : T ≠ []) : ∀ (cs : List Chunk) {xs : List ETok} {sol : Bool} {sh : Shared},
    cs ≠ [] → (∀ c ∈ cs, ChunkOk env n k a c) → xs.map ETok.pair = cs.flatMap (fun c => c.lx ++ [(.lineBreak, c!"\n")]) →
    (xs ++ T) <:+ (tokenize env.text).tokens →
    ∃ w outs sol', w.token = .lineBreak ∧ outs ≠ [] ∧ outElems outs = cs.map (fun c => .mk (.part k) [c.e]) ∧
      Calls env (consume fuel) (fun t => NoEnd true t ∧ 2 ≤ t.length) p (xs ++ T) sol sh outs (w :: T) sol' (putNotes sh (cs.flatMap (·.ns))) := by
  intro cs
  induction cs with
  | nil => intro _ _ _ h; exact absurd rfl h
  | cons c cs ih =>
    intro xs sol sh _ hok hxs hs
    rw [List.flatMap_cons, List.append_assoc] at hxs
    obtain ⟨ys, zs, rfl, hys, hzs⟩ := map_append_split hxs
    rw [List.singleton_append] at hzs
    obtain ⟨w, zs, rfl, hw, hzs⟩ := List.map_eq_cons_iff.1 hzs
    have hw : w.token = .lineBreak := congrArg (·.1) hw
    have hc := hok c (by simp)
    have e0 : ys ++ w :: zs ++ T = ys ++ w :: (zs ++ T) := by simp
    rw [e0] at hs ⊢
    have hzT : zs ++ T ≠ [] := by simp [hT]
    have hrun := hc.eats hys hzT hw hs fuel p sh sol hf hd hnf ha
    obtain ⟨r, hr⟩ := hc.head
    rw [hr] at hys
    obtain ⟨y, ys, rfl, hy, hyr⟩ := List.map_eq_cons_iff.1 hys
    have hyt : y.token = .leftBlock := congrArg (·.1) hy
    have hg : NoEnd true (y :: ys ++ w :: (zs ++ T)) ∧ 2 ≤ (y :: ys ++ w :: (zs ++ T)).length := by
      refine ⟨⟨by simp [hyt], fun _ h => by rw [hyt] at h; cases h⟩, by simp; omega⟩
    cases cs with
    | nil =>
      simp only [List.flatMap_nil, List.map_eq_nil_iff] at hzs
      subst hzs
      refine ⟨w, [([.mk (.part k) [c.e]], false)], false, hw, by simp, by simp, ?_⟩
      refine .cons hg hrun (by simp; omega) (by simp) ?_
      simp only [List.flatMap_cons, List.flatMap_nil, List.append_nil]
      exact .nil
    | cons d cs =>
      obtain ⟨w', outs, sol', h1, h2, h3, h4⟩ := ih (xs := zs) (sol := true) (sh := putNotes sh c.ns) (by simp)
        (fun x hx => hok x (List.mem_cons_of_mem _ hx)) hzs (List.IsSuffix.trans ⟨y :: ys ++ [w], by simp⟩ hs)
      refine ⟨w', ([.mk (.part k) [c.e]], false) :: ([], true) :: outs, sol', h1, by simp, ?_, ?_⟩
      · simp only [outElems] at h3 ⊢
        simp [h3]
      · refine .cons hg hrun (by simp; omega) (by simp) ?_
        have hdk := hok d (by simp)
        have hzs' := hzs
        rw [List.flatMap_cons, List.append_assoc] at hzs'
        obtain ⟨vs, us, hz, hvs, hus⟩ := map_append_split hzs'
        rw [List.singleton_append] at hus
        obtain ⟨u, us, rfl, hu, hus⟩ := List.map_eq_cons_iff.1 hus
        have e1 : zs ++ T = vs ++ u :: (us ++ T) := by rw [hz]; simp
        have hsk : consume fuel env ⟨p.at (w :: (zs ++ T)) false, putNotes sh c.ns⟩ = .ok ⟨[], [], true⟩ ⟨p.at (zs ++ T) true, putNotes sh c.ns⟩ := by
          refine skip_call (by omega) (by omega) hw hzT fun p => ?_
          rw [e1]
          exact hdk.skips hvs (by simp [hT]) (by rw [← e1]; exact List.IsSuffix.trans ⟨y :: ys ++ [w], by simp⟩ hs) p _ false
        refine .cons ?_ hsk (by simp) hzT ?_
        · obtain ⟨r2, hr2⟩ := hdk.head
          rw [hr2] at hvs
          obtain ⟨v, vs, rfl, hv, _⟩ := List.map_eq_cons_iff.1 hvs
          have hvt : v.token = .leftBlock := congrArg (·.1) hv
          rw [e1]
          refine ⟨⟨by simp [hw], fun _ _ => by simp [hvt]⟩, by simp⟩
        · rw [List.flatMap_cons, ← putNotes_append]
          exact h4

/-- The contents of a list or table. -/
theorem around_body {k : Str} {br : BlockRule} (hk : TagRule k br) {t : Markup.Tag} (ht : t.is k = true) {n : Nat} {pk : PartKind} {a : Accepts} {fuel : Nat} {p : PState}
    (hn : 1 ≤ n) (hf : n ≤ fuel) (hd : p.depth + n ≤ 100) (hnf : p.inFootnote = false) (ha : p.accepts = a) {chs : List Chunk} (hne : chs ≠ [])
    (hok : ∀ c ∈ chs, ChunkOk env n pk a c) {xs cs rest : List ETok} (hxs : xs.map ETok.pair = chs.flatMap (fun c => c.lx ++ [(.lineBreak, c!"\n")]))
    (hcs : cs.map ETok.pair = t.closeLex) (hr : rest ≠ []) (hs : (xs ++ (cs ++ rest)) <:+ (tokenize env.text).tokens) {sol : Bool} {sh : Shared} :
    ∃ safe, getBody (consume fuel) br.info false env ⟨p.at (xs ++ (cs ++ rest)) sol, sh⟩ =
      .ok ⟨chs.map (fun c => .mk (.part pk) [c.e]), [], safe⟩ ⟨p.at rest false, putNotes sh (chs.flatMap (·.ns))⟩ := by
  obtain ⟨o, m, c, rfl, ho, hm, hc, hb, _⟩ := close_tokens hk ht hcs
  obtain ⟨w, outs, sol', hw, houts, he, hcalls⟩ := chunks_calls (env := env) (T := [o, m, c] ++ rest) hn hf hd hnf ha (by simp) chs hne hok hxs hs (sol := sol) (sh := sh)
  refine ⟨outSafe outs, ?_⟩
  rw [← he]
  refine body_lines (W := [w]) (ns := [m]) (o := o) (c := c) (rest := rest) (sol' := sol') ?_ (.inr ⟨w, rfl, hw, hk.lines, houts⟩) ho hm hc hr hb ?_
  · rw [hk.lines]; exact hcalls
  · refine List.IsSuffix.trans ⟨xs ++ [o], by simp⟩ hs

/-! ### Items and cells -/

/-- The contents of an item. -/
theorem line_body {k : Str} {br : BlockRule} (hk : TagRule k br) {i : Item} (hi : i.tag.is k = true) (hok : Inline.ok.go i.body = true)
    (hline : (Inline.pieces.go i.body).all (· != c!"\n") = true) {ys cs rest : List ETok} {w : ETok}
    (hys : ys.map ETok.pair = Inline.lex.go i.body) (hcs : cs.map ETok.pair = i.tag.closeLex)
    (hw : ∀ n, (w :: rest).length < n → TLine n true (w :: rest))
    (hs : (ys ++ (cs ++ w :: rest)) <:+ (tokenize env.text).tokens) {fuel : Nat} {p : PState} {sh : Shared} (hf : Inline.height.go i.body ≤ fuel)
    (hd : p.depth + Inline.height.go i.body ≤ 100) (hnf : p.inFootnote = true → notesOf env.cx i.body = []) :
    getBody (consume fuel) br.info false env ⟨p.at (ys ++ (cs ++ w :: rest)) false, sh⟩ =
      .ok ⟨Inline.elems.go env.cx i.body, [], true⟩ ⟨p.at (w :: rest) false, putNotes sh (notesOf env.cx i.body)⟩ := by
  obtain ⟨o, m, c, rfl, ho, hm, hc, hb, hmt⟩ := close_tokens hk hi hcs
  have hcl := pair_classed hok hys
  have hne := line_slices hline hys
  have htl : TLine ([o, m, c] ++ w :: rest).length true ([o, m, c] ++ w :: rest) := by
    simp only [List.cons_append, List.nil_append]
    rw [TLine, if_neg (by simp [ho]), if_neg (by simp [ho, isColumnTok]), if_neg (by simp [ho]), if_neg (by simp [ho])]
    refine ⟨.inl (by rw [ho]; rfl), ?_⟩
    rw [TLine, if_neg (by simp [hmt]), if_neg (by simp [hmt, isColumnTok]), if_neg (by simp [hmt]), if_neg (by simp [hmt])]
    refine ⟨.inl (by rw [hmt]; rfl), ?_⟩
    rw [TLine, if_neg (by simp [hc]), if_neg (by simp [hc, isColumnTok]), if_neg (by simp [hc]), if_neg (by simp [hc])]
    refine ⟨.inl (by rw [hc]; rfl), hw _ (by simp)⟩
  obtain ⟨sol', hch⟩ := body_chain i.body (xs := ys) (rest := [o, m, c] ++ w :: rest) (sol := false) (b := true)
    (G := fun t => NoEnd br.info.newlines t ∧ 2 ≤ t.length) (fuel := fuel) (p := p) (sh := sh) hnf hok hys (by simp) hs
    (tline_line htl hcl hne) (fun _ => rfl) (within_line hcl hne) hf hd
    (fun a j c' e ys' hy' => goes_wrap (fun _ => by
      cases hl : i.body.getLast? with
      | none => rfl
      | some q =>
        have hq := List.mem_of_getLast? hl
        cases q <;> first | rfl | skip
        exact absurd hq (newline_line hline)) e hy' (by simp))
  have := body_lines (W := []) (ns := [m]) (o := o) (c := c) (rest := w :: rest) hch (.inl rfl) ho hm hc (by simp) hb
    (List.IsSuffix.trans ⟨ys ++ [o], by simp⟩ hs)
  rw [outElems_inline, outSafe_inline] at this
  exact this

theorem item_body {k : Str} {br : BlockRule} (hk : TagRule k br) {i : Item} (hi : i.tag.is k = true) (hfine : i.fine = true) {ys cs rest : List ETok} {w : ETok}
    (hys : ys.map ETok.pair = Inline.lex.go i.body) (hcs : cs.map ETok.pair = i.tag.closeLex) (hw : w.token = .lineBreak)
    (hs : (ys ++ (cs ++ w :: rest)) <:+ (tokenize env.text).tokens) {fuel : Nat} {p : PState} {sh : Shared} (hf : Inline.height.go i.body ≤ fuel)
    (hd : p.depth + Inline.height.go i.body ≤ 100) (hnf : p.inFootnote = false) :
    getBody (consume fuel) br.info false env ⟨p.at (ys ++ (cs ++ w :: rest)) false, sh⟩ =
      .ok ⟨Inline.elems.go env.cx i.body, [], true⟩ ⟨p.at (w :: rest) false, putNotes sh (notesOf env.cx i.body)⟩ := by
  simp only [Item.fine, Bool.and_eq_true] at hfine
  exact line_body hk hi hfine.1.1 hfine.1.2 hys hcs (fun n hn => TLine.stop (.inr ⟨hw, by simp at hn; omega⟩)) hs hf hd (fun h => by rw [hnf] at h; cases h)

/-- A whole item: the rule reads it if the block does what is needed with the contents. -/
theorem item_chunk {k : Str} {br : BlockRule} (hk : TagRule k br) {i : Item} (hi : i.tag.is k = true) (hfine : i.fine = true) {pk : PartKind} {a : Accepts}
    (hpa : a.matches pk = true) {e : Elem}
    (hparse : ∀ (fuel : Nat) (p : PState) (ih : Bool) (X T rest : List ETok) (sh sh' : Shared), p.accepts = a → p.inFootnote = false →
      (∀ (p : PState) (sh : Shared), getHeadMap br.info ih env ⟨p.at X false, sh⟩ = .ok (rawArgs i.tag.args) ⟨p.at T false, sh⟩) →
      (∀ p' : PState, p'.depth = p.depth → p'.inFootnote = false → getBody (consume fuel) br.info false env ⟨p'.at T false, sh⟩ = .ok ⟨Inline.elems.go env.cx i.body, [], true⟩ ⟨p'.at rest false, sh'⟩) →
      br.parse (consume fuel) ⟨i.tag.name, false, false, ih⟩ env ⟨p.at X false, sh⟩ = .ok ⟨[.mk (.part pk) [e]], [], false⟩ ⟨p.at rest false, sh'⟩) :
    ChunkOk env (Inline.height.go i.body + 1) pk a ⟨i.lex, e, notesOf env.cx i.body⟩ := by
  have hfine' := hfine
  simp only [Item.fine, Bool.and_eq_true] at hfine'
  obtain ⟨⟨hok, hline⟩, hedge⟩ := hfine'
  refine ⟨⟨_, rfl⟩, ?_, ?_⟩
  · intro xs rest w hxs hr hw hs fuel p sh sol hf hd hnf ha
    simp only [Item.lex] at hxs
    obtain ⟨os, zs, rfl, hos, hzs⟩ := map_append_split hxs
    obtain ⟨ys, cs, rfl, hys, hcs⟩ := map_append_split hzs
    have e0 : os ++ (ys ++ cs) ++ w :: rest = os ++ (ys ++ (cs ++ w :: rest)) := by simp
    rw [e0] at hs ⊢
    have hsb := List.IsSuffix.trans (List.suffix_append os _) hs
    have hh : ((ys ++ (cs ++ w :: rest)).headD default).token ≠ .whitespace ∧ ((ys ++ (cs ++ w :: rest)).headD default).token ≠ .lineBreak := by
      cases hb : i.body with
      | nil =>
        rw [hb] at hys
        simp [Inline.lex.go] at hys
        subst hys
        obtain ⟨o, m, c, rfl, ho, _⟩ := close_tokens hk hi hcs
        simp [ho]
      | cons j body =>
        rw [hb] at hys
        obtain ⟨x2, r2, hx2, _⟩ := inline_head j
        simp only [Inline.lex.go, hx2, List.cons_append] at hys
        obtain ⟨y, ys, rfl, hy, _⟩ := List.map_eq_cons_iff.1 hys
        have hyt : y.token = x2.1 := congrArg (·.1) hy
        constructor
        · show y.token ≠ _
          intro he
          have hbl := (inline_blank hx2 (by rw [← hyt]; exact he)).1
          simp only [edgesOk, Bool.and_eq_true, Bool.not_eq_true', hb] at hedge
          have hjw : j.isWhite = true ∧ j.isComment = false := by
            cases j with
            | plain q =>
              cases q with
              | blanks n => exact ⟨by simp [Inline.isWhite, Plain.str, List.all_replicate]; decide, rfl⟩
              | _ => cases hbl
            | _ => cases hbl
          have := hedge.1
          rw [List.filter_cons_of_pos (by simp [hjw.2])] at this
          simp [hjw.1] at this
        · show y.token ≠ _
          intro he
          have hbl := (inline_break hx2 (by rw [← hyt]; exact he)).1
          refine newline_line hline (?_ : Inline.newline ∈ i.body)
          rw [hb]
          cases j <;> first | (simp; done) | cases hbl
    obtain ⟨ih, X, hhead, hrule⟩ := tag_run (env := env) (T := ys ++ (cs ++ w :: rest)) (T2 := ys ++ (cs ++ w :: rest)) (sol2 := false) hk hi hos (by simp) hh.1
      (.inl ⟨rfl, rfl, fun _ => hh.2⟩) hs
    obtain ⟨fuel, rfl⟩ : ∃ k, fuel = k + 1 := ⟨fuel - 1, by omega⟩
    have hop : i.tag.openLex = (.leftBlock, c!"[[") :: _ := rfl
    rw [hop] at hos
    obtain ⟨o, os, rfl, ho, _⟩ := List.map_eq_cons_iff.1 hos
    have hot : o.token = .leftBlock := congrArg (·.1) ho
    rw [consume_enter (by omega)]
    have h0 : (o :: os ++ (ys ++ (cs ++ w :: rest))).headD default = o := rfl
    rw [h0, show rulesFor o.token = [] ++ .block :: [] by rw [hot]; rfl]
    refine consumeRules_moved (tryConsume_ok' (p := { p with depth := p.depth + 1 }) (r' := .blk br.info.name) (by simp [RuleId.needsLineStart]) ?_ ?_) (by simp; omega) (by simp)
    · refine hrule (consume fuel) _ sh sol _ ?_
      refine hparse fuel _ ih X _ (w :: rest) sh _ ha hnf hhead ?_
      intro p' hp' hnf'
      exact item_body hk hi hfine hys hcs hw hsb (by omega) (by rw [hp']; dsimp only; omega) hnf'
    · dsimp only
      rw [ha]
      simp [firstBadPartial, hpa]
  · intro xs rest v w hxs hr hs p sh sol
    simp only [Item.lex] at hxs
    obtain ⟨os, zs, rfl, hos, hzs⟩ := map_append_split hxs
    rw [List.append_assoc] at hs ⊢
    exact tag_skip hk hi hos (by simp) hs

/-- An item of a list. -/
theorem li_chunk {i : Item} (hi : i.tag.is c!"li" = true) (hfine : i.fine = true) :
    ChunkOk env (Inline.height.go i.body + 1) .listItem .listItem ⟨i.lex, i.elem env.cx, notesOf env.cx i.body⟩ := by
  refine item_chunk liRule hi hfine rfl ?_
  intro fuel p ih X T rest sh sh' ha hnf hhead hbody
  show blkListItem blockRules[32].info (consume fuel) _ env _ = _
  unfold blkListItem
  rw [bind_ok (m := noStar _ _ _) (a := ()) (s' := _) rfl, bind_ok (hhead _ _), bind_ok (toAttrs_args _ _), bind_ok (hbody p rfl hnf)]
  rfl

theorem find_lookup {β : Type} (m : List (Str × β)) (k : Str) : (m.find? fun p => p.1 == k).map (·.2) = m.lookup k := by
  induction m with
  | nil => rfl
  | cons q m ih =>
    obtain ⟨a, b⟩ := q
    by_cases h : a = k
    · subst h; simp
    · have h2 : (a == k) = false := by simpa using h
      have h3 : (k == a) = false := by simpa using fun e => h e.symm
      simp [h2, h3, List.lookup_cons, ih]

theorem cell_parse (i : Item) (header : Bool) (hh : (lowerA i.tag.name == c!"hcell") = header) (hfine : i.fine = true) (s : St) :
    parseCell ⟨Inline.elems.go env.cx i.body, [], true⟩ (attrsOf env.cx i.tag.args) header env s = .ok ⟨[.mk (.part .tableCell) [i.cellElem env.cx]], [], false⟩ s := by
  simp only [Item.fine, Bool.and_eq_true] at hfine
  unfold parseCell
  simp only [btRemove, assocGet, find_lookup, strip_edges hfine.1.2 hfine.2, show parseNonZeroU32 = positiveOf from funext nonZero_positive]
  rw [Item.cellElem, hh]
  rfl

/-- A cell of a table. -/
theorem cell_chunk {i : Item} (hi : i.isCell = true) (hfine : i.fine = true) :
    ChunkOk env (Inline.height.go i.body + 1) .tableCell .tableCell ⟨i.lex, i.cellElem env.cx, notesOf env.cx i.body⟩ := by
  simp only [Item.isCell, Bool.or_eq_true] at hi
  rcases hi with hi | hi
  · refine item_chunk cellRule hi hfine rfl ?_
    intro fuel p ih X T rest sh sh' ha hnf hhead hbody
    show blkCellRegular blockRules[52].info (consume fuel) _ env _ = _
    unfold blkCellRegular tableBlock
    have hn := (tag_word hi rfl).2.2.1
    refine (bind_ok (a := (⟨Inline.elems.go env.cx i.body, [], true⟩, attrsOf env.cx i.tag.args)) (s' := ⟨p.at rest false, sh'⟩) ?_).trans ?_
    · rw [bind_ok (m := noStar _ _ _) (a := ()) (s' := _) rfl, bind_ok (m := noScore _ _ _) (a := ()) (s' := _) rfl, bind_ok (hhead _ _),
        bind_ok (toAttrs_args _ _), bind_ok (hbody p rfl hnf)]
      rfl
    · exact cell_parse i false (by rw [hn]; decide) hfine _
  · refine item_chunk hcellRule hi hfine rfl ?_
    intro fuel p ih X T rest sh sh' ha hnf hhead hbody
    show blkCellHeader blockRules[51].info (consume fuel) _ env _ = _
    unfold blkCellHeader tableBlock
    have hn := (tag_word hi rfl).2.2.1
    refine withAccepts_ok ?_
    refine (bind_ok (a := (⟨Inline.elems.go env.cx i.body, [], true⟩, attrsOf env.cx i.tag.args)) (s' := ⟨({ p with accepts := .tableCell } : PState).at rest false, sh'⟩) ?_).trans ?_
    · rw [bind_ok (m := noStar _ _ _) (a := ()) (s' := _) rfl, bind_ok (m := noScore _ _ _) (a := ()) (s' := _) rfl, bind_ok (hhead _ _),
        bind_ok (toAttrs_args _ _), bind_ok (hbody { p with accepts := .tableCell } rfl hnf)]
      rfl
    · exact cell_parse i true (by rw [hn]; decide) hfine _

/-! ### Lists, rows and tables -/

/-- Parts between tags. -/
theorem around_run {k : Str} {br : BlockRule} (hk : TagRule k br) {t : Markup.Tag} (ht : t.is k = true) {n : Nat} {pk : PartKind} {a : Accepts}
    (hn : 1 ≤ n) {chs : List Chunk} (hne : chs ≠ []) (hok : ∀ c ∈ chs, ChunkOk env n pk a c) {xs rest : List ETok}
    (hxs : xs.map ETok.pair = aroundLex t (chs.map (·.lx))) (hr : rest ≠ []) (hs : (xs ++ rest) <:+ (tokenize env.text).tokens) {e : Elem}
    (hparse : ∀ (fuel : Nat) (p : PState) (ih : Bool) (X T : List ETok) (sh sh' : Shared) (safe : Bool),
      (∀ (p : PState) (sh : Shared), getHeadMap br.info ih env ⟨p.at X false, sh⟩ = .ok (rawArgs t.args) ⟨p.at T true, sh⟩) →
      getBody (consume fuel) br.info false env ⟨({ p with accepts := a } : PState).at T true, sh⟩ =
        .ok ⟨chs.map (fun c => .mk (.part pk) [c.e]), [], safe⟩ ⟨({ p with accepts := a } : PState).at rest false, sh'⟩ →
      br.parse (consume fuel) ⟨t.name, false, false, ih⟩ env ⟨p.at X false, sh⟩ = .ok ⟨[e], [], false⟩ ⟨p.at rest false, sh'⟩)
    {fuel : Nat} {p : PState} {sh : Shared} {sol : Bool} (hf : n ≤ fuel) (hd : p.depth + n ≤ 100) (hnf : p.inFootnote = false) :
    ruleBlock (consume fuel) false env ⟨p.at (xs ++ rest) sol, sh⟩ =
      .ok ⟨[e], [], false⟩ ⟨({ p with rule := .blk br.info.name } : PState).at rest false, putNotes sh (chs.flatMap (·.ns))⟩ := by
  unfold aroundLex at hxs
  obtain ⟨os, ys, rfl, hos, hys⟩ := map_append_split hxs
  obtain ⟨x, ys, rfl, hx, hys⟩ := List.map_eq_cons_iff.1 hys
  obtain ⟨bs, cs, rfl, hbs, hcs⟩ := map_append_split hys
  have hx : x.token = .lineBreak := congrArg (·.1) hx
  rw [List.flatMap_map] at hbs
  have e0 : os ++ x :: (bs ++ cs) ++ rest = os ++ (x :: (bs ++ (cs ++ rest))) := by simp
  rw [e0] at hs ⊢
  obtain ⟨ih, X, hhead, hrule⟩ := tag_run (env := env) (T := x :: (bs ++ (cs ++ rest))) (T2 := bs ++ (cs ++ rest)) (sol2 := true) hk ht hos (by simp)
    (by simp [hx]) (.inr ⟨hk.lines, by simp [hr], rfl, x, rfl, hx⟩) hs
  refine hrule _ p sh sol _ ?_
  have hb := around_body (env := env) (p := { p with accepts := a, rule := .blk br.info.name }) hk ht hn hf hd hnf rfl hne hok hbs hcs hr
    (List.IsSuffix.trans ⟨os ++ [x], by simp⟩ hs) (sol := true) (sh := sh)
  obtain ⟨safe, hb⟩ := hb
  exact hparse fuel _ ih X _ sh _ safe hhead hb

theorem listItems_parts (es : List Elem) : listItems (es.map fun e => .mk (.part .listItem) [e]) = some es := by
  induction es with
  | nil => rfl
  | cons e es ih => simp [listItems, ih]

theorem partItems_parts (k : PartKind) (es : List Elem) : partItems k (es.map fun e => .mk (.part k) [e]) = some es := by
  induction es with
  | nil => rfl
  | cons e es ih => simp [partItems, ih]

theorem itemsHeight_le {i : Item} : ∀ {is : List Item}, i ∈ is → Inline.height.go i.body ≤ itemsHeight is
  | j :: is, h => by
    rw [itemsHeight]
    rcases List.mem_cons.1 h with rfl | h
    · exact Nat.le_max_left ..
    · exact Nat.le_trans (itemsHeight_le h) (Nat.le_max_right ..)

/-- The chunks of cells. -/
noncomputable def cellChunks (cx : Markup.Ctx) (is : List Item) : List Chunk := is.map fun i => ⟨i.lex, i.cellElem cx, notesOf cx i.body⟩

/-- The chunk of a row. -/
noncomputable def rowChunk (cx : Markup.Ctx) (r : Markup.Tag × List Item) : Chunk :=
  ⟨aroundLex r.1 (r.2.map Item.lex), Markup.rowElem cx r, r.2.flatMap fun i => notesOf cx i.body⟩

theorem row_chunk {r : Markup.Tag × List Item} (ht : r.1.is c!"row" = true) (hne : r.2 ≠ []) (hok : ∀ i ∈ r.2, i.isCell = true ∧ i.fine = true)
    {n : Nat} (hn : itemsHeight r.2 ≤ n) : ChunkOk env (n + 2) .tableRow .tableRow (rowChunk env.cx r) := by
  refine ⟨⟨_, rfl⟩, ?_, ?_⟩
  · intro xs rest w hxs hr hw hs fuel p sh sol hf hd hnf ha
    obtain ⟨fuel, rfl⟩ : ∃ k, fuel = k + 1 := ⟨fuel - 1, by omega⟩
    have hchs : (cellChunks env.cx r.2).map (·.lx) = r.2.map Item.lex := by simp [cellChunks, Function.comp_def]
    have hrun := around_run (env := env) (n := n + 1) (pk := .tableCell) (a := .tableCell) rowRule ht (by omega) (chs := cellChunks env.cx r.2) (by simpa [cellChunks] using hne) (by
      intro c hc
      obtain ⟨i, hi, rfl⟩ := List.mem_map.1 hc
      have := itemsHeight_le hi
      exact (cell_chunk (hok i hi).1 (hok i hi).2).mono (by omega)) (xs := xs) (rest := w :: rest) (by rw [hchs]; exact hxs) (by simp) hs
      (e := .mk (.part .tableRow) [Markup.rowElem env.cx r]) (by
        intro fuel p ih X T sh sh' safe hhead hbody
        show blkTableRow blockRules[54].info (consume fuel) _ env _ = _
        unfold blkTableRow tableBlock
        refine withAccepts_ok ?_
        refine (bind_ok (a := (⟨(cellChunks env.cx r.2).map (fun c => .mk (.part .tableCell) [c.e]), [], safe⟩, attrsOf env.cx r.1.args))
          (s' := ⟨({ p with accepts := .tableCell } : PState).at (w :: rest) false, sh'⟩) ?_).trans ?_
        · rw [bind_ok (m := noStar _ _ _) (a := ()) (s' := _) rfl, bind_ok (m := noScore _ _ _) (a := ()) (s' := _) rfl, bind_ok (hhead _ _),
            bind_ok (toAttrs_args _ _), bind_ok hbody]
          rfl
        · dsimp only
          have : (cellChunks env.cx r.2).map (fun c => Elem.mk (.part .tableCell) [c.e]) = (r.2.map (Item.cellElem env.cx)).map fun e => .mk (.part .tableCell) [e] := by
            simp [cellChunks, Function.comp_def]
          rw [this, partItems_parts]
          rfl)
      (fuel := fuel) (p := { p with depth := p.depth + 1, rule := .block }) (sh := sh) (sol := sol) (by omega) (by dsimp only; omega) hnf
    obtain ⟨os, ys, rfl, hos, _⟩ := map_append_split (show xs.map ETok.pair = r.1.openLex ++ _ from hxs)
    have hop : r.1.openLex = (.leftBlock, c!"[[") :: _ := rfl
    rw [hop] at hos
    obtain ⟨o, os, rfl, ho, _⟩ := List.map_eq_cons_iff.1 hos
    have hot : o.token = .leftBlock := congrArg (·.1) ho
    rw [consume_enter (by omega)]
    have h0 : (o :: os ++ ys ++ w :: rest).headD default = o := rfl
    rw [h0, show rulesFor o.token = [] ++ .block :: [] by rw [hot]; rfl]
    refine consumeRules_moved (tryConsume_ok' (p := { p with depth := p.depth + 1 }) (r' := .blk blockRules[54].info.name) (by simp [RuleId.needsLineStart]) ?_ ?_) (by simp; omega) (by simp)
    · have hns : (cellChunks env.cx r.2).flatMap (·.ns) = (rowChunk env.cx r).ns := by simp [cellChunks, rowChunk, List.flatMap_map]
      rw [hns] at hrun
      exact hrun
    · dsimp only
      rw [ha]
      rfl
  · intro xs rest v w hxs hr hs p sh sol
    obtain ⟨os, zs, rfl, hos, hzs⟩ := map_append_split (show xs.map ETok.pair = r.1.openLex ++ _ from hxs)
    rw [List.append_assoc] at hs ⊢
    exact tag_skip rowRule ht hos (by simp) hs

/-- The footnotes of a list or table. -/
def gridNotes (cx : Markup.Ctx) (g : Grid) : List (List Elem) := g.items.flatMap fun i => notesOf cx i.body

theorem grid_run {g : Grid} (hok : g.ok = true) {xs rest : List ETok} (hxs : xs.map ETok.pair = g.lex) (hr : rest ≠ [])
    (hs : (xs ++ rest) <:+ (tokenize env.text).tokens) {fuel : Nat} {p : PState} {sh : Shared} {sol : Bool} (hf : g.height ≤ fuel + 1)
    (hd : p.depth + g.height ≤ 101) (hnf : p.inFootnote = false) :
    ∃ r', ruleBlock (consume fuel) false env ⟨p.at (xs ++ rest) sol, sh⟩ =
      .ok ⟨[g.elem env.cx], [], false⟩ ⟨({ p with rule := r' } : PState).at rest false, putNotes sh (gridNotes env.cx g)⟩ := by
  cases g with
  | list tag items =>
    simp only [Grid.ok, Bool.and_eq_true, Bool.or_eq_true, List.all_eq_true, Bool.not_eq_true', List.isEmpty_eq_false_iff] at hok
    simp only [Grid.height] at hf hd
    let chs : List Chunk := items.map fun i => ⟨i.lex, i.elem env.cx, notesOf env.cx i.body⟩
    have hns : chs.flatMap (·.ns) = gridNotes env.cx (.list tag items) := by simp [chs, gridNotes, Grid.items, List.flatMap_map]
    have hchs : chs.map (·.lx) = items.map Item.lex := by simp [chs, Function.comp_def]
    have hcok : ∀ c ∈ chs, ChunkOk env (itemsHeight items + 1) .listItem .listItem c := by
      intro c hc
      obtain ⟨i, hi, rfl⟩ := List.mem_map.1 hc
      have := itemsHeight_le hi
      exact (li_chunk (hok.2 i hi).1 (hok.2 i hi).2).mono (by omega)
    have hel : chs.map (fun c => Elem.mk (.part .listItem) [c.e]) = (items.map (Item.elem env.cx)).map fun e => .mk (.part .listItem) [e] := by
      simp [chs, Function.comp_def]
    have go : ∀ {k : Str} {br : BlockRule} (lt : ListType), TagRule k br → tag.is k = true → br.parse = blkList br.info lt → tag.listType = lt →
        ∃ r', ruleBlock (consume fuel) false env ⟨p.at (xs ++ rest) sol, sh⟩ =
          .ok ⟨[Grid.elem env.cx (.list tag items)], [], false⟩ ⟨({ p with rule := r' } : PState).at rest false, putNotes sh (gridNotes env.cx (.list tag items))⟩ := by
      intro k br lt hk ht hbr hlt
      refine ⟨.blk br.info.name, ?_⟩
      rw [← hns]
      refine around_run (n := itemsHeight items + 1) (pk := .listItem) (a := .listItem) hk ht (by omega) (by simpa [chs] using hok.1.2) hcok (by rw [hchs]; exact hxs) hr hs ?_
        (by omega) (by omega) hnf
      intro fuel p ih X T sh sh' safe hhead hbody
      rw [hbr]
      unfold blkList
      refine withAccepts_ok ?_
      rw [bind_ok (m := noStar _ _ _) (a := ()) (s' := _) rfl, bind_ok (hhead _ _), bind_ok (toAttrs_args _ _), bind_ok hbody]
      dsimp only
      simp only [Bool.false_eq_true, if_false]
      have hemp : (chs.map (fun c => Elem.mk (.part .listItem) [c.e])).isEmpty = false := by
        simpa [chs] using hok.1.2
      rw [hemp, hel, listItems_parts]
      simp only [Bool.false_eq_true, if_false]
      rw [← hlt]
      rfl
    rcases hok.1.1 with h | h
    · refine go .bullet ulRule h rfl ?_
      simp [Tag.listType, (tag_word h rfl).2.2.1]
    · refine go .numbered olRule h rfl ?_
      simp [Tag.listType, (tag_word h rfl).2.2.1]
  | table tag rows =>
    simp only [Grid.ok, Bool.and_eq_true, List.all_eq_true, Bool.not_eq_true', List.isEmpty_eq_false_iff] at hok
    simp only [Grid.height] at hf hd
    let chs : List Chunk := rows.map (rowChunk env.cx)
    have hns : chs.flatMap (·.ns) = gridNotes env.cx (.table tag rows) := by
      simp only [chs, gridNotes, Grid.items, List.flatMap_map, rowChunk, List.flatMap_assoc]
    have hchs : chs.map (·.lx) = rows.map fun r => aroundLex r.1 (r.2.map Item.lex) := by simp [chs, Function.comp_def, rowChunk]
    have hle : ∀ r ∈ rows, itemsHeight r.2 ≤ itemsHeight (rows.flatMap (·.2)) := by
      intro r hr
      have key : ∀ (is : List Item) (m : Nat), (∀ i ∈ is, Inline.height.go i.body ≤ m) → itemsHeight is ≤ m := by
        intro is m h
        induction is with
        | nil => simp [itemsHeight]
        | cons i is ih =>
          rw [itemsHeight]
          exact Nat.max_le.2 ⟨h i (by simp), ih fun j hj => h j (by simp [hj])⟩
      exact key _ _ fun i hi => itemsHeight_le (List.mem_flatMap.2 ⟨r, hr, hi⟩)
    have hcok : ∀ c ∈ chs, ChunkOk env (itemsHeight (rows.flatMap (·.2)) + 2) .tableRow .tableRow c := by
      intro c hc
      obtain ⟨r, hr, rfl⟩ := List.mem_map.1 hc
      exact row_chunk (hok.2 r hr).1.1 (hok.2 r hr).1.2 (hok.2 r hr).2 (hle r hr)
    have hel : chs.map (fun c => Elem.mk (.part .tableRow) [c.e]) = (rows.map (Markup.rowElem env.cx)).map fun e => .mk (.part .tableRow) [e] := by
      simp [chs, Function.comp_def, rowChunk]
    refine ⟨.blk blockRules[50].info.name, ?_⟩
    rw [← hns]
    refine around_run (n := itemsHeight (rows.flatMap (·.2)) + 2) (pk := .tableRow) (a := .tableRow) tableRule hok.1.1 (by omega) (by simpa [chs] using hok.1.2) hcok
      (by rw [hchs]; exact hxs) hr hs ?_ (by omega) (by omega) hnf
    intro fuel p ih X T sh sh' safe hhead hbody
    show blkTable blockRules[50].info (consume fuel) _ env _ = _
    unfold blkTable tableBlock
    refine withAccepts_ok ?_
    refine (bind_ok (a := (⟨chs.map (fun c => .mk (.part .tableRow) [c.e]), [], safe⟩, attrsOf env.cx tag.args))
      (s' := ⟨({ p with accepts := .tableRow } : PState).at rest false, sh'⟩) ?_).trans ?_
    · rw [bind_ok (m := noStar _ _ _) (a := ()) (s' := _) rfl, bind_ok (m := noScore _ _ _) (a := ()) (s' := _) rfl, bind_ok (hhead _ _),
        bind_ok (toAttrs_args _ _), bind_ok hbody]
      rfl
    · dsimp only
      rw [hel, partItems_parts]
      rfl

/-- The line break before a list or table made of blocks is left out. -/
theorem grid_skip {g : Grid} (hok : g.ok = true) {xs rest : List ETok} {w : ETok} {p : PState} {sol : Bool} {sh : Shared}
    (hxs : xs.map ETok.pair = g.lex) (hr : rest ≠ []) (hs : (xs ++ rest) <:+ (tokenize env.text).tokens) :
    ruleBlockSkip env ⟨p.at (w :: (xs ++ rest)) sol, sh⟩ = .ok ⟨[], [], true⟩ ⟨p.at (xs ++ rest) (isLineStartTok w.token), sh⟩ := by
  have go : ∀ {k : Str} {br : BlockRule} {t : Markup.Tag} {l : List (List (Token × Str))}, TagRule k br → t.is k = true → xs.map ETok.pair = aroundLex t l →
      ruleBlockSkip env ⟨p.at (w :: (xs ++ rest)) sol, sh⟩ = .ok ⟨[], [], true⟩ ⟨p.at (xs ++ rest) (isLineStartTok w.token), sh⟩ := by
    intro k br t l hk ht hx
    obtain ⟨os, zs, rfl, hos, hzs⟩ := map_append_split (show xs.map ETok.pair = t.openLex ++ _ from hx)
    rw [List.append_assoc] at hs ⊢
    exact tag_skip hk ht hos (by simp [hr]) hs
  cases g with
  | list tag items =>
    simp only [Grid.ok, Bool.and_eq_true, Bool.or_eq_true] at hok
    rcases hok.1.1 with h | h
    · exact go ulRule h hxs
    · exact go olRule h hxs
  | table tag rows =>
    simp only [Grid.ok, Bool.and_eq_true] at hok
    exact go tableRule hok.1.1 hxs

theorem grid_head (g : Grid) : ∃ l, g.lex = (.leftBlock, c!"[[") :: l := by
  cases g <;> exact ⟨_, rfl⟩

end Ftml
