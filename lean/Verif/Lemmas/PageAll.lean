import Verif.Lemmas.Page
/-
Pages are parsed to their meaning: the induction.
-/
namespace Ftml
open M Markup Lexer
variable {env : Env}

/-- A heading comes next. -/
def startsHeading : Page → Bool
  | (.heading .., _) :: _ => true
  | _ => false

theorem laid_heading {c : Bool} {T : List ETok} {d : Page} {toks : List ETok} (h : Laid env c T d toks) (hf : Fine d) (hn : startsHeading d = false) :
    (toks.headD default).token ≠ .heading := by
  intro e
  rcases laid_starts h hf with ⟨_, h⟩ | ⟨_, _, _, _, h, _⟩ | ⟨b, r, d', rfl, _, h⟩
  · rw [e] at h; rcases h with h | h <;> cases h
  · rw [e] at h; cases h
  · rw [e] at h
    cases b with
    | heading => cases hn
    | clear n s => cases s <;> cases h
    | list k items => cases k <;> cases h
    | table rows =>
      have := tableHead_column rows
      rw [show tableHead rows = .heading from h.symm] at this; cases this
    | _ => cases h

theorem after_list {c : Bool} {T : List ETok} {kind : ListKind} {items : List (Outline ListKind)} {t : Bool} {d : Page} {toks : List ETok}
    (hf : Fine ((.list kind items, t) :: d)) (h : Laid env c T d toks) : noList toks := by
  have hs := laid_starts h hf.tail
  obtain ⟨x, xs, rfl⟩ := List.exists_cons_of_ne_nil h.ne
  simp only [List.headD_cons] at hs
  rcases hs with ⟨_, h⟩ | ⟨body, r, d', rfl, h, hw, _⟩ | ⟨b, r, d', rfl, _, h⟩
  · rcases h with h | h <;> (refine ⟨?_, ?_, ?_⟩ <;> (rw [h]; simp))
  · refine ⟨?_, ?_, ?_⟩
    · intro e
      obtain ⟨n, is, rfl⟩ := hw e
      have := hf.2
      simp [Page.gapsOk, Page.mayFollow, Inline.isBlank] at this
    · intro e; rw [e] at h; cases h
    · intro e; rw [e] at h; cases h
  · have := hf.2
    cases b with
    | list => simp [Page.gapsOk, Page.mayFollow] at this
    | clear n s => refine ⟨?_, ?_, ?_⟩ <;> (rw [h]; cases s <;> simp [headOf, clearTok])
    | table rows =>
      have := tableHead_column rows
      refine ⟨?_, ?_, ?_⟩ <;> (rw [h]; intro e; rw [show tableHead rows = _ from e] at this; cases this)
    | _ => refine ⟨?_, ?_, ?_⟩ <;> (rw [h]; simp [headOf])

theorem after_quote {c : Bool} {T : List ETok} {items : List (Outline Unit)} {t : Bool} {d : Page} {toks : List ETok}
    (hf : Fine ((.quote items, t) :: d)) (h : Laid env c T d toks) : (toks.headD default).token ≠ .quote := by
  intro e
  rcases laid_starts h hf.tail with ⟨_, h⟩ | ⟨_, _, _, _, h, _⟩ | ⟨b, r, d', rfl, _, h⟩
  · rw [e] at h; rcases h with h | h <;> cases h
  · rw [e] at h; cases h
  · rw [e] at h
    have := hf.2
    cases b with
    | quote => simp [Page.gapsOk, Page.mayFollow] at this
    | clear n s => cases s <;> cases h
    | list k items => cases k <;> cases h
    | table rows =>
      have := tableHead_column rows
      rw [show tableHead rows = .quote from h.symm] at this; cases this
    | _ => cases h

theorem after_table {c : Bool} {T : List ETok} {rows : List (List Cell)} {t : Bool} {d : Page} {toks : List ETok} (ht : t = true)
    (hf : Fine ((.table rows, t) :: d)) (h : Laid env c T d toks) : noTable toks := by
  have hs := laid_starts h hf.tail
  obtain ⟨x, xs, rfl⟩ := List.exists_cons_of_ne_nil h.ne
  simp only [List.headD_cons] at hs
  show isColumnTok x.token = false
  rcases hs with ⟨_, h⟩ | ⟨body, r, d', rfl, h, hw, _⟩ | ⟨b, r, d', rfl, _, h⟩
  · rcases h with h | h <;> (rw [h]; rfl)
  · revert h; cases x.token <;> first | (intro h; rfl) | (intro h; cases h)
  · have := hf.2
    cases b with
    | table => simp [Page.gapsOk, Page.joins, ht] at this
    | clear n s => rw [h]; cases s <;> rfl
    | list k items => rw [h]; cases k <;> rfl
    | _ => rw [h]; rfl

theorem after_defs {c : Bool} {T : List ETok} {ds : List (List Inline × List Inline)} {t : Bool} {d : Page} {toks : List ETok} (ht : t = true)
    (hf : Fine ((.definitions ds, t) :: d)) (h : Laid env c T d toks) : noDefs toks := by
  have hs := laid_starts h hf.tail
  obtain ⟨x, xs, rfl⟩ := List.exists_cons_of_ne_nil h.ne
  simp only [List.headD_cons] at hs
  have key : x.token ≠ .colon := by
    intro e
    rcases hs with ⟨_, h⟩ | ⟨body, r, d', rfl, h, hw, _⟩ | ⟨b, r, d', rfl, _, h⟩
    · rw [e] at h; rcases h with h | h <;> cases h
    · rw [e] at h; cases h
    · rw [e] at h
      have := hf.2
      cases b with
      | definitions => simp [Page.gapsOk, Page.joins, ht] at this
      | clear n s => cases s <;> cases h
      | list k items => cases k <;> cases h
      | table rows =>
        have := tableHead_column rows
        rw [show tableHead rows = .colon from h.symm] at this; cases this
      | _ => cases h
  cases xs with
  | nil => trivial
  | cons y ys => exact fun h => key h.1

theorem headerFn_fails {cons : M (PS Elements)} {n : Nat} {p : PState} {toks : List ETok} {sol : Bool} {sh : Shared}
    (hn : (toks.headD default).token ≠ .heading) : ∃ e,
    headerFn cons (n + 1) env ⟨p.at toks sol, sh⟩ = .err e ⟨p.at toks sol, sh⟩ := by
  refine ⟨mkErr .ruleFailed p.rule (toks.headD default), ?_⟩
  rw [headerFn]
  rw [bind_ok (s' := ⟨p.at toks sol, sh⟩) (a := toks.headD default) rfl]
  refine bind_err ?_
  have : ((toks.headD default).token == .heading) = false := by simpa using hn
  rw [this]
  rfl

/-- A run of headings, read by one call. -/
theorem header_run {fuel : Nat} {p : PState} {c : Bool} {T : List ETok} (hnf : p.inFootnote = false) : ∀ (d : Page) {toks : List ETok} {sol : Bool} {sh : Shared} {n : Nat},
    Fine d → (∀ b ∈ d, b.1.height ≤ fuel + 1 ∧ p.depth + b.1.height ≤ 101) → Laid env c T d toks → toks.length ≤ n →
    startsHeading d = true →
    ∃ d1 d2 toks2 sol2, d = d1 ++ d2 ∧ d1 ≠ [] ∧ Laid env c T d2 toks2 ∧ Fresh d2 sol2 ∧ toks2.length < toks.length ∧
      (∀ b ∈ d1, b.1.isPara = false) ∧
      headerFn (consume fuel) n env ⟨p.at toks sol, sh⟩ =
        .ok ⟨Page.elems env.cx d1, [], false⟩ ⟨p.at toks2 sol2, addNotes env.cx sh d1⟩ := by
  intro d
  induction d with
  | nil => intro toks sol sh n _ _ _ _ h; cases h
  | cons x d ih =>
    intro toks sol sh n hf hh hl hn hst
    obtain ⟨b, t⟩ := x
    cases b with
    | heading level toc gap body =>
      obtain ⟨xs, tail, rest, rfl, hx, hs, hfo⟩ := hl.cons
      have hxl : 0 < xs.length := by
        have := congrArg List.length hx
        simp [Block.lex] at this
        omega
      obtain ⟨n, rfl⟩ : ∃ k, n = k + 1 := ⟨n - 1, by simp at hn; omega⟩
      have hok := hf.1 (.heading level toc gap body, t) (by simp)
      have hhb := hh (.heading level toc gap body, t) (by simp)
      simp only [Block.height] at hhb
      obtain ⟨sol', hrun⟩ := heading_step (n := n) (sol := sol) (sh := sh) (p := p) (fuel := fuel) hok hx hfo.endsLine hs
        (by omega) (by omega) hnf
      obtain ⟨sol1, hac, hfr⟩ := hfo.afterClose sol'
      rw [hac, show addToc (putNotes sh (notesOf env.cx body)) (Block.heading level toc gap body).toc =
          addNotes env.cx sh [(.heading level toc gap body, t)] by
        simp [addToc, putNotes_eq, addNotes, Page.toc, Page.htmls, Page.codes, Page.notes, Page.bibs, Block.bibs, Block.htmls, Block.codes, Block.notes]] at hrun
      have hlt : rest.length < (xs ++ tail).length := by
        have := hfo.length
        simp; omega
      cases hst2 : startsHeading d with
      | false =>
        have hrl : rest.length ≤ n := by omega
        have hrpos := List.length_pos_iff.2 hfo.1.ne
        obtain ⟨n, rfl⟩ : ∃ k, n = k + 1 := ⟨n - 1, by omega⟩
        obtain ⟨e, he⟩ := headerFn_fails (env := env) (cons := consume fuel) (n := n) (p := p) (toks := rest) (sol := sol1)
          (sh := addNotes env.cx sh [(.heading level toc gap body, t)]) (laid_heading hfo.1 hf.tail hst2)
        refine ⟨[(.heading level toc gap body, t)], d, rest, sol1, rfl, by simp, hfo.1, hfr, hlt, by simp [Block.isPara], ?_⟩
        rw [hrun]
        dsimp only
        rw [bind_ok (attempt_err he)]
        simp [Page.elems]
        rfl
      | true =>
        obtain ⟨d1, d2, toks2, sol2, e, hne, hl2, hfr2, hlt2, hnp, hrun2⟩ := ih (sol := sol1)
          (sh := addNotes env.cx sh [(.heading level toc gap body, t)]) (n := n) hf.tail (fun b hb => hh b (by simp [hb]))
          hfo.1 (by omega) hst2
        refine ⟨(.heading level toc gap body, t) :: d1, d2, toks2, sol2, by rw [e]; rfl, by simp, hl2, hfr2, by omega, ?_, ?_⟩
        · intro b hb
          rcases List.mem_cons.1 hb with rfl | hb
          · rfl
          · exact hnp b hb
        · rw [hrun]
          dsimp only
          rw [bind_ok (attempt_ok hrun2)]
          rw [← addNotes_cons]
          simp only [Page.elems, List.flatMap_cons]
          rfl
    | _ => cases hst

theorem block_elems {b : Block} (h : b.isPara = false) : b.elems env.cx ≠ [] ∧ ∀ e ∈ b.elems env.cx, isBr e = false := by
  cases b with
  | within s body => cases s <;> simp [Block.elems, isBr, Elem.kind, Section.kind]
  | foreign v text => cases v <;> simp [Block.elems, isBr, Elem.kind, Foreign.kind]
  | gadget g => cases g <;> simp [Block.elems, isBr, Elem.kind, Gadget.kind]
  | grid g => cases g <;> simp [Block.elems, isBr, Elem.kind, Grid.elem]
  | biblio b => simp [Block.elems, isBr, Elem.kind, Biblio.kind]
  | _ => simp [Block.elems, isBr, Elem.kind, Block.isPara] at h ⊢

theorem noParts_page {d : Page} (h : ∀ b ∈ d, b.1.isPara = false) : NoParts (Page.elems env.cx d) := by
  induction d with
  | nil => exact noParts_nil
  | cons x d ih =>
    have h1 := h x (by simp)
    have h2 := ih (fun b hb => h b (by simp [hb]))
    obtain ⟨b, t⟩ := x
    simp only [Page.elems, List.flatMap_cons] at h2 ⊢
    cases b with
    | para => cases h1
    | within s body => exact noParts_cons (by cases s <;> simp [Section.kind]) h2
    | foreign v text => exact noParts_cons (by cases v <;> simp [Foreign.kind]) h2
    | gadget g => exact noParts_cons (by cases g <;> simp [Gadget.kind]) h2
    | grid g => cases g <;> exact noParts_cons (by simp) h2
    | biblio b => exact noParts_cons (by simp [Biblio.kind]) h2
    | _ => exact noParts_cons (by simp) h2

theorem page_elems {d : Page} (h : ∀ b ∈ d, b.1.isPara = false) : (d ≠ [] → Page.elems env.cx d ≠ []) ∧ ∀ e ∈ Page.elems env.cx d, isBr e = false := by
  constructor
  · intro hn he
    obtain ⟨x, d, rfl⟩ := List.exists_cons_of_ne_nil hn
    simp only [Page.elems, List.flatMap_cons, List.append_eq_nil_iff] at he
    exact (block_elems (h x (by simp))).1 he.1
  · intro e he
    obtain ⟨b, hb, heb⟩ := List.mem_flatMap.1 he
    exact (block_elems (h b hb)).2 e heb

theorem elems_append (a b : Page) : Page.elems env.cx (a ++ b) = Page.elems env.cx a ++ Page.elems env.cx b := by simp [Page.elems]
theorem toc_append (a b : Page) : Page.toc (a ++ b) = Page.toc a ++ Page.toc b := by simp [Page.toc]

theorem para_elems {cx : Ctx} (body : List Inline) : (Block.para body).elems cx =
    paraOf ((Inline.elems.go cx body).dropWhile isBr) := by
  rw [isBr_eq]; rfl

/-! ### The contents of boxes -/

theorem elems_go {cx : Ctx} (d : Page) : Block.elems.go cx d = Page.elems cx d := by
  induction d with
  | nil => rfl
  | cons x d ih => obtain ⟨b, t⟩ := x; simp [Block.elems.go, ih, Page.elems]

theorem toc_go (d : Page) : Block.toc.go d = Page.toc d := by
  induction d with
  | nil => rfl
  | cons x d ih => obtain ⟨b, t⟩ := x; simp [Block.toc.go, ih, Page.toc]

theorem htmls_go (d : Page) : Block.htmls.go d = Page.htmls d := by
  induction d with
  | nil => rfl
  | cons x d ih => obtain ⟨b, t⟩ := x; simp [Block.htmls.go, ih, Page.htmls]

theorem codes_go {cx : Markup.Ctx} (d : Page) : Block.codes.go cx d = Page.codes cx d := by
  induction d with
  | nil => rfl
  | cons x d ih => obtain ⟨b, t⟩ := x; simp [Block.codes.go, ih, Page.codes]

theorem notes_go (d : Page) : Block.notes.go d = Page.notes d := by
  induction d with
  | nil => rfl
  | cons x d ih => obtain ⟨b, t⟩ := x; simp [Block.notes.go, ih, Page.notes]

theorem bibs_go (d : Page) : Block.bibs.go d = Page.bibs d := by
  induction d with
  | nil => rfl
  | cons x d ih => obtain ⟨b, t⟩ := x; simp [Block.bibs.go, ih, Page.bibs]

theorem notes_within {cx : Markup.Ctx} {sh : Shared} {w : Section} {body : Page} {t : Bool} :
    addNotes cx sh [(.within w body, t)] = addNotes cx sh body := by
  have h1 : Block.toc (.within w body) = Page.toc body := by rw [Block.toc, toc_go]
  have h2 : Block.htmls (.within w body) = Page.htmls body := by rw [Block.htmls, htmls_go]
  have h3 : Block.codes cx (.within w body) = Page.codes cx body := by rw [Block.codes, codes_go]
  have h4 : Block.notes (.within w body) = Page.notes body := by rw [Block.notes, notes_go]
  have h5 : Block.bibs (.within w body) = Page.bibs body := by rw [Block.bibs, bibs_go]
  simp only [addNotes, Page.toc, Page.htmls, Page.codes, Page.notes, Page.bibs] at h1 h2 h3 h4 h5 ⊢
  simp only [List.flatMap_cons, List.flatMap_nil, List.append_nil, h1, h2, h3, h4, h5]

theorem isPage_go (d : Page) : Block.isPage.go d = d.any (·.1.isPage) := by
  induction d with
  | nil => rfl
  | cons x d ih =>
    obtain ⟨b, t⟩ := x
    rw [Block.isPage.go, ih]
    rfl

theorem named_within {cx : Markup.Ctx} {sh : Shared} {w : Section} {body : Page} {t : Bool} (h : Named cx sh [(.within w body, t)]) :
    Named cx sh body := by
  have h3 : Block.codes cx (.within w body) = Page.codes cx body := by rw [Block.codes, codes_go]
  unfold Named at h ⊢
  have h5 : Block.bibs (.within w body) = Page.bibs body := by rw [Block.bibs, bibs_go]
  rw [show Page.codes cx [(.within w body, t)] = Page.codes cx body by simp [Page.codes, h3],
    show Page.bibs [(.within w body, t)] = Page.bibs body by simp [Page.bibs, h5]] at h
  refine ⟨h.1, fun ha => h.2.1 ?_, h.2.2⟩
  simp only [List.any_cons, List.any_nil, Bool.or_false, Block.isPage, isPage_go]
  exact ha

theorem ok_go {d : Page} (h : Block.ok.go d = true) : ∀ b ∈ d, b.1.ok = true := by
  induction d with
  | nil => simp
  | cons x d ih =>
    obtain ⟨b, t⟩ := x
    simp only [Block.ok.go, Bool.and_eq_true] at h
    intro y hy
    rcases List.mem_cons.1 hy with rfl | hy
    · exact h.1
    · exact ih h.2 y hy

theorem height_go (d : Page) : ∀ b ∈ d, b.1.height ≤ Block.height.go d := by
  induction d with
  | nil => simp
  | cons x d ih =>
    obtain ⟨b, t⟩ := x
    simp only [Block.height.go]
    intro y hy
    rcases List.mem_cons.1 hy with rfl | hy
    · exact Nat.le_max_left ..
    · exact Nat.le_trans (ih y hy) (Nat.le_max_right ..)

theorem inline_height_pos (i : Inline) : 1 ≤ i.height := by
  cases i <;> simp [Inline.height]

theorem block_height_pos {b : Block} (hok : b.ok = true) : 1 ≤ b.height := by
  cases b with
  | para body =>
    cases body with
    | nil => simp [Block.ok] at hok
    | cons i is =>
      have := inline_height_pos i
      simp only [Block.height, Inline.height.go]
      omega
  | grid g => cases g <;> simp [Block.height, Grid.height]
  | biblio b => simp [Block.height, Biblio.height]
  | _ => simp [Block.height]

theorem block_top {cx : Markup.Ctx} (b : Block) (ht : b.isTab = false) : ∀ e ∈ b.elems cx, ∃ safe, e.kind.paragraphSafe? = some safe := by
  intro e he
  cases b with
  | para body =>
    rw [para_elems] at he
    cases h : (Inline.elems.go cx body).dropWhile isBr with
    | nil => rw [h] at he; simp [paraOf] at he
    | cons a as => rw [h] at he; simp [paraOf] at he; subst he; exact ⟨_, rfl⟩
  | within s body =>
    simp [Block.elems] at he; subst he
    cases s <;> first | exact ⟨_, rfl⟩ | cases ht
  | foreign v text =>
    simp [Block.elems] at he; subst he
    cases v <;> exact ⟨_, rfl⟩
  | gadget g =>
    simp [Block.elems] at he; subst he
    cases g <;> exact ⟨_, rfl⟩
  | grid g =>
    simp [Block.elems] at he; subst he
    cases g <;> exact ⟨_, rfl⟩
  | biblio b => simp [Block.elems] at he; subst he; exact ⟨_, rfl⟩
  | heading | rule | center | clear | list | quote | table | definitions => simp [Block.elems] at he; subst he; exact ⟨_, rfl⟩

theorem safe_of_top {es : List Elem} (h : ∀ e ∈ es, ∃ safe, e.kind.paragraphSafe? = some safe) :
    ∃ safe, elementsParagraphSafe? es = some safe := by
  induction es with
  | nil => exact ⟨_, rfl⟩
  | cons e es ih =>
    obtain ⟨s, hs⟩ := h e (by simp)
    obtain ⟨s', hs'⟩ := ih (fun e he => h e (by simp [he]))
    cases s with
    | false => exact ⟨false, by simp [elementsParagraphSafe?, hs]⟩
    | true => exact ⟨s', by simp [elementsParagraphSafe?, hs, hs']⟩

theorem page_top (cx : Markup.Ctx) (d : Page) (ht : Page.noTabs d = true) : ∃ safe, elementsParagraphSafe? (d.elems cx) = some safe := by
  refine safe_of_top ?_
  intro e he
  simp only [Page.elems, List.mem_flatMap] at he
  obtain ⟨b, hb, he⟩ := he
  refine block_top _ ?_ e he
  have := List.all_eq_true.1 ht b hb
  simpa using this

/-- A rule that ends with another rule set. -/
theorem consume_part {x : ETok} {toks rest : List ETok} {sol sol' : Bool} {r r' : RuleId} {rs1 rs2 : List RuleId}
    {out : PS Elements} {fuel : Nat} {p : PState} {sh sh' : Shared} (hd : p.depth + 1 ≤ 100)
    (hrules : rulesFor x.token = rs1 ++ r :: rs2) (hfail : ∀ r' ∈ rs1, Fails env r' (x :: toks) sol)
    (hline : r.needsLineStart = true → sol = true) (hp : firstBadPartial p.accepts out.item = none)
    (hrun : ruleFn (consume fuel) r env ⟨({ p with depth := p.depth + 1, rule := r } : PState).at (x :: toks) sol, sh⟩ =
        .ok out ⟨({ p with depth := p.depth + 1, rule := r' } : PState).at rest sol', sh'⟩)
    (hlt : rest.length ≤ toks.length) (hr : rest ≠ []) :
    consume (fuel + 1) env ⟨p.at (x :: toks) sol, sh⟩ = .ok out ⟨p.at rest sol', sh'⟩ := by
  rw [consume_enter hd]
  have : (x :: toks).headD default = x := rfl
  rw [this, hrules]
  obtain ⟨errs, he⟩ := consumeRules_skip (cons := consume fuel) (c := x) (p := { p with depth := p.depth + 1 })
    (sh := sh) (rs2 := r :: rs2) hfail []
  rw [he]
  exact consumeRules_moved (tryConsume_ok' (p := { p with depth := p.depth + 1 }) hline hrun hp) (by simp; omega) hr

theorem consume_rule' {x : ETok} {toks rest : List ETok} {sol sol' : Bool} {r r' : RuleId} {rs1 rs2 : List RuleId}
    {out : PS Elements} {fuel : Nat} {p : PState} {sh sh' : Shared} (hd : p.depth + 1 ≤ 100)
    (hrules : rulesFor x.token = rs1 ++ r :: rs2) (hfail : ∀ r' ∈ rs1, Fails env r' (x :: toks) sol)
    (hline : r.needsLineStart = true → sol = true) (hp : NoParts out.item)
    (hrun : ruleFn (consume fuel) r env ⟨({ p with depth := p.depth + 1, rule := r } : PState).at (x :: toks) sol, sh⟩ =
        .ok out ⟨({ p with depth := p.depth + 1, rule := r' } : PState).at rest sol', sh'⟩)
    (hlt : rest.length ≤ toks.length) (hr : rest ≠ []) :
    consume (fuel + 1) env ⟨p.at (x :: toks) sol, sh⟩ = .ok out ⟨p.at rest sol', sh'⟩ :=
  consume_part hd hrules hfail hline (hp _) hrun hlt hr

theorem section_close (s : Section) : ∃ l, s.closeLex = (.leftBlockEnd, c!"[[/") :: l := by
  cases s <;> exact ⟨_, rfl⟩

/-- Blocks are read with at most this many nested calls. -/
def PageReads (env : Env) (fuel : Nat) : Prop := ∀ (n : Nat) (d : Page), d.length ≤ n → ∀ {p : PState} {c : Bool} {T toks : List ETok} {sol : Bool} {sh : Shared} {s : PStack},
    Fine d → (∀ b ∈ d, b.1.height ≤ fuel ∧ p.depth + b.1.height ≤ 100) → Laid env c T d toks → Fresh d sol → Ready d s →
    Named env.cx sh d → p.inFootnote = false → Finishes env fuel p c T d toks sol sh s

/-- A box that is not a tab view. -/
theorem box_call {fuel : Nat} (IH : PageReads env fuel) {w : Section} {body : Page} {t : Bool} {p : PState} {xs tail : List ETok} {sol : Bool} {sh : Shared}
    (hok : (Block.within w body).ok = true) (hw : w.isTabs = false) (hacc : w.isTab = true → p.accepts = .tab)
    (hx : xs.map ETok.pair = (Block.within w body).lex) (htne : tail ≠ []) (hs : (xs ++ tail) <:+ (tokenize env.text).tokens)
    (hhb : Block.height.go body ≤ fuel) (hdp : p.depth + 1 + Block.height.go body ≤ 100) (hnm1 : Named env.cx sh [(.within w body, t)])
    (hnf : p.inFootnote = false) :
    consume (fuel + 1) env ⟨p.at (xs ++ tail) sol, sh⟩ =
      .ok ⟨[w.result env.cx (Page.elems env.cx body)], [], false⟩ ⟨p.at tail false, addNotes env.cx sh [(.within w body, t)]⟩ := by
  have hok' := hok
  simp only [Block.ok, Bool.and_eq_true, hw, Bool.false_eq_true, if_false] at hok'
  obtain ⟨⟨hok1, hok2⟩, hok3⟩ := hok'
  have hx' := hx
  simp only [Block.lex] at hx'
  obtain ⟨os, ys, e1, hos, hys⟩ := map_append_split hx'
  obtain ⟨y, ys, rfl, hy, hys⟩ := List.map_eq_cons_iff.1 hys
  obtain ⟨bs, cs, rfl, hbs, hcs⟩ := map_append_split hys
  have hy : y.token = .lineBreak := congrArg (·.1) hy
  have e2 : xs ++ tail = os ++ y :: (bs ++ (cs ++ tail)) := by rw [e1]; simp
  rw [e2] at hs
  have htl := List.length_pos_iff.2 htne
  obtain ⟨r', hsec⟩ := section_run hok1 hw hos hy hcs htne hs (sol := sol)
  obtain ⟨cl, hcl⟩ := section_close w
  obtain ⟨k, ks, rfl, hk⟩ : ∃ k ks, cs = k :: ks ∧ k.token = .leftBlockEnd := by
    rw [hcl] at hcs
    obtain ⟨k, ks, rfl, hk, _⟩ := List.map_eq_cons_iff.1 hcs
    exact ⟨k, ks, rfl, congrArg (·.1) hk⟩
  have hlaid : Laid env true (k :: ks ++ tail) body (bs ++ (k :: ks ++ tail)) :=
    ⟨bs, rfl, hbs, ⟨hk, by simp; omega⟩, List.IsSuffix.trans (List.suffix_cons y _) (List.IsSuffix.trans (List.suffix_append os _) hs)⟩
  have hfine : Fine body := ⟨ok_go hok2, hok3.1, hok3.2⟩
  obtain ⟨E, sol', s', g1, g2, g3, g4⟩ := IH body.length body (Nat.le_refl _)
    (p := { p with depth := p.depth + 1, rule := r' }) (sol := true) (sh := sh) (s := PStack.new) hfine (by
      intro b hb
      have := height_go body b hb
      dsimp only
      omega) hlaid (.inr rfl) (.inl rfl) (named_within hnm1) hnf
  obtain ⟨safe, hsafe⟩ := page_top env.cx body hok3.2
  have hs' : s'.intoElements = Page.elems env.cx body := by rw [g4]; rfl
  obtain ⟨W, rfl, hW⟩ : ∃ W, E = W ++ (k :: ks ++ tail) ∧ (W = [] ∨ ∃ w, W = [w] ∧ w.token = .lineBreak) := by
    rcases g1 with rfl | ⟨_, x, rfl, hx⟩
    · exact ⟨[], rfl, .inl rfl⟩
    · exact ⟨[x], rfl, .inr ⟨x, rfl, hx⟩⟩
  have hWb : W = [] ∨ (bs ++ (k :: ks ++ tail)).length ≠ (W ++ (k :: ks ++ tail)).length ∧
      ((bs ++ (k :: ks ++ tail)).headD default).token ≠ .paragraphBreak := by
    cases body with
    | nil =>
      left
      have : bs = [] := by simpa [Block.lex.go] using hbs
      subst this
      have := g2.length_le
      rcases hW with h | ⟨w, rfl, _⟩
      · exact h
      · simp at this; omega
    | cons q body =>
      right
      obtain ⟨qb, qt⟩ := q
      have hg := laid_goes hlaid hfine (by simp)
      refine ⟨?_, hg.2.1⟩
      have h2 : 2 ≤ bs.length := by
        have h3 := congrArg List.length hbs
        simp only [Block.lex.go, List.length_map, List.length_append, List.length_cons] at h3
        have h4 : qb.lex ≠ [] := by
          have hqok := hfine.1 (qb, qt) (by simp)
          cases hqp : qb.isPara with
          | false =>
            intro hq
            obtain ⟨_, _, h, _⟩ := block_head (xs := []) hqok hqp (by rw [hq]; rfl)
            cases h
          | true =>
            cases qb with
            | para ib =>
              cases ib with
              | nil => simp [Block.ok] at hqok
              | cons i is =>
                intro h
                simp [Block.lex, Inline.lex.go] at h
                exact inline_lex_ne i h.1
            | _ => cases hqp
        have := List.length_pos_iff.2 h4
        omega
      rcases hW with rfl | ⟨w, rfl, _⟩
      · simp only [List.length_append, List.length_nil]; omega
      · simp only [List.length_append, List.length_cons, List.length_nil]; omega
  have hrun := hsec (consume fuel) { p with depth := p.depth + 1, rule := .block } sh _ W sol' s' safe hW hWb g2 (by rw [g3]; rfl)
    (by rw [← hsafe, ← hs']; rfl)
  rw [hs'] at hrun
  obtain ⟨ol, hol⟩ := section_head w
  obtain ⟨o, os, rfl, ho⟩ : ∃ o os', os = o :: os' ∧ o.token = .leftBlock := by
    rw [hol] at hos
    obtain ⟨o, os, rfl, ho, _⟩ := List.map_eq_cons_iff.1 hos
    exact ⟨o, os, rfl, congrArg (·.1) ho⟩
  rw [e2]
  refine consume_part (rs1 := []) (rs2 := []) (r := .block) (r' := r') (by omega) (by rw [ho]; rfl) (by simp) (by simp [RuleId.needsLineStart])
    ?_ ?_ (by simp; omega) htne
  · cases w <;> simp only [Section.result, Section.isTab, Section.kind, Bool.false_eq_true, if_false, if_true] at hacc ⊢ <;> first | rfl | (rw [hacc trivial]; rfl)
  · show ruleBlock (consume fuel) false env _ = _
    rw [notes_within]
    exact hrun

/-- The tabs of a tab view. -/
theorem tabs_calls {fuel : Nat} (IH : PageReads env fuel) {p : PState} {T : List ETok} (hnf : p.inFootnote = false) (ha : p.accepts = .tab) (hT : T ≠ []) :
    ∀ (ts : Page) {xs : List ETok} {sol : Bool} {sh : Shared}, ts ≠ [] → (∀ b ∈ ts, b.1.ok = true) → ts.all (fun b => b.1.isTab && b.2) = true →
    Block.height.go ts ≤ fuel + 1 → p.depth + Block.height.go ts ≤ 100 → Named env.cx sh ts → xs.map ETok.pair = Block.lex.go ts →
    (xs ++ T) <:+ (tokenize env.text).tokens →
    ∃ w outs sol', w.token = .lineBreak ∧ outs ≠ [] ∧ outElems outs = (Page.elems env.cx ts).map (fun e => .mk (.part .tab) [e]) ∧
      Calls env (consume (fuel + 1)) (fun t => NoEnd true t ∧ 2 ≤ t.length) p (xs ++ T) sol sh outs (w :: T) sol' (addNotes env.cx sh ts) := by
  intro ts
  induction ts with
  | nil => intro _ _ _ h; exact absurd rfl h
  | cons b ts ih =>
    intro xs sol sh _ hok hall hh hd hnm hxs hs
    obtain ⟨b, t⟩ := b
    simp only [List.all_cons, Bool.and_eq_true] at hall
    obtain ⟨⟨hb, rfl⟩, hall⟩ := hall
    cases b with
    | within s body =>
      have htab : s.isTab = true := hb
      obtain ⟨hnm1, hnm2⟩ := Named.append (a := [(.within s body, true)]) (b := ts) hnm
      simp only [Block.height.go, Block.height] at hh hd
      have hh1 := Nat.le_max_left (1 + Block.height.go body) (Block.height.go ts)
      have hh2 := Nat.le_max_right (1 + Block.height.go body) (Block.height.go ts)
      have hbok := hok (.within s body, true) (by simp)
      rw [Block.lex.go] at hxs
      obtain ⟨ys, zs, rfl, hys, hzs⟩ := map_append_split hxs
      obtain ⟨w, zs, rfl, hw, hzs⟩ := List.map_eq_cons_iff.1 hzs
      have hw : w.token = .lineBreak := congrArg (·.1) hw
      have e0 : ys ++ w :: zs ++ T = ys ++ w :: (zs ++ T) := by simp
      rw [e0] at hs ⊢
      have hzT : zs ++ T ≠ [] := by simp [hT]
      have hrun := box_call IH hbok (by cases s <;> first | rfl | cases htab) (fun _ => ha) hys (tail := w :: (zs ++ T)) (by simp) hs (by omega) (by omega) hnm1 hnf (sol := sol) (sh := sh)
      have hres : s.result env.cx (Page.elems env.cx body) = .mk (.part .tab) [.mk (s.kind env.cx) (Page.elems env.cx body)] := by simp [Section.result, htab]
      rw [hres] at hrun
      have hel : Page.elems env.cx ((.within s body, true) :: ts) = .mk (s.kind env.cx) (Page.elems env.cx body) :: Page.elems env.cx ts := by
        simp [Page.elems, Block.elems, elems_go]
      have skips : ∀ {ys rest : List ETok} {v : ETok} {s : Section} {body : Page}, (Block.within s body).ok = true → ys.map ETok.pair = (Block.within s body).lex → (ys ++ rest) <:+ (tokenize env.text).tokens →
          ∀ (p : PState) (sh : Shared) (sol : Bool), ruleBlockSkip env ⟨p.at (v :: (ys ++ rest)) sol, sh⟩ =
            .ok ⟨[], [], true⟩ ⟨p.at (ys ++ rest) (isLineStartTok v.token), sh⟩ := by
        intro ys rest v s body hok hys hs p sh sol
        simp only [Block.ok, Bool.and_eq_true] at hok
        simp only [Block.lex] at hys
        obtain ⟨os, us, rfl, hos, hus⟩ := map_append_split hys
        obtain ⟨u, us, rfl, _, _⟩ := List.map_eq_cons_iff.1 hus
        have e : os ++ u :: us ++ rest = os ++ (u :: us ++ rest) := by simp
        rw [e] at hs ⊢
        exact section_skip hok.1.1 hos (by simp) hs
      have head : ∀ {ys : List ETok} {s : Section} {body : Page}, ys.map ETok.pair = (Block.within s body).lex → ∃ y ys', ys = y :: ys' ∧ y.token = .leftBlock := by
        intro ys s body hys
        simp only [Block.lex] at hys
        obtain ⟨l, hl⟩ := section_head s
        rw [hl] at hys
        obtain ⟨y, ys, rfl, hy, _⟩ := List.map_eq_cons_iff.1 hys
        exact ⟨y, ys, rfl, congrArg (·.1) hy⟩
      obtain ⟨y, ys, rfl, hyt⟩ := head hys
      have hg : NoEnd true (y :: ys ++ w :: (zs ++ T)) ∧ 2 ≤ (y :: ys ++ w :: (zs ++ T)).length := by
        refine ⟨⟨by simp [hyt], fun _ h => by rw [hyt] at h; cases h⟩, by simp; omega⟩
      cases ts with
      | nil =>
        simp only [Block.lex.go, List.map_eq_nil_iff] at hzs
        subst hzs
        refine ⟨w, [([.mk (.part .tab) [.mk (s.kind env.cx) (Page.elems env.cx body)]], false)], false, hw, by simp, by rw [hel]; simp [Page.elems], ?_⟩
        exact .cons hg hrun (by simp; omega) (by simp) .nil
      | cons d ts =>
        obtain ⟨w', outs, sol', h1, h2, h3, h4⟩ := ih (xs := zs) (sol := true) (sh := addNotes env.cx sh [(.within s body, true)]) (by simp)
          (fun x hx => hok x (List.mem_cons_of_mem _ hx)) hall (by omega) (by omega) hnm2 hzs (List.IsSuffix.trans ⟨y :: ys ++ [w], by simp⟩ hs)
        refine ⟨w', ([.mk (.part .tab) [.mk (s.kind env.cx) (Page.elems env.cx body)]], false) :: ([], true) :: outs, sol', h1, by simp, ?_, ?_⟩
        · rw [hel]
          simp only [outElems] at h3 ⊢
          simp [h3]
        · refine .cons hg hrun (by simp; omega) (by simp) ?_
          obtain ⟨d, t⟩ := d
          have hdk := hok (d, t) (by simp)
          cases d with
          | within s2 body2 =>
            have hzs' := hzs
            rw [Block.lex.go] at hzs'
            obtain ⟨vs, us, hz, hvs, hus⟩ := map_append_split hzs'
            obtain ⟨u, us, rfl, hu, hus⟩ := List.map_eq_cons_iff.1 hus
            have e1 : zs ++ T = vs ++ (u :: (us ++ T)) := by rw [hz]; simp
            have hsk : consume (fuel + 1) env ⟨p.at (w :: (zs ++ T)) false, addNotes env.cx sh [(.within s body, true)]⟩ =
                .ok ⟨[], [], true⟩ ⟨p.at (zs ++ T) true, addNotes env.cx sh [(.within s body, true)]⟩ := by
              refine skip_call (by omega) (by omega) hw hzT fun p => ?_
              rw [e1]
              exact skips hdk hvs (by rw [← e1]; exact List.IsSuffix.trans ⟨y :: ys ++ [w], by simp⟩ hs) p _ false
            refine .cons ?_ hsk (by simp) hzT ?_
            · obtain ⟨v, vs, rfl, hvt⟩ := head hvs
              rw [e1]
              refine ⟨⟨by simp [hw], fun _ _ => by simp [hvt]⟩, by simp⟩
            · have := addNotes_cons env.cx sh (.within s body, true) ((.within s2 body2, t) :: ts)
              rw [this]
              exact h4
          | _ => simp [Block.isTab] at hall
    | _ => cases hb

/-- A tab view. -/
theorem tabs_call {fuel : Nat} (IH : PageReads env fuel) {w : Section} {body : Page} {t : Bool} {p : PState} {xs tail : List ETok} {sol : Bool} {sh : Shared}
    (hok : (Block.within w body).ok = true) (hw : w.isTabs = true)
    (hx : xs.map ETok.pair = (Block.within w body).lex) (htne : tail ≠ []) (hs : (xs ++ tail) <:+ (tokenize env.text).tokens)
    (hhb : Block.height.go body ≤ fuel + 1) (hdp : p.depth + 1 + Block.height.go body ≤ 100) (hnm1 : Named env.cx sh [(.within w body, t)])
    (hnf : p.inFootnote = false) :
    consume (fuel + 2) env ⟨p.at (xs ++ tail) sol, sh⟩ =
      .ok ⟨[.mk (w.kind env.cx) (Page.elems env.cx body)], [], false⟩ ⟨p.at tail false, addNotes env.cx sh [(.within w body, t)]⟩ := by
  cases w with
  | tabs name close =>
    simp only [Block.ok, Bool.and_eq_true, Section.isTabs, if_true, Page.onlyTabs, Bool.not_eq_true', List.isEmpty_eq_false_iff] at hok
    obtain ⟨⟨hsec, hbok⟩, hne, hall⟩ := hok
    simp only [Section.ok, Bool.and_eq_true] at hsec
    obtain ⟨m1, w1, k1⟩ := tabs_name hsec.1
    obtain ⟨m2, w2, _⟩ := tabs_name hsec.2
    let br := blockRules[55]
    have k2 : br.info.newlines = true := rfl
    simp only [Block.lex] at hx
    obtain ⟨os, ys, rfl, hos, hys⟩ := map_append_split hx
    obtain ⟨x, ys, rfl, hy, hys⟩ := List.map_eq_cons_iff.1 hys
    obtain ⟨bs, cs, rfl, hbs, hcs⟩ := map_append_split hys
    have hy : x.token = .lineBreak := congrArg (·.1) hy
    obtain ⟨l, os, rfl, hl, hos⟩ := List.map_eq_cons_iff.1 hos
    obtain ⟨m, os, rfl, hm, hos⟩ := List.map_eq_cons_iff.1 hos
    obtain ⟨r, rfl, hr0⟩ := List.map_eq_singleton_iff.1 hos
    have hrt : r.token = .rightBlock := congrArg (·.1) hr0
    have hlt : l.token = .leftBlock := congrArg (·.1) hl
    obtain ⟨o, cs, rfl, ho, hcs⟩ := List.map_eq_cons_iff.1 hcs
    obtain ⟨n, cs, rfl, hn, hcs⟩ := List.map_eq_cons_iff.1 hcs
    obtain ⟨c, rfl, hc⟩ := List.map_eq_singleton_iff.1 hcs
    obtain ⟨n1, n2, n3, n4, n5⟩ := word_name hm w1
    obtain ⟨e1, _, _, _, e5⟩ := word_name hn w2
    have e0 : [l, m, r] ++ x :: (bs ++ [o, n, c]) ++ tail = l :: ([m] ++ r :: (x :: (bs ++ ([o, n, c] ++ tail)))) := by simp
    rw [e0] at hs ⊢
    have hs1 := List.IsSuffix.trans (List.suffix_cons l _) hs
    have hs2 : (bs ++ ([o, n, c] ++ tail)) <:+ (tokenize env.text).tokens := List.IsSuffix.trans ⟨[m, r, x], by simp⟩ hs1
    obtain ⟨v, outs, sol', hv, houts, he, hcalls⟩ := tabs_calls IH (p := { p with depth := p.depth + 1, rule := .blk br.info.name, accepts := .tab })
      (T := [o, n, c] ++ tail) hnf rfl (by simp) body hne (ok_go hbok) hall hhb (by dsimp only; omega) (named_within hnm1) hbs hs2 (sol := true) (sh := sh)
    have hbody := body_lines (b := br.info) (W := [v]) (ns := [n]) (o := o) (c := c) (rest := tail) (sol' := sol') hcalls (.inr ⟨v, rfl, hv, k2, houts⟩) (congrArg (·.1) ho) e5
      (congrArg (·.1) hc) htne (by rw [e1]; exact names_lower w2 _ m2) (List.IsSuffix.trans ⟨bs ++ [o], by simp⟩ hs2)
    refine consume_part (rs1 := []) (rs2 := []) (r := .block) (r' := .blk br.info.name) (by omega) (by rw [hlt]; rfl) (by simp) (by simp [RuleId.needsLineStart])
      rfl ?_ (by simp; omega) htne
    show ruleBlock (consume (fuel + 1)) false env _ = _
    rw [notes_within]
    refine ruleBlock_run (ns := [m]) (c := r) (rest := x :: (bs ++ ([o, n, c] ++ tail))) (br := br) hlt (by simp) n2 (.inr hrt) (by simp) n3 hs1 n4
      (by rw [n1]; exact (getBlockRule_lower w1).trans k1) (by simp) (by simp [hrt])
      (bc := blkTabView br.info (consume (fuel + 1)) ⟨slicesOf [m], false, false, r.token == .whitespace⟩) rfl ?_ (by simp)
    rw [if_neg (by simp [hrt]), if_neg (by simp [hy])]
    have hih : (r.token == Token.whitespace) = false := by simp [hrt]
    rw [hih]
    unfold blkTabView
    refine withAccepts_ok ?_
    rw [bind_ok (m := noStar _ _ _) (a := ()) (s' := _) rfl, bind_ok (m := noScore _ _ _) (a := ()) (s' := _) rfl]
    have hhead : ∀ p : PState, getHeadNone br.info false env ⟨p.at (x :: (bs ++ ([o, n, c] ++ tail))) false, sh⟩ =
        .ok () ⟨p.at (bs ++ ([o, n, c] ++ tail)) true, sh⟩ := by
      intro p
      unfold getHeadNone getOptionalSpace
      rw [bind_ok (optTok_no (by simp [hy]))]
      exact headEnd_false (.inr ⟨k2, by simp, rfl, x, rfl, hy⟩)
    rw [bind_ok (hhead _), bind_ok hbody]
    dsimp only
    rw [he, partItems_parts]
    have hemp : (Page.elems env.cx body).isEmpty = false := by
      obtain ⟨q, body, rfl⟩ := List.exists_cons_of_ne_nil hne
      simp only [List.all_cons, Bool.and_eq_true] at hall
      obtain ⟨qb, qt⟩ := q
      cases qb <;> first | (simp [Page.elems, Block.elems]; done) | cases hall.1.1
    refine (bind_ok (m := orFail _ _) (a := _) (s' := _) rfl).trans ?_
    rw [hemp]
    rfl
  | _ => cases hw

/-- Blocks, from any of them on. -/
theorem page_gathers : ∀ (fuel : Nat), PageReads env fuel := by
  intro fuel
  induction fuel using Nat.strongRecOn with
  | ind fuel IH =>
  intro n
  have hnil : ∀ {p : PState} {c : Bool} {T toks : List ETok} {sol : Bool} {sh : Shared} {s : PStack}, Laid env c T [] toks →
      Finishes env fuel p c T [] toks sol sh s := by
    intro p c T toks sol sh s hl
    obtain ⟨rfl, he⟩ := hl.nil
    exact ⟨toks, sol, s, .inl rfl, by simpa [addNotes_nil] using Gathers.nil, rfl, by simp [Page.elems]⟩
  induction n with
  | zero =>
    intro d hd p c T toks sol sh s hf hh hl hfr hre hnm hnf
    obtain rfl : d = [] := by simpa using hd
    exact hnil hl
  | succ n ih =>
    intro d hd p c T toks sol sh s hf hh hl hfr hre hnm hnf
    cases d with
    | nil => exact hnil hl
    | cons x d =>
    have hsol : sol = true := by
      rcases hfr with h | h
      · cases h
      · exact h
    subst hsol
    obtain ⟨b, t⟩ := x
    obtain ⟨hnm1, hnm2⟩ := Named.append (a := [(b, t)]) (b := d) hnm
    have hok := hf.1 (b, t) (by simp)
    have hhb := hh (b, t) (by simp)
    dsimp only at hok hhb
    have hpos := block_height_pos hok
    have hfu : 1 ≤ fuel := by omega
    have hdp : p.depth + 1 ≤ 100 := by omega
    have hhd : ∀ b ∈ d, b.1.height ≤ fuel ∧ p.depth + b.1.height ≤ 100 := fun b hb => hh b (by simp [hb])
    -- one call for a block that is not text
    have single : ∀ {xs tail rest : List ETok} {toks1 : List ETok} {sol1 : Bool} {sh1 : Shared}, toks = xs ++ tail →
        xs.map ETok.pair = b.lex → b.isPara = false →
        Follow env c T t d tail rest → sh1 = addNotes env.cx sh [(b, t)] →
        consume fuel env ⟨p.at (xs ++ tail) true, sh⟩ = .ok ⟨b.elems env.cx, [], false⟩ ⟨p.at toks1 sol1, sh1⟩ →
        ((toks1 = rest ∧ Fresh d sol1) ∨ (toks1 = tail)) →
        Finishes env fuel p c T ((b, t) :: d) toks true sh s := by
      intro xs tail rest toks1 sol1 sh1 e hx hb hfo htoc hrun hcase
      obtain ⟨hen, hbr⟩ := block_elems hb
      have hpush := pushElements_false hbr s hen
      have hinto : (⟨[], s.intoElements ++ b.elems env.cx, s.errors⟩ : PStack).intoElements = s.intoElements ++ b.elems env.cx := rfl
      obtain ⟨z, zs, rfl, hz⟩ := block_head hok hb hx
      have hht := headOf_tok b
      have htl := List.length_pos_iff.2 hfo.tail_ne
      have hgoes : GoesOn (z :: zs ++ tail) := by
        refine ⟨?_, ?_, ⟨?_, ?_⟩, by simp; omega⟩
        · show z.token ≠ _; rw [hz]; exact hht.1
        · show z.token ≠ _; rw [hz]; exact hht.2.1
        · show z.token ≠ _; rw [hz]; exact hht.2.2.1
        · intro _ h
          rw [hz] at h
          exact (hht.2.2.2 h).elim
      have hlen : toks1.length < (z :: zs ++ tail).length := by
        have := hfo.length
        rcases hcase with ⟨rfl, _⟩ | rfl <;> (simp; omega)
      have hrest : Finishes env fuel p c T d toks1 sol1 sh1 ⟨[], s.intoElements ++ b.elems env.cx, s.errors⟩ := by
        rcases hcase with ⟨rfl, hfr1⟩ | rfl
        · exact ih d (by simpa using hd) hf.tail hhd hfo.1 hfr1 (.inl rfl) (by rw [htoc]; exact hnm2) hnf
        · refine sep_finishes hfo hf.tail hf.parted hfu hdp (.inr (.inl rfl)) ?_
          intro sol' s' h1 h2 _ _
          exact ih d (by simpa using hd) hf.tail hhd hfo.1 h1 h2 (by rw [htoc]; exact hnm2) hnf
      obtain ⟨E, sol', s', h1, h2, h3, h4⟩ := hrest
      refine ⟨E, sol', s', h1, ?_, h3, ?_⟩
      · rw [e]
        refine .cons hgoes hrun hlen ?_
        rw [hpush]
        rw [addNotes_cons, ← htoc]
        exact h2
      · rw [h4, hinto]; simp [Page.elems]
    obtain ⟨xs, tail, rest, e0, hx, hs, hfo⟩ := hl.cons
    cases b with
    | rule more =>
      refine single e0 hx rfl hfo (addNotes_quiet rfl rfl rfl rfl).symm (hrule_run hx hfo.endsLine hfu hdp) ?_
      obtain ⟨h1, ⟨rfl, rfl, rfl⟩ | ⟨hdn, y, rfl, hy⟩⟩ := hfo
      · obtain ⟨xs, rfl, hx, ⟨e, rfl, he⟩, _⟩ := h1
        have : xs = [] := by simpa [Page.lex] using hx
        subst this
        exact .inr (by simp [he])
      · have := sep_tok hy
        cases t
        · exact .inr (by simp [this])
        · exact .inl ⟨by simp [this], .inr (by simp [this])⟩
    | clear more side =>
      exact single e0 hx rfl hfo (addNotes_quiet rfl rfl rfl rfl).symm (clear_run hx hfo.tail_ne fuel p sh hfu hdp (fun _ => rfl)) (.inr rfl)
    | center gap body =>
      rw [e0] at hs
      obtain ⟨sol', hrun⟩ := center_run (p := p) (sh := sh) (fuel := fuel) hok hx hfo.endsLine hs hhb.1 hhb.2 hnf
      obtain ⟨sol1, hac, hfr1⟩ := hfo.afterClose sol'
      rw [hac] at hrun
      exact single e0 hx rfl hfo (addNotes_quiet rfl rfl rfl rfl).symm hrun (.inl ⟨rfl, hfr1⟩)
    | list kind items =>
      rw [e0] at hs
      obtain ⟨sol', hrun⟩ := list_run (p := p) (sh := sh) (fuel := fuel) hok hx hfo.endsLine hs hhb.1 hhb.2 hnf (by
        intro sol
        obtain ⟨sol1, hac, _⟩ := hfo.afterClose sol
        rw [hac]
        exact after_list hf hfo.1)
      obtain ⟨sol1, hac, hfr1⟩ := hfo.afterClose sol'
      rw [hac] at hrun
      exact single e0 hx rfl hfo (addNotes_quiet rfl rfl rfl rfl).symm hrun (.inl ⟨rfl, hfr1⟩)
    | quote items =>
      rw [e0] at hs
      obtain ⟨sol', hrun⟩ := quote_run (p := p) (sh := sh) (fuel := fuel) hok hx hfo.endsLine hs hhb.1 hhb.2 hnf (by
        intro sol
        obtain ⟨sol1, hac, _⟩ := hfo.afterClose sol
        rw [hac]
        exact after_quote hf hfo.1)
      obtain ⟨sol1, hac, hfr1⟩ := hfo.afterClose sol'
      rw [hac] at hrun
      exact single e0 hx rfl hfo (addNotes_quiet rfl rfl rfl rfl).symm hrun (.inl ⟨rfl, hfr1⟩)
    | table rows =>
      rw [e0] at hs
      have hcase : ((afterRow tail).1 = rest ∧ t = true ∧ (afterRow tail).2 = true) ∨ ((afterRow tail).1 = tail ∧
          ((tail.headD default).token = .inputEnd ∨ (tail.headD default).token = .paragraphBreak)) := by
        obtain ⟨h1, ⟨rfl, rfl, rfl⟩ | ⟨hdn, y, rfl, hy⟩⟩ := id hfo
        · obtain ⟨xs, rfl, hx, ⟨e, rfl, he⟩, _⟩ := h1
          have : xs = [] := by simpa [Page.lex] using hx
          subst this
          exact .inr (by simp [afterRow, he])
        · have := sep_tok hy
          cases t
          · exact .inr (by simp [afterRow, this])
          · exact .inl (by simp [afterRow, this])
      have hrun := table_run (p := p) (sh := sh) (fuel := fuel) hok hx hfo.endsLine hs hhb.1 hhb.2 hnf (by
        rcases hcase with ⟨h1, h2, _⟩ | ⟨h1, h2⟩
        · rw [h1]; exact after_table h2 hf hfo.1
        · rw [h1]
          obtain ⟨y, ys, rfl⟩ := List.exists_cons_of_ne_nil hfo.tail_ne
          show isColumnTok y.token = false
          rcases h2 with h2 | h2 <;> (rw [show y.token = _ from h2]; rfl))
      refine single e0 hx rfl hfo (addNotes_quiet rfl rfl rfl rfl).symm hrun ?_
      rcases hcase with ⟨h1, _, h2⟩ | ⟨h1, _⟩
      · exact .inl ⟨h1, .inr h2⟩
      · exact .inr h1
    | definitions ds =>
      rw [e0] at hs
      obtain ⟨sol', hrun⟩ := definitions_run (p := p) (sh := sh) (fuel := fuel) hok hx hfo.endsLine hs hhb.1 hhb.2 hnf (by
        intro hlb
        obtain ⟨h1, ⟨rfl, rfl, rfl⟩ | ⟨hdn, y, rfl, hy⟩⟩ := id hfo
        · obtain ⟨xs, rfl, hx, ⟨e, rfl, he⟩, _⟩ := h1
          have : xs = [] := by simpa [Page.lex] using hx
          subst this
          simp [he] at hlb
        · have := sep_tok hy
          cases t
          · simp [this] at hlb
          · exact after_defs rfl hf h1)
      obtain ⟨sol1, hac, hfr1⟩ := hfo.afterClose sol'
      rw [hac] at hrun
      exact single e0 hx rfl hfo (addNotes_quiet rfl rfl rfl rfl).symm hrun (.inl ⟨rfl, hfr1⟩)
    | within w body =>
      obtain ⟨fuel, rfl⟩ : ∃ k, fuel = k + 1 := ⟨fuel - 1, by omega⟩
      have htab : w.isTab = false := by
        have := hf.tabs
        simp only [Page.noTabs, List.all_cons, Bool.and_eq_true, Bool.not_eq_true'] at this
        exact this.1
      have hnotab : ∀ es, Section.result env.cx w es = .mk (w.kind env.cx) es := by intro es; simp [Section.result, htab]
      rw [e0] at hs
      refine single (toks1 := tail) (sol1 := false) e0 hx rfl hfo rfl ?_ (.inr rfl)
      simp only [Block.height] at hhb
      rw [Block.elems, elems_go]
      cases htabs : w.isTabs with
      | false =>
        have := box_call (IH fuel (by omega)) hok htabs (fun h => by rw [htab] at h; cases h) hx hfo.tail_ne hs (by omega) (by omega) hnm1 hnf (sol := true)
        rw [hnotab] at this
        exact this
      | true =>
        have hbne : body ≠ [] := by
          rintro rfl
          simp [Block.ok, htabs, Page.onlyTabs] at hok
        obtain ⟨fuel, rfl⟩ : ∃ k, fuel = k + 1 := by
          obtain ⟨q, body, rfl⟩ := List.exists_cons_of_ne_nil hbne
          have hq := height_go (q :: body) q (by simp)
          have hp : 1 ≤ q.1.height := block_height_pos (ok_go (d := q :: body) (by simp only [Block.ok, Bool.and_eq_true] at hok; exact hok.1.2) q (by simp))
          exact ⟨fuel - 1, by omega⟩
        exact tabs_call (IH fuel (by omega)) hok htabs hx hfo.tail_ne hs (by omega) (by omega) hnm1 hnf
    | foreign v text =>
      obtain ⟨fuel, rfl⟩ : ∃ k, fuel = k + 1 := ⟨fuel - 1, by omega⟩
      have hx' := hx
      simp only [Block.lex] at hx'
      obtain ⟨os, ys, e1, hos, hys⟩ := map_append_split hx'
      obtain ⟨y, ys, rfl, hy, hys⟩ := List.map_eq_cons_iff.1 hys
      obtain ⟨bs, cs, rfl, hbs, hcs⟩ := map_append_split hys
      have hy : y.token = .lineBreak := congrArg (·.1) hy
      have e2 : xs ++ tail = os ++ y :: (bs ++ (cs ++ tail)) := by rw [e1]; simp
      rw [e0, e2] at hs
      have htne := hfo.tail_ne
      have htl := List.length_pos_iff.2 htne
      have hrun := foreign_run hok hos hy hbs hcs htne hs (sol := true) (cons := consume fuel) (p := { p with depth := p.depth + 1, rule := .block }) hnm1
      obtain ⟨ol, hol⟩ := foreign_head v
      obtain ⟨o, os, rfl, ho⟩ : ∃ o os', os = o :: os' ∧ o.token = .leftBlock := by
        rw [hol] at hos
        obtain ⟨o, os, rfl, ho, _⟩ := List.map_eq_cons_iff.1 hos
        exact ⟨o, os, rfl, congrArg (·.1) ho⟩
      refine single (toks1 := tail) (sol1 := false) e0 hx rfl hfo rfl ?_ (.inr rfl)
      rw [e2]
      exact consume_rule' (rs1 := []) (rs2 := []) (r := .block) (r' := .blk (foreignRule v).info.name) hdp (by rw [ho]; rfl) (by simp) (by simp [RuleId.needsLineStart])
        (noParts_cons (by cases v <;> simp [Foreign.kind]) noParts_nil) hrun (by simp; omega) htne
    | gadget g =>
      obtain ⟨fuel, rfl⟩ : ∃ k, fuel = k + 1 := ⟨fuel - 1, by omega⟩
      have hok' : g.ok = true := hok
      have hx' : xs.map ETok.pair = g.lex := hx
      rw [e0] at hs
      have hpage : g.isPage = true → env.settings.enablePageSyntax = true := fun h => hnm1.2.1 (by simp [Block.isPage, h])
      obtain ⟨z, zs, rfl, hz⟩ := block_head hok rfl hx
      have hz : z.token = .leftBlock := hz
      have hel := hfo.endsLine
      have htw : (tail.headD default).token ≠ .whitespace := by
        cases tail with
        | nil => exact hel.elim
        | cons y ys => rcases hel with ⟨h, _⟩ | ⟨h, _⟩ | h <;> simp [h]
      have htne := hfo.tail_ne
      have htl := List.length_pos_iff.2 htne
      obtain ⟨T2, sol2, hend, hcase, h2⟩ : ∃ T2 sol2, (∀ b : BlockInfo, b.newlines = true → HeadEnd b tail T2 sol2) ∧
          ((T2 = rest ∧ Fresh d sol2) ∨ T2 = tail) ∧ T2 ≠ [] ∧ T2.length ≤ tail.length := by
        have hfo' := hfo
        obtain ⟨h1, ⟨rfl, rfl, rfl⟩ | ⟨hdn, y, rfl, hy⟩⟩ := hfo'
        · refine ⟨tail, false, fun b _ => .inl ⟨rfl, rfl, fun _ => ?_⟩, .inr rfl, htne, Nat.le_refl _⟩
          obtain ⟨xs, rfl, hx, ⟨e, rfl, he⟩, _⟩ := h1
          have : xs = [] := by simpa [Page.lex] using hx
          subst this
          simp [he]
        · have hy := sep_tok hy
          cases t with
          | false =>
            refine ⟨_, false, fun b _ => .inl ⟨rfl, rfl, fun _ => ?_⟩, .inr rfl, htne, Nat.le_refl _⟩
            simp [hy]
          | true =>
            exact ⟨rest, true, fun b hb => .inr ⟨hb, h1.ne, rfl, y, rfl, by simpa using hy⟩, .inl ⟨rfl, .inr rfl⟩, h1.ne, by simp⟩
      obtain ⟨r', hrun⟩ := gadget_run hok' hx' htne hend htw hs hpage (sol := true) (cons := consume fuel)
        (p := { p with depth := p.depth + 1, rule := .block }) (sh := sh)
      refine single (toks1 := T2) (sol1 := sol2) e0 hx rfl hfo (addNotes_quiet rfl rfl rfl rfl).symm ?_ hcase
      refine consume_rule' (rs1 := []) (rs2 := []) (r := .block) (r' := r') hdp (by rw [hz]; rfl) (by simp) (by simp [RuleId.needsLineStart])
        (noParts_cons (by cases g <;> simp [Gadget.kind]) noParts_nil) ?_ (by simp; omega) h2.1
      exact hrun
    | grid g =>
      obtain ⟨fuel, rfl⟩ : ∃ k, fuel = k + 1 := ⟨fuel - 1, by omega⟩
      have hok' : g.ok = true := hok
      have hx' : xs.map ETok.pair = g.lex := hx
      rw [e0] at hs
      have hhb := hh (.grid g, t) (by simp)
      simp only [Block.height] at hhb
      obtain ⟨z, zs, rfl, hz⟩ := block_head hok rfl hx
      have hz : z.token = .leftBlock := hz
      have htne := hfo.tail_ne
      have htl := List.length_pos_iff.2 htne
      obtain ⟨r', hrun⟩ := grid_run hok' hx' htne hs (sol := true) (fuel := fuel) (p := { p with depth := p.depth + 1, rule := .block }) (sh := sh)
        hhb.1 (by dsimp only; omega) hnf
      have hsh : putNotes sh (gridNotes env.cx g) = addNotes env.cx sh [(.grid g, t)] := by
        simp [putNotes_eq, gridNotes, addNotes, Page.toc, Page.htmls, Page.codes, Page.notes, Page.bibs, Block.bibs, Block.htmls, Block.codes, Block.notes, Block.toc, List.map_flatMap]
      rw [hsh] at hrun
      refine single (toks1 := tail) (sol1 := false) e0 hx rfl hfo rfl ?_ (.inr rfl)
      exact consume_rule' (rs1 := []) (rs2 := []) (r := .block) (r' := r') hdp (by rw [hz]; rfl) (by simp) (by simp [RuleId.needsLineStart])
        (by cases g <;> exact noParts_cons (by simp) noParts_nil) hrun (by simp) htne
    | biblio b =>
      obtain ⟨fuel, rfl⟩ : ∃ k, fuel = k + 1 := ⟨fuel - 1, by omega⟩
      have hok' : b.ok = true := hok
      have hx' : xs.map ETok.pair = b.lex := hx
      rw [e0] at hs
      have hhb := hh (.biblio b, t) (by simp)
      simp only [Block.height] at hhb
      obtain ⟨z, zs, rfl, hz⟩ := block_head hok rfl hx
      have hz : z.token = .leftBlock := hz
      have htne := hfo.tail_ne
      have htl := List.length_pos_iff.2 htne
      have hnum : b.number = sh.bibs.length := by
        have := hnm1.2.2
        simpa [Page.bibs, Block.bibs] using this
      obtain ⟨r', hrun⟩ := biblio_run hok' hx' htne hs (sol := true) (fuel := fuel) (p := { p with depth := p.depth + 1, rule := .block }) (sh := sh)
        hhb.1 (by dsimp only; omega) hnf hnum (biblio_notes hok')
      have hsh : { sh with bibs := sh.bibs ++ [b.bibl env.cx] } = addNotes env.cx sh [(.biblio b, t)] := by
        simp [addNotes, Page.toc, Page.htmls, Page.codes, Page.notes, Page.bibs, Block.bibs, Block.htmls, Block.codes, Block.notes, Block.toc]
      rw [hsh] at hrun
      refine single (toks1 := tail) (sol1 := false) e0 hx rfl hfo rfl ?_ (.inr rfl)
      exact consume_rule' (rs1 := []) (rs2 := []) (r := .block) (r' := r') hdp (by rw [hz]; rfl) (by simp) (by simp [RuleId.needsLineStart])
        (noParts_cons (by simp [Biblio.kind]) noParts_nil) hrun (by simp) htne
    | heading level toc gap body =>
      obtain ⟨fuel, rfl⟩ : ∃ k, fuel = k + 1 := ⟨fuel - 1, by omega⟩
      obtain ⟨y, ys, rfl, hy, hys⟩ := List.map_eq_cons_iff.1 hx
      have hy : y.token = .heading := congrArg (·.1) hy
      have hlen0 : toks.length = (ys ++ tail).length + 1 := by rw [e0]; simp
      obtain ⟨d1, d2, toks2, sol2, hd12, hd1, hl2, hfr2, hlt, hnp, hrun⟩ := header_run (p := { p with depth := p.depth + 1, rule := .header }) hnf
        (fuel := fuel) (sol := true) (sh := sh) (n := toks.length)
        ((.heading level toc gap body, t) :: d) hf (fun b hb => ⟨(hh b hb).1, by dsimp only; have := (hh b hb).2; omega⟩) hl
        (Nat.le_refl _) rfl
      have hcons : consume (fuel + 1) env ⟨p.at (y :: (ys ++ tail)) true, sh⟩ =
          .ok ⟨Page.elems env.cx d1, [], false⟩ ⟨p.at toks2 sol2, addNotes env.cx sh d1⟩ := by
        refine consume_rule (rs1 := []) (rs2 := [.text]) (r := .header) hdp (by rw [hy]; rfl) (by simp) (fun _ => rfl)
          (noParts_page hnp) ?_ ?_ hl2.ne
        · show ruleHeader (consume fuel) env _ = _
          unfold ruleHeader
          rw [bind_ok (m := remLen) (a := (ys ++ tail).length) (s' := ⟨({ p with depth := p.depth + 1, rule := .header } : PState).at (y :: (ys ++ tail)) true, sh⟩) rfl]
          rw [← hlen0]
          rw [e0] at hrun ⊢
          exact hrun
        · rw [hlen0] at hlt; omega
      obtain ⟨hen, hbr⟩ := page_elems hnp
      have hpush := pushElements_false hbr s (hen hd1)
      have hd2l : d2.length ≤ n := by
        have := congrArg List.length hd12
        have := List.length_pos_iff.2 hd1
        simp at *; omega
      have hf2 : ∀ (a : Page) {b : Page}, Fine (a ++ b) → Fine b := by
        intro a
        induction a with
        | nil => intro b h; exact h
        | cons x a ih => intro b h; exact ih (Fine.tail h)
      obtain ⟨E, sol', s', h1, h2, h3, h4⟩ := ih d2 hd2l (p := p) (sol := sol2) (sh := addNotes env.cx sh d1)
        (s := ⟨[], s.intoElements ++ Page.elems env.cx d1, s.errors⟩) (hf2 d1 (by rw [← hd12]; exact hf))
        (fun b hb => hh b (by rw [hd12]; simp [hb])) hl2 hfr2 (.inl rfl) (by rw [hd12] at hnm; exact hnm.append.2) hnf
      refine ⟨E, sol', s', h1, ?_, h3, ?_⟩
      · rw [e0]
        have htl := List.length_pos_iff.2 hfo.tail_ne
        refine .cons ⟨by simp [hy], by simp [hy], ⟨by simp [hy], by simp [hy]⟩, by simp; omega⟩ hcons (by rw [← e0]; exact hlt) ?_
        rw [hpush, hd12, ← addNotes_append]
        exact h2
      · rw [h4, hd12, elems_append, ← List.append_assoc]
        rfl
    | para body =>
      obtain ⟨htl, hw⟩ := para_tline hok hx hfo
      have hok' := hok
      simp only [Block.ok, Bool.and_eq_true] at hok'
      have htn := hfo.tail_ne
      have hcur : s.current = [] := by
        rcases hre with h | h
        · exact h
        · have := h _ _ _ rfl; cases this
      rw [e0] at hs
      obtain ⟨sol1, hch⟩ := body_chain body (xs := xs) (rest := tail) (sol := true) (b := false)
        (G := GoesOn)
        (fuel := fuel) (p := p) (sh := sh) (fun h => by rw [hnf] at h; cases h) hok'.1.1 hx htn hs htl (by simp) hw hhb.1 hhb.2 (by
          intro a i c e ys hy
          exact goes_para hy htn hfo.noEnd)
      have hg := hch.gathers (fun _ h => h) s
      rw [pushAll_safe] at hg
      have hr : t = false ∨ Ready d { s with current := addTo s.current (Inline.elems.go env.cx body) } := by
        cases t with
        | false => exact .inl rfl
        | true =>
          refine .inr (.inr ?_)
          rintro b' t' d' rfl
          have := hf.2
          simp [Page.gapsOk] at this
          have := this.1.1.1
          cases b' <;> first | rfl | (simp [Page.joins] at this)
      obtain ⟨E, sol', s', h1, h2, h3, h4⟩ := sep_finishes hfo hf.tail hf.parted (fuel := fuel) (p := p) (sol := sol1) (sh := putNotes sh (notesOf env.cx body))
        (s := { s with current := addTo s.current (Inline.elems.go env.cx body) }) hfu hdp hr (by
          intro sol' s' h1 h2 _ _
          exact ih d (by simpa using hd) hf.tail hhd hfo.1 h1 h2 (by rw [addNotes_quiet rfl rfl rfl rfl] at hnm2; exact hnm2) hnf)
      refine ⟨E, sol', s', h1, ?_, by rw [h3], ?_⟩
      · rw [addNotes_cons, addNotes_quiet (b := .para body) rfl rfl rfl rfl, e0]
        exact hg.trans h2
      · rw [h4]
        have : Page.elems env.cx ((.para body, t) :: d) = (Block.para body).elems env.cx ++ Page.elems env.cx d := rfl
        rw [this, ← List.append_assoc]
        congr 1
        simp only [hcur, PStack.intoElements, PStack.endParagraph, addTo, List.isEmpty_nil, if_true, para_elems]
        obtain ⟨c, f, er⟩ := s
        subst hcur
        cases (Inline.elems.go env.cx body).dropWhile isBr <;> simp [eContainer, paraOf]

end Ftml
