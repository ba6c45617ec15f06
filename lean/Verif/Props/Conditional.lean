import Verif.Props.Markup
import Verif.Props.Values
import Verif.Props.MarkupMore
/-
C76: what `[[iftags]]` and `[[ifcategory]]` show, from the text of a page to its elements.
-/
namespace Ftml
open M Markup Lexer

/-! ### A page with a conditional line -/

/-- `[[iftags spec]]body[[/iftags]]` or `[[ifcategory spec]]body[[/ifcategory]]`, in capitals or not. -/
structure Conditional where
  name : Str
  spec : List Plain
  body : List Inline
  close : Str

namespace Conditional
/-- The source text, cut into symbols. -/
def pieces (c : Conditional) : List Str :=
  c!"[[" :: c.name :: c!" " :: (c.spec.map Plain.str ++ (c!"]]" :: (Inline.pieces.go c.body ++ [c!"[[/", c.close, c!"]]"])))
/-- The source text. -/
def write (c : Conditional) : Str := c.pieces.flatten
/-- The block's name, a condition which does not begin with a blank, and contents on one line, so that the
symbols do not run together. -/
def ok (c : Conditional) : Bool :=
  (lowerA c.name == c!"iftags" || lowerA c.name == c!"ifcategory") && lowerA c.close == lowerA c.name &&
  c.spec.all Plain.ok && !(c.spec.head?.any Plain.isBlank) && Inline.ok.go c.body &&
  (Inline.pieces.go c.body).all (· != c!"\n") && decide (Inline.height.go c.body + 1 ≤ 100) && separate c.pieces
end Conditional

private def Conditional.item (c : Conditional) : Item := ⟨⟨c.name, [], c.close⟩, c.body⟩

private def Conditional.lex (c : Conditional) : List (Token × Str) :=
  (.leftBlock, c!"[[") :: (.identifier, c.name) :: (.whitespace, c!" ") ::
    (c.spec.map Plain.lex ++ ((.rightBlock, c!"]]") :: (Inline.lex.go c.body ++ c.item.tag.closeLex)))

private theorem ifTagsRule : TagRule c!"iftags" blockRules[24] := tagRule_at 24 (by decide) rfl (by decide +kernel) rfl (by decide)
private theorem ifCategoryRule : TagRule c!"ifcategory" blockRules[22] := tagRule_at 22 (by decide) rfl (by decide +kernel) rfl (by decide)

/-- Whether the page shows the contents. -/
private def Conditional.shows (info : PageInfo) (c : Conditional) : Bool :=
  if lowerA c.name = c!"iftags" then checkConditions (parseConditions (plainText c.spec)) info.tags
  else checkConditions ((parseConditions (plainText c.spec)).map requiredToPresent) [info.category.getD c!"_default"]

private theorem cond_groups {c : Conditional} (h : c.ok = true) : Grouped c.lex c.pieces := by
  simp only [Conditional.ok, Bool.and_eq_true, Bool.or_eq_true, beq_iff_eq] at h
  obtain ⟨⟨⟨⟨⟨⟨⟨h1, h2⟩, h3⟩, h4⟩, h5⟩, h6⟩, _⟩, _⟩ := h
  have hn : ∃ k, (Plain.word k).ok = true ∧ c.item.tag.is k = true := by
    rcases h1 with h1 | h1
    · exact ⟨c!"iftags", by decide, by simp [Tag.is, Conditional.item, h1, h2]⟩
    · exact ⟨c!"ifcategory", by decide, by simp [Tag.is, Conditional.item, h1, h2]⟩
  obtain ⟨k, hk, ht⟩ := hn
  obtain ⟨t1, t2⟩ := tag_sym ht hk
  have hs : ∀ x ∈ c.lex, Sym x := by
    intro x hx
    simp only [Conditional.lex, List.mem_cons, List.mem_append] at hx
    rcases hx with rfl | rfl | rfl | hx | rfl | hx | hx
    · exact t1 _ (by simp [Tag.openLex])
    · exact t1 _ (by simp [Tag.openLex, Conditional.item])
    · exact plain_sym (p := .blanks 0) rfl
    · exact plains_sym h3 x hx
    · exact t1 _ (by simp [Tag.openLex])
    · exact inlines_sym _ h5 x hx
    · exact t2 x hx
  have := grouped_of hs
  have e : c.lex.map (·.2) = c.pieces := by
    simp [Conditional.lex, Conditional.pieces, Tag.closeLex, inlines_pieces, Conditional.item]
    intro p _
    cases p <;> rfl
  rwa [e] at this

variable {env : Env}

private theorem noParts_inlines (cx : Markup.Ctx) : ∀ is : List Inline, NoParts (Inline.elems.go cx is)
  | [] => noParts_nil
  | i :: is => by
    have ih := noParts_inlines cx is
    rw [Inline.elems.go]
    cases i <;> simp only [Inline.elems, List.cons_append, List.nil_append] <;>
      first | (refine noParts_cons ?_ ih; simp; done) | exact ih | skip
    · rename_i w _; exact noParts_cons (by cases w <;> simp [Wrap.kind]) ih
    · rename_i l; exact noParts_cons (by cases l <;> simp [Leaf.kind] <;> (intros; split <;> simp)) ih

private def condBlock (b : BlockInfo) (tags : Bool) (cons : M (PS Elements)) : M (PS Elements) := do
  let cs ← getHeadValue b true (fun spec => do
    let spec ← orFail .blockMissingArguments spec
    pure (if tags then parseConditions spec else (parseConditions spec).map requiredToPresent))
  let r ← getBody cons b false
  let e ← M.env
  okP r.psafe (if checkConditions cs (if tags then e.info.tags else [e.info.category.getD c!"_default"]) then r.item else []) r.errors

private theorem cond_body {k : Str} {br : BlockRule} (hk : TagRule k br) {c : Conditional} (h : c.ok = true) (ht : c.item.tag.is k = true)
    (hparse : ∀ cons, br.parse cons ⟨c.name, false, false, true⟩ = condBlock br.info (lowerA c.name == c!"iftags") cons)
    {xs : List ETok} {e : ETok} (hx : xs.map ETok.pair = c.lex) (he : e.token = .inputEnd) (hs : (xs ++ [e]) <:+ (tokenize env.text).tokens) :
    Eats env (Inline.height.go c.body + 1) true xs [e] (if c.shows env.info then Inline.elems.go env.cx c.body else []) true (notesOf env.cx c.body) := by
  simp only [Conditional.ok, Bool.and_eq_true, Bool.not_eq_true'] at h
  obtain ⟨⟨⟨⟨⟨⟨_, h3⟩, h4⟩, h5⟩, h6⟩, _⟩, _⟩ := h
  obtain ⟨w1, _, n1', _, _⟩ := tag_word ht hk.word
  obtain ⟨l, xs, rfl, hl, hx⟩ := List.map_eq_cons_iff.1 hx
  obtain ⟨m, xs, rfl, hm, hx⟩ := List.map_eq_cons_iff.1 hx
  obtain ⟨d, xs, rfl, hd, hx⟩ := List.map_eq_cons_iff.1 hx
  obtain ⟨vs, xs, rfl, hvs, hx⟩ := map_append_split hx
  obtain ⟨r, xs, rfl, hr, hx⟩ := List.map_eq_cons_iff.1 hx
  obtain ⟨ys, cs, rfl, hys, hcs⟩ := map_append_split hx
  have hrt : r.token = .rightBlock := congrArg (·.1) hr
  have hdt : d.token = .whitespace := congrArg (·.1) hd
  have hlt : l.token = .leftBlock := congrArg (·.1) hl
  obtain ⟨n1, n2, n3, n4, _⟩ := word_name hm w1
  obtain ⟨hvt, hvv⟩ := plains_tok hvs
  have hsol : solAfter (l :: (m :: d :: (vs ++ r :: (ys ++ cs)))) = false := by
    obtain ⟨o, n, q, rfl, _, _, hq, _⟩ := close_tokens hk ht hcs
    have := solAfter_append (l :: (m :: d :: (vs ++ r :: (ys ++ [o, n])))) q
    rw [hq] at this
    have e : l :: (m :: d :: (vs ++ r :: (ys ++ [o, n, q]))) = l :: (m :: d :: (vs ++ r :: (ys ++ [o, n]))) ++ [q] := by simp
    rw [e, this]; rfl
  have e0 : l :: (m :: d :: (vs ++ r :: (ys ++ cs))) ++ [e] = l :: ([m] ++ d :: (vs ++ r :: (ys ++ (cs ++ [e])))) := by simp
  rw [e0] at hs
  have hs1 := List.IsSuffix.trans (List.suffix_cons l _) hs
  have hs2 := List.IsSuffix.trans (List.suffix_append [m, d] _) hs1
  have hs3 : (ys ++ (cs ++ [e])) <:+ (tokenize env.text).tokens := List.IsSuffix.trans (List.suffix_append (vs ++ [r]) _) (by simpa using hs2)
  refine eats_put' (by simp) (rs1 := []) (rs2 := []) (r := .block) (r' := .blk br.info.name)
      (by rw [hlt]; rfl) (by simp) (by simp [RuleId.needsLineStart]) (by split <;> first | exact noParts_inlines _ _ | exact noParts_nil) ?_
  intro fuel p sh hf hd' hfn
  rw [e0, hsol]
  have hfirst : ((ys ++ (cs ++ [e])).headD default).token ≠ .lineBreak := by
    cases hb : c.body with
    | nil =>
      rw [hb] at hys
      simp [Inline.lex.go] at hys
      subst hys
      obtain ⟨o, m, c, rfl, ho, _⟩ := close_tokens hk ht hcs
      simp [ho]
    | cons j body =>
      rw [hb] at hys
      obtain ⟨x2, r2, hx2, _⟩ := inline_head j
      simp only [Inline.lex.go, hx2, List.cons_append] at hys
      obtain ⟨y, ys, rfl, hy, _⟩ := List.map_eq_cons_iff.1 hys
      have hyt : y.token = x2.1 := congrArg (·.1) hy
      show y.token ≠ _
      intro he
      have hbl := (inline_break hx2 (by rw [← hyt]; exact he)).1
      refine newline_line h6 (?_ : Inline.newline ∈ c.body)
      rw [hb]
      cases j <;> first | (simp; done) | cases hbl
  refine ruleBlock_run (ns := [m]) (c := d) (rest := vs ++ r :: (ys ++ (cs ++ [e]))) (br := br) (by simpa using hlt) (by simp) n2 (.inl hdt) (by simp) n3 hs1 n4
    (by rw [n1]; exact (getBlockRule_lower w1).trans (by rw [n1']; exact hk.rule)) (by simp) ?_
    (bc := condBlock br.info (lowerA c.name == c!"iftags") (consume fuel)) (by rw [n1, show (d.token == Token.whitespace) = true by simp [hdt]]; exact hparse (consume fuel)) ?_ ?_
  · intro _
    cases vs with
    | nil => simp [hrt]
    | cons v vs =>
      cases hsp : c.spec with
      | nil => rw [hsp] at hvs; simp at hvs
      | cons pl value =>
        rw [hsp] at hvs h4
        simp only [List.map_cons, List.cons.injEq] at hvs
        have hv : v.token = pl.lex.1 := congrArg (·.1) hvs.1
        simp only [List.cons_append, List.headD_cons, hv]
        cases pl with
        | word => simp [Plain.lex]
        | blanks => simp [Plain.isBlank] at h4
        | char ch =>
          intro e
          have h2 := charTok_cases ch
          have e : charTok ch = .whitespace := e
          rw [e] at h2
          simp [isLineTok] at h2
  · rw [if_pos hdt]
    unfold condBlock
    rw [bind_ok (getHeadValue_at (v := if lowerA c.name == c!"iftags" then parseConditions (plainText c.spec) else (parseConditions (plainText c.spec)).map requiredToPresent)
      hrt (by simp) ?_ hs2 (by rw [hvv]; rfl) (fun _ => hfirst))]
    · rw [bind_ok (line_body (p := { p with rule := .blk br.info.name }) hk ht h5 h6 hys hcs (fun n hn => TLine.stop (.inl (by rw [he]; rfl))) hs3 hf hd' hfn)]
      rw [bind_ok (m := M.env) (a := env) rfl]
      unfold Conditional.shows
      by_cases ht : lowerA c.name = c!"iftags"
      · simp [ht]; rfl
      · simp [ht]; rfl
    · intro x hx
      have := hvt x hx
      revert this; cases x.token <;> simp [isPlainTok, isLineTok]
  · simp
    cases vs <;> simp

/-- The page of a conditional line. -/
private theorem cond_parses {c : Conditional} (hc : c.ok = true) (w : World) (info : PageInfo) (settings : Settings) :
    ∃ o, parse w (tokenize c.write) info settings = some (.ok o) ∧ o.errors = [] ∧
      o.tree.elements = (if c.shows info then (Block.para c.body).elems ⟨settings, w, info⟩ else []) ++ [.mk (.footnoteBlock none false) []] ∧
      o.tree.footnotes = (Inline.notes.go c.body).map (noteElems ⟨settings, w, info⟩) := by
  have hc' := hc
  simp only [Conditional.ok, Bool.and_eq_true, decide_eq_true_eq] at hc'
  obtain ⟨hl, hsl⟩ := lexList_of (cond_groups hc) hc'.2
  obtain ⟨xs, e, ht, hx, he⟩ : ∃ xs e, (tokenize c.write).tokens =
      ⟨.inputStart, [], 0, 0⟩ :: (xs ++ [e]) ∧ xs.map ETok.pair = c.lex ∧ e.token = .inputEnd := by
    rw [Conditional.write, ← hsl, tokenize_list hl]
    exact ⟨_, _, rfl, addSpans_map _ _, rfl⟩
  let env : Env := ⟨c.write, (tokenize c.write).tokens, info, settings, w⟩
  let p0 : PState := ⟨⟨.inputStart, [], 0, 0⟩, xs ++ [e], .page, 0, .none, false, false, true⟩
  have hs : (xs ++ [e]) <:+ (tokenize env.text).tokens := by
    show _ <:+ (tokenize c.write).tokens
    rw [ht]; exact List.suffix_cons ..
  have heats : Eats env (Inline.height.go c.body + 1) true xs [e] (if c.shows env.info then Inline.elems.go env.cx c.body else []) true (notesOf env.cx c.body) := by
    obtain ⟨⟨⟨⟨⟨⟨⟨h1, h2⟩, _⟩, _⟩, _⟩, _⟩, _⟩, _⟩ := hc'
    simp only [Bool.or_eq_true, beq_iff_eq] at h1 h2
    rcases h1 with h1 | h1
    · exact cond_body ifTagsRule hc (by simp [Tag.is, Conditional.item, h1, h2]) (fun cons => by rw [h1]; rfl) hx he hs
    · exact cond_body ifCategoryRule hc (by simp [Tag.is, Conditional.item, h1, h2]) (fun cons => by rw [h1]; rfl) hx he hs
  have hstart : consume maxRecursionDepth env ⟨p0.at (⟨.inputStart, [], 0, 0⟩ :: (xs ++ [e])) true, ⟨[], [], [], [], []⟩⟩ =
      .ok ⟨[], [], true⟩ ⟨p0.at (xs ++ [e]) true, ⟨[], [], [], [], []⟩⟩ :=
    eats_tok (env := env) (x := ⟨.inputStart, [], 0, 0⟩) (rest := xs ++ [e]) (sol := true) (r := .null) (rs1 := [])
      (rs2 := []) (es := []) (safe := true) (by simp) rfl (by simp) (by simp) noParts_nil (fun _ _ _ => rfl)
      maxRecursionDepth p0 _ (by decide) (by simp [p0]) (fun _ => rfl)
  have hgo : GoesOn (xs ++ [e]) ∧ xs ≠ [] := by
    obtain ⟨l, xs, rfl, hl, _⟩ := List.map_eq_cons_iff.1 hx
    have hlt : l.token = .leftBlock := congrArg (·.1) hl
    exact ⟨⟨by simp [hlt], by simp [hlt], ⟨by simp [hlt], by simp [hlt]⟩, by simp⟩, by simp⟩
  have hg : Gathers env (consume maxRecursionDepth) p0 (⟨.inputStart, [], 0, 0⟩ :: (xs ++ [e])) true ⟨[], [], [], [], []⟩
      PStack.new [e] (solAfter xs) (putNotes ⟨[], [], [], [], []⟩ (notesOf env.cx c.body)) _ :=
    .cons ⟨by simp, by simp, ⟨by simp, by simp⟩, by simp⟩ hstart (by simp)
      (.cons hgo.1 (heats maxRecursionDepth p0 _ (by simpa [maxRecursionDepth] using hc'.1.2) (by simpa [p0] using hc'.1.2) (fun _ => by simp_all [p0]))
        (by have := List.length_pos_iff.2 hgo.2; simp; omega) .nil)
  have hpush : PStack.pushElements true (if c.shows env.info then Inline.elems.go env.cx c.body else []) (PStack.pushElements true [] PStack.new) =
      ⟨(if c.shows env.info then (Inline.elems.go env.cx c.body).dropWhile isBr else []), [], []⟩ := by
    rw [pushElements_true]
    cases c.shows env.info <;> simp [PStack.pushElements, PStack.new, addTo]
  rw [hpush] at hg
  have hel : ∀ a : List Elem, (⟨a, [], []⟩ : PStack).endParagraph.finished = paraOf a := by
    intro a; cases a <;> rfl
  have hrun := gatherParagraphs_gathers (r := .page) (close := none) (p := p0) (toks2 := [e]) (sol2 := solAfter xs) hg (by simp) (by simp) ⟨he, rfl, rfl⟩
    (.inl ⟨he, rfl, rfl⟩) (by rfl) (safe := (paraOf (if c.shows env.info then (Inline.elems.go env.cx c.body).dropWhile isBr else [])).isEmpty) (by
    rw [hel]
    cases (if c.shows env.info then (Inline.elems.go env.cx c.body).dropWhile isBr else []) <;> rfl)
  refine ⟨⟨⟨(if c.shows info then (Block.para c.body).elems ⟨settings, w, info⟩ else []) ++ [.mk (.footnoteBlock none false) []],
      buildToc [] 0, [], [], (Inline.notes.go c.body).map (noteElems ⟨settings, w, info⟩), [], byteLen c.write⟩, []⟩, ?_, rfl, rfl, rfl⟩
  have hh : (⟨(if c.shows env.info then (Inline.elems.go env.cx c.body).dropWhile isBr else []), [], []⟩ : PStack).intoElements =
      if c.shows info then (Block.para c.body).elems ⟨settings, w, info⟩ else [] := by
    rw [PStack.intoElements, hel, para_elems]
    show paraOf (if c.shows info then _ else _) = _
    cases c.shows info <;> rfl
  rw [hh] at hrun
  have hint := hrun
  rw [show gatherParagraphs (consume maxRecursionDepth) .page none env ⟨p0.at (⟨.inputStart, [], 0, 0⟩ :: (xs ++ [e])) true, ⟨[], [], [], [], []⟩⟩ =
    parseInternal env by
      unfold parseInternal
      rw [show env.tokens = ⟨.inputStart, [], 0, 0⟩ :: (xs ++ [e]) from ht]
      rfl] at hint
  show parseEnv env = _
  unfold parseEnv
  rw [hint]
  obtain ⟨trees, t1, t2, _⟩ := C15_process_depths () ([] : List (Nat × Unit × Str))
  have ht : trees = [] := by
    have h : processDepths () ([] : List (Nat × Unit × Str)) = some [] := by rfl
    rw [h] at t1; cases t1; rfl
  subst ht
  have hn : putNotes ⟨[], [], [], [], []⟩ (notesOf env.cx c.body) = ⟨[], [], [], notesOf env.cx c.body, []⟩ := by
    cases h : notesOf env.cx c.body <;> simp [putNotes]
  dsimp only
  rw [hn, List.map_nil, t1]
  rfl

/-- C76: a page with the line `[[iftags conditions]]contents[[/iftags]]` has the contents as its paragraph if its
tags meet the conditions, and nothing otherwise.  The footnotes of the contents are listed in both cases. -/
theorem C76_iftags {c : Conditional} (hc : c.ok = true) (hn : lowerA c.name = c!"iftags") (w : World) (info : PageInfo) (settings : Settings)
    (n m : Nat) {cs : List (Nat × TagCond)} (h : ∀ x ∈ cs, x.2.ok = true)
    (hs : plainText c.spec = List.replicate n ' ' ++ TagCond.writeAll cs ++ List.replicate m ' ') :
    ∃ o, parse w (tokenize c.write) info settings = some (.ok o) ∧ o.errors = [] ∧
      (TagCond.Pass (cs.map (·.2)) info.tags →
        o.tree.elements = Page.elems ⟨settings, w, info⟩ [(.para c.body, true)] ++ [.mk (.footnoteBlock none false) []]) ∧
      (¬ TagCond.Pass (cs.map (·.2)) info.tags → o.tree.elements = [.mk (.footnoteBlock none false) []]) ∧
      o.tree.footnotes = (Inline.notes.go c.body).map (noteElems ⟨settings, w, info⟩) := by
  obtain ⟨o, o1, o2, o3, o4⟩ := cond_parses hc w info settings
  have hsh : c.shows info = true ↔ TagCond.Pass (cs.map (·.2)) info.tags := by
    rw [Conditional.shows, if_pos hn, hs]
    exact C76_conditions n m h info.tags
  refine ⟨o, o1, o2, fun hp => ?_, fun hp => ?_, o4⟩
  · rw [o3, if_pos (hsh.2 hp)]; simp [Page.elems]
  · rw [o3, if_neg (fun h => hp (hsh.1 h))]; rfl

/-- C76: likewise with `[[ifcategory]]` for the category of the page, which is `_default` if it has none. -/
theorem C76_ifcategory {c : Conditional} (hc : c.ok = true) (hn : lowerA c.name = c!"ifcategory") (w : World) (info : PageInfo) (settings : Settings)
    (n m : Nat) {cs : List (Nat × TagCond)} (h : ∀ x ∈ cs, x.2.ok = true)
    (hs : plainText c.spec = List.replicate n ' ' ++ TagCond.writeAll cs ++ List.replicate m ' ') :
    ∃ o, parse w (tokenize c.write) info settings = some (.ok o) ∧ o.errors = [] ∧
      (TagCond.Pass (cs.map (·.2.anyOf)) [info.category.getD c!"_default"] →
        o.tree.elements = Page.elems ⟨settings, w, info⟩ [(.para c.body, true)] ++ [.mk (.footnoteBlock none false) []]) ∧
      (¬ TagCond.Pass (cs.map (·.2.anyOf)) [info.category.getD c!"_default"] → o.tree.elements = [.mk (.footnoteBlock none false) []]) ∧
      o.tree.footnotes = (Inline.notes.go c.body).map (noteElems ⟨settings, w, info⟩) := by
  obtain ⟨o, o1, o2, o3, o4⟩ := cond_parses hc w info settings
  have hsh : c.shows info = true ↔ TagCond.Pass (cs.map (·.2.anyOf)) [info.category.getD c!"_default"] := by
    rw [Conditional.shows, if_neg (by rw [hn]; decide), hs]
    exact C76_categories n m h _
  refine ⟨o, o1, o2, fun hp => ?_, fun hp => ?_, o4⟩
  · rw [o3, if_pos (hsh.2 hp)]; simp [Page.elems]
  · rw [o3, if_neg (fun h => hp (hsh.1 h))]; rfl

/-- A line for pages with the tag `scp` but not `joke`. -/
def scpLine : Conditional :=
  ⟨c!"IfTags", [.char '+', .word c!"scp", .blanks 1, .char '-', .word c!"joke"],
    [.styled .bold [.plain (.word c!"x")], .note c!"footnote" [.plain (.word c!"n")] c!"footnote"], c!"iftags"⟩

example : scpLine.ok = true := by decide +kernel
example : scpLine.write = c!"[[IfTags +scp  -joke]]**x**[[footnote]]n[[/footnote]][[/iftags]]" := by decide +kernel
example : plainText scpLine.spec = List.replicate 0 ' ' ++ TagCond.writeAll [(0, .need c!"scp"), (1, .avoid c!"joke")] ++ List.replicate 0 ' ' := by decide
example : TagCond.Pass [.need c!"scp", .avoid c!"joke"] [c!"x", c!"scp"] ∧ ¬ TagCond.Pass [.need c!"scp", .avoid c!"joke"] [c!"joke", c!"scp"] := by
  simp [TagCond.Pass]

/-- A line for pages that are no drafts. -/
def draftLine : Conditional :=
  ⟨c!"ifcategory", [.char '-', .word c!"draft"], [.plain (.word c!"x")], c!"ifcategory"⟩

example : draftLine.ok = true := by decide +kernel
example : draftLine.write = c!"[[ifcategory -draft]]x[[/ifcategory]]" := by decide +kernel
example : plainText draftLine.spec = List.replicate 0 ' ' ++ TagCond.writeAll [(0, .avoid c!"draft")] ++ List.replicate 0 ' ' := by decide
example : TagCond.Pass ([TagCond.avoid c!"draft"].map TagCond.anyOf) [(none : Option Str).getD c!"_default"] := by
  simp [TagCond.Pass, TagCond.anyOf]

/-- The HTML of a page, if there is any. -/
def htmlOf (text : Str) : Str :=
  match resultOf (parsePage text) with
  | some o => match htmlRender 3 plainHWorld somePage (Settings.fromMode .page .wikidot) o.tree with
    | .ok out => out.body
    | _ => []
  | none => []

/-- **C76** A footnote in contents that are not shown takes the place of the next one: on a page without tags the
reference after `b` shows `a`, the footnote of the hidden contents, instead of its own text `c`. -/
theorem C76_hidden_footnote_shown :
    somePage.tags = [] ∧
    c!"b<span class=\"wj-footnote-ref\">" <:+: htmlOf c!"[[iftags +q]][[footnote]]a[[/footnote]][[/iftags]]b[[footnote]]c[[/footnote]]" ∧
    c!"<span class=\"wj-footnote-ref-contents\">a</span>" <:+: htmlOf c!"[[iftags +q]][[footnote]]a[[/footnote]][[/iftags]]b[[footnote]]c[[/footnote]]" ∧
    ¬ c!"<span class=\"wj-footnote-ref-contents\">c" <:+: htmlOf c!"[[iftags +q]][[footnote]]a[[/footnote]][[/iftags]]b[[footnote]]c[[/footnote]]" := by
  refine ⟨rfl, ?_⟩
  rw [infix_any, infix_any, infix_any]
  decide +kernel

end Ftml
