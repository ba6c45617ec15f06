import Verif.Lemmas.PageRun
/-
Boxes around blocks.
-/
namespace Ftml
open M Markup Lexer
variable {env : Env}

/-! ### Which block it is -/

theorem boxes_rule : ∀ q ∈ boxNames, ∃ br, getBlockRule q.1 = some br ∧ br.info.newlines = true ∧
    (∀ cons nm ih, br.parse cons ⟨nm, false, false, ih⟩ = (do
      let args ← getHeadMap br.info ih
      let r ← getBody cons br.info true
      let attrs ← toAttrs args
      okE [eContainer q.2 r.item attrs] r.errors)) ∧
    (∀ q' ∈ boxNames, q'.2 = q.2 → q'.1 ∈ br.info.names) ∧ (q.2 = .div ∨ q.2 = .blockquote) := by
  intro q hq
  simp only [boxNames, List.mem_cons, List.not_mem_nil, or_false] at hq
  rcases hq with rfl | rfl | rfl
  · exact ⟨blockRules[15], getBlockRule_idx (k := 15) (by decide +kernel) rfl, rfl, fun _ _ _ => rfl, by decide +kernel, .inl rfl⟩
  · exact ⟨blockRules[7], getBlockRule_idx (k := 7) (by decide +kernel) rfl, rfl, fun _ _ _ => rfl, by decide +kernel, .inr rfl⟩
  · exact ⟨blockRules[7], getBlockRule_idx (k := 7) (by decide +kernel) rfl, rfl, fun _ _ _ => rfl, by decide +kernel, .inr rfl⟩

/-- The rule of an alignment. -/
def alignRule : Alignment → BlockRule
  | .center => blockRules[0]
  | .justify => blockRules[1]
  | .left => blockRules[2]
  | .right => blockRules[3]

theorem align_rule (a : Alignment) : getBlockRule (plainText (alignMark a)) = some (alignRule a) ∧ (alignRule a).info.newlines = true ∧
    (alignRule a).info.names = [plainText (alignMark a)] ∧
    (∀ cons nm ih, (alignRule a).parse cons ⟨nm, false, false, ih⟩ = (do
      getHeadNone (alignRule a).info ih
      let r ← getBody cons (alignRule a).info true
      okE [eContainer (.align a) r.item] r.errors)) := by
  cases a
  · exact ⟨getBlockRule_idx (k := 2) (by decide +kernel) rfl, rfl, rfl, fun _ _ _ => rfl⟩
  · exact ⟨getBlockRule_idx (k := 3) (by decide +kernel) rfl, rfl, rfl, fun _ _ _ => rfl⟩
  · exact ⟨getBlockRule_idx (k := 0) (by decide +kernel) rfl, rfl, rfl, fun _ _ _ => rfl⟩
  · exact ⟨getBlockRule_idx (k := 1) (by decide +kernel) rfl, rfl, rfl, fun _ _ _ => rfl⟩

/-! ### Options -/

theorem folded_bool {v : Str} (h : [c!"true", c!"false", c!"t", c!"f", c!"1", c!"0", c!"yes", c!"no"].contains (lowerA (trim v)) = true) :
    parseBoolean v = some (! [c!"false", c!"f", c!"0", c!"no"].contains (lowerA (trim v))) := by
  unfold parseBoolean
  generalize trim v = u at h ⊢
  simp only [List.contains_iff_mem, List.mem_cons, List.not_mem_nil, or_false] at h
  simp only [eqIgnoreCase]
  generalize lowerA u = w at h ⊢
  rcases h with rfl | rfl | rfl | rfl | rfl | rfl | rfl | rfl <;> decide

theorem hide_location {v : Str} (h : [c!"top", c!"bottom", c!"both", c!"neither", c!"none"].contains (lowerA (trim v)) = true) :
    parseHideLocation v = some (lowerA (trim v) == c!"top" || lowerA (trim v) == c!"both",
      lowerA (trim v) == c!"bottom" || lowerA (trim v) == c!"both") := by
  unfold parseHideLocation
  generalize trim v = u at h ⊢
  simp only [List.contains_iff_mem, List.mem_cons, List.not_mem_nil, or_false] at h
  rcases h with h | h | h | h | h <;> simp only [eqIgnoreCase, h] <;> decide

/-- The options of a collapsible box, and what is left. -/
theorem collapsible_args {name close : Str} {args : List Arg} (h : (Section.collapsible name args close).ok = true) (cons : M (PS Elements))
    (b : BlockInfo) (s : St) {r : PS (List Elem)} {s' : St} (hbody : getBody cons b true env s = .ok r s') :
    (do
      let (showText, args) := argGet (rawArgs args) c!"show"
      let (hideText, args) := argGet args c!"hide"
      let (folded, args) ← argBool args c!"folded"
      let (location, args) := argGet args c!"hideLocation"
      let (top, bottom) ← (match location with
        | some v => orFail .blockMalformedArguments (parseHideLocation v)
        | none => pure (true, false))
      let r ← getBody cons b true
      let attrs ← toAttrs args
      okE [.mk (.collapsible attrs (!folded.getD true) showText hideText top bottom) r.item] r.errors : M (PS Elements)) env s =
    (okE [.mk ((Section.collapsible name args close).kind env.cx) r.item] r.errors : M (PS Elements)) env s' := by
  simp only [Section.ok, Bool.and_eq_true, beq_iff_eq] at h
  obtain ⟨⟨⟨⟨_, _⟩, _⟩, hfold⟩, hloc⟩ := h
  have e1 : lowerA c!"show" = c!"show" := by decide
  have e2 : lowerA c!"hide" = c!"hide" := by decide
  have e3 : lowerA c!"folded" = c!"folded" := by decide
  have e4 : lowerA c!"hideLocation" = c!"hidelocation" := by decide
  dsimp only
  simp only [argGet_raw, argBool, e1, e2, e3]
  have hfil : ((((args.filter fun a => !(lowerA a.name == c!"show")).filter fun a => !(lowerA a.name == c!"hide")).filter fun a =>
      !(lowerA a.name == c!"folded")).filter fun a => !(lowerA a.name == c!"hidelocation")) = args.filter fun a => !a.isOption := by
    simp only [List.filter_filter]
    congr 1
    funext a
    simp only [Arg.isOption, collapsibleOptions, List.contains_cons, List.contains_nil, Bool.or_false, Bool.not_or]
    cases lowerA a.name == c!"show" <;> cases lowerA a.name == c!"hide" <;> cases lowerA a.name == c!"folded" <;>
      cases lowerA a.name == c!"hidelocation" <;> rfl
  rw [optionOf_filter (k := c!"show") (k' := c!"hide") (by decide),
    optionOf_filter (k := c!"hide") (k' := c!"folded") (by decide), optionOf_filter (k := c!"show") (k' := c!"folded") (by decide)]
  have rest : ∀ (folded : Option Bool), (! folded.getD true) = startsOpen args → ((do
      let (top, bottom) ← (match optionOf args c!"hidelocation" with
        | some v => orFail .blockMalformedArguments (parseHideLocation v)
        | none => pure (true, false))
      let r ← getBody cons b true
      let attrs ← toAttrs (rawArgs (args.filter fun a => !a.isOption))
      okE [.mk (.collapsible attrs (!folded.getD true) (optionOf args c!"show") (optionOf args c!"hide") top bottom) r.item] r.errors : M (PS Elements)) env s =
    (okE [.mk ((Section.collapsible name args close).kind env.cx) r.item] r.errors : M (PS Elements)) env s') := by
    intro folded hf
    rw [hf]
    cases hl : optionOf args c!"hidelocation" with
    | none =>
      dsimp only
      rw [bind_ok (pure_ok _ _ _)]
      dsimp only
      rw [bind_ok hbody, bind_ok (toAttrs_args _ _)]
      simp [Section.kind, hidePlace, hl]
    | some v =>
      rw [hl] at hloc
      dsimp only
      rw [hide_location (by simpa using hloc)]
      refine (bind_ok (m := orFail _ _) (a := _) (s' := s) rfl).trans ?_
      dsimp only
      rw [bind_ok hbody, bind_ok (toAttrs_args _ _)]
      simp [Section.kind, hidePlace, hl]
  cases hfo : optionOf args c!"folded" with
  | none =>
    dsimp only
    rw [bind_ok (pure_ok _ _ _)]
    dsimp only
    simp only [argGet_raw, e4, hfil]
    rw [optionOf_filter (k := c!"folded") (k' := c!"hidelocation") (by decide), optionOf_filter (k := c!"hide") (k' := c!"hidelocation") (by decide),
      optionOf_filter (k := c!"show") (k' := c!"hidelocation") (by decide)]
    exact rest none (by simp [startsOpen, hfo])
  | some v =>
    rw [hfo] at hfold
    have hv := folded_bool (v := v) (by simpa using hfold)
    dsimp only
    rw [hv]
    dsimp only
    rw [bind_ok (pure_ok _ _ _)]
    dsimp only
    simp only [argGet_raw, e4, hfil]
    rw [optionOf_filter (k := c!"folded") (k' := c!"hidelocation") (by decide), optionOf_filter (k := c!"hide") (k' := c!"hidelocation") (by decide),
      optionOf_filter (k := c!"show") (k' := c!"hidelocation") (by decide)]
    exact rest (some _) (by simp [startsOpen, hfo])

/-! ### The whole box -/

theorem getHeadValue_end {α : Type} {b : BlockInfo} {convert : Option Str → M α} {v : α} {p : PState} {sh : Shared} {r : ETok}
    {xs rest rest2 : List ETok} {sol sol2 : Bool} (hr : r.token = .rightBlock) (hrest : rest ≠ [])
    (hxs : ∀ x ∈ xs, x.token ≠ .rightBlock ∧ x.token ≠ .paragraphBreak ∧ x.token ≠ .lineBreak ∧ x.token ≠ .inputEnd)
    (hs : (xs ++ r :: rest) <:+ (tokenize env.text).tokens)
    (hv : convert (some (slicesOf xs)) env ⟨p.at rest false, sh⟩ = .ok v ⟨p.at rest false, sh⟩)
    (hb : HeadEnd b rest rest2 sol2) :
    getHeadValue b true convert env ⟨p.at (xs ++ r :: rest) sol, sh⟩ = .ok v ⟨p.at rest2 sol2, sh⟩ := by
  unfold getHeadValue
  simp only [if_true]
  refine (bind_ok (a := some (slicesOf xs)) (s' := ⟨p.at rest false, sh⟩) ?_).trans ?_
  · rw [bind_ok (collectText_at (xs := xs) (x := r) (rest := rest) ?_ (by simp [Meets, hr]) hrest (by simp [hr]) hs), hr]
    · rfl
    intro a b e hb
    obtain ⟨z, zs, rfl⟩ := List.exists_cons_of_ne_nil hb
    have := hxs z (by rw [e]; simp)
    exact ⟨by simp, by simp [Meets, this], by simp [Meets, this], by simpa using this.2.2.2⟩
  · rw [bind_ok hv, bind_ok (headEnd_false hb)]
    rfl

/-- What the block rule gives for a box: a tab is a part of a tab view. -/
def _root_.Ftml.Markup.Section.result (cx : Markup.Ctx) (s : Section) (es : List Elem) : Elem :=
  if s.isTab then .mk (.part .tab) [.mk (s.kind cx) es] else .mk (s.kind cx) es

theorem tabs_name {name : Str} (h : [c!"tabview", c!"tabs"].contains (lowerA name) = true) :
    lowerA name ∈ [c!"tabview", c!"tabs"] ∧ (Plain.word name).ok = true ∧ getBlockRule (lowerA name) = some blockRules[55] := by
  simp only [List.contains_iff_mem] at h
  refine ⟨h, ?_⟩
  simp only [List.mem_cons, List.not_mem_nil, or_false] at h
  rcases h with h | h <;> refine ⟨lower_word h rfl, ?_⟩ <;> rw [h] <;> exact getBlockRule_idx (k := 55) (by decide +kernel) rfl

theorem mark_name {ns : List ETok} {a : Alignment} (h : ns.map ETok.pair = (alignMark a).map Plain.lex) :
    slicesOf ns = plainText (alignMark a) ∧ (∀ x ∈ ns, endsName x.token = false ∧ x.token ≠ .inputEnd) ∧
      trim (slicesOf ns) = slicesOf ns ∧ stripSfx c!"_" (slicesOf ns) = none ∧ EndName ns ∧ stripScore (slicesOf ns) = slicesOf ns := by
  have e := (plains_tok h).2
  have ht : ns.map (·.token) = (alignMark a).map (·.lex.1) := by
    have := congrArg (List.map (·.1)) h
    simpa [List.map_map, Function.comp_def] using this
  have hk : ∀ x ∈ ns, endsName x.token = false ∧ x.token ≠ .inputEnd ∧ x.token ≠ .leftBlock ∧ x.token ≠ .leftBlockStar := by
    intro x hx
    have : x.token ∈ (alignMark a).map (·.lex.1) := by rw [← ht]; exact List.mem_map_of_mem hx
    revert this
    generalize x.token = t
    revert t
    cases a <;> decide
  have hne : ns ≠ [] := by
    rintro rfl
    cases a <;> simp [alignMark] at h
  have htr : trim (slicesOf ns) = slicesOf ns := by rw [e]; cases a <;> decide
  refine ⟨e, fun x hx => ⟨(hk x hx).1, (hk x hx).2.1⟩, htr, by rw [e]; cases a <;> decide, ⟨hne, ?_, fun x hx => ⟨(hk x hx).1, (hk x hx).2.1⟩, htr⟩, by rw [e]; cases a <;> decide⟩
  obtain ⟨y, ys, rfl⟩ := List.exists_cons_of_ne_nil hne
  exact (hk y (by simp)).2.2

theorem section_run {s : Section} (hok : s.ok = true) (hnt : s.isTabs = false) {os body cs rest : List ETok} {x : ETok} {sol : Bool}
    (hos : os.map ETok.pair = s.openLex) (hx : x.token = .lineBreak) (hcs : cs.map ETok.pair = s.closeLex) (hr : rest ≠ [])
    (hs : (os ++ x :: (body ++ (cs ++ rest))) <:+ (tokenize env.text).tokens) :
    ∃ r', ∀ (cons : M (PS Elements)) (p : PState) (sh sh' : Shared) (W : List ETok) (sol' : Bool) (st : PStack) (safe : Bool),
      (W = [] ∨ ∃ w, W = [w] ∧ w.token = .lineBreak) →
      (W = [] ∨ (body ++ (cs ++ rest)).length ≠ (W ++ (cs ++ rest)).length ∧
        ((body ++ (cs ++ rest)).headD default).token ≠ .paragraphBreak) →
      Gathers env cons { p with rule := r' } (body ++ (cs ++ rest)) true sh PStack.new (W ++ (cs ++ rest)) sol' sh' st →
      st.errors = [] → elementsParagraphSafe? st.endParagraph.finished = some safe →
      ruleBlock cons false env ⟨p.at (os ++ x :: (body ++ (cs ++ rest))) sol, sh⟩ =
        .ok ⟨[s.result env.cx st.intoElements], [], false⟩ ⟨({ p with rule := r' } : PState).at rest false, sh'⟩ := by
  have hB : body ++ (cs ++ rest) ≠ [] := by simp [hr]
  have getB : ∀ {br : BlockRule} {o c : ETok} {ms : List ETok}, cs = o :: (ms ++ [c]) → br.info.newlines = true → EndName ms →
      br.info.names.any (fun m => eqIgnoreCase (stripScore (slicesOf ms)) m) = true → o.token = .leftBlockEnd → c.token = .rightBlock →
      ∀ (cons : M (PS Elements)) (p : PState) (sh sh' : Shared) (W : List ETok) (sol' : Bool) (st : PStack) (safe : Bool),
      (W = [] ∨ ∃ w, W = [w] ∧ w.token = .lineBreak) →
      (W = [] ∨ (body ++ (cs ++ rest)).length ≠ (W ++ (cs ++ rest)).length ∧
        ((body ++ (cs ++ rest)).headD default).token ≠ .paragraphBreak) →
      Gathers env cons p (body ++ (cs ++ rest)) true sh PStack.new (W ++ (cs ++ rest)) sol' sh' st →
      st.errors = [] → elementsParagraphSafe? st.endParagraph.finished = some safe →
      getBody cons br.info true env ⟨p.at (body ++ (cs ++ rest)) true, sh⟩ =
        .ok ⟨st.intoElements, [], safe⟩ ⟨p.at rest false, sh'⟩ := by
    intro br o c ms hcs' hnl hend hname ho hc cons p sh sh' W sol' st safe hW hfirst hg herr hsafe
    have e : cs ++ rest = o :: (ms ++ c :: rest) := by rw [hcs']; simp
    rw [e] at hg hfirst hs ⊢
    refine bodyParagraphs_gathers hg ?_ hfirst ho hend hc hr hname ?_ herr hsafe
    · rcases hW with h | ⟨w, h1, h2⟩
      · exact .inl h
      · exact .inr ⟨w, h1, h2, hnl⟩
    · refine List.IsSuffix.trans ?_ hs
      exact ⟨os ++ x :: (body ++ [o]), by simp⟩
  have headEnd : ∀ {b : BlockInfo}, b.newlines = true → HeadEnd b (x :: (body ++ (cs ++ rest))) (body ++ (cs ++ rest)) true :=
    fun h => .inr ⟨h, hB, rfl, x, rfl, hx⟩
  cases s with
  | box name args close =>
    simp only [Section.ok, Bool.and_eq_true, beq_iff_eq] at hok
    obtain ⟨⟨⟨⟨w1, w2⟩, hargs⟩, h4⟩, h5⟩ := hok
    obtain ⟨ct, hct⟩ := Option.isSome_iff_exists.1 h4
    have m1 := lookup_mem (l := boxNames) (k := lowerA name) hct
    have m2 := lookup_mem (l := boxNames) (k := lowerA close) (h5.symm.trans hct)
    obtain ⟨br, k1, k2, k3, k4, k5⟩ := boxes_rule _ m1
    obtain ⟨l, os, rfl, hl, hos⟩ := List.map_eq_cons_iff.1 hos
    obtain ⟨m, os, rfl, hm, hos⟩ := List.map_eq_cons_iff.1 hos
    obtain ⟨as, rs, rfl, has, hrs⟩ := map_append_split hos
    obtain ⟨r, rfl, hr0⟩ := List.map_eq_singleton_iff.1 hrs
    have hrt : r.token = .rightBlock := congrArg (·.1) hr0
    obtain ⟨o, cs', hcse, ho, hcs⟩ := List.map_eq_cons_iff.1 hcs
    obtain ⟨n, cs', rfl, hn, hcs⟩ := List.map_eq_cons_iff.1 hcs
    obtain ⟨c, rfl, hc⟩ := List.map_eq_singleton_iff.1 hcs
    obtain ⟨n1, n2, n3, n4, _⟩ := word_name hm w1
    obtain ⟨e1, _, _, _, e5⟩ := word_name hn w2
    have e0 : l :: m :: (as ++ [r]) ++ x :: (body ++ (cs ++ rest)) = l :: ([m] ++ (as ++ r :: x :: (body ++ (cs ++ rest)))) := by simp
    rw [e0] at hs
    have hs1 := List.IsSuffix.trans (List.suffix_cons l _) hs
    have hs2 := List.IsSuffix.trans (List.suffix_append [m] _) hs1
    refine ⟨.blk br.info.name, fun cons p sh sh' W sol' st safe hW hfirst hg herr hsafe => ?_⟩
    obtain ⟨d, tl, q1, h1, h2, h3, h4⟩ := head_parts (env := env) (b := br.info) (p := { p with rule := .blk br.info.name }) (sh := sh)
      hargs has hrt (by simp) hs2 (headEnd k2) (fun _ => by simp [hx])
    rw [e0, q1]
    rw [q1] at hs1
    refine ruleBlock_run (ns := [m]) (c := d) (rest := tl) (br := br) (congrArg (·.1) hl) (by simp) n2 h1 h2 n3 hs1 n4
      (by rw [n1, getBlockRule_lower w1]; exact k1) (by simp) h3 (k3 cons _ _) ?_ ?_
    · rw [bind_ok h4, bind_ok (getB (br := br) (ms := [n]) hcse k2 e5 (by rw [e1]; exact names_lower w2 _ (k4 _ m2 rfl)) (congrArg (·.1) ho)
        (congrArg (·.1) hc) cons _ sh sh' W sol' st safe hW hfirst hg herr hsafe)]
      dsimp only
      rw [bind_ok (toAttrs_args args _)]
      simp only [Section.result, Section.isTab, Bool.false_eq_true, if_false, Section.kind, hct, Option.getD_some]
      have hk5 : ct = .div ∨ ct = .blockquote := k5
      rcases hk5 with rfl | rfl <;> rfl
    · have := congrArg List.length q1
      intro e
      have h5 := congrArg List.length e
      have h6 := List.length_pos_iff.2 hr
      simp at this h5
      omega
  | collapsible name args close =>
    have hok' := hok
    simp only [Section.ok, Bool.and_eq_true, beq_iff_eq] at hok
    obtain ⟨⟨⟨⟨hn1, hn2⟩, hall⟩, _⟩, _⟩ := hok
    have w1 : (Plain.word name).ok = true := lower_word hn1 rfl
    have w2 : (Plain.word close).ok = true := lower_word hn2 rfl
    let br := blockRules[12]
    have k1 : getBlockRule (lowerA name) = some br := by rw [hn1]; exact getBlockRule_idx (k := 12) (by decide +kernel) rfl
    have k2 : br.info.newlines = true := rfl
    obtain ⟨l, os, rfl, hl, hos⟩ := List.map_eq_cons_iff.1 hos
    obtain ⟨m, os, rfl, hm, hos⟩ := List.map_eq_cons_iff.1 hos
    obtain ⟨as, rs, rfl, has, hrs⟩ := map_append_split hos
    obtain ⟨r, rfl, hr0⟩ := List.map_eq_singleton_iff.1 hrs
    have hrt : r.token = .rightBlock := congrArg (·.1) hr0
    obtain ⟨o, cs', hcse, ho, hcs⟩ := List.map_eq_cons_iff.1 hcs
    obtain ⟨n, cs', rfl, hn, hcs⟩ := List.map_eq_cons_iff.1 hcs
    obtain ⟨c, rfl, hc⟩ := List.map_eq_singleton_iff.1 hcs
    obtain ⟨n1, n2, n3, n4, _⟩ := word_name hm w1
    obtain ⟨e1, _, _, _, e5⟩ := word_name hn w2
    have e0 : l :: m :: (as ++ [r]) ++ x :: (body ++ (cs ++ rest)) = l :: ([m] ++ (as ++ r :: x :: (body ++ (cs ++ rest)))) := by simp
    rw [e0] at hs
    have hs1 := List.IsSuffix.trans (List.suffix_cons l _) hs
    have hs2 := List.IsSuffix.trans (List.suffix_append [m] _) hs1
    refine ⟨.blk br.info.name, fun cons p sh sh' W sol' st safe hW hfirst hg herr hsafe => ?_⟩
    obtain ⟨d, tl, q1, h1, h2, h3, h4⟩ := head_parts (env := env) (b := br.info) (p := { p with rule := .blk br.info.name }) (sh := sh)
      hall has hrt (by simp) hs2 (headEnd k2) (fun _ => by simp [hx])
    rw [e0, q1]
    rw [q1] at hs1
    refine ruleBlock_run (ns := [m]) (c := d) (rest := tl) (br := br) (congrArg (·.1) hl) (by simp) n2 h1 h2 n3 hs1 n4
      (by rw [n1, getBlockRule_lower w1]; exact k1) (by simp) h3 (bc := blkCollapsible br.info cons ⟨slicesOf [m], false, false, d.token == .whitespace⟩) rfl ?_ ?_
    · unfold blkCollapsible
      rw [bind_ok (m := noStar _ _ _) (a := ()) (s' := _) rfl, bind_ok (m := noScore _ _ _) (a := ()) (s' := _) rfl]
      rw [bind_ok h4]
      have hb := getB (br := br) (ms := [n]) hcse k2 e5 (by rw [e1]; exact names_lower w2 _ (by rw [hn2]; decide)) (congrArg (·.1) ho)
        (congrArg (·.1) hc) cons _ sh sh' W sol' st safe hW hfirst hg herr hsafe
      exact (collapsible_args hok' cons br.info _ hb).trans rfl
    · have := congrArg List.length q1
      intro e
      have h5 := congrArg List.length e
      have h6 := List.length_pos_iff.2 hr
      simp at this h5
      omega
  | align a =>
    obtain ⟨k1, k2, k3, k4⟩ := align_rule a
    generalize hbr : alignRule a = br at k1 k2 k3 k4
    obtain ⟨l, os, rfl, hl, hos⟩ := List.map_eq_cons_iff.1 hos
    obtain ⟨ns, rs, rfl, hns, hrs⟩ := map_append_split hos
    obtain ⟨r, rfl, hr0⟩ := List.map_eq_singleton_iff.1 hrs
    have hrt : r.token = .rightBlock := congrArg (·.1) hr0
    obtain ⟨o, cs', hcse, ho, hcs⟩ := List.map_eq_cons_iff.1 hcs
    obtain ⟨ms, cs2, rfl, hms, hcs⟩ := map_append_split hcs
    obtain ⟨c, rfl, hc⟩ := List.map_eq_singleton_iff.1 hcs
    obtain ⟨n1, n2, n3, n4, n5, _⟩ := mark_name hns
    obtain ⟨e1, _, _, _, e5, e6⟩ := mark_name hms
    have e0 : l :: (ns ++ [r]) ++ x :: (body ++ (cs ++ rest)) = l :: (ns ++ r :: x :: (body ++ (cs ++ rest))) := by simp
    rw [e0] at hs
    have hs1 := List.IsSuffix.trans (List.suffix_cons l _) hs
    refine ⟨.blk br.info.name, fun cons p sh sh' W sol' st safe hW hfirst hg herr hsafe => ?_⟩
    rw [e0]
    refine ruleBlock_run (ns := ns) (c := r) (rest := x :: (body ++ (cs ++ rest))) (br := br) (congrArg (·.1) hl) n5.ne n2 (.inr hrt) (by simp) n3 hs1 n4
      (by rw [n1]; exact k1) (by simp) (by simp [hrt]) (k4 cons _ _) ?_ (by simpa using hB)
    rw [if_neg (by simp [hrt]), if_neg (by simp [hx])]
    have hih : (r.token == Token.whitespace) = false := by simp [hrt]
    rw [hih]
    have hhead : getHeadNone br.info false env ⟨({ p with rule := .blk br.info.name } : PState).at (x :: (body ++ (cs ++ rest))) false, sh⟩ =
        .ok () ⟨({ p with rule := .blk br.info.name } : PState).at (body ++ (cs ++ rest)) true, sh⟩ := by
      unfold getHeadNone getOptionalSpace
      rw [bind_ok (optTok_no (by simp [hx]))]
      exact headEnd_false (headEnd k2)
    rw [bind_ok hhead, bind_ok (getB (br := br) (ms := ms) hcse k2 e5 (by rw [e6, e1, k3]; simp [eqIgnoreCase]) (congrArg (·.1) ho)
        (congrArg (·.1) hc) cons _ sh sh' W sol' st safe hW hfirst hg herr hsafe)]
    cases a <;> rfl
  | tabs => cases hnt
  | tab name label close =>
    simp only [Section.ok, Bool.and_eq_true, beq_iff_eq] at hok
    obtain ⟨⟨hn1, hn2⟩, hlab⟩ := hok
    have w1 : (Plain.word name).ok = true := lower_word hn1 rfl
    have w2 : (Plain.word close).ok = true := lower_word hn2 rfl
    let br := blockRules[49]
    have k1 : getBlockRule (lowerA name) = some br := by rw [hn1]; exact getBlockRule_idx (k := 49) (by decide +kernel) rfl
    have k2 : br.info.newlines = true := rfl
    obtain ⟨l, os, rfl, hl, hos⟩ := List.map_eq_cons_iff.1 hos
    obtain ⟨m, os, rfl, hm, hos⟩ := List.map_eq_cons_iff.1 hos
    obtain ⟨d, os, rfl, hd, hos⟩ := List.map_eq_cons_iff.1 hos
    obtain ⟨vs, rs, rfl, hvs, hrs⟩ := map_append_split hos
    obtain ⟨r, rfl, hr0⟩ := List.map_eq_singleton_iff.1 hrs
    have hrt : r.token = .rightBlock := congrArg (·.1) hr0
    have hdt : d.token = .whitespace := congrArg (·.1) hd
    obtain ⟨o, cs', hcse, ho, hcs⟩ := List.map_eq_cons_iff.1 hcs
    obtain ⟨n, cs', rfl, hn, hcs⟩ := List.map_eq_cons_iff.1 hcs
    obtain ⟨c, rfl, hc⟩ := List.map_eq_singleton_iff.1 hcs
    obtain ⟨n1, n2, n3, n4, _⟩ := word_name hm w1
    obtain ⟨e1, _, _, _, e5⟩ := word_name hn w2
    obtain ⟨hvt, hvv⟩ := plains_tok hvs
    have e0 : l :: m :: d :: (vs ++ [r]) ++ x :: (body ++ (cs ++ rest)) = l :: ([m] ++ d :: (vs ++ r :: x :: (body ++ (cs ++ rest)))) := by simp
    rw [e0] at hs
    have hs1 := List.IsSuffix.trans (List.suffix_cons l _) hs
    have hs2 := List.IsSuffix.trans (List.suffix_append [m, d] _) hs1
    refine ⟨.blk br.info.name, fun cons p sh sh' W sol' st safe hW hfirst hg herr hsafe => ?_⟩
    rw [e0]
    refine ruleBlock_run (ns := [m]) (c := d) (rest := vs ++ r :: x :: (body ++ (cs ++ rest))) (br := br) (congrArg (·.1) hl) (by simp) n2 (.inl hdt) (by simp) n3 hs1 n4
      (by rw [n1]; exact (getBlockRule_lower w1).trans k1) (by simp) (fun _ => value_head hlab hvs _)
      (bc := blkTab br.info cons ⟨slicesOf [m], false, false, d.token == .whitespace⟩) rfl ?_ ?_
    · rw [if_pos hdt]
      have hih : (d.token == Token.whitespace) = true := by simp [hdt]
      rw [hih]
      unfold blkTab
      rw [bind_ok (m := noStar _ _ _) (a := ()) (s' := _) rfl, bind_ok (m := noScore _ _ _) (a := ()) (s' := _) rfl]
      rw [bind_ok (getHeadValue_end (v := plainText label) hrt (by simp) (fun x hx => by
        have := hvt x hx
        revert this; cases x.token <;> simp [isPlainTok, isLineTok]) hs2 (by rw [hvv]; rfl) (headEnd k2))]
      rw [bind_ok (getB (br := br) (ms := [n]) hcse k2 e5 (by rw [e1]; exact names_lower w2 _ (by rw [hn2]; decide)) (congrArg (·.1) ho)
        (congrArg (·.1) hc) cons _ sh sh' W sol' st safe hW hfirst hg herr hsafe)]
      rfl
    · intro e
      have h5 := congrArg List.length e
      have h6 := List.length_pos_iff.2 hr
      simp at h5

/-- The line break before a box is left out. -/
theorem section_skip {s : Section} (hok : s.ok = true) {os rest : List ETok} {w : ETok} {p : PState} {sol : Bool} {sh : Shared}
    (hos : os.map ETok.pair = s.openLex) (hr : rest ≠ []) (hs : (os ++ rest) <:+ (tokenize env.text).tokens) :
    ruleBlockSkip env ⟨p.at (w :: (os ++ rest)) sol, sh⟩ = .ok ⟨[], [], true⟩ ⟨p.at (os ++ rest) (isLineStartTok w.token), sh⟩ := by
  have go : ∀ {l c : ETok} {ns tl : List ETok} {br : BlockRule}, os ++ rest = l :: (ns ++ c :: tl) → l.token = .leftBlock →
      ns ≠ [] → (∀ x ∈ ns, endsName x.token = false ∧ x.token ≠ .inputEnd) → (c.token = .whitespace ∨ c.token = .rightBlock) →
      tl ≠ [] → trim (slicesOf ns) = slicesOf ns → getBlockRule (slicesOf ns) = some br → br.info.newlines = true →
      ruleBlockSkip env ⟨p.at (w :: (os ++ rest)) sol, sh⟩ = .ok ⟨[], [], true⟩ ⟨p.at (os ++ rest) (isLineStartTok w.token), sh⟩ := by
    intro l c ns tl br e hl hne hn hc htl htr hbr hnl
    rw [e] at hs ⊢
    unfold ruleBlockSkip
    rw [bind_ok (step_at ..)]
    rw [bind_ok (evaluateFn_ok (b := true) (s' := ⟨p.at tl false, sh⟩) ?_)]
    · rfl
    · rw [if_neg (by simp [hl])]
      rw [bind_ok (blockName_open (star := false) (by simp [hl]) hne hn hc htl htr (List.IsSuffix.trans (List.suffix_cons l _) hs))]
      dsimp only
      rw [hbr]
      dsimp only
      rw [hnl]
      rfl
  have args_split : ∀ {as : List ETok} {args : List Arg} {r : ETok} {T : List ETok}, as.map ETok.pair = args.flatMap Arg.lex →
      r.token = .rightBlock → T ≠ [] → ∃ c tl, as ++ r :: T = c :: tl ∧ (c.token = .whitespace ∨ c.token = .rightBlock) ∧ tl ≠ [] := by
    intro as args r T has hrt hT
    cases args with
    | nil => simp at has; subst has; exact ⟨r, T, rfl, .inr hrt, hT⟩
    | cons a args =>
      rw [List.flatMap_cons, Arg.lex, List.cons_append] at has
      obtain ⟨w, as', rfl, hw, _⟩ := List.map_eq_cons_iff.1 has
      exact ⟨w, as' ++ r :: T, rfl, .inl (congrArg (·.1) hw), by simp⟩
  have named : ∀ {name : Str} {args : List Arg} {br : BlockRule}, os.map ETok.pair = (.leftBlock, c!"[[") :: (.identifier, name) ::
      (args.flatMap Arg.lex ++ [(.rightBlock, c!"]]")]) → (Plain.word name).ok = true → getBlockRule (lowerA name) = some br →
      br.info.newlines = true →
      ruleBlockSkip env ⟨p.at (w :: (os ++ rest)) sol, sh⟩ = .ok ⟨[], [], true⟩ ⟨p.at (os ++ rest) (isLineStartTok w.token), sh⟩ := by
    intro name args br hos w1 k1 k2
    obtain ⟨l, os', e1, hl, hos⟩ := List.map_eq_cons_iff.1 hos
    obtain ⟨m, os', rfl, hm, hos⟩ := List.map_eq_cons_iff.1 hos
    obtain ⟨as, rs, rfl, has, hrs⟩ := map_append_split hos
    obtain ⟨r, rfl, hr0⟩ := List.map_eq_singleton_iff.1 hrs
    obtain ⟨c, tl, e2, hc, htl⟩ := args_split has (congrArg (·.1) hr0) hr
    obtain ⟨n1, n2, n3, n4, _⟩ := word_name hm w1
    refine go (l := l) (c := c) (ns := [m]) (tl := tl) (br := br) ?_ (congrArg (·.1) hl) (by simp) n2 hc htl n3 ?_ k2
    · rw [e1]; simpa using e2
    · rw [n1, getBlockRule_lower w1]; exact k1
  cases s with
  | box name args close =>
    simp only [Section.ok, Bool.and_eq_true, beq_iff_eq] at hok
    obtain ⟨⟨⟨⟨w1, w2⟩, hargs⟩, h4⟩, h5⟩ := hok
    obtain ⟨ct, hct⟩ := Option.isSome_iff_exists.1 h4
    obtain ⟨br, k1, k2, _⟩ := boxes_rule _ (lookup_mem (l := boxNames) (k := lowerA name) hct)
    exact named hos w1 k1 k2
  | collapsible name args close =>
    simp only [Section.ok, Bool.and_eq_true, beq_iff_eq] at hok
    have hn1 := hok.1.1.1.1
    exact named (br := blockRules[12]) hos (lower_word hn1 rfl) (by rw [hn1]; exact getBlockRule_idx (k := 12) (by decide +kernel) rfl) rfl
  | align a =>
    obtain ⟨k1, k2, _⟩ := align_rule a
    obtain ⟨l, os', e1, hl, hos⟩ := List.map_eq_cons_iff.1 hos
    obtain ⟨ns, rs, rfl, hns, hrs⟩ := map_append_split hos
    obtain ⟨r, rfl, hr0⟩ := List.map_eq_singleton_iff.1 hrs
    obtain ⟨n1, n2, n3, n4, n5, _⟩ := mark_name hns
    refine go (l := l) (c := r) (ns := ns) (tl := rest) (br := alignRule a) ?_ (congrArg (·.1) hl) n5.ne n2 (.inr (congrArg (·.1) hr0)) hr n3 ?_ k2
    · rw [e1]; simp
    · rw [n1]; exact k1
  | tabs name close =>
    simp only [Section.ok, Bool.and_eq_true] at hok
    obtain ⟨_, w1, k1⟩ := tabs_name hok.1
    exact named (args := []) hos w1 k1 rfl
  | tab name label close =>
    simp only [Section.ok, Bool.and_eq_true, beq_iff_eq] at hok
    have w1 : (Plain.word name).ok = true := lower_word hok.1.1 rfl
    obtain ⟨l, os', e1, hl, hos⟩ := List.map_eq_cons_iff.1 hos
    obtain ⟨m, os', rfl, hm, hos⟩ := List.map_eq_cons_iff.1 hos
    obtain ⟨d, os', rfl, hd, hos⟩ := List.map_eq_cons_iff.1 hos
    obtain ⟨n1, n2, n3, n4, _⟩ := word_name hm w1
    refine go (l := l) (c := d) (ns := [m]) (tl := os' ++ rest) (br := blockRules[49]) ?_ (congrArg (·.1) hl) (by simp) n2 (.inl (congrArg (·.1) hd)) (by simp [hr]) n3 ?_ rfl
    · rw [e1]; simp
    · rw [n1, getBlockRule_lower w1, hok.1.1]
      exact getBlockRule_idx (k := 49) (by decide +kernel) rfl

end Ftml
