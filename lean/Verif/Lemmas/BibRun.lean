import Verif.Lemmas.GridRun
/-
Bibliographies.
-/
namespace Ftml
open M Markup Lexer
variable {env : Env}

theorem bibliographyRule : TagRule c!"bibliography" blockRules[6] := tagRule_at 6 (by decide) rfl (by decide +kernel) rfl (by decide)

/-! ### Entries -/

theorem bibGetFrom_none {E : Type} {label : Str} : ∀ {es : List (Str × List E)} {i : Nat},
    (Bibl.getFrom label i es).isNone = es.all (fun e => label != e.1)
  | [], _ => rfl
  | (l, x) :: es, i => by
    rw [Bibl.getFrom, List.all_cons]
    by_cases h : label = l
    · simp [h]
    · rw [if_neg h, bibGetFrom_none]; simp [h]

theorem bibGet_none {E : Type} (b : Bibl E) (label : Str) : (b.get label).isNone = b.entries.all (fun e => label != e.1) := bibGetFrom_none

theorem addBibItems_run (cx : Markup.Ctx) : ∀ (items : List (List Inline × List Inline)) (bib : Bibl Elem),
    addBibItems (items.map (definitionElem cx)) bib =
      ⟨bib.entries ++ ((firsts (items.map fun i => (trim (Inline.pieces.go i.1).flatten, i.2))).filter fun e => (bib.get e.1).isNone).map
        fun e => (e.1, Inline.elems.go cx e.2)⟩
  | [], bib => by simp [addBibItems, firsts]
  | (k, v) :: items, bib => by
    have step : addBibItems (((k, v) :: items).map (definitionElem cx)) bib =
        addBibItems (items.map (definitionElem cx)) (bib.add (trim (Inline.pieces.go k).flatten) (Inline.elems.go cx v)) := rfl
    rw [step, addBibItems_run cx items, List.map_cons]
    dsimp only
    generalize trim (Inline.pieces.go k).flatten = l
    rw [Bibl.add]
    cases hl : (bib.get l).isSome with
    | true =>
      rw [if_pos rfl, firsts, List.filter_cons, if_neg (by simpa [Option.isSome_iff_ne_none] using hl), List.filter_filter]
      generalize firsts (items.map fun i => (trim (Inline.pieces.go i.1).flatten, i.2)) = fs
      congr 3
      refine List.filter_congr fun e _ => ?_
      by_cases he : e.1 = l
      · rw [he]
        cases hg : bib.get l with
        | none => rw [hg] at hl; cases hl
        | some => simp
      · simp [he]
    | false =>
      have hn : (bib.get l).isNone = true := by cases hg : bib.get l <;> simp_all
      rw [if_neg (by simp), firsts, List.filter_cons, if_pos hn, List.map_cons, List.filter_filter]
      generalize firsts (items.map fun i => (trim (Inline.pieces.go i.1).flatten, i.2)) = fs
      simp only [List.append_assoc, List.cons_append, List.nil_append]
      congr 4
      refine List.filter_congr fun e _ => ?_
      rw [bibGet_none, bibGet_none, List.all_append]
      simp

/-! ### The block -/

theorem lines_join : ∀ {ls : List (List (Token × Str))}, ls ≠ [] →
    ls.flatMap (fun p => p ++ [(Token.lineBreak, c!"\n")]) = joinLex ls ++ [(.lineBreak, c!"\n")]
  | [], h => (h rfl).elim
  | [l], _ => by simp [joinLex]
  | l :: l' :: ls, _ => by
    rw [List.flatMap_cons, lines_join (ls := l' :: ls) (by simp)]
    show _ = (l ++ (Token.lineBreak, c!"\n") :: joinLex (l' :: ls)) ++ _
    simp

theorem biblio_run {b : Biblio} (hok : b.ok = true) {xs rest : List ETok} (hxs : xs.map ETok.pair = b.lex) (hr : rest ≠ [])
    (hs : (xs ++ rest) <:+ (tokenize env.text).tokens) {fuel : Nat} {p : PState} {sh : Shared} {sol : Bool} (hf : b.height ≤ fuel + 1)
    (hd : p.depth + b.height ≤ 101) (hnf : p.inFootnote = false) (hn : b.number = sh.bibs.length)
    (hquiet : (Block.definitions b.items).notes = []) :
    ∃ r', ruleBlock (consume fuel) false env ⟨p.at (xs ++ rest) sol, sh⟩ =
      .ok ⟨[.mk b.kind []], [], false⟩ ⟨({ p with rule := r' } : PState).at rest false, { sh with bibs := sh.bibs ++ [b.bibl env.cx] }⟩ := by
  obtain ⟨number, tag, items⟩ := b
  simp only [Biblio.ok, Bool.and_eq_true, Bool.not_eq_true', List.isEmpty_eq_false_iff, List.all_eq_true] at hok
  obtain ⟨⟨⟨ht, hsw⟩, hne⟩, hall⟩ := hok
  simp only [Biblio.height] at hf hd
  simp only [Biblio.lex, aroundLex] at hxs
  obtain ⟨os, ys, rfl, hos, hys⟩ := map_append_split hxs
  obtain ⟨x, ys, rfl, hx, hys⟩ := List.map_eq_cons_iff.1 hys
  obtain ⟨bs, cs, rfl, hbs, hcs⟩ := map_append_split hys
  have hx : x.token = .lineBreak := congrArg (·.1) hx
  rw [lines_join (by simpa using hne)] at hbs
  obtain ⟨bs, ws, rfl, hbd, hws⟩ := map_append_split hbs
  obtain ⟨w, rfl, hw⟩ := List.map_eq_singleton_iff.1 hws
  have hw : w.token = .lineBreak := congrArg (·.1) hw
  have e0 : os ++ x :: (bs ++ [w] ++ cs) ++ rest = os ++ (x :: (bs ++ (w :: (cs ++ rest)))) := by simp
  rw [e0] at hs ⊢
  obtain ⟨ih, X, hhead, hrule⟩ := tag_run (env := env) (T := x :: (bs ++ (w :: (cs ++ rest)))) (T2 := bs ++ (w :: (cs ++ rest))) (sol2 := true)
    bibliographyRule ht hos (by simp) (by simp [hx]) (.inr ⟨bibliographyRule.lines, by simp, rfl, x, rfl, hx⟩) hs
  refine ⟨.blk blockRules[6].info.name, hrule _ p sh sol _ ?_⟩
  generalize hq : ({ p with rule := .blk blockRules[6].info.name } : PState) = q
  have hqd : q.depth = p.depth := by rw [← hq]
  have hqf : q.inFootnote = false := by rw [← hq]; exact hnf
  obtain ⟨o, m, c, rfl, ho, hm, hc, hb, _⟩ := close_tokens bibliographyRule ht hcs
  have hs1 : (bs ++ (w :: ([o, m, c] ++ rest))) <:+ (tokenize env.text).tokens := List.IsSuffix.trans ⟨os ++ [x], by simp⟩ hs
  obtain ⟨sol', hdef⟩ := definitions_run (env := env) (ds := items) (xs := bs) (tail := w :: ([o, m, c] ++ rest)) (fuel := fuel) (p := q) (sh := sh)
    (by simp only [Block.ok, Bool.and_eq_true, Bool.not_eq_true', List.isEmpty_eq_false_iff, List.all_eq_true]
        exact ⟨hne, fun i hi => (hall i hi).1.1⟩)
    hbd (.inl ⟨hw, by simp⟩) hs1 (by simp only [Block.height]; omega) (by simp only [Block.height]; omega) hqf
    (fun _ => by simp [noDefs, ho])
  rw [hquiet, List.map_nil, show putNotes sh [] = sh from rfl] at hdef
  have hac : afterClose (w :: ([o, m, c] ++ rest)) sol' = ([o, m, c] ++ rest, true) := by simp [afterClose, hw, isLineStartTok]
  rw [hac] at hdef
  obtain ⟨y, y', r, rfl, hy, _⟩ := defs_head hne hbd
  have hbody : getBody (consume fuel) blockRules[6].info false env ⟨q.at ((y :: y' :: r) ++ (w :: ([o, m, c] ++ rest))) true, sh⟩ =
      .ok ⟨outElems [((Block.definitions items).elems env.cx, false)], [], outSafe [((Block.definitions items).elems env.cx, false)]⟩ ⟨q.at rest false, sh⟩ := by
    refine body_lines (W := []) (ns := [m]) (o := o) (c := c) (rest := rest) (sol' := true)
      (.cons ⟨⟨?_, ?_⟩, by simp⟩ hdef (by simp; omega) (by simp) .nil) (.inl rfl) ho hm hc hr hb
      (List.IsSuffix.trans ⟨os ++ [x] ++ (y :: y' :: r) ++ [w, o], by simp⟩ hs)
    · simp [hy]
    · intro _ h; rw [hy] at h; cases h
  show blkBibliography blockRules[6].info (consume fuel) _ env _ = _
  unfold blkBibliography
  rw [bind_ok (m := noStar _ _ _) (a := ()) (s' := _) rfl, bind_ok (m := noScore _ _ _) (a := ()) (s' := _) rfl, bind_ok (hhead _ _)]
  rw [argGet_raw]
  dsimp only
  have l1 : lowerA c!"title" = c!"title" := by decide
  rw [l1]
  have hsw' : switchOk (tag.args.filter fun a => !(lowerA a.name == c!"title")) c!"hide" = true := by
    unfold switchOk
    rw [optionOf_filter (by decide)]
    exact hsw
  obtain ⟨b1, b2⟩ := switch_bool (env := env) (k := c!"hide") (k' := c!"hide") (by decide) hsw' ⟨q.at ((y :: y' :: r) ++ (w :: ([o, m, c] ++ rest))) true, sh⟩
  rw [bind_ok b1]
  dsimp only
  rw [bind_ok hbody]
  dsimp only
  have b3 : switchedOn (tag.args.filter fun a => !(lowerA a.name == c!"title")) c!"hide" = switchedOn tag.args c!"hide" := by
    unfold switchedOn
    rw [optionOf_filter (by decide)]
  rw [b3] at b2
  have hadd : addBibElements (outElems [((Block.definitions items).elems env.cx, false)]) ⟨[]⟩ = some (Biblio.bibl env.cx ⟨number, tag, items⟩) := by
    show some (addBibItems (items.map (definitionElem env.cx)) ⟨[]⟩) = _
    rw [addBibItems_run]
    simp only [List.nil_append, Biblio.bibl, Biblio.entries]
    congr 3
    refine List.filter_eq_self.2 fun e _ => rfl
  rw [hadd]
  dsimp only
  rw [b2]
  simp only at hn
  simp only [Biblio.kind, hn]
  rfl

/-- The line break before a bibliography is left out. -/
theorem biblio_skip {b : Biblio} (hok : b.ok = true) {xs rest : List ETok} {w : ETok} {p : PState} {sol : Bool} {sh : Shared}
    (hxs : xs.map ETok.pair = b.lex) (hr : rest ≠ []) (hs : (xs ++ rest) <:+ (tokenize env.text).tokens) :
    ruleBlockSkip env ⟨p.at (w :: (xs ++ rest)) sol, sh⟩ = .ok ⟨[], [], true⟩ ⟨p.at (xs ++ rest) (isLineStartTok w.token), sh⟩ := by
  simp only [Biblio.ok, Bool.and_eq_true] at hok
  obtain ⟨os, zs, rfl, hos, hzs⟩ := map_append_split (show xs.map ETok.pair = b.tag.openLex ++ _ from hxs)
  rw [List.append_assoc] at hs ⊢
  exact tag_skip bibliographyRule hok.1.1.1 hos (by simp [hr]) hs

theorem biblio_head (b : Biblio) : ∃ l, b.lex = (.leftBlock, c!"[[") :: l := ⟨_, rfl⟩

/-! ### Without footnotes -/

theorem quiet_notes : ∀ {body : List Inline}, Inline.quiet.go body = true → Inline.notes.go body = []
  | [], _ => rfl
  | i :: is, h => by
    rw [Inline.quiet.go, Bool.and_eq_true] at h
    rw [Inline.notes.go, quiet_notes h.2, List.append_nil]
    cases i with
    | styled s body => exact quiet_notes h.1
    | color n body => exact quiet_notes h.1
    | wrap w body => exact quiet_notes h.1
    | note => cases h.1
    | _ => rfl

theorem biblio_notes {b : Biblio} (hok : b.ok = true) : (Block.definitions b.items).notes = [] := by
  simp only [Biblio.ok, Bool.and_eq_true, List.all_eq_true] at hok
  simp only [Block.notes, List.flatMap_eq_nil_iff]
  intro i hi
  rw [quiet_notes (hok.2 i hi).1.2, quiet_notes (hok.2 i hi).2]
  rfl

end Ftml
