import Verif.Lemmas.LeafRun
/-
Footnotes: the run of the block.
-/
namespace Ftml
open M Markup Lexer
variable {env : Env}

theorem word_name {m : ETok} {name : Str} (hm : m.pair = (.identifier, name)) (hword : (Plain.word name).ok = true) :
    slicesOf [m] = name ∧ (∀ x ∈ [m], endsName x.token = false ∧ x.token ≠ .inputEnd) ∧ trim (slicesOf [m]) = slicesOf [m] ∧
      stripSfx c!"_" (slicesOf [m]) = none ∧ EndName [m] := by
  have h1 : m.slice = name := congrArg (·.2) hm
  have h2 : m.token = .identifier := congrArg (·.1) hm
  have h3 : slicesOf [m] = name := by simp [slicesOf, h1]
  refine ⟨h3, by simp [h2, endsName], ?_, ?_, endName_one h2 ?_⟩
  · rw [h3]; exact trim_word hword
  · rw [h3]; exact stripSfx_word hword
  · rw [h1]; exact trim_word hword

/-- Line breaks at the start of a paragraph do not count. -/
def isBr (e : Elem) : Bool := match e.kind with | .lineBreak => true | _ => false

/-- The current paragraph with further elements. -/
def addTo (cur es : List Elem) : List Elem := if cur.isEmpty then es.dropWhile isBr else cur ++ es

theorem pushElements_true : ∀ (es : List Elem) (s : PStack),
    PStack.pushElements true es s = { s with current := addTo s.current es } := by
  intro es
  induction es with
  | nil => intro s; obtain ⟨c, f, e⟩ := s; cases c <;> simp [PStack.pushElements, addTo]
  | cons e es ih =>
    intro s
    rw [PStack.pushElements]
    obtain ⟨c, f, er⟩ := s
    cases c with
    | nil =>
      by_cases hb : isBr e = true
      · rw [if_pos (by rw [Bool.and_eq_true]; exact ⟨rfl, hb⟩), ih]
        simp [addTo, hb]
      · rw [if_neg (by rw [Bool.and_eq_true]; exact fun h => hb h.2), ih]
        simp [addTo, hb, PStack.pushElement]
    | cons a c =>
      rw [if_neg (by simp), ih]
      simp [addTo, PStack.pushElement]

theorem addTo_addTo (c a b : List Elem) : addTo (addTo c a) b = addTo c (a ++ b) := by
  cases c with
  | cons x c => simp [addTo]
  | nil =>
    simp only [addTo, List.isEmpty_nil, if_true]
    induction a with
    | nil => simp
    | cons x a ih =>
      by_cases hb : isBr x = true
      · simp only [List.cons_append, List.dropWhile_cons_of_pos hb]; exact ih
      · simp only [List.cons_append, List.dropWhile_cons_of_neg hb]; simp

theorem pushAll_safe (is : List Inline) : ∀ (s : PStack), pushAll s (is.map fun i => (i.elems env.cx, true)) =
    { s with current := addTo s.current (Inline.elems.go env.cx is) } := by
  induction is with
  | nil => intro s; obtain ⟨c, f, e⟩ := s; cases c <;> simp [pushAll, addTo, Inline.elems.go]
  | cons i is ih =>
    intro s
    simp only [List.map_cons, pushAll, pushElements_true, ih, addTo_addTo, Inline.elems.go]

theorem isBr_eq : isBr = (fun e => match e with | .mk .lineBreak _ => true | _ => false) := by
  funext e
  obtain ⟨k, ks⟩ := e
  cases k <;> rfl


theorem noteElems_eq (cx : Markup.Ctx) (body : List Inline) : noteElems cx body = (Inline.elems.go cx body).dropWhile isBr := by
  rw [isBr_eq]; rfl

/-- A paragraph without its wrapping. -/
theorem unwrap_addTo (es : List Elem) (errs : List PErr) : unwrapParagraph (PStack.intoElements ⟨addTo [] es, [], errs⟩) = es.dropWhile isBr := by
  simp only [addTo, List.isEmpty_nil, if_true]
  cases es.dropWhile isBr with
  | nil => rfl
  | cons e es => rfl

theorem addTo_safe (es : List Elem) (errs : List PErr) :
    ∃ safe, elementsParagraphSafe? (PStack.endParagraph ⟨addTo [] es, [], errs⟩).finished = some safe := by
  cases addTo [] es with
  | nil => exact ⟨_, rfl⟩
  | cons e es => exact ⟨_, rfl⟩

/-- A footnote. -/
theorem note_run {name close : Str} (h1 : lowerA name = c!"footnote") (h2 : lowerA close = c!"footnote")
    {l m r o n c : ETok} {ys rest : List ETok} {sol : Bool} (hl : l.token = .leftBlock) (hm : m.pair = (.identifier, name))
    (hrt : r.token = .rightBlock) (ho : o.token = .leftBlockEnd) (hn : n.pair = (.identifier, close)) (hc : c.token = .rightBlock)
    (hr : rest ≠ []) (hs : (l :: m :: r :: (ys ++ o :: n :: c :: rest)) <:+ (tokenize env.text).tokens)
    (hw : ((ys ++ o :: n :: c :: rest).headD default).token ≠ .whitespace)
    {cons : M (PS Elements)} {p : PState} {sh sh' : Shared} {sol' : Bool} {st : PStack} {safe : Bool} (hp : p.inFootnote = false)
    (hg : Gathers env cons { p with rule := .blk blockRules[18].info.name, inFootnote := true } (ys ++ o :: n :: c :: rest) false sh
      PStack.new (o :: n :: c :: rest) sol' sh' st)
    (herr : st.errors = []) (hsafe : elementsParagraphSafe? st.endParagraph.finished = some safe) :
    ruleBlock cons false env ⟨p.at (l :: m :: r :: (ys ++ o :: n :: c :: rest)) sol, sh⟩ =
      .ok ⟨[.mk .footnote []], [], true⟩ ⟨({ p with rule := .blk blockRules[18].info.name } : PState).at rest false,
        { sh' with footnotes := sh'.footnotes ++ [unwrapParagraph st.intoElements] }⟩ := by
  have w1 : (Plain.word name).ok = true := lower_word h1 rfl
  have w2 : (Plain.word close).ok = true := lower_word h2 rfl
  let br := blockRules[18]
  have k1 : getBlockRule (lowerA name) = some br := by rw [h1]; exact getBlockRule_idx (k := 18) (by decide +kernel) rfl
  obtain ⟨n1, n2, n3, n4, _⟩ := word_name hm w1
  obtain ⟨e1, _, _, _, e5⟩ := word_name hn w2
  have hs1 := List.IsSuffix.trans (List.suffix_cons l _) hs
  have hs2 := List.IsSuffix.trans (List.suffix_cons m _) hs1
  have hs3 := List.IsSuffix.trans (List.suffix_append (r :: ys) _) hs2
  have hs4 := List.IsSuffix.trans (List.suffix_cons o _) hs3
  refine ruleBlock_run (ns := [m]) (c := r) (rest := ys ++ o :: n :: c :: rest) (br := br) hl (by simp) n2 (.inr hrt) (by simp) n3 hs1 n4
    (by rw [n1, getBlockRule_lower w1]; exact k1) (by simp) (by simp [hrt])
    (bc := blkFootnote br.info cons ⟨slicesOf [m], false, false, r.token == .whitespace⟩) rfl ?_ (by cases ys <;> simp)
  rw [if_neg (by simp [hrt]), if_neg hw]
  have hih : (r.token == Token.whitespace) = false := by simp [hrt]
  rw [hih]
  unfold blkFootnote
  let q : PState := { p with rule := .blk br.info.name }
  let T := ys ++ o :: n :: c :: rest
  show (getP >>= fun x => if x.inFootnote = true then _ else _) env ⟨q.at T false, sh⟩ = _
  rw [bind_ok (a := q.at T false) (s' := ⟨q.at T false, sh⟩) rfl]
  rw [if_neg (by show ¬ p.inFootnote = true; rw [hp]; simp)]
  unfold withFootnote
  let q' : PState := { q with inFootnote := true }
  rw [bind_ok (a := ()) (s' := ⟨q'.at T false, sh⟩) rfl]
  have hhead : getHeadNone br.info false env ⟨q'.at T false, sh⟩ = .ok () ⟨q'.at T false, sh⟩ := by
    unfold getHeadNone getOptionalSpace
    rw [bind_ok (optTok_no hw)]
    exact headEnd_false (.inl ⟨rfl, rfl, by intro h; cases h⟩)
  have hbody := bodyParagraphs_gathers (b := br.info) (W := []) (ns := [n]) hg (.inl rfl) (.inl rfl) ho e5 hc hr
    (by rw [e1]; exact names_lower w2 _ (by rw [h2]; decide)) hs4 herr hsafe
  rw [bind_ok (attempt_ok (a := ⟨[.mk .footnote []], [], true⟩) (s' := ⟨q'.at rest false,
    { sh' with footnotes := sh'.footnotes ++ [unwrapParagraph st.intoElements] }⟩) ?_)]
  · have : q' = { q with inFootnote := true } := rfl
    show Res.ok _ _ = Res.ok _ _
    congr 2
    show ({ q' with inFootnote := false } : PState).at rest false = q.at rest false
    congr 1
    show ({ p with rule := .blk br.info.name, inFootnote := false } : PState) = { p with rule := .blk br.info.name }
    rw [← hp]
  · rw [bind_ok (m := noStar _ _ _) (a := ()) (s' := _) rfl, bind_ok (m := noScore _ _ _) (a := ()) (s' := _) rfl]
    rw [bind_ok hhead, bind_ok hbody]
    rfl

end Ftml
