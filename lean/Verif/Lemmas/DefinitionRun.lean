import Verif.Lemmas.TableRun
/-
Pages: lists of definitions.
-/
namespace Ftml
open M Markup Lexer
variable {env : Env}

/-! ### White space at the edges -/

theorem dropWhile_same {α : Type} {q : α → Bool} {l : List α} (h : l.head?.any q = false) : l.dropWhile q = l := by
  cases l with
  | nil => rfl
  | cons a l => exact List.dropWhile_cons_of_neg (by simpa using h)

theorem stripBoth_id {q : Elem → Bool} {es : List Elem} (h1 : es.head?.any q = false) (h2 : es.getLast?.any q = false) : stripBoth q es = es := by
  unfold stripBoth
  rw [dropWhile_same h1, dropWhile_same (by simpa using h2), List.reverse_reverse]

/-- What an inline element other than a comment stands for. -/
def oneElem (cx : Markup.Ctx) (i : Inline) : Elem := (i.elems cx).headD default

theorem elems_shown {cx : Markup.Ctx} : ∀ body : List Inline, Inline.elems.go cx body = (body.filter fun i => !i.isComment).map (oneElem cx)
  | [] => rfl
  | i :: is => by
    rw [Inline.elems.go, elems_shown is, List.filter_cons]
    cases i <;> simp [Inline.isComment, Inline.elems, oneElem]

theorem white_elem {cx : Markup.Ctx} {i : Inline} (hc : i.isComment = false) (hn : i ≠ .newline) (h : (oneElem cx i).isWhitespace = true) :
    i.isWhite = true := by
  cases i with
  | plain p => simpa [oneElem, Inline.elems, Elem.isWhitespace, Inline.isWhite] using h
  | newline => exact (hn rfl).elim
  | comment b => simp [Inline.isComment] at hc
  | styled s body => simp [oneElem, Inline.elems, Elem.isWhitespace] at h
  | color n body => simp [oneElem, Inline.elems, Elem.isWhitespace] at h
  | raw body => simp [oneElem, Inline.elems, Elem.isWhitespace] at h
  | wrap w body =>
    simp only [oneElem, Inline.elems, List.headD_cons] at h
    revert h
    unfold Wrap.kind
    repeat' split
    all_goals simp [Elem.isWhitespace]
  | leaf l =>
    simp only [oneElem, Inline.elems, List.headD_cons] at h
    revert h
    cases l <;> simp [Leaf.kind, Elem.isWhitespace]
  | note name body close => simp [oneElem, Inline.elems, Elem.isWhitespace] at h

theorem newline_line {body : List Inline} (h : (Inline.pieces.go body).all (· != c!"\n") = true) : Inline.newline ∉ body := by
  induction body with
  | nil => simp
  | cons i is ih =>
    rw [Inline.pieces.go, List.all_append, Bool.and_eq_true] at h
    intro hm
    rcases List.mem_cons.1 hm with rfl | hm
    · exact absurd h.1 (by decide)
    · exact ih h.2 hm

theorem strip_edges {cx : Markup.Ctx} {body : List Inline} (hline : (Inline.pieces.go body).all (· != c!"\n") = true) (h : edgesOk body = true) :
    stripWhitespace (Inline.elems.go cx body) = Inline.elems.go cx body := by
  simp only [edgesOk, Bool.and_eq_true, Bool.not_eq_true'] at h
  have key : ∀ i ∈ body.filter (fun i => !i.isComment), i.isWhite = false → (oneElem cx i).isWhitespace = false := by
    intro i hi hw
    have hi := List.mem_filter.1 hi
    cases hc : (oneElem cx i).isWhitespace with
    | false => rfl
    | true => rw [white_elem (by simpa using hi.2) (fun e => newline_line hline (e ▸ hi.1)) hc] at hw; cases hw
  rw [elems_shown]
  refine stripBoth_id ?_ ?_
  · cases hs : body.filter (fun i => !i.isComment) with
    | nil => rfl
    | cons a as =>
      rw [hs] at h key
      simpa using key a (by simp) (by simpa using h.1)
  · rw [List.getLast?_map]
    cases hs : (body.filter (fun i => !i.isComment)).getLast? with
    | none => rfl
    | some a =>
      rw [hs] at h
      simpa using key a (List.mem_of_getLast? hs) (by simpa using h.2)

theorem trim_blank (s : Str) : trim (s ++ c!" ") = trim s := by
  have hw : isWS ' ' = true := by decide
  have hd : (c!" " : Str).dropWhile isWS = [] := by simp [hw]
  unfold trim trimStart trimEnd
  rw [List.dropWhile_append]
  split
  · rename_i h
    have h : s.dropWhile isWS = [] := by simpa using h
    rw [hd, h]
  · rw [List.reverse_append]
    show (List.dropWhile isWS (' ' :: _)).reverse = _
    rw [List.dropWhile_cons_of_pos hw]
    rfl

/-! ### Keys and values -/

/-- Only the character itself starts with a colon. -/
theorem inline_colon {i : Inline} {x : Token × Str} {r} (h : i.lex = x :: r) (hx : x.1 = .colon) : i = .plain (.char ':') := by
  cases i with
  | plain p =>
    simp [Inline.lex] at h
    cases p with
    | blanks n => rw [← h.1] at hx; cases hx
    | word s => rw [← h.1] at hx; cases hx
    | char c =>
      rw [← h.1] at hx
      have hx : charTok c = .colon := hx
      unfold charTok at hx
      repeat' split at hx
      all_goals first | (cases hx; done) | (rename_i h; rw [h])
  | styled s body =>
    simp [Inline.lex] at h
    rw [← h.1] at hx
    cases s <;> cases hx
  | wrap w body =>
    obtain ⟨r', hr, _⟩ := wrap_head w
    simp only [Inline.lex, hr, List.cons_append, List.cons.injEq] at h
    rw [← h.1] at hx
    cases h' : w.star <;> simp [h'] at hx
  | leaf l =>
    have := leaf_first h
    rw [hx] at this
    exact absurd this (by decide)
  | _ => simp [Inline.lex] at h; rw [← h.1] at hx; cases hx

theorem hasColon_at {a c : List Inline} {n : Nat} (h : hasColon (a ++ .plain (.blanks n) :: .plain (.char ':') :: c) = false) : False := by
  induction a with
  | nil => simp [hasColon] at h
  | cons i a ih =>
    apply ih
    rw [List.cons_append] at h
    revert h
    generalize a ++ .plain (.blanks n) :: .plain (.char ':') :: c = l
    intro h
    unfold hasColon at h
    split at h
    · rename_i e
      simp only [List.cons.injEq] at e
      rw [e.2]
      simp only [Bool.or_eq_false_iff] at h
      rw [hasColon]
      · exact h.2
      · intro _ _ _ e; cases e
    · rename_i e
      simp only [List.cons.injEq] at e
      rw [e.2]; exact h
    · rename_i e; cases e

theorem tline_ends {ol : Nat} {tail : List ETok} (ht : EndsLine tail) : ol = tail.length → TLine ol true tail := by
  rintro rfl
  exact TLine.stop ht.stops

/-- The key. -/
theorem key_chain {key : List Inline} {xs : List ETok} {w c : ETok} {tail : List ETok} {fuel : Nat} {p : PState} {sh : Shared}
    (hok : Inline.ok.go key = true) (hline : (Inline.pieces.go key).all (· != c!"\n") = true) (hnc : hasColon key = false)
    (hxs : xs.map ETok.pair = Inline.lex.go key) (hw : w.token = .whitespace) (hc : c.token = .colon)
    (ht : ∀ ol, tail.length ≤ ol → TLine ol true tail) (hs : (xs ++ w :: c :: tail) <:+ (tokenize env.text).tokens)
    (hf : Inline.height.go key ≤ fuel) (hd : p.depth + Inline.height.go key ≤ 100) (hnf : p.inFootnote = false) :
    ∃ sol', Calls env (consume fuel) (Goes [.pair .whitespace .colon] [.cur .paragraphBreak, .cur .lineBreak]) p (xs ++ w :: c :: tail) false sh
      (key.map fun i => (i.elems env.cx, true)) (w :: c :: tail) sol'
      (putNotes sh (notesOf env.cx key)) := by
  have hcl := pair_classed hok hxs
  have hne := line_slices hline hxs
  have htl : TLine (w :: c :: tail).length true (w :: c :: tail) := by
    rw [TLine, if_neg (by simp [hw]), if_neg (by simp [hw, isColumnTok]), if_neg (by simp [hw]), if_pos hw]
    rw [TLine, if_neg (by simp [hc]), if_neg (by simp [hc, isColumnTok]), if_neg (by simp [hc]), if_neg (by simp [hc])]
    exact ⟨.inr ⟨by rw [hc]; rfl, rfl⟩, ht _ (by simp; omega)⟩
  refine body_chain key (fun h => by rw [hnf] at h; cases h) hok hxs (by simp) hs (tline_line htl hcl hne) (fun _ => rfl) (within_line hcl hne) hf hd ?_
  intro a i b e ys hys
  have hyc : ∀ y ∈ ys, y ∈ xs ∨ Classed (y.token, y.slice) ∧ y.slice ≠ c!"\n" := by
    intro y hy
    right
    have hm : y.pair ∈ Inline.lex.go key := by
      rw [e]
      have : y.pair ∈ i.lex ++ Inline.lex.go b := by rw [← hys]; exact List.mem_map.2 ⟨y, hy, rfl⟩
      clear e hys
      induction a with
      | nil => exact this
      | cons j js ih => rw [List.cons_append, Inline.lex.go]; exact List.mem_append_right _ ih
    rw [← hxs] at hm
    obtain ⟨z, hz, hzy⟩ := List.mem_map.1 hm
    have e1 : z.token = y.token := congrArg (·.1) hzy
    have e2 : z.slice = y.slice := congrArg (·.2) hzy
    rw [← e1, ← e2]
    exact ⟨hcl z hz, hne z hz⟩
  obtain ⟨v, r, hlex, _, _⟩ := inline_head i
  rw [hlex, List.cons_append] at hys
  obtain ⟨x, zs, rfl, hx, hzs⟩ := List.map_eq_cons_iff.1 hys
  have hx0 : Classed (x.token, x.slice) ∧ x.slice ≠ c!"\n" := by
    rcases hyc x (by simp) with h | h
    · exact ⟨hcl x h, hne x h⟩
    · exact h
  obtain ⟨_, h1, h2, h3⟩ := classed_stop hx0.1 hx0.2
  refine ⟨by simp, ?_, by simp [Meets, h1, h2], by simpa using h3⟩
  rw [List.cons_append]
  simp only [Meets, List.any_cons, List.any_nil, Bool.or_false]
  by_cases hxw : x.token = .whitespace
  · have hv : v.1 = .whitespace := by rw [← hx]; exact hxw
    obtain ⟨hb, rfl⟩ := inline_blank hlex hv
    have hi : ∃ n, i = .plain (.blanks n) := by
      cases i with
      | plain q => cases q with
        | blanks n => exact ⟨n, rfl⟩
        | _ => simp [Inline.isBlank] at hb
      | _ => simp [Inline.isBlank] at hb
    obtain ⟨n, rfl⟩ := hi
    rw [List.nil_append] at hzs
    cases b with
    | nil =>
      obtain rfl : zs = [] := by simpa [Inline.lex.go] using hzs
      simp [hw]
    | cons j js =>
      obtain ⟨v', r', hlex', _, _⟩ := inline_head j
      simp only [Inline.lex.go, hlex', List.cons_append] at hzs
      obtain ⟨y, yr, rfl, hy, _⟩ := List.map_eq_cons_iff.1 hzs
      simp only [List.cons_append, Bool.and_eq_false_iff]
      right
      cases hyc : (y.token == .colon) with
      | false => rfl
      | true =>
        have : v'.1 = .colon := by rw [← hy]; simpa using hyc
        have := inline_colon hlex' this
        subst this
        exact (hasColon_at (e ▸ hnc)).elim
  · simp [hxw]

/-- The footnotes of a definition. -/
abbrev defNotes (cx : Markup.Ctx) (d : List Inline × List Inline) : List (List Elem) := notesOf cx d.1 ++ notesOf cx d.2

/-- One definition. -/
theorem definition_item {key value : List Inline} {xs tail : List ETok} {fuel : Nat} {p : PState} {sh : Shared}
    (hok : definitionOk (key, value) = true) (hxs : xs.map ETok.pair = definitionLex (key, value)) (ht : EndsLine tail)
    (hs : (xs ++ tail) <:+ (tokenize env.text).tokens) (hf : max (Inline.height.go key) (Inline.height.go value) ≤ fuel)
    (hd : p.depth + max (Inline.height.go key) (Inline.height.go value) ≤ 100) (hnf : p.inFootnote = false) :
    ∃ sol', parseDefItem (consume fuel) env ⟨p.at (xs ++ tail) true, sh⟩ =
      .ok ⟨(definitionElem env.cx (key, value), !((tail.headD default).token == .lineBreak)), [], false⟩
        ⟨p.at (afterClose tail sol').1 (afterClose tail sol').2, putNotes sh (defNotes env.cx (key, value))⟩ := by
  simp only [definitionOk, Bool.and_eq_true, Bool.not_eq_true', List.isEmpty_eq_false_iff] at hok
  obtain ⟨⟨⟨⟨⟨⟨⟨hk, hv⟩, hkl⟩, hvl⟩, hke⟩, hve⟩, hkn⟩, hkc⟩ := hok
  simp only [definitionLex] at hxs
  obtain ⟨c1, xs, rfl, hc1, hxs⟩ := List.map_eq_cons_iff.1 hxs
  obtain ⟨w1, xs, rfl, hw1, hxs⟩ := List.map_eq_cons_iff.1 hxs
  obtain ⟨ks, xs, rfl, hks, hxs⟩ := map_append_split hxs
  obtain ⟨w2, xs, rfl, hw2, hxs⟩ := List.map_eq_cons_iff.1 hxs
  obtain ⟨c2, xs, rfl, hc2, hxs⟩ := List.map_eq_cons_iff.1 hxs
  obtain ⟨w3, vs, rfl, hw3, hvs⟩ := List.map_eq_cons_iff.1 hxs
  have hc1t : c1.token = .colon := congrArg (·.1) hc1
  have hw1t : w1.token = .whitespace := congrArg (·.1) hw1
  have hw2t : w2.token = .whitespace := congrArg (·.1) hw2
  have hw2s : w2.slice = c!" " := congrArg (·.2) hw2
  have hc2t : c2.token = .colon := congrArg (·.1) hc2
  have hw3t : w3.token = .whitespace := congrArg (·.1) hw3
  obtain ⟨t, ts, rfl, hts⟩ := endsLine_next ht
  have hvcl := pair_classed hv hvs
  have hvne := line_slices hvl hvs
  have e0 : (c1 :: w1 :: (ks ++ w2 :: c2 :: w3 :: vs)) ++ t :: ts = c1 :: w1 :: (ks ++ w2 :: c2 :: (w3 :: (vs ++ t :: ts))) := by simp
  rw [e0] at hs ⊢
  have hs1 : (ks ++ w2 :: c2 :: (w3 :: (vs ++ t :: ts))) <:+ (tokenize env.text).tokens :=
    List.IsSuffix.trans (List.suffix_cons w1 _) (List.IsSuffix.trans (List.suffix_cons c1 _) hs)
  have hs2 : (vs ++ t :: ts) <:+ (tokenize env.text).tokens :=
    List.IsSuffix.trans (List.suffix_cons w3 _) (List.IsSuffix.trans (List.suffix_cons c2 _) (List.IsSuffix.trans (List.suffix_cons w2 _)
      (List.IsSuffix.trans (List.suffix_append ks _) hs1)))
  have htail : ∀ ol, (w3 :: (vs ++ t :: ts)).length ≤ ol → TLine ol true (w3 :: (vs ++ t :: ts)) := by
    intro ol hol
    rw [TLine, if_neg (by simp [hw3t]), if_neg (by simp [hw3t, isColumnTok]), if_neg (by simp [hw3t]), if_pos hw3t]
    refine tline_line (TLine.stop ?_) hvcl hvne
    rcases ht with ⟨h, _⟩ | ⟨h, _⟩ | h
    · exact .inr ⟨h, by simp at hol; omega⟩
    · exact .inl (by simp [isStop, h])
    · exact .inl (by simp [isStop, h])
  obtain ⟨sk, hkch⟩ := key_chain (fuel := fuel) (p := p) (sh := sh) hk hkl hkc hks hw2t hc2t htail hs1 (by omega) (by omega) hnf
  let sk1 := putNotes sh (notesOf env.cx key)
  have hkrun := collectConsume_chain (ek := none) hkch (by simp [Meets, hw2t, hc2t]) (by simp)
  obtain ⟨sv, hvch⟩ := line_chain (close := [.cur .paragraphBreak, .cur .lineBreak, .cur .inputEnd]) (fuel := fuel) (p := p) (sh := sk1) hv hvl hvs ht hs2
    (by omega) (by omega) hnf (by intro x ys h1 h2 h3; simp [Meets, h1, h2, h3])
  have hvrun := collectConsumeKeep_chain (ek := none) hvch (by rcases ht with ⟨h, _⟩ | ⟨h, _⟩ | h <;> simp [Meets, h]) hts
  rw [outElems_inline, outSafe_inline] at hkrun hvrun
  have hacl : afterClose (w2 :: c2 :: (w3 :: (vs ++ t :: ts))) sk = (c2 :: w3 :: (vs ++ t :: ts), false) := by simp [afterClose, hw2t, isLineStartTok]
  rw [hacl] at hkrun
  refine ⟨sv, ?_⟩
  obtain ⟨kx, kr, hkx⟩ : ∃ kx kr, ks = kx :: kr := by
    cases key with
    | nil => exact (hkn rfl).elim
    | cons i is =>
      obtain ⟨v, r, hlex, _, _⟩ := inline_head i
      simp only [Inline.lex.go, hlex, List.cons_append] at hks
      obtain ⟨x, r, rfl, _, _⟩ := List.map_eq_cons_iff.1 hks
      exact ⟨x, r, rfl⟩
  subst hkx
  obtain ⟨y, yr, hy⟩ : ∃ y yr, vs ++ t :: ts = y :: yr := List.exists_cons_of_ne_nil (by simp)
  have hsl : fullSlicePartial env.text kx c2 = some (slicesOf ((kx :: kr) ++ [w2])) :=
    slicePartial_ok (r := kr ++ w2 :: c2 :: (w3 :: (vs ++ t :: ts))) (r' := w3 :: (vs ++ t :: ts)) (by simpa using hs1) (by simp)
  have hkey : trim (slicesOf ((kx :: kr) ++ [w2])) = trim (Inline.pieces.go key).flatten := by
    have : slicesOf ((kx :: kr) ++ [w2]) = (Inline.pieces.go key).flatten ++ c!" " := by
      rw [← pair_slices hks]
      simp [slicesOf, hw2s, List.flatMap]
    rw [this, trim_blank]
  unfold parseDefItem
  rw [bind_ok (m := getP) (a := p.at (c1 :: w1 :: (kx :: kr ++ w2 :: c2 :: (w3 :: (vs ++ t :: ts)))) true) (s' := ⟨p.at (c1 :: w1 :: (kx :: kr ++ w2 :: c2 :: (w3 :: (vs ++ t :: ts)))) true, sh⟩) rfl]
  rw [bind_ok (a := ()) (s' := ⟨p.at (c1 :: w1 :: (kx :: kr ++ w2 :: c2 :: (w3 :: (vs ++ t :: ts)))) true, sh⟩) rfl]
  rw [bind_ok nextTwo_at]
  rw [bind_ok (a := ()) (s' := ⟨p.at (c1 :: w1 :: (kx :: kr ++ w2 :: c2 :: (w3 :: (vs ++ t :: ts)))) true, sh⟩) (by rw [hc1t, hw1t]; rfl)]
  rw [bind_ok (a := ()) (s' := ⟨p.at (kx :: kr ++ w2 :: c2 :: (w3 :: (vs ++ t :: ts))) false, sh⟩) (by
    rw [stepN, bind_ok (step_at ..), stepN, List.cons_append, bind_ok (step_at ..), hw1t]; rfl)]
  rw [bind_ok (m := current) (a := kx) (s' := ⟨p.at (kx :: kr ++ w2 :: c2 :: (w3 :: (vs ++ t :: ts))) false, sh⟩) rfl]
  rw [bind_ok hkrun]
  rw [bind_ok (m := current) (a := c2) (s' := ⟨p.at (c2 :: w3 :: (vs ++ t :: ts)) false, sk1⟩) rfl]
  rw [bind_ok (a := ()) (s' := ⟨p.at (vs ++ t :: ts) false, sk1⟩) (by
    rw [stepN, bind_ok (step_at ..), stepN, hy, bind_ok (step_at ..), hw3t]; rfl)]
  rw [bind_ok (m := slicePartialText kx c2) (a := slicesOf ((kx :: kr) ++ [w2])) (s' := ⟨p.at (vs ++ t :: ts) false, sk1⟩) (by
    unfold slicePartialText
    rw [bind_ok (m := M.env) (s' := ⟨p.at (vs ++ t :: ts) false, sk1⟩) (a := env) rfl, hsl]
    rfl)]
  rw [bind_ok hvrun]
  dsimp only
  rw [hkey, strip_edges hkl hke, strip_edges hvl hve, ← putNotes_append]
  rcases ht with ⟨h, _⟩ | ⟨h, _⟩ | h
  · rw [if_neg (by simp [h]), if_pos h]
    simp [h]
    rfl
  · rw [if_pos (by simp [h])]
    simp [h]
    rfl
  · rw [if_pos (by simp [h])]
    simp [h]
    rfl

/-! ### Lists of definitions -/

/-- A turn of the loop over the definitions after the first. -/
def defsTurn (cons : M (PS Elements)) (items : List Elem) : M (Turn (List Elem) (List Elem)) := do
      match ← onClone (parseDefItem cons) with
      | (.ok s, q) => do
        updateP q
        if s.item.2 then pure (.done (items ++ [s.item.1])) else pure (.more (items ++ [s.item.1]))
      | (.error _, _) => pure (.done items)

theorem ruleDefinitionList_eq (cons : M (PS Elements)) : ruleDefinitionList cons = (do
  let first ← parseDefItem cons
  if first.item.2 then okE [.mk .definitionList [first.item.1]]
  else do
    let items ← loop (defsTurn cons) [first.item.1]
    okE [.mk .definitionList items]) := rfl

/-- The tokens do not go on with a definition. -/
def noDefs : List ETok → Prop
  | [] => False
  | [_] => True
  | x :: y :: _ => ¬ (x.token = .colon ∧ y.token = .whitespace)

theorem defs_stop {cons : M (PS Elements)} {toks : List ETok} {p : PState} {sol : Bool} {sh : Shared} {items : List Elem} (h : noDefs toks) :
    defsTurn cons items env ⟨p.at toks sol, sh⟩ = .ok (.done items) ⟨p.at toks sol, sh⟩ := by
  have key : ∃ e st, st.sh = sh ∧ parseDefItem cons env ⟨p.at toks sol, sh⟩ = .err e st := by
    obtain ⟨x, xs, rfl⟩ : ∃ x xs, toks = x :: xs := by
      cases toks with
      | nil => exact h.elim
      | cons x xs => exact ⟨x, xs, rfl⟩
    unfold parseDefItem
    rw [bind_ok (m := getP) (a := p.at (x :: xs) sol) (s' := ⟨p.at (x :: xs) sol, sh⟩) rfl]
    cases sol with
    | false => exact ⟨_, _, rfl, rfl⟩
    | true =>
      rw [bind_ok (a := ()) (s' := ⟨p.at (x :: xs) true, sh⟩) rfl]
      cases xs with
      | nil =>
        rw [bind_ok (m := nextTwo) (a := (x.token, none)) (s' := ⟨p.at [x] true, sh⟩) rfl]
        have : ((x.token, (none : Option Token)) == (.colon, some .whitespace)) = false := by
          cases hb : ((x.token, (none : Option Token)) == (Token.colon, some Token.whitespace)) with
          | false => rfl
          | true =>
            have := eq_of_beq hb
            cases (Prod.mk.injEq ..  ▸ this).2
        rw [this]
        exact ⟨_, _, rfl, rfl⟩
      | cons y ys =>
        rw [bind_ok nextTwo_at]
        have : ((x.token, some y.token) == (.colon, some .whitespace)) = false := by
          cases hb : ((x.token, some y.token) == (Token.colon, some Token.whitespace)) with
          | false => rfl
          | true =>
            have := eq_of_beq hb
            simp only [Prod.mk.injEq, Option.some.injEq] at this
            exact (h this).elim
        rw [this]
        exact ⟨_, _, rfl, rfl⟩
  obtain ⟨e, ⟨q, sh'⟩, rfl, key⟩ := key
  unfold defsTurn
  rw [bind_ok (onClone_err key)]
  rfl

theorem defs_turn {key value : List Inline} {xs tail : List ETok} {fuel : Nat} {p : PState} {sh : Shared} {items : List Elem}
    (hok : definitionOk (key, value) = true) (hxs : xs.map ETok.pair = definitionLex (key, value)) (ht : EndsLine tail)
    (hs : (xs ++ tail) <:+ (tokenize env.text).tokens) (hf : max (Inline.height.go key) (Inline.height.go value) ≤ fuel)
    (hd : p.depth + max (Inline.height.go key) (Inline.height.go value) ≤ 100) (hnf : p.inFootnote = false) :
    ∃ sol', defsTurn (consume fuel) items env ⟨p.at (xs ++ tail) true, sh⟩ =
      .ok (if (tail.headD default).token = .lineBreak then .more (items ++ [definitionElem env.cx (key, value)])
        else .done (items ++ [definitionElem env.cx (key, value)]))
        ⟨p.at (afterClose tail sol').1 (afterClose tail sol').2, putNotes sh (defNotes env.cx (key, value))⟩ := by
  obtain ⟨sol', h⟩ := definition_item (p := p) (sh := sh) hok hxs ht hs hf hd hnf
  refine ⟨sol', ?_⟩
  unfold defsTurn
  rw [bind_ok (onClone_ok h)]
  dsimp only
  rw [bind_ok (a := ()) (s' := ⟨p.at (afterClose tail sol').1 (afterClose tail sol').2, putNotes sh (defNotes env.cx (key, value))⟩) rfl]
  by_cases hl : (tail.headD default).token = .lineBreak
  · rw [if_neg (by simpa using hl), if_pos hl]
    rfl
  · rw [if_pos (by simpa using hl), if_neg hl]
    rfl

theorem defs_loop {tail : List ETok} {fuel : Nat} {p : PState} (ht : EndsLine tail) (hnf : p.inFootnote = false)
    (hnext : (tail.headD default).token = .lineBreak → noDefs tail.tail) :
    ∀ (ds : List (List Inline × List Inline)) (xs : List ETok) (acc : List Elem) (n : Nat) (sh : Shared), ds ≠ [] → ds.all definitionOk = true →
    xs.map ETok.pair = joinLex (ds.map definitionLex) → (xs ++ tail) <:+ (tokenize env.text).tokens → definitionsHeight ds ≤ fuel →
    p.depth + definitionsHeight ds ≤ 100 → ds.length + 1 ≤ n →
    ∃ sol', loopN (defsTurn (consume fuel)) n acc env ⟨p.at (xs ++ tail) true, sh⟩ =
      .ok (acc ++ ds.map (definitionElem env.cx))
        ⟨p.at (afterClose tail sol').1 (afterClose tail sol').2, putNotes sh (ds.flatMap (defNotes env.cx))⟩
  | [], _, _, _, _, h, _, _, _, _, _, _ => (h rfl).elim
  | [(k, v)], xs, acc, n, sh, _, hok, hxs, hs, hf, hd, hn => by
    obtain ⟨n, rfl⟩ : ∃ m, n = m + 2 := ⟨n - 2, by simp at hn; omega⟩
    simp only [List.all_cons, List.all_nil, Bool.and_true] at hok
    simp only [List.map_cons, List.map_nil, joinLex] at hxs
    simp only [definitionsHeight] at hf hd
    obtain ⟨sol', h⟩ := defs_turn (p := p) (sh := sh) (fuel := fuel) (items := acc) hok hxs ht hs (by omega) (by omega) hnf
    refine ⟨sol', ?_⟩
    rw [List.flatMap_singleton]
    rw [loopN, bind_ok h]
    by_cases hl : (tail.headD default).token = .lineBreak
    · rw [if_pos hl]
      dsimp only
      obtain ⟨t, ts, rfl, _⟩ := endsLine_next ht
      have hac : afterClose (t :: ts) sol' = (ts, true) := by
        have : t.token = .lineBreak := hl
        simp [afterClose, this, isLineStartTok]
      rw [hac, loopN, bind_ok (defs_stop (toks := ts) (hnext hl))]
      rfl
    · rw [if_neg hl]
      rfl
  | (k, v) :: d :: ds, xs, acc, n, sh, _, hok, hxs, hs, hf, hd, hn => by
    obtain ⟨n, rfl⟩ : ∃ m, n = m + 1 := ⟨n - 1, by simp at hn; omega⟩
    rw [List.all_cons, Bool.and_eq_true] at hok
    simp only [List.map_cons, joinLex] at hxs
    rw [definitionsHeight] at hf hd
    obtain ⟨ys, zs, rfl, hys, hzs⟩ := map_append_split hxs
    obtain ⟨b, zs, rfl, hb, hzs⟩ := List.map_eq_cons_iff.1 hzs
    have hb : b.token = .lineBreak := congrArg (·.1) hb
    have e0 : ys ++ b :: zs ++ tail = ys ++ (b :: (zs ++ tail)) := by simp
    have hzt : zs ++ tail ≠ [] := by cases tail with | nil => exact ht.elim | cons => simp
    rw [e0] at hs ⊢
    obtain ⟨sol1, h⟩ := defs_turn (p := p) (sh := sh) (fuel := fuel) (items := acc) (tail := b :: (zs ++ tail)) hok.1 hys (.inl ⟨hb, hzt⟩) hs (by omega) (by omega) hnf
    have hac : afterClose (b :: (zs ++ tail)) sol1 = (zs ++ tail, true) := by simp [afterClose, hb, isLineStartTok]
    rw [hac] at h
    obtain ⟨sol2, h2⟩ := defs_loop (p := p) (fuel := fuel) ht hnf hnext (d :: ds) zs (acc ++ [definitionElem env.cx (k, v)]) n
      (putNotes sh (defNotes env.cx (k, v))) (by simp) hok.2 hzs
      (List.IsSuffix.trans (List.suffix_cons b _) (List.IsSuffix.trans (List.suffix_append ys _) hs)) (by omega) (by omega) (by simp at hn ⊢; omega)
    refine ⟨sol2, ?_⟩
    rw [loopN, bind_ok h, if_pos (by simpa using hb)]
    dsimp only
    rw [h2, putNotes_append]
    simp

theorem defs_head {ds : List (List Inline × List Inline)} {xs : List ETok} (hne : ds ≠ []) (hxs : xs.map ETok.pair = (Block.definitions ds).lex) :
    ∃ x y r, xs = x :: y :: r ∧ x.token = .colon ∧ y.token = .whitespace := by
  simp only [Block.lex] at hxs
  cases ds with
  | nil => exact (hne rfl).elim
  | cons d ds =>
    obtain ⟨k, v⟩ := d
    have : ∃ r, xs.map ETok.pair = (.colon, c!":") :: (.whitespace, c!" ") :: r := by
      cases ds with
      | nil => exact ⟨_, by simpa [joinLex, definitionLex] using hxs⟩
      | cons d' ds => exact ⟨_, by simpa [joinLex, definitionLex] using hxs⟩
    obtain ⟨r, hr⟩ := this
    obtain ⟨x, r1, rfl, hx, hr⟩ := List.map_eq_cons_iff.1 hr
    obtain ⟨y, r2, rfl, hy, hr⟩ := List.map_eq_cons_iff.1 hr
    exact ⟨x, y, r2, rfl, congrArg (·.1) hx, congrArg (·.1) hy⟩

theorem definitions_run {ds : List (List Inline × List Inline)} {xs tail : List ETok} {fuel : Nat} {p : PState} {sh : Shared}
    (hok : (Block.definitions ds).ok = true) (hxs : xs.map ETok.pair = (Block.definitions ds).lex) (ht : EndsLine tail)
    (hs : (xs ++ tail) <:+ (tokenize env.text).tokens) (hf : (Block.definitions ds).height ≤ fuel)
    (hd : p.depth + (Block.definitions ds).height ≤ 100) (hnf : p.inFootnote = false) (hnext : (tail.headD default).token = .lineBreak → noDefs tail.tail) :
    ∃ sol', consume fuel env ⟨p.at (xs ++ tail) true, sh⟩ =
      .ok ⟨(Block.definitions ds).elems env.cx, [], false⟩
        ⟨p.at (afterClose tail sol').1 (afterClose tail sol').2, putNotes sh ((Block.definitions ds).notes.map (noteElems env.cx))⟩ := by
  simp only [Block.height] at hf hd
  simp only [Block.ok, Bool.and_eq_true, Bool.not_eq_true', List.isEmpty_eq_false_iff] at hok
  obtain ⟨fuel, rfl⟩ : ∃ k, fuel = k + 1 := ⟨fuel - 1, by omega⟩
  obtain ⟨x, y, r, rfl, hx, _⟩ := defs_head hok.1 hxs
  -- the rule
  have key : ∃ sol', ruleDefinitionList (consume fuel) env ⟨({ p with depth := p.depth + 1, rule := .definitionList } : PState).at ((x :: y :: r) ++ tail) true, sh⟩ =
      .ok ⟨(Block.definitions ds).elems env.cx, [], false⟩ ⟨({ p with depth := p.depth + 1, rule := .definitionList } : PState).at (afterClose tail sol').1 (afterClose tail sol').2,
        putNotes sh ((Block.definitions ds).notes.map (noteElems env.cx))⟩ := by
    have hnotes : (Block.definitions ds).notes.map (noteElems env.cx) = ds.flatMap (defNotes env.cx) := by
      simp [Block.notes, List.map_flatMap]
    rw [hnotes]
    generalize x :: y :: r = xs at *
    generalize hp : ({ p with depth := p.depth + 1, rule := .definitionList } : PState) = q at *
    have hq : q.depth = p.depth + 1 := by rw [← hp]
    have hqf : q.inFootnote = false := by rw [← hp]; exact hnf
    simp only [Block.lex] at hxs
    rw [ruleDefinitionList_eq]
    cases ds with
    | nil => exact (hok.1 rfl).elim
    | cons d ds =>
      obtain ⟨k, v⟩ := d
      have hall := hok.2
      rw [List.all_cons, Bool.and_eq_true] at hall
      rw [definitionsHeight] at hf hd
      cases ds with
      | nil =>
        simp only [List.map_cons, List.map_nil, joinLex] at hxs
        obtain ⟨sol', h⟩ := definition_item (p := q) (sh := sh) (fuel := fuel) hall.1 hxs ht hs (by omega) (by omega) hqf
        refine ⟨sol', ?_⟩
        rw [List.flatMap_singleton]
        rw [bind_ok h]
        dsimp only
        by_cases hl : (tail.headD default).token = .lineBreak
        · rw [if_neg (by simpa using hl)]
          obtain ⟨t, ts, rfl, _⟩ := endsLine_next ht
          have hac : afterClose (t :: ts) sol' = (ts, true) := by
            have : t.token = .lineBreak := hl
            simp [afterClose, this, isLineStartTok]
          rw [hac, bind_ok (a := [definitionElem env.cx (k, v)]) (s' := ⟨q.at ts true, putNotes sh (defNotes env.cx (k, v))⟩) (loop_one (defs_stop (hnext hl)))]
          rfl
        · rw [if_pos (by simpa using hl)]
          rfl
      | cons d' ds =>
        simp only [List.map_cons, joinLex] at hxs
        obtain ⟨ys, zs, rfl, hys, hzs⟩ := map_append_split hxs
        obtain ⟨b, zs, rfl, hb, hzs⟩ := List.map_eq_cons_iff.1 hzs
        have hb : b.token = .lineBreak := congrArg (·.1) hb
        have e0 : ys ++ b :: zs ++ tail = ys ++ (b :: (zs ++ tail)) := by simp
        have hzt : zs ++ tail ≠ [] := by cases tail with | nil => exact ht.elim | cons => simp
        rw [e0] at hs ⊢
        obtain ⟨sol1, h⟩ := definition_item (p := q) (sh := sh) (fuel := fuel) (tail := b :: (zs ++ tail)) hall.1 hys (.inl ⟨hb, hzt⟩) hs (by omega) (by omega) hqf
        have hac : afterClose (b :: (zs ++ tail)) sol1 = (zs ++ tail, true) := by simp [afterClose, hb, isLineStartTok]
        rw [hac] at h
        have hdne : ∀ d, definitionLex d ≠ [] := by rintro ⟨k, v⟩; simp [definitionLex]
        have hlen := joinLex_length hdne (d' :: ds)
        have hzlen : (d' :: ds).length ≤ zs.length := by
          have := congrArg List.length hzs
          rw [List.length_map] at this
          simp only [List.map_cons] at hlen
          omega
        obtain ⟨sol2, h2⟩ := defs_loop (p := q) (fuel := fuel) ht hqf hnext (d' :: ds) zs [definitionElem env.cx (k, v)] (zs ++ tail).length
          (putNotes sh (defNotes env.cx (k, v))) (by simp) hall.2 hzs
          (List.IsSuffix.trans (List.suffix_cons b _) (List.IsSuffix.trans (List.suffix_append ys _) hs)) (by omega) (by omega) (by
            obtain ⟨t, ts, rfl, _⟩ := endsLine_next ht
            simp at hzlen ⊢; omega)
        refine ⟨sol2, ?_⟩
        rw [bind_ok h, if_neg (by simp [hb])]
        dsimp only
        rw [bind_ok ((loop_at hzt).trans h2), putNotes_append]
        rfl
  obtain ⟨sol', key⟩ := key
  refine ⟨sol', consume_rule (rs1 := []) (rs2 := [.text]) (r := .definitionList) (by omega) (by rw [hx]; rfl) (by simp) (fun _ => rfl)
    (noParts_cons (by simp) noParts_nil) key ?_ (afterClose_ne ht)⟩
  have := afterClose_length tail sol'
  simp; omega

end Ftml
