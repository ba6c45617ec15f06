import Verif.Lemmas.PageHead
import Verif.Lemmas.DepthRun
/-
Pages: lists and quotes.
-/
namespace Ftml
open M Markup Lexer
variable {env : Env}

theorem byteLen_blanks (n : Nat) : byteLen (List.replicate n ' ') = n := by
  induction n with
  | zero => rfl
  | succ n ih => rw [List.replicate_succ, byteLen, ih]; show 1 + n = n + 1; omega

theorem endsLine_next {tail : List ETok} (ht : EndsLine tail) : ∃ t ts, tail = t :: ts ∧ (t.token ≠ .inputEnd → ts ≠ []) := by
  cases tail with
  | nil => exact ht.elim
  | cons t ts =>
    refine ⟨t, ts, rfl, ?_⟩
    intro hn
    rcases ht with ⟨_, h⟩ | ⟨_, h⟩ | h
    · exact h
    · exact h
    · exact (hn h).elim

/-- The contents of a line, collected up to its end. -/
theorem line_collect {body : List Inline} {xs tail : List ETok} {close : List Cond} {fuel : Nat} {p : PState} {sh : Shared}
    (hok : Inline.ok.go body = true) (hline : (Inline.pieces.go body).all (· != c!"\n") = true)
    (hxs : xs.map ETok.pair = Inline.lex.go body) (ht : EndsLine tail)
    (hs : (xs ++ tail) <:+ (tokenize env.text).tokens) (hf : Inline.height.go body ≤ fuel)
    (hd : p.depth + Inline.height.go body ≤ 100) (hnf : p.inFootnote = false)
    (hclose : ∀ x ys, x.token ≠ .lineBreak → x.token ≠ .paragraphBreak → x.token ≠ .inputEnd → Meets close (x :: ys) = false)
    (hmeet : Meets close tail = true) :
    ∃ sol', collectConsume (consume fuel) close [] none env ⟨p.at (xs ++ tail) false, sh⟩ =
      .ok ⟨Inline.elems.go env.cx body, [], true⟩ ⟨p.at (afterClose tail sol').1 (afterClose tail sol').2, putNotes sh (notesOf env.cx body)⟩ := by
  obtain ⟨sol', hch⟩ := line_chain (close := close) (fuel := fuel) (p := p) (sh := sh) hok hline hxs ht hs hf hd hnf hclose
  obtain ⟨t, ts, rfl, hts⟩ := endsLine_next ht
  refine ⟨sol', ?_⟩
  have := collectConsume_chain (ek := none) hch hmeet hts
  rw [this, outElems_inline, outSafe_inline]

theorem list_turn {depth : Nat} {kind : ListKind} {body : List Inline} {xs tail : List ETok} {fuel : Nat} {p : PState} {sh : Shared}
    {sol : Bool} {acc : List (Nat × ListType × List Elem) × List PErr}
    (hok : lineOk 20 (depth, kind, body) = true)
    (hxs : xs.map ETok.pair = listLineLex (depth, kind, body)) (ht : EndsLine tail)
    (hs : (xs ++ tail) <:+ (tokenize env.text).tokens) (hf : Inline.height.go body ≤ fuel)
    (hd : p.depth + Inline.height.go body ≤ 100) (hnf : p.inFootnote = false) :
    ∃ sol', listTurn (consume fuel) acc env ⟨p.at (xs ++ tail) sol, sh⟩ =
      .ok (.more (acc.1 ++ [(depth, kind.type, Inline.elems.go env.cx body)], acc.2))
        ⟨p.at (afterClose tail sol').1 (afterClose tail sol').2, putNotes sh (notesOf env.cx body)⟩ := by
  simp only [lineOk, Bool.and_eq_true, decide_eq_true_eq] at hok
  simp only [listLineLex] at hxs
  obtain ⟨pre, zs, rfl, hpre, hzs⟩ := map_append_split hxs
  obtain ⟨m, zs, rfl, hm, hzs⟩ := List.map_eq_cons_iff.1 hzs
  obtain ⟨w, ys, rfl, hw, hys⟩ := List.map_eq_cons_iff.1 hzs
  have hm : m.token = markTok kind := congrArg (·.1) hm
  have hw : w.token = .whitespace := congrArg (·.1) hw
  have e0 : (pre ++ m :: w :: ys) ++ tail = pre ++ (m :: w :: (ys ++ tail)) := by simp
  have hs' : (ys ++ tail) <:+ (tokenize env.text).tokens := by
    rw [e0] at hs
    exact List.IsSuffix.trans (List.suffix_cons w _) (List.IsSuffix.trans (List.suffix_cons m _) (List.IsSuffix.trans (List.suffix_append pre _) hs))
  obtain ⟨sol', hc⟩ := line_collect (close := [.cur .lineBreak, .cur .inputEnd, .cur .paragraphBreak]) (fuel := fuel) (p := p) (sh := sh)
    hok.1.2 hok.2 hys ht hs' hf hd hnf (by intro x ys h1 h2 h3; simp [Meets, h1, h2, h3]) (by
      obtain ⟨t, ts, rfl, _⟩ := endsLine_next ht
      rcases ht with ⟨h, _⟩ | ⟨h, _⟩ | h <;> simp [Meets, h])
  refine ⟨sol', ?_⟩
  obtain ⟨z, zs, hz⟩ : ∃ z zs, ys ++ tail = z :: zs := by
    obtain ⟨t, ts, rfl, _⟩ := endsLine_next ht
    cases ys <;> simp
  rw [hz] at hc
  have hmt : m.token ≠ .whitespace := by rw [hm]; cases kind <;> simp [markTok]
  have hmk : getListType m.token = some kind.type := by rw [hm]; cases kind <;> rfl
  -- after the indentation
  have tailrun : ∀ (solm : Bool) (hdep : depth ≤ 20), (do
      match getListType (← curTok) with
      | none => pure (.done acc)
      | some lt => do
        let _ ← step
        if (← curTok) ≠ .whitespace then pure (.done acc)
        else do
          let _ ← step
          let r ← collectConsume (consume fuel) [.cur .lineBreak, .cur .inputEnd, .cur .paragraphBreak] [] none
          pure (.more (acc.1 ++ [(depth, lt, r.item)], acc.2 ++ r.errors)) :
        M (Turn (List (Nat × ListType × List Elem) × List PErr) (List (Nat × ListType × List Elem) × List PErr))) env
        ⟨p.at (m :: w :: z :: zs) solm, sh⟩ =
      .ok (.more (acc.1 ++ [(depth, kind.type, Inline.elems.go env.cx body)], acc.2))
        ⟨p.at (afterClose tail sol').1 (afterClose tail sol').2, putNotes sh (notesOf env.cx body)⟩ := by
    intro solm _
    rw [bind_ok (s' := ⟨p.at (m :: w :: z :: zs) solm, sh⟩) (a := m.token) rfl, hmk]
    dsimp only
    rw [bind_ok (step_at ..)]
    rw [bind_ok (s' := ⟨p.at (w :: z :: zs) (isLineStartTok m.token), sh⟩) (a := w.token) rfl]
    rw [if_neg (by simp [hw]), bind_ok (step_at ..), hw]
    have : isLineStartTok .whitespace = false := rfl
    rw [this, bind_ok hc]
    simp [pure_ok]
  unfold listTurn
  rw [e0, hz]
  by_cases hdz : depth = 0
  · rw [if_pos hdz] at hpre
    obtain rfl : pre = [] := by simpa using hpre
    simp only [List.nil_append]
    rw [bind_ok (s' := ⟨p.at (m :: w :: z :: zs) sol, sh⟩) (a := m) rfl]
    rw [if_pos (by rw [hm]; cases kind <;> rfl)]
    rw [if_neg hmt]
    simp only [hmt, if_false]
    rw [if_neg (by simp)]
    have := tailrun sol (by omega)
    rw [hdz] at this ⊢
    exact this
  · rw [if_neg hdz] at hpre
    obtain ⟨i, rfl, hi⟩ := List.map_eq_singleton_iff.1 hpre
    have hit : i.token = .whitespace := congrArg (·.1) hi
    have his : i.slice = List.replicate depth ' ' := congrArg (·.2) hi
    simp only [List.singleton_append]
    rw [bind_ok (s' := ⟨p.at (i :: m :: w :: z :: zs) sol, sh⟩) (a := i) rfl]
    rw [if_pos (by rw [hit]; rfl)]
    rw [if_pos hit, bind_ok (step_at ..)]
    simp only [hit, if_true, his, byteLen_blanks]
    rw [if_neg (by unfold maxListDepth; omega)]
    exact tailrun _ hok.1.1


/-! ### Lines, one after the other -/

theorem joinLex_length {α : Type} {f : α → List (Token × Str)} (hf : ∀ a, f a ≠ []) : ∀ ls : List α,
    ls.length ≤ (joinLex (ls.map f)).length
  | [] => Nat.le_refl _
  | [l] => by
    have := List.length_pos_iff.2 (hf l)
    simp [joinLex]; omega
  | l :: l' :: ls => by
    have := joinLex_length hf (l' :: ls)
    simp only [List.map_cons] at this
    simp only [List.map_cons, joinLex, List.length_append, List.length_cons] at this ⊢
    omega

/-- A loop over lines. -/
theorem lines_loop {α σ : Type} {f : α → List (Token × Str)} {body : σ → M (Turn σ σ)} {upd : σ → α → σ} {nt : α → List (List Elem)} {p : PState}
    {tail : List ETok} (hf : ∀ a, f a ≠ []) (ht : EndsLine tail)
    (hdone : ∀ acc sol sh, body acc env ⟨p.at (afterClose tail sol).1 (afterClose tail sol).2, sh⟩ =
      .ok (.done acc) ⟨p.at (afterClose tail sol).1 (afterClose tail sol).2, sh⟩) :
    ∀ (ls : List α) (xs : List ETok) (acc : σ) (sol : Bool) (sh : Shared) (n : Nat), ls ≠ [] →
    (∀ l ∈ ls, ∀ (xs tail : List ETok) (sol : Bool) (sh : Shared) (acc : σ), xs.map ETok.pair = f l → EndsLine tail →
      (xs ++ tail) <:+ (tokenize env.text).tokens → ∃ sol', body acc env ⟨p.at (xs ++ tail) sol, sh⟩ =
        .ok (.more (upd acc l)) ⟨p.at (afterClose tail sol').1 (afterClose tail sol').2, putNotes sh (nt l)⟩) →
    xs.map ETok.pair = joinLex (ls.map f) → (xs ++ tail) <:+ (tokenize env.text).tokens → ls.length + 1 ≤ n →
    ∃ sol', loopN body n acc env ⟨p.at (xs ++ tail) sol, sh⟩ =
      .ok (ls.foldl upd acc) ⟨p.at (afterClose tail sol').1 (afterClose tail sol').2, putNotes sh (ls.flatMap nt)⟩
  | [], _, _, _, _, _, h, _, _, _, _ => (h rfl).elim
  | [l], xs, acc, sol, sh, n, _, hturn, hx, hs, hn => by
    obtain ⟨n, rfl⟩ : ∃ k, n = k + 2 := ⟨n - 2, by simp at hn; omega⟩
    obtain ⟨sol', h⟩ := hturn l (by simp) xs tail sol sh acc (by simpa [joinLex] using hx) ht hs
    refine ⟨sol', ?_⟩
    rw [loopN, bind_ok h]
    dsimp only
    rw [loopN, bind_ok (hdone _ sol' _), List.flatMap_singleton]
    rfl
  | l :: l' :: ls, xs, acc, sol, sh, n, _, hturn, hx, hs, hn => by
    obtain ⟨n, rfl⟩ : ∃ k, n = k + 1 := ⟨n - 1, by simp at hn; omega⟩
    simp only [List.map_cons, joinLex] at hx
    obtain ⟨ys, zs, rfl, hys, hzs⟩ := map_append_split hx
    obtain ⟨b, zs, rfl, hb, hzs⟩ := List.map_eq_cons_iff.1 hzs
    have hb : b.token = .lineBreak := congrArg (·.1) hb
    have e0 : ys ++ b :: zs ++ tail = ys ++ (b :: (zs ++ tail)) := by simp
    have hzt : zs ++ tail ≠ [] := by cases tail with | nil => exact ht.elim | cons => simp
    rw [e0] at hs
    obtain ⟨sol', h⟩ := hturn l (by simp) ys (b :: (zs ++ tail)) sol sh acc hys (.inl ⟨hb, hzt⟩) hs
    have hac : afterClose (b :: (zs ++ tail)) sol' = (zs ++ tail, true) := by simp [afterClose, hb, isLineStartTok]
    rw [hac] at h
    obtain ⟨sol2, h2⟩ := lines_loop hf ht hdone (l' :: ls) zs (upd acc l) true (putNotes sh (nt l)) n (by simp)
      (fun a ha => hturn a (by simp at ha; simp [ha])) hzs
      (List.IsSuffix.trans (List.suffix_cons b _) (List.IsSuffix.trans (List.suffix_append ys _) hs)) (by simp at hn ⊢; omega)
    refine ⟨sol2, ?_⟩
    rw [e0, loopN, bind_ok h, List.flatMap_cons, ← putNotes_append]
    exact h2

/-! ### Nested groups of lines -/

section
variable {K L T : Type} {g : K → L} {f : List Inline → T}

/-- The tree of a group of lines. -/
def toD (g : K → L) (f : List Inline → T) : Outline K → DItem L T
  | .line body => .item (f body)
  | .nested k items => .list (g k) (go items)
where
  /-- of a sequence -/
  go : List (Outline K) → List (DItem L T)
    | [] => []
    | i :: is => toD g f i :: go is

mutual
theorem toD_readItem (d : Nat) (k : K) : ∀ i : Outline K, readItem d (g k) (toD g f i) = (i.lines d k).map fun l => (l.1, g l.2.1, f l.2.2)
  | .line body => by simp [toD, readItem, Outline.lines]
  | .nested k' items => by
    rw [toD, readItem, Outline.lines, toD_readItems]
theorem toD_readItems (d : Nat) (k : K) : ∀ is : List (Outline K), readItems d (g k) (toD.go g f is) =
    (Outline.lines.go d k is).map fun l => (l.1, g l.2.1, f l.2.2)
  | [] => by simp [toD.go, readItems, Outline.lines.go]
  | i :: is => by simp [toD.go, readItems, Outline.lines.go, toD_readItem d k i, toD_readItems d k is]
end

theorem start_line {is : List (Outline K)} (h : startOk false is = true) : ∃ t r, toD.go g f is = .item t :: r := by
  cases is with
  | nil => cases h
  | cons i is =>
    cases i with
    | line body => exact ⟨_, _, rfl⟩
    | nested => cases h

variable [DecidableEq K]

theorem toD_leads {sn : Bool} (hone : sn = true → ∀ a b : L, a = b) (l : L) : ∀ is : List (Outline K), startOk sn is = true →
    Outline.ok.go sn is = true → leads l (toD.go g f is)
  | [], h, _ => by cases h
  | .line _ :: _, _, _ => by rw [toD.go, toD, leads]; trivial
  | .nested k items :: is, h, hok => by
    simp only [startOk, Outline.isLine, Bool.or_false] at h
    simp only [Outline.ok.go, Outline.ok, Bool.and_eq_true] at hok
    rw [toD.go, toD, leads]
    exact ⟨hone h _ _, toD_leads hone l items hok.1.1.1 hok.1.1.2⟩

mutual
theorem toD_tidyItem {sn : Bool} (hone : sn = true → ∀ a b : L, a = b) (hinj : ∀ a b, g a = g b → a = b) : ∀ i : Outline K, Outline.ok sn i = true → tidyItem (toD g f i)
  | .line _, _ => by rw [toD, tidyItem]; trivial
  | .nested k items, h => by
    simp only [Outline.ok, Bool.and_eq_true] at h
    rw [toD, tidyItem]
    exact ⟨toD_leads hone _ items h.1 h.2, toD_tidyItems hone hinj items h.2⟩
theorem toD_tidyItems {sn : Bool} (hone : sn = true → ∀ a b : L, a = b) (hinj : ∀ a b, g a = g b → a = b) : ∀ is : List (Outline K), Outline.ok.go sn is = true →
    tidyItems (toD.go g f is)
  | [], _ => by rw [toD.go, tidyItems]; trivial
  | i :: is, h => by
    simp only [Outline.ok.go, Bool.and_eq_true] at h
    rw [toD.go, tidyItems]
    refine ⟨toD_tidyItem hone hinj i h.1.1, ?_, toD_tidyItems hone hinj is h.2⟩
    have hp := h.1.2
    cases i with
    | line => exact trivial
    | nested k items =>
      cases is with
      | nil => exact trivial
      | cons j js =>
        cases j with
        | line => exact trivial
        | nested k' items' =>
          simp only [partedOk, Bool.and_eq_true, bne_iff_ne] at hp
          exact ⟨fun e => hp.1 (hinj _ _ e), start_line hp.2⟩
end

/-- The depths of a group are processed to its tree. -/
theorem processDepths_toD [DecidableEq L] {sn : Bool} (hone : sn = true → ∀ a b : L, a = b) (hinj : ∀ a b, g a = g b → a = b)
    (top : L) (k : K) (is : List (Outline K)) (hs : startOk sn is = true) (hok : Outline.ok.go sn is = true) :
    processDepths top ((Outline.lines.go 0 k is).map fun l => (l.1, g l.2.1, f l.2.2)) = some [(g k, toD.go g f is)] := by
  rw [← toD_readItems]
  have : readItems 0 (g k) (toD.go g f is) = readTrees [(g k, toD.go g f is)] := by simp [readTrees]
  rw [this]
  refine processDepths_tidy _ _ ?_ ?_
  · refine ⟨toD_leads hone _ is hs hok, toD_tidyItems hone hinj is hok, ?_, trivial⟩
    intro l' ys ts' e; cases e
  · intro l ys ts e
    simp only [List.cons.injEq, Prod.mk.injEq] at e
    obtain ⟨⟨rfl, rfl⟩, _⟩ := e
    cases sn with
    | true => exact .inl (hone rfl _ _)
    | false => exact .inr (start_line hs)
end

/-! ### Lists -/

mutual
theorem buildListItem_toD : ∀ i : Outline ListKind, buildListItem (toD ListKind.type (Inline.elems.go env.cx) i) = itemElem env.cx i
  | .line body => rfl
  | .nested k items => by
    rw [toD, buildListItem, itemElem, buildListItems_toD]
theorem buildListItems_toD : ∀ is : List (Outline ListKind), buildListItem.go (toD.go ListKind.type (Inline.elems.go env.cx) is) = itemElem.go env.cx is
  | [] => rfl
  | i :: is => by rw [toD.go, buildListItem.go, itemElem.go, buildListItem_toD i, buildListItems_toD is]
end

/-- The tokens do not go on with a list. -/
def noList : List ETok → Prop
  | [] => False
  | x :: _ => x.token ≠ .whitespace ∧ x.token ≠ .bulletItem ∧ x.token ≠ .numberedItem

theorem linesHeight_mem {K : Type} {ls : List (Nat × K × List Inline)} {l : Nat × K × List Inline} (h : l ∈ ls) :
    Inline.height.go l.2.2 ≤ linesHeight ls := by
  induction ls with
  | nil => simp at h
  | cons a ls ih =>
    obtain ⟨d, k, b⟩ := a
    rw [linesHeight]
    rcases List.mem_cons.1 h with rfl | h
    · dsimp only; omega
    · have := ih h; omega

theorem lines_ne {K : Type} {sn : Bool} {d : Nat} {k : K} [DecidableEq K] : ∀ {is : List (Outline K)}, startOk sn is = true → Outline.ok.go sn is = true →
    Outline.lines.go d k is ≠ []
  | [], h, _ => by cases h
  | .line _ :: _, _, _ => by simp [Outline.lines.go, Outline.lines]
  | .nested k' items :: is, h, hok => by
    simp only [Outline.ok.go, Outline.ok, Bool.and_eq_true] at hok
    have := lines_ne (d := d + 1) (k := k') hok.1.1.1 hok.1.1.2
    simp [Outline.lines.go, Outline.lines, this]

theorem foldl_lines {α β : Type} (g : α → β) : ∀ (ls : List α) (a : List β) (e : List PErr),
    ls.foldl (fun (acc : List β × List PErr) l => (acc.1 ++ [g l], acc.2)) (a, e) = (a ++ ls.map g, e)
  | [], a, e => by simp
  | l :: ls, a, e => by rw [List.foldl_cons, foldl_lines g ls]; simp

theorem list_head {kind : ListKind} {items : List (Outline ListKind)} {xs : List ETok} (h : startOk false items = true)
    (hxs : xs.map ETok.pair = (Block.list kind items).lex) : ∃ x zs, xs = x :: zs ∧ x.token = markTok kind := by
  simp only [Block.lex] at hxs
  cases items with
  | nil => cases h
  | cons i is =>
    cases i with
    | nested => cases h
    | line b =>
      simp only [Outline.lines.go, Outline.lines, List.singleton_append, List.map_cons] at hxs
      have : ∃ r, xs.map ETok.pair = (markTok kind, kind.mark) :: r := by
        cases hr : (Outline.lines.go 0 kind is).map listLineLex with
        | nil => rw [hr] at hxs; exact ⟨_, by simpa [joinLex, listLineLex] using hxs⟩
        | cons a as => rw [hr] at hxs; exact ⟨_, by simpa [joinLex, listLineLex] using hxs⟩
      obtain ⟨r, hr⟩ := this
      obtain ⟨x, zs, rfl, hx, _⟩ := List.map_eq_cons_iff.1 hr
      exact ⟨x, zs, rfl, congrArg (·.1) hx⟩

theorem list_run {kind : ListKind} {items : List (Outline ListKind)} {xs tail : List ETok} {fuel : Nat} {p : PState} {sh : Shared}
    (hok : (Block.list kind items).ok = true) (hxs : xs.map ETok.pair = (Block.list kind items).lex) (ht : EndsLine tail)
    (hs : (xs ++ tail) <:+ (tokenize env.text).tokens) (hf : (Block.list kind items).height ≤ fuel)
    (hd : p.depth + (Block.list kind items).height ≤ 100) (hnf : p.inFootnote = false) (hnext : ∀ sol, noList (afterClose tail sol).1) :
    ∃ sol', consume fuel env ⟨p.at (xs ++ tail) true, sh⟩ =
      .ok ⟨(Block.list kind items).elems env.cx, [], false⟩
        ⟨p.at (afterClose tail sol').1 (afterClose tail sol').2, putNotes sh ((Block.list kind items).notes.map (noteElems env.cx))⟩ := by
  simp only [Block.height] at hf hd
  simp only [Block.ok, Bool.and_eq_true] at hok
  obtain ⟨fuel, rfl⟩ : ∃ k, fuel = k + 1 := ⟨fuel - 1, by omega⟩
  simp only [Block.lex] at hxs
  have hlne := lines_ne (d := 0) (k := kind) hok.1.1 hok.1.2
  have hfne : ∀ l, listLineLex l ≠ [] := by rintro ⟨d, k, b⟩; simp [listLineLex]
  have hlen := joinLex_length hfne (Outline.lines.go 0 kind items)
  have hxlen : (Outline.lines.go 0 kind items).length ≤ xs.length := by
    have := congrArg List.length hxs
    rw [List.length_map] at this
    omega
  obtain ⟨sol', hloop⟩ := lines_loop (body := listTurn (consume fuel)) (p := { p with depth := p.depth + 1, rule := .list }) (nt := fun l => notesOf env.cx l.2.2)
    (upd := fun acc l => (acc.1 ++ [(l.1, l.2.1.type, Inline.elems.go env.cx l.2.2)], acc.2)) hfne ht (by
      intro acc sol sh
      have := hnext sol
      obtain ⟨y, ys, e⟩ : ∃ y ys, (afterClose tail sol).1 = y :: ys := by
        cases h : (afterClose tail sol).1 with
        | nil => rw [h] at this; exact this.elim
        | cons y ys => exact ⟨y, ys, rfl⟩
      rw [e] at this ⊢
      obtain ⟨h1, h2, h3⟩ := this
      unfold listTurn
      rw [bind_ok (a := y) (s' := ⟨({ p with depth := p.depth + 1, rule := .list } : PState).at (y :: ys) (afterClose tail sol).2, sh⟩) rfl]
      rw [if_neg (by simp [h1, h2, h3])]
      rfl)
    (Outline.lines.go 0 kind items) xs ([], []) true sh (xs ++ tail).length hlne (by
      rintro ⟨d, k, b⟩ hl xs tail sol sh acc h1 h2 h3
      have hh := linesHeight_mem hl
      dsimp only at hh
      exact list_turn (depth := d) (kind := k) (body := b) (fuel := fuel) (p := { p with depth := p.depth + 1, rule := .list }) (List.all_eq_true.1 hok.2 _ hl) h1 h2 h3 (by omega) (by dsimp only; omega) hnf) hxs hs (by
        obtain ⟨t, ts, rfl, _⟩ := endsLine_next ht
        simp; omega)
  rw [foldl_lines (fun l : Nat × ListKind × List Inline => (l.1, l.2.1.type, Inline.elems.go env.cx l.2.2)), List.nil_append, ← List.map_flatMap] at hloop
  obtain ⟨x, zs, rfl, hx⟩ := list_head hok.1.1 hxs
  refine ⟨sol', consume_rule (rs1 := []) (rs2 := [.text]) (r := .list) (by omega) (by rw [hx]; cases kind <;> rfl) (by simp) (fun _ => rfl)
    (noParts_cons (by simp) noParts_nil) ?_ ?_ (afterClose_ne ht)⟩
  · show ruleList (consume fuel) env _ = _
    unfold ruleList
    show (_ : M _) env ⟨({ p with depth := p.depth + 1, rule := .list } : PState).at (x :: (zs ++ tail)) true, sh⟩ = _
    have : loop (listTurn (consume fuel)) ([], []) env ⟨({ p with depth := p.depth + 1, rule := .list } : PState).at (x :: (zs ++ tail)) true, sh⟩ =
      .ok _ _ := hloop
    rw [bind_ok this]
    dsimp only
    rw [if_neg (by simpa using hlne)]
    rw [processDepths_toD (g := ListKind.type) (f := Inline.elems.go env.cx) (sn := false) (by simp) (by intro a b; cases a <;> cases b <;> simp [ListKind.type])
      _ _ _ hok.1.1 hok.1.2]
    rw [bind_ok (m := unwrap _ _) (s' := ⟨({ p with depth := p.depth + 1, rule := .list } : PState).at (afterClose tail sol').1 (afterClose tail sol').2, putNotes sh ((Block.list kind items).notes.map (noteElems env.cx))⟩) rfl]
    simp only [List.map_cons, List.map_nil, buildList, buildListItems_toD]
    rfl
  · have := afterClose_length tail sol'
    simp; omega


/-! ### Quotes -/

theorem byteLen_quotes (n : Nat) : byteLen (List.replicate n '>') = n := by
  induction n with
  | zero => rfl
  | succ n ih => rw [List.replicate_succ, byteLen, ih]; show 1 + n = n + 1; omega

theorem optionalSpace_at {w : ETok} {z : ETok} {zs : List ETok} {p : PState} {sol : Bool} {sh : Shared} (hw : w.token = .whitespace) :
    getOptionalSpace env ⟨p.at (w :: z :: zs) sol, sh⟩ = .ok () ⟨p.at (z :: zs) false, sh⟩ := by
  unfold getOptionalSpace getOptionalToken
  rw [bind_ok (a := w.token) (s' := ⟨p.at (w :: z :: zs) sol, sh⟩) rfl, if_pos hw, bind_ok (step_at ..), hw]
  rfl

/-- What a line of a quote gives. -/
abbrev quoteOut (env : Env) (body : List Inline) : List Elem × Bool := (Inline.elems.go env.cx body ++ [eLineBreak], true)

theorem quote_turn {depth : Nat} {u : Unit} {body : List Inline} {xs tail : List ETok} {fuel : Nat} {p : PState} {sh : Shared}
    {sol : Bool} {acc : List (Nat × Unit × (List Elem × Bool)) × List PErr}
    (hok : lineOk 29 (depth, u, body) = true)
    (hxs : xs.map ETok.pair = quoteLineLex (depth, u, body)) (ht : EndsLine tail)
    (hs : (xs ++ tail) <:+ (tokenize env.text).tokens) (hf : Inline.height.go body ≤ fuel)
    (hd : p.depth + Inline.height.go body ≤ 100) (hnf : p.inFootnote = false) :
    ∃ sol', quoteTurn (consume fuel) acc env ⟨p.at (xs ++ tail) sol, sh⟩ =
      .ok (.more (acc.1 ++ [(depth, (), quoteOut env body)], acc.2))
        ⟨p.at (afterClose tail sol').1 (afterClose tail sol').2, putNotes sh (notesOf env.cx body)⟩ := by
  simp only [lineOk, Bool.and_eq_true, decide_eq_true_eq] at hok
  simp only [quoteLineLex] at hxs
  obtain ⟨m, zs, rfl, hm0, hzs⟩ := List.map_eq_cons_iff.1 hxs
  obtain ⟨w, ys, rfl, hw, hys⟩ := List.map_eq_cons_iff.1 hzs
  have hm : m.token = .quote := congrArg (·.1) hm0
  have hms : m.slice = List.replicate (depth + 1) '>' := congrArg (·.2) hm0
  have hw : w.token = .whitespace := congrArg (·.1) hw
  have e0 : (m :: w :: ys) ++ tail = m :: w :: (ys ++ tail) := by simp
  have hs' : (ys ++ tail) <:+ (tokenize env.text).tokens := by
    rw [e0] at hs
    exact List.IsSuffix.trans (List.suffix_cons w _) (List.IsSuffix.trans (List.suffix_cons m _) hs)
  obtain ⟨sol', hc⟩ := line_collect (close := lineEnds) (fuel := fuel) (p := p) (sh := sh)
    hok.1.2 hok.2 hys ht hs' hf hd hnf (fun x ys => meets_lineEnds) (endsLine_meets ht)
  refine ⟨sol', ?_⟩
  obtain ⟨z, zs, hz⟩ : ∃ z zs, ys ++ tail = z :: zs := by
    obtain ⟨t, ts, rfl, _⟩ := endsLine_next ht
    cases ys <;> simp
  rw [hz] at hc
  unfold quoteTurn
  rw [e0, hz]
  rw [bind_ok (s' := ⟨p.at (m :: w :: z :: zs) sol, sh⟩) (a := m) rfl]
  rw [if_neg (by simp [hm])]
  rw [bind_ok (step_at ..), bind_ok (optionalSpace_at hw), hms, byteLen_quotes]
  rw [if_neg (by unfold maxBlockquoteDepth; omega), bind_ok hc]
  simp [pure_ok]

/-- The paragraph so far. -/
def quoteCur : Option (List Elem) → List Elem
  | none => []
  | some cur => cur ++ [eLineBreak]

theorem foldl_push (es : List Elem) : ∀ s : PStack, es.foldl (fun s e => s.pushElement e true) s = { s with current := s.current ++ es } := by
  induction es with
  | nil => intro s; simp
  | cons e es ih => intro s; rw [List.foldl_cons, ih]; simp [PStack.pushElement]

theorem popBreak (f : List Elem) (er : List PErr) (cur : Option (List Elem)) :
    (⟨quoteCur cur, f, er⟩ : PStack).popLineBreak = ⟨cur.getD [], f, er⟩ := by
  cases cur with
  | none => rfl
  | some c => simp [quoteCur, PStack.popLineBreak, eLineBreak]

theorem into_paraOf (c f : List Elem) (er : List PErr) : (⟨c, f, er⟩ : PStack).intoElements = f ++ paraOf c := by
  cases c <;> simp [PStack.intoElements, PStack.endParagraph, paraOf, eContainer]

theorem push_unsafe (c f : List Elem) (er : List PErr) (e : Elem) :
    (⟨c, f, er⟩ : PStack).pushElement e false = ⟨[], f ++ paraOf c ++ [e], er⟩ := by
  cases c <;> simp [PStack.pushElement, PStack.endParagraph, paraOf, eContainer]

theorem quoteGo_elems : ∀ (is : List (Outline Unit)) (cur : Option (List Elem)) (f : List Elem) (er : List PErr),
    (quoteItem.go (toD.go id (quoteOut env) is) ⟨quoteCur cur, f, er⟩).popLineBreak.intoElements = f ++ quoteElems env.cx is cur
  | [], cur, f, er => by rw [toD.go, quoteItem.go, popBreak, into_paraOf, quoteElems]
  | .line body :: is, none, f, er => by
    rw [toD.go, toD, quoteItem.go, quoteItem, foldl_push, quoteElems]
    exact quoteGo_elems is (some (Inline.elems.go env.cx body)) f er
  | .line body :: is, some c, f, er => by
    rw [toD.go, toD, quoteItem.go, quoteItem, foldl_push, quoteElems]
    have := quoteGo_elems is (some (c ++ .mk .lineBreak [] :: Inline.elems.go env.cx body)) f er
    simp only [quoteCur, List.append_assoc, List.cons_append, List.nil_append] at this ⊢
    exact this
  | .nested _ items :: is, cur, f, er => by
    have h1 := quoteGo_elems items none [] []
    rw [toD.go, toD, quoteItem.go, quoteItem, quoteElems]
    rw [popBreak, push_unsafe]
    have h2 := quoteGo_elems is none (f ++ paraOf (cur.getD []) ++ [eContainer .blockquote (quoteElems env.cx items none)]) er
    have h3 : (quoteItem.go (toD.go id (quoteOut env) items) PStack.new).popLineBreak.intoElements = quoteElems env.cx items none := h1
    rw [h3]
    simp only [quoteCur] at h2
    rw [h2]
    simp [eContainer]

theorem quote_head {items : List (Outline Unit)} {xs : List ETok} (h : Outline.lines.go 0 () items ≠ [])
    (hxs : xs.map ETok.pair = (Block.quote items).lex) : ∃ x zs, xs = x :: zs ∧ x.token = .quote := by
  simp only [Block.lex] at hxs
  obtain ⟨l, ls, hl⟩ := List.exists_cons_of_ne_nil h
  obtain ⟨d, u, b⟩ := l
  rw [hl, List.map_cons (f := quoteLineLex)] at hxs
  have : ∃ r, xs.map ETok.pair = (.quote, List.replicate (d + 1) '>') :: r := by
    cases hr : ls.map quoteLineLex with
    | nil => rw [hr] at hxs; exact ⟨_, by simpa [joinLex, quoteLineLex] using hxs⟩
    | cons a as => rw [hr] at hxs; exact ⟨_, by simpa [joinLex, quoteLineLex] using hxs⟩
  obtain ⟨r, hr⟩ := this
  obtain ⟨x, zs, rfl, hx, _⟩ := List.map_eq_cons_iff.1 hr
  exact ⟨x, zs, rfl, congrArg (·.1) hx⟩

theorem quote_run {items : List (Outline Unit)} {xs tail : List ETok} {fuel : Nat} {p : PState} {sh : Shared}
    (hok : (Block.quote items).ok = true) (hxs : xs.map ETok.pair = (Block.quote items).lex) (ht : EndsLine tail)
    (hs : (xs ++ tail) <:+ (tokenize env.text).tokens) (hf : (Block.quote items).height ≤ fuel)
    (hd : p.depth + (Block.quote items).height ≤ 100) (hnf : p.inFootnote = false) (hnext : ∀ sol, ((afterClose tail sol).1.headD default).token ≠ .quote) :
    ∃ sol', consume fuel env ⟨p.at (xs ++ tail) true, sh⟩ =
      .ok ⟨(Block.quote items).elems env.cx, [], false⟩
        ⟨p.at (afterClose tail sol').1 (afterClose tail sol').2, putNotes sh ((Block.quote items).notes.map (noteElems env.cx))⟩ := by
  simp only [Block.height] at hf hd
  simp only [Block.ok, Bool.and_eq_true] at hok
  obtain ⟨fuel, rfl⟩ : ∃ k, fuel = k + 1 := ⟨fuel - 1, by omega⟩
  simp only [Block.lex] at hxs
  have hlne := lines_ne (d := 0) (k := ()) hok.1.1 hok.1.2
  have hfne : ∀ l, quoteLineLex l ≠ [] := by rintro ⟨d, k, b⟩; simp [quoteLineLex]
  have hlen := joinLex_length hfne (Outline.lines.go 0 () items)
  have hxlen : (Outline.lines.go 0 () items).length ≤ xs.length := by
    have := congrArg List.length hxs
    rw [List.length_map] at this
    omega
  obtain ⟨sol', hloop⟩ := lines_loop (body := quoteTurn (consume fuel)) (p := { p with depth := p.depth + 1, rule := .blockquote }) (nt := fun l => notesOf env.cx l.2.2)
    (upd := fun acc l => (acc.1 ++ [(l.1, (), quoteOut env l.2.2)], acc.2)) hfne ht (by
      intro acc sol sh
      have := hnext sol
      obtain ⟨y, ys, e⟩ := List.exists_cons_of_ne_nil (afterClose_ne (sol := sol) ht)
      rw [e] at this ⊢
      unfold quoteTurn
      rw [bind_ok (a := y) (s' := ⟨({ p with depth := p.depth + 1, rule := .blockquote } : PState).at (y :: ys) (afterClose tail sol).2, sh⟩) rfl]
      rw [if_pos (by simpa using this)]
      rfl)
    (Outline.lines.go 0 () items) xs ([], []) true sh (xs ++ tail).length hlne (by
      rintro ⟨d, k, b⟩ hl xs tail sol sh acc h1 h2 h3
      have hh := linesHeight_mem hl
      dsimp only at hh
      exact quote_turn (depth := d) (u := k) (body := b) (fuel := fuel) (p := { p with depth := p.depth + 1, rule := .blockquote }) (List.all_eq_true.1 hok.2 _ hl) h1 h2 h3 (by omega) (by dsimp only; omega) hnf) hxs hs (by
        obtain ⟨t, ts, rfl, _⟩ := endsLine_next ht
        simp; omega)
  rw [foldl_lines (fun l : Nat × Unit × List Inline => (l.1, (), quoteOut env l.2.2)), List.nil_append, ← List.map_flatMap] at hloop
  obtain ⟨x, zs, rfl, hx⟩ := quote_head hlne hxs
  refine ⟨sol', consume_rule (rs1 := []) (rs2 := [.doubleAngle, .text]) (r := .blockquote) (by omega) (by rw [hx]; rfl) (by simp) (fun _ => rfl)
    (noParts_cons (by simp) noParts_nil) ?_ ?_ (afterClose_ne ht)⟩
  · show ruleBlockquote (consume fuel) env _ = _
    unfold ruleBlockquote
    show (_ : M _) env ⟨({ p with depth := p.depth + 1, rule := .blockquote } : PState).at (x :: (zs ++ tail)) true, sh⟩ = _
    have : loop (quoteTurn (consume fuel)) ([], []) env ⟨({ p with depth := p.depth + 1, rule := .blockquote } : PState).at (x :: (zs ++ tail)) true, sh⟩ =
      .ok _ _ := hloop
    rw [bind_ok this]
    dsimp only
    rw [if_neg (by simpa using hlne)]
    have hpd := processDepths_toD (g := id) (f := quoteOut env) (sn := true) (top := ()) (fun _ _ _ => rfl) (fun _ _ h => h) () items hok.1.1 hok.1.2
    simp only [id_eq] at hpd
    rw [hpd]
    rw [bind_ok (m := unwrap _ _) (s' := ⟨({ p with depth := p.depth + 1, rule := .blockquote } : PState).at (afterClose tail sol').1 (afterClose tail sol').2, putNotes sh ((Block.quote items).notes.map (noteElems env.cx))⟩) rfl]
    have hq : (quoteItem.go (toD.go id (quoteOut env) items) PStack.new).popLineBreak.intoElements = quoteElems env.cx items none := quoteGo_elems items none [] []
    simp only [List.map_cons, List.map_nil, buildBlockquote, hq]
    rfl
  · have := afterClose_length tail sol'
    simp; omega

end Ftml
