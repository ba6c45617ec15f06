import Verif.Model.Owned
import Verif.Props.Parse
import Verif.Props.Includes
/-!
C85: owned copies and iteration.  C86: the includers that come with the library.  C87: karma levels.
-/

namespace Ftml

/-! ### C85 -/

private theorem strOwned_eq (s : Str) : strOwned s = s := by simp [strOwned]
private theorem optOwned_eq (s : Option Str) : optOwned s = s := by
  cases s <;> simp [optOwned, strOwned_eq]
private theorem mapOwned_eq (m : List (Str × Str)) : mapOwned m = m := by simp [mapOwned, strOwned_eq]
private theorem pageOwned_eq (r : PageRef) : r.owned = r := by
  cases r; simp [PageRef.owned, strOwned_eq, optOwned_eq]
private theorem locOwned_eq (l : LinkLoc) : l.owned = l := by
  cases l <;> simp [LinkLoc.owned, strOwned_eq, pageOwned_eq]

/-- Inserting a key behind all keys of a map appends it. -/
private theorem btInsert_last {k v : Str} {m : AttrMap} (h : ∀ p ∈ m, strLt p.1 k = true) : btInsert k v m = m ++ [(k, v)] := by
  induction m with
  | nil => rfl
  | cons p m ih =>
    obtain ⟨k', v'⟩ := p
    have hp : strLt k' k = true := h (k', v') (by simp)
    have h1 : k ≠ k' := by rintro rfl; rw [strLt_irrefl] at hp; cases hp
    have h2 : strLt k k' = false := by
      cases hc : strLt k k' with
      | false => rfl
      | true => have := strLt_trans hp hc; rw [strLt_irrefl] at this; cases this
    rw [btInsert, if_neg h1, h2]
    simp only [Bool.false_eq_true, if_false, List.cons_append]
    rw [ih fun q hq => h q (by simp [hq])]

private theorem attrOwned_eq {m : AttrMap} (h : SortedKeys m) : attrOwned m = m := by
  have : ∀ (m acc : AttrMap), SortedKeys (acc ++ m) →
      m.foldl (fun m' kv => btInsert (strOwned kv.1) (strOwned kv.2) m') acc = acc ++ m := by
    intro m
    induction m with
    | nil => intro acc _; simp
    | cons p m ih =>
      intro acc ha
      have hc := List.pairwise_append.1 ha
      rw [List.foldl_cons, strOwned_eq, strOwned_eq, btInsert_last fun q hq => hc.2.2 q hq p (by simp)]
      rw [ih _ (by simpa using ha)]
      simp
  exact this m [] h

/-- A tree whose attribute maps are sorted by name, as every `BTreeMap` is. -/
def MapsSorted (t : Tree) : Prop :=
  ∀ es, t.Forest es → ∀ k ks, Occurs k ks es → SortedKeys k.attrs

private theorem kindOwned_eq {k : Kind} (h : SortedKeys k.attrs) : k.owned = k := by
  cases k <;> simp only [Kind.owned, strOwned_eq, optOwned_eq, mapOwned_eq, pageOwned_eq, locOwned_eq]
  case module m =>
    cases m <;> simp only [Module.owned, optOwned_eq]
    rw [attrOwned_eq (by exact h)]
  case link l u e lb t => cases lb <;> simp only [LinkLabel.owned, strOwned_eq, optOwned_eq]
  case image s l a m =>
    have : l.map LinkLoc.owned = l := by cases l <;> simp [locOwned_eq]
    rw [this, attrOwned_eq (by exact h)]
    cases s <;> simp only [ImageSource.owned, strOwned_eq]
  case embed e => cases e <;> simp only [Embed.owned, strOwned_eq]
  all_goals rw [attrOwned_eq (by exact h)]

mutual
private theorem elemOwned_eq : ∀ (e : Elem), (∀ k ks, Occurs k ks [e] → SortedKeys k.attrs) → e.owned = e
  | .mk k ks, h => by
    rw [Elem.owned, kindOwned_eq (h k ks (.here (by simp))),
      goOwned_eq ks fun k' ks' ho => h k' ks' (.inside (List.mem_singleton.2 rfl) ho)]
private theorem goOwned_eq : ∀ (es : List Elem), (∀ k ks, Occurs k ks es → SortedKeys k.attrs) → Elem.owned.go es = es
  | [], _ => rfl
  | e :: es, h => by
    rw [Elem.owned.go, elemOwned_eq e fun k ks ho => h k ks ?_, goOwned_eq es fun k ks ho => h k ks ?_]
    · cases ho with
      | here hm => exact .here (List.mem_cons_of_mem _ hm)
      | inside hm hi => exact .inside (List.mem_cons_of_mem _ hm) hi
    · cases ho with
      | here hm => exact .here (List.mem_cons.2 (.inl (List.mem_singleton.1 hm)))
      | inside hm hi => exact .inside (List.mem_cons.2 (.inl (List.mem_singleton.1 hm))) hi
end

/-- C85: the owned copy of a syntax tree is equal to it, in every field of every element. -/
theorem C85_owned_copy (t : Tree) (h : MapsSorted t) : t.owned = t := by
  have go : ∀ {es}, t.Forest es → Elem.owned.go es = es := fun hf => goOwned_eq _ (h _ hf)
  obtain ⟨elements, toc, htmls, codes, notes, bibs, len⟩ := t
  simp only [Tree.owned, Tree.mk.injEq, and_true]
  refine ⟨go .body, go .toc, ?_, ?_, ?_, ?_⟩
  · exact (List.map_congr_left fun s _ => strOwned_eq s).trans (List.map_id' _)
  · refine (List.map_congr_left fun c _ => ?_).trans (List.map_id' _)
    cases c; simp [CodeBlock.owned, strOwned_eq, optOwned_eq]
  · exact (List.map_congr_left fun es hm => go (.footnote hm)).trans (List.map_id' _)
  · refine (List.map_congr_left fun b hb => ?_).trans (List.map_id' _)
    obtain ⟨es⟩ := b
    simp only [Bibl.owned, Bibl.mk.injEq]
    refine (List.map_congr_left fun x hx => ?_).trans (List.map_id' _)
    obtain ⟨l, y⟩ := x
    rw [strOwned_eq, go (.bibliography hb hx)]

/-- C85: the owned copy of a parsed tree is equal to it. -/
theorem C85_parsed_copy {w : World} {text : Str} {info : PageInfo} {settings : Settings} {o : Outcome}
    (h : parse w (tokenize text) info settings = some (.ok o)) : o.tree.owned = o.tree := by
  exact C85_owned_copy _ fun es hf k ks ho => (C32_attributes_safe h hf ho).1

example : (resultOf (parsePage c!"[[div class=\"c\" id=\"i\"]]\na((bibcite x))[[footnote]]n[[/footnote]]\n[[/div]]")).isSome = true := by
  decide +kernel

/-- What an iterator yields in `n` steps. -/
def BorrowedIter.take : Nat → BorrowedIter → List Elem
  | 0, _ => []
  | n + 1, it =>
    match it.next with
    | (Option.none, _) => []
    | (some e, it) => e :: it.take n
/-- What an iterator yields in `n` steps. -/
def OwnedIter.take : Nat → OwnedIter → List Elem
  | 0, _ => []
  | n + 1, it =>
    match it.next with
    | (Option.none, _) => []
    | (some e, it) => e :: it.take n

private theorem take_multiple (es : List Elem) : ∀ n i, (BorrowedIter.multiple es i).take n = (es.drop i).take n
  | 0, i => by simp [BorrowedIter.take]
  | n + 1, i => by
    rw [BorrowedIter.take, BorrowedIter.next]
    cases h : es[i]? with
    | none => simp [List.drop_eq_nil_of_le (List.getElem?_eq_none_iff.1 h)]
    | some e =>
      obtain ⟨hi, rfl⟩ := List.getElem?_eq_some_iff.1 h
      dsimp only
      rw [take_multiple es n (i + 1), List.drop_eq_getElem_cons hi, List.take_succ_cons]

private theorem take_owned : ∀ n (es : List Elem), (OwnedIter.mk es.reverse).take n = es.take n
  | 0, es => by simp [OwnedIter.take]
  | n + 1, [] => by simp [OwnedIter.take, OwnedIter.next]
  | n + 1, e :: es => by
    rw [OwnedIter.take, OwnedIter.next]
    simp only [List.reverse_cons, List.getLast?_append, List.getLast?_singleton, Option.some_or, List.dropLast_concat,
      List.take_succ_cons]
    rw [take_owned n es]

/-- C85: however many steps are taken, both iterators yield the elements in order, each once, and then nothing; their
number is `len`, and `is_empty` says whether there are any. -/
theorem C85_iterators (x : ElementList) (n : Nat) :
    x.iter.take n = x.asRef.take n ∧ x.intoIter.take n = x.asRef.take n ∧ x.len = x.asRef.length ∧
    x.isEmpty = x.asRef.isEmpty := by
  cases x with
  | multiple es => exact ⟨by simp [ElementList.iter, take_multiple, ElementList.asRef], take_owned n es, rfl, rfl⟩
  | single e =>
    refine ⟨?_, ?_, rfl, rfl⟩
    · match n with
      | 0 => rfl
      | 1 => rfl
      | n + 2 => rfl
    · exact take_owned n [e]
  | none =>
    refine ⟨?_, ?_, rfl, rfl⟩
    · cases n <;> rfl
    · exact take_owned n []

/-- C85: what a list made of an element, of an element or nothing, or of elements holds; and no element makes `none`, not
a list of elements which is empty. -/
theorem C85_conversions (e : Elem) (o : Option Elem) (es : List Elem) :
    (ElementList.ofElem e).asRef = [e] ∧ (ElementList.ofOption o).asRef = o.toList ∧ (ElementList.ofList es).asRef = es ∧
    ElementList.ofOption none = ElementList.none ∧ ElementList.ofOption (some e) = ElementList.ofElem e := by
  refine ⟨rfl, ?_, rfl, rfl, rfl⟩
  cases o <;> rfl

example : (ElementList.ofList [eText c!"a", eText c!"b"]).iter.take 9 = [eText c!"a", eText c!"b"] ∧
    (ElementList.ofOption (some (eText c!"a"))).intoIter.take 9 = [eText c!"a"] := ⟨rfl, rfl⟩

/-! ### C87 -/

/-- C87: karma levels are the numbers from 0 to 5: each level is got back from its value, and other numbers are no
levels. -/
theorem C87_karma (n : Nat) (l : KarmaLevel) :
    (KarmaLevel.new n = some l ↔ n = l.value) ∧ ((KarmaLevel.new n).isSome ↔ n ≤ 5) := by
  match n with
  | 0 | 1 | 2 | 3 | 4 | 5 => cases l <;> decide
  | n + 6 => exact ⟨by cases l <;> simp [KarmaLevel.new, KarmaLevel.value], by simp [KarmaLevel.new]⟩

example : KarmaLevel.new 3 = some .three := rfl

namespace Includes

/-! ### C86 -/

/-- C86: the null includer works exactly on the texts without include blocks, which it leaves as they are; any
include block is an invalid return, although the includer is documented to replace include blocks with nothing. -/
theorem C86_null_includer {E : Type} (e : E) (input : Str) :
    runInclude true (nullIncluder E) e () input = if requested input = [] then .ok input [] else .err e := by
  unfold runInclude requested
  simp only [Bool.not_true, Bool.false_eq_true, if_false, nullIncluder, List.length_nil]
  cases hc : collect input with
  | nil => simp [spliceLoop]
  | cons x xs => simp

example : runInclude true (nullIncluder Unit) () () c!"a\n[[include b]]\nc" = .err () := by decide +kernel
example : runInclude true (nullIncluder Unit) () () c!"a" = .ok c!"a" [] := by decide +kernel

private theorem debugPages_refs (q : Str → Str) : ∀ (b : Bool) (is : List IncludeRef),
    (debugPages q b is).map (·.pageRef) = is.map (·.pageRef)
  | _, [] => rfl
  | b, i :: is => by simp [debugPages, debugPages_refs q false is]

/-- The text the debug includer gives for an include. -/
def debugText (quote : Str → Str) (i : IncludeRef) : Str :=
  c!"<INCLUDED-PAGE " ++ i.pageRef.display ++ c!" " ++ mapWrap quote i.variables ++ c!">"

private theorem debugPages_false (q : Str → Str) : ∀ (is : List IncludeRef),
    debugPages q false is = is.map fun i => ⟨i.pageRef, some (debugText q i)⟩
  | [] => rfl
  | i :: is => by simp [debugPages, debugPages_false q is, debugText]

/-- C86: the debug includer works on every text whose include blocks do not overlap: every block is replaced by a
text naming its page and variables, except that the first of several counts as missing. -/
theorem C86_debug_includer {E : Type} (q : Str → Str) (e : E) (input : Str) (hd : Disjoint (collect input)) :
    ∃ (pieces : List Piece) (tail : Str),
      input = (pieces.flatMap fun p => p.text ++ p.block) ++ tail ∧
      runInclude true (debugIncluder q E) e () input =
        .ok ((pieces.flatMap fun p => p.text ++ p.replacement) ++ tail) (pieces.map fun p => p.inc.pageRef) ∧
      requested input = pieces.map (fun p => p.inc) ∧ (∀ p ∈ pieces, IsBlock p.block p.inc) ∧
      (∀ i p, pieces[i]? = some p → if i = 0 ∧ pieces.length > 1 then p.replacement = c!"<MISSING-PAGE " ++ p.inc.pageRef.display ++ c!">"
        else Subst p.inc.variables (debugText q p.inc) p.replacement) := by
  obtain ⟨out, ps, hrun⟩ := C25_succeeds (debugIncluder q E) e () () input
    (debugPages q ((requested input).length > 1) (requested input)) hd rfl (debugPages_refs q _ _) (fun st r => ⟨_, st, rfl⟩)
  obtain ⟨pieces, tail, fetched, st', h1, h2, h3, h4, h5, h6, h7⟩ := C25_splice _ _ _ _ _ _ hd hrun
  refine ⟨pieces, tail, h1, by rw [hrun, h2, h3], h4, fun p hp => (h7 p hp).1, fun i p hp => ?_⟩
  have hc := (h7 p (List.mem_of_getElem? hp)).2
  have hf : fetched[i]? = some p.fetched := by rw [h6, List.getElem?_map, hp]; rfl
  simp only [debugIncluder, Prod.mk.injEq, Except.ok.injEq] at h5
  rw [← h5.1, h4] at hf
  obtain ⟨_, hc⟩ := hc
  cases pieces with
  | nil => simp at hp
  | cons x xs =>
    rw [List.map_cons, debugPages, debugPages_false] at hf
    cases i with
    | zero =>
      simp only [List.getElem?_cons_zero, Option.some.injEq] at hp hf
      subst hp
      cases xs with
      | nil =>
        rw [if_neg (by simp)]
        rw [← hf] at hc
        simpa [debugText] using hc
      | cons y ys =>
        rw [if_pos (by simp)]
        rw [← hf] at hc
        simp [debugIncluder] at hc
        exact hc.symm
    | succ i =>
      rw [if_neg (by simp)]
      rw [List.getElem?_cons_succ] at hp hf
      rw [List.getElem?_map, List.getElem?_map, hp] at hf
      simp only [Option.map_some, Option.some.injEq] at hf
      rw [← hf] at hc
      exact hc

example : runInclude true (debugIncluder id Unit) () () c!"a\n[[include b | y=1 | x=2 ]]\nc" =
    .ok c!"a\n<INCLUDED-PAGE b {x => 2 , y => 1 }>\nc" [⟨none, c!"b"⟩] := by decide +kernel

private theorem strLt_iff : ∀ (s t : Str), strLt s t = true ↔ s < t
  | [], [] => by simp [strLt]
  | [], b :: t => by simp [strLt]
  | a :: s, [] => by simp [strLt]
  | a :: s, b :: t => by
    rw [List.cons_lt_cons_iff, ← strLt_iff s t]
    have h1 : a < b ↔ a.toNat < b.toNat := Iff.rfl
    simp only [strLt]
    by_cases h : a.toNat < b.toNat
    · simp [h, h1]
    · by_cases e : a = b
      · subst e; simp
      · simp [h, h1, e]

private theorem insert_perm (x : Str × Str) : ∀ l, (insertByKey x l).Perm (x :: l)
  | [] => by simp [insertByKey]
  | y :: ys => by
    simp only [insertByKey]
    split
    · exact List.Perm.refl _
    · exact ((insert_perm x ys).cons y).trans (List.Perm.swap x y ys)

private theorem insert_sorted (x : Str × Str) : ∀ (l : List (Str × Str)), l.Pairwise (fun a b => ¬ b.1 < a.1) →
    (insertByKey x l).Pairwise (fun a b => ¬ b.1 < a.1)
  | [], _ => by simp [insertByKey]
  | y :: ys, h => by
    rw [List.pairwise_cons] at h
    simp only [insertByKey]
    split
    · rename_i hl
      rw [strLt_iff] at hl
      refine List.pairwise_cons.2 ⟨?_, List.pairwise_cons.2 h⟩
      intro z hz
      rcases List.mem_cons.1 hz with rfl | hz
      · exact fun h' => List.lt_asymm hl h'
      · exact fun h' => h.1 z hz (List.lt_trans h' hl)
    · rename_i hl
      rw [strLt_iff] at hl
      refine List.pairwise_cons.2 ⟨?_, insert_sorted x ys h.2⟩
      intro z hz
      rcases List.mem_cons.1 ((insert_perm x ys).mem_iff.1 hz) with rfl | hz
      · exact hl
      · exact h.1 z hz

private theorem sort_spec (m acc : List (Str × Str)) (h : acc.Pairwise (fun a b => ¬ b.1 < a.1)) :
    (m.foldl (fun l x => insertByKey x l) acc).Perm (acc ++ m) ∧
    (m.foldl (fun l x => insertByKey x l) acc).Pairwise (fun a b => ¬ b.1 < a.1) := by
  induction m generalizing acc with
  | nil => simpa using h
  | cons x m ih =>
    obtain ⟨h1, h2⟩ := ih (insertByKey x acc) (insert_sorted x acc h)
    refine ⟨h1.trans ?_, h2⟩
    exact ((insert_perm x acc).append_right m).trans (by simpa using (List.perm_middle (l₁ := acc) (a := x) (l₂ := m)).symm)

/-- C86: the text of the debug includer names the page and lists all variables of the include block with their
values, sorted by name. -/
theorem C86_debug_text (q : Str → Str) (i : IncludeRef) :
    ∃ vars : List (Str × Str), vars.Perm i.variables ∧ vars.Pairwise (fun a b => ¬ b.1 < a.1) ∧
      debugText q i = c!"<INCLUDED-PAGE " ++ i.pageRef.display ++ c!" {" ++
        (c!", ").intercalate (vars.map fun v => q v.1 ++ c!" => " ++ q v.2) ++ c!"}>" := by
  obtain ⟨h1, h2⟩ := sort_spec i.variables [] List.Pairwise.nil
  refine ⟨_, by simpa using h1, h2, ?_⟩
  simp [debugText, mapWrap, sortByKey]

example : debugText id ⟨⟨none, c!"b"⟩, [(c!"y", c!"1"), (c!"x", c!"2")]⟩ = c!"<INCLUDED-PAGE b {x => 2, y => 1}>" := by decide +kernel

end Includes
end Ftml
