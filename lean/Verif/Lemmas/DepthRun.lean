import Verif.Props.Depth
/-
`process_depths` inverts the reading of well-shaped forests.
-/
namespace Ftml
variable {L T : Type}

/-- A stack of levels, the innermost first. -/
def toNE {α : Type} : α → List α → NEVec α
  | a, [] => ⟨a, []⟩
  | a, b :: bs => (toNE b bs).push a

theorem toNE_last {α : Type} (a : α) (bs : List α) : (toNE a bs).last = a := by
  cases bs <;> simp [toNE, NEVec.last, NEVec.push]
theorem toNE_pop {α : Type} (a b : α) (bs : List α) : (toNE a (b :: bs)).pop = (some a, toNE b bs) := by
  simp [toNE, NEVec.pop, NEVec.push]
theorem toNE_modify {α : Type} (f : α → α) (a : α) (bs : List α) : (toNE a bs).modifyLast f = toNE (f a) bs := by
  cases bs <;> simp [toNE, NEVec.modifyLast, NEVec.push]
theorem toNE_len {α : Type} (a : α) (bs : List α) : (toNE a bs).len = bs.length + 1 := by
  induction bs generalizing a with
  | nil => rfl
  | cons b bs ih =>
    have := ih b
    simp [toNE, NEVec.len, NEVec.push] at this ⊢
    omega
theorem toNE_single {α : Type} (a : α) (bs : List α) : (toNE a bs).isSingle = bs.isEmpty := by
  cases bs <;> simp [toNE, NEVec.isSingle, NEVec.push]

/-- One level of the stack. -/
abbrev Level (L T : Type) := L × List (DItem L T)

/-- A state of the loop. -/
abbrev mkS (fin : List (Level L T)) (inner : Level L T) (outer : List (Level L T)) : DStack L T := ⟨fin, toNE inner outer⟩

theorem mkS_push (fin : List (Level L T)) (l : L) (xs : List (DItem L T)) (outer : List (Level L T)) (i : DItem L T) :
    (mkS fin (l, xs) outer).push i = mkS fin (l, xs ++ [i]) outer := by
  simp [DStack.push, toNE_modify]
theorem mkS_dec (fin : List (Level L T)) (l : L) (xs : List (DItem L T)) (l' : L) (ys : List (DItem L T))
    (outer : List (Level L T)) : (mkS fin (l, xs) ((l', ys) :: outer)).decreaseDepth = some (mkS fin (l', ys ++ [.list l xs]) outer) := by
  simp only [DStack.decreaseDepth, toNE_pop]
  rw [mkS_push]
theorem mkS_inc (fin : List (Level L T)) (inner : Level L T) (outer : List (Level L T)) (l : L) :
    (mkS fin inner outer).increaseDepth l = mkS fin (l, []) (inner :: outer) := rfl

/-- The level `(l, acc)` above `base` is open, perhaps with its last list still being built. -/
inductive Opened : List (Level L T) → L → List (DItem L T) → Level L T → List (Level L T) → Prop where
  | here {base l acc} : Opened base l acc (l, acc) base
  | deeper {base l acc l0 zs inner outer} : Opened ((l, acc) :: base) l0 zs inner outer →
      Opened base l (acc ++ [.list l0 zs]) inner outer

theorem Opened.length {base : List (Level L T)} {l acc inner outer} (h : Opened base l acc inner outer) :
    base.length ≤ outer.length := by
  induction h with
  | here => exact Nat.le_refl _
  | deeper _ ih => simp at ih; omega

theorem iterM_succ {σ : Type} (f : σ → Option σ) (n : Nat) (s : σ) :
    DStack.iterM f (n + 1) s = (DStack.iterM f n s).bind f := by
  induction n generalizing s with
  | zero => simp [DStack.iterM]
  | succ n ih =>
    rw [DStack.iterM]
    cases h : f s with
    | none => simp [DStack.iterM, h]
    | some s' => rw [Option.bind_some, ih]; simp [DStack.iterM, h]

theorem Opened.close {base : List (Level L T)} {l acc inner outer} (h : Opened base l acc inner outer) (fin : List (Level L T)) :
    DStack.iterM DStack.decreaseDepth (outer.length - base.length) (mkS fin inner outer) = some (mkS fin (l, acc) base) := by
  induction h with
  | here => simp [DStack.iterM]
  | @deeper base l acc l0 zs inner outer h ih =>
    have := h.length
    simp only [List.length_cons] at this ih
    obtain ⟨k, hk⟩ : ∃ k, outer.length - base.length = k + 1 := ⟨outer.length - base.length - 1, by omega⟩
    have hk' : outer.length - (base.length + 1) = k := by omega
    rw [hk, iterM_succ, ← hk', ih, Option.bind_some, mkS_dec]

variable [DecidableEq L]

/-- The first leaf is reached through lists of this type only. -/
def leads (l : L) : List (DItem L T) → Prop
  | .item _ :: _ => True
  | .list l' xs :: _ => l' = l ∧ leads l xs
  | [] => False

/-- A list after a list has another type and starts with an item. -/
def parted : DItem L T → List (DItem L T) → Prop
  | .list l _, .list l' ys :: _ => l ≠ l' ∧ ∃ t r, ys = .item t :: r
  | _, _ => True

mutual
/-- Well-shaped nodes. -/
def tidyItem : DItem L T → Prop
  | .item _ => True
  | .list l xs => leads l xs ∧ tidyItems xs
/-- Well-shaped sequences of nodes. -/
def tidyItems : List (DItem L T) → Prop
  | [] => True
  | x :: xs => tidyItem x ∧ parted x xs ∧ tidyItems xs
end

/-- The last node so far, if any, goes with what follows. -/
def partedLast (acc xs : List (DItem L T)) : Prop := ∀ a x, acc = a ++ [x] → parted x xs

theorem leads_read {l : L} {d : Nat} : ∀ {xs : List (DItem L T)}, leads l xs → ∃ k t r, readItems d l xs = (d + k, l, t) :: r
  | .item t :: xs, _ => ⟨0, t, readItems d l xs, rfl⟩
  | .list l' ys :: xs, h => by
    rw [leads] at h
    obtain ⟨k, t, r, e⟩ := leads_read (d := d + 1) h.2
    refine ⟨k + 1, t, r ++ readItems d l xs, ?_⟩
    rw [readItems, readItem, h.1, e]
    simp; omega
  | [], h => by simp [leads] at h

/-- Going down. -/
theorem depthStep_down (s : DStack L T) (d k : Nat) (l : L) (t : T) :
    depthStep (s, d) (d + (k + 1), l, t) = depthStep (s.increaseDepth l, d + 1) (d + 1 + k, l, t) := by
  simp only [depthStep]
  have h1 : d + (k + 1) - d = k + 1 := by omega
  have h2 : d - (d + (k + 1)) = 0 := by omega
  have h3 : d + 1 + k - (d + 1) = k := by omega
  have h4 : d + 1 - (d + 1 + k) = 0 := by omega
  rw [h1, h2, h3, h4]
  simp only [DStack.iterM, Option.bind_some]
  have : d + (k + 1) = d + 1 + k := by omega
  rw [this]

theorem depthStep_here (fin : List (Level L T)) (l : L) (xs : List (DItem L T)) (outer : List (Level L T)) (t : T) (d : Nat) :
    depthStep (mkS fin (l, xs) outer, d) (d, l, t) = some (mkS fin (l, xs ++ [.item t]) outer, d) := by
  simp [depthStep, DStack.iterM, DStack.lastType, toNE_last, mkS_push]

mutual
theorem tidyItem_run {fin : List (Level L T)} (x : DItem L T) {base : List (Level L T)} {l : L} {acc : List (DItem L T)}
    {inner : Level L T} {outer : List (Level L T)} (more : List (Nat × L × T)) (hx : tidyItem x)
    (ho : Opened base l acc inner outer) (hp : partedLast acc [x]) : ∃ inner' outer',
      depthLoop (readItem base.length l x ++ more) (mkS fin inner outer, outer.length) =
        depthLoop more (mkS fin inner' outer', outer'.length) ∧ Opened base l (acc ++ [x]) inner' outer' := by
  cases x with
  | item t =>
    refine ⟨(l, acc ++ [.item t]), base, ?_, .here⟩
    have hl := ho.length
    have hc := ho.close fin
    simp only [readItem, List.singleton_append, depthLoop]
    have : depthStep (mkS fin inner outer, outer.length) (base.length, l, t) = some (mkS fin (l, acc ++ [.item t]) base, base.length) := by
      have h1 : base.length - outer.length = 0 := by omega
      simp only [depthStep, h1, DStack.iterM, Option.bind_some, hc, DStack.lastType, toNE_last, ne_eq, not_true_eq_false, if_false, mkS_push]
    rw [this]; rfl
  | list l' ys =>
    rw [tidyItem] at hx
    rw [readItem]
    obtain ⟨k, t, r, hr⟩ := leads_read (d := base.length + 1) hx.1
    -- the level of the list has been opened
    have hopen : depthLoop (readItems (base.length + 1) l' ys ++ more) (mkS fin inner outer, outer.length) =
        depthLoop (readItems (base.length + 1) l' ys ++ more) (mkS fin (l', []) ((l, acc) :: base), base.length + 1) := by
      rw [hr, List.cons_append, depthLoop, depthLoop]
      congr 1
      cases ho with
      | here =>
        have := depthStep_down (mkS fin (l, acc) base) base.length k l' t
        rw [mkS_inc] at this
        rw [← this]
        congr 2
        omega
      | @deeper _ _ acc' l0 zs _ _ ho' =>
        have hp' := hp acc' (.list l0 zs) rfl
        simp only [parted] at hp'
        obtain ⟨hne, t', r', rfl⟩ := hp'
        simp only [readItems, readItem, List.singleton_append, List.cons.injEq, Prod.mk.injEq] at hr
        obtain rfl : k = 0 := by omega
        have hl := ho'.length
        have hc := ho'.close fin
        simp only [List.length_cons] at hl hc
        rw [Nat.add_zero, depthStep_here]
        have h1 : base.length + 1 - outer.length = 0 := by omega
        simp only [depthStep, h1, DStack.iterM, Option.bind_some, hc, DStack.lastType, toNE_last]
        rw [if_pos (by simpa using hne)]
        simp only [DStack.newList, toNE_single, List.isEmpty_cons, Bool.false_eq_true, if_false, mkS_dec, Option.map_some,
          mkS_inc, Option.bind_some, mkS_push]
    obtain ⟨inner', outer', h1, h2⟩ := tidyItems_run ys (fin := fin) (base := (l, acc) :: base) (l := l') (acc := []) more hx.2 .here
      (by intro a x e; simp at e)
    refine ⟨inner', outer', ?_, .deeper h2⟩
    rw [hopen]
    exact h1
theorem tidyItems_run {fin : List (Level L T)} (xs : List (DItem L T)) {base : List (Level L T)} {l : L} {acc : List (DItem L T)}
    {inner : Level L T} {outer : List (Level L T)} (more : List (Nat × L × T)) (hx : tidyItems xs)
    (ho : Opened base l acc inner outer) (hp : partedLast acc xs) : ∃ inner' outer',
      depthLoop (readItems base.length l xs ++ more) (mkS fin inner outer, outer.length) =
        depthLoop more (mkS fin inner' outer', outer'.length) ∧ Opened base l (acc ++ xs) inner' outer' := by
  cases xs with
  | nil => exact ⟨inner, outer, rfl, by simpa using ho⟩
  | cons x xs =>
    rw [tidyItems] at hx
    obtain ⟨inner1, outer1, h1, h2⟩ := tidyItem_run x (fin := fin) (readItems base.length l xs ++ more) hx.1 ho (by
      intro a y e
      have := hp a y e
      cases y <;> cases x <;> simpa [parted] using this)
    obtain ⟨inner2, outer2, h3, h4⟩ := tidyItems_run xs (fin := fin) more hx.2.2 h2 (by
      intro a y e
      have := List.append_inj_right' e rfl
      simp only [List.cons.injEq, and_true] at this
      rw [← this]; exact hx.2.1)
    refine ⟨inner2, outer2, ?_, by simpa using h4⟩
    rw [readItems, List.append_assoc, h1, h3]
end

/-- Well-shaped forests: a tree starts with an item or with lists of its own type, and neighbouring trees differ in type
and start with an item. -/
def tidyTrees : List (Level L T) → Prop
  | [] => True
  | (l, xs) :: ts => leads l xs ∧ tidyItems xs ∧ (∀ l' ys ts', ts = (l', ys) :: ts' → l ≠ l' ∧ ∃ t r, ys = .item t :: r) ∧ tidyTrees ts

theorem tidyTrees_run : ∀ (ts : List (Level L T)) {fin : List (Level L T)} {l : L} {acc : List (DItem L T)} {inner : Level L T}
    {outer : List (Level L T)}, tidyTrees ts → Opened [] l acc inner outer → acc ≠ [] →
    (∀ l' ys ts', ts = (l', ys) :: ts' → l ≠ l' ∧ ∃ t r, ys = .item t :: r) →
    (depthLoop (readTrees ts) (mkS fin inner outer, outer.length)).bind (fun st => st.1.intoTrees) =
      some (fin ++ (l, acc) :: ts)
  | [], fin, l, acc, inner, outer, _, ho, hne, _ => by
    have hc := ho.close fin
    simp only [List.length_nil, Nat.sub_zero] at hc
    simp only [readTrees, List.flatMap_nil, depthLoop, Option.bind_some, DStack.intoTrees, DStack.finishDepthList, toNE_len,
      Nat.add_sub_cancel, hc, Option.map_some]
    have : acc.isEmpty = false := by simpa using hne
    simp [toNE, this]
  | (l', ys) :: ts, fin, l, acc, inner, outer, ht, ho, hne, hsep => by
    obtain ⟨hll, t, r, rfl⟩ := hsep l' ys ts rfl
    rw [tidyTrees] at ht
    have hc := ho.close fin
    simp only [List.length_nil, Nat.sub_zero] at hc
    have hread : readTrees ((l', .item t :: r) :: ts) = (0, l', t) :: (readItems 0 l' r ++ readTrees ts) := by
      simp [readTrees, readItems, readItem]
    have hstep : depthStep (mkS fin inner outer, outer.length) (0, l', t) = some (mkS (fin ++ [(l, acc)]) (l', [.item t]) [], 0) := by
      simp only [depthStep, Nat.zero_sub, Nat.sub_zero, DStack.iterM, Option.bind_some, hc, DStack.lastType, toNE_last]
      rw [if_pos (by simpa using hll)]
      have : acc.isEmpty = false := by simpa using hne
      simp only [DStack.newList, toNE_single, List.isEmpty_nil, if_true, DStack.finishDepthList, toNE_len, List.length_nil,
        Nat.zero_add, Nat.sub_self, DStack.iterM, Option.map_some, Option.getD_some]
      simp [toNE, this, DStack.push, NEVec.modifyLast]
    rw [hread, depthLoop, hstep, Option.bind_some]
    have ht2 := ht.2.1
    rw [tidyItems] at ht2
    obtain ⟨inner', outer', h1, h2⟩ := tidyItems_run r (fin := fin ++ [(l, acc)]) (base := []) (l := l') (acc := [.item t])
      (readTrees ts) ht2.2.2 .here (by
        intro a y e
        have := List.append_inj_right' (s₁ := []) (t₁ := [DItem.item t]) e rfl
        simp only [List.cons.injEq, and_true] at this
        rw [← this]; exact ht2.2.1)
    simp only [List.length_nil] at h1
    rw [h1, tidyTrees_run ts ht.2.2.2 h2 (by simp) ht.2.2.1]
    simp

/-- The depths of a well-shaped forest are processed to it, if it starts with an item or a tree of the default type. -/
theorem processDepths_tidy (top : L) (ts : List (Level L T)) (h : tidyTrees ts)
    (h0 : ∀ l ys ts', ts = (l, ys) :: ts' → l = top ∨ ∃ t r, ys = .item t :: r) : processDepths top (readTrees ts) = some ts := by
  cases ts with
  | nil => rfl
  | cons x ts =>
    obtain ⟨l, ys⟩ := x
    rw [tidyTrees] at h
    have hne : ys ≠ [] := by rintro rfl; simp [leads] at h
    have hread : readTrees ((l, ys) :: ts) = readItems 0 l ys ++ readTrees ts := by simp [readTrees]
    have hfirst : depthLoop (readItems 0 l ys ++ readTrees ts) (DStack.new top, 0) =
        depthLoop (readItems 0 l ys ++ readTrees ts) (mkS [] (l, []) [], 0) := by
      by_cases hl : l = top
      · subst hl; rfl
      · obtain ⟨t, r, rfl⟩ := (h0 l ys ts rfl).resolve_left hl
        simp only [readItems, readItem, List.cons_append, List.nil_append, depthLoop]
        congr 1
        rw [depthStep_here]
        have hl' : ¬ top = l := fun e => hl e.symm
        simp [depthStep, DStack.iterM, DStack.new, DStack.lastType, NEVec.new, NEVec.last, hl', DStack.newList, NEVec.isSingle,
          DStack.finishDepthList, NEVec.len, DStack.push, NEVec.modifyLast, toNE]
    obtain ⟨inner', outer', h1, h2⟩ := tidyItems_run ys (fin := []) (base := []) (l := l) (acc := [])
      (readTrees ts) h.2.1 .here (by intro a y e; simp at e)
    simp only [List.length_nil] at h1
    unfold processDepths
    rw [hread, hfirst, h1, tidyTrees_run ts h.2.2.2 h2 (by simpa using hne) h.2.2.1]
    rfl

end Ftml
