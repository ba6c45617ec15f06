import Verif.Model.Data
/-
Properties of the non-empty vector (C14) and of depth-list nesting (C15).
-/
namespace Ftml

/-! ### C14: `NonEmptyVec` behaves like a list that cannot be emptied -/

/-- The public mutating operations. -/
inductive NEOp (α : Type) where
  | push (a : α)
  | pop
  | setLast (a : α)

/-- Run one operation on the modelled vector, with its result. -/
def neStep {α : Type} (v : NEVec α) : NEOp α → Option α × NEVec α
  | .push a => (none, v.push a)
  | .pop => v.pop
  | .setLast a => (none, v.modifyLast fun _ => a)

/-- Specification: the same operations on a plain list; a pop of the last element is refused. -/
def listStep {α : Type} (l : List α) : NEOp α → Option α × List α
  | .push a => (none, l ++ [a])
  | .pop => if l.length ≤ 1 then (none, l) else (l.getLast?, l.dropLast)
  | .setLast a => (none, l.dropLast ++ [a])

/-- Runs of operations, collecting the results. -/
def runOps {σ α : Type} (step : σ → NEOp α → Option α × σ) : σ → List (NEOp α) → List (Option α) × σ
  | s, [] => ([], s)
  | s, o :: os => ((step s o).1 :: (runOps step (step s o).2 os).1, (runOps step (step s o).2 os).2)

private theorem neStep_refines {α : Type} (v : NEVec α) (o : NEOp α) :
    (neStep v o).1 = (listStep v.toList o).1 ∧ (neStep v o).2.toList = (listStep v.toList o).2 := by
  obtain ⟨f, os⟩ := v
  cases o with
  | push a => simp [neStep, listStep, NEVec.push, NEVec.toList]
  | pop =>
    rcases List.eq_nil_or_concat os with rfl | ⟨os, x, rfl⟩
    · simp [neStep, listStep, NEVec.pop, NEVec.toList]
    · simp [neStep, listStep, NEVec.pop, NEVec.toList, List.dropLast_cons_of_ne_nil, List.getLast?_cons]
  | setLast a =>
    rcases List.eq_nil_or_concat os with rfl | ⟨os, x, rfl⟩
    · simp [neStep, listStep, NEVec.modifyLast, NEVec.toList]
    · simp [neStep, listStep, NEVec.modifyLast, NEVec.toList, List.dropLast_cons_of_ne_nil]

/-- C14: any history of operations on a `NonEmptyVec` gives the results and the contents of the same
history on a plain list in which only the pop of the very last element is refused. -/
theorem C14_refines_list {α : Type} (v : NEVec α) (ops : List (NEOp α)) :
    (runOps neStep v ops).1 = (runOps listStep v.toList ops).1 ∧
    (runOps neStep v ops).2.toList = (runOps listStep v.toList ops).2 := by
  induction ops generalizing v with
  | nil => exact ⟨rfl, rfl⟩
  | cons o os ih =>
    obtain ⟨h1, h2⟩ := neStep_refines v o
    obtain ⟨h3, h4⟩ := ih (neStep v o).2
    simp only [runOps]
    rw [← h2]
    exact ⟨by rw [h1, h3], h4⟩

/-- C14: `len` counts the contents and is never zero, `last` is their last element, `is_single` says
whether there is exactly one. -/
theorem C14_observers {α : Type} (v : NEVec α) :
    v.len = v.toList.length ∧ 1 ≤ v.len ∧ v.toList.getLast? = some v.last ∧
    (v.isSingle = true ↔ v.toList.length = 1) := by
  obtain ⟨f, os⟩ := v
  refine ⟨by simp [NEVec.len, NEVec.toList], by simp [NEVec.len], ?_, by simp [NEVec.isSingle, NEVec.toList]⟩
  simp [NEVec.last, NEVec.toList, List.getLast?_cons]

example : (runOps neStep (NEVec.new 0) [.push 1, .pop, .pop, .setLast 7]).1 = [none, some 1, none, none] := by
  decide

/-! ### C15: specification of depth nesting

A forest of lists is read back as the sequence of its items, each with its nesting depth and the type
of the list that directly holds it. -/

mutual
/-- Items of one node at depth `d` inside a list of type `l`. -/
def readItem {L T : Type} (d : Nat) (l : L) : DItem L T → List (Nat × L × T)
  | .item t => [(d, l, t)]
  | .list l' xs => readItems (d + 1) l' xs
/-- Items of a list of nodes. -/
def readItems {L T : Type} (d : Nat) (l : L) : List (DItem L T) → List (Nat × L × T)
  | [] => []
  | x :: xs => readItem d l x ++ readItems d l xs
end

/-- Items of the top-level trees. -/
def readTrees {L T : Type} (ts : List (L × List (DItem L T))) : List (Nat × L × T) :=
  ts.flatMap fun (l, xs) => readItems 0 l xs

/-- Types of two neighbouring nodes are in order: two lists side by side have different types. -/
def sepOK {L T : Type} : DItem L T → DItem L T → Prop
  | .list l _, .list l' _ => l ≠ l'
  | _, _ => True

/-- Every pair of neighbours satisfies `sepOK`. -/
def adjOK {L T : Type} : List (DItem L T) → Prop
  | x :: y :: r => sepOK x y ∧ adjOK (y :: r)
  | _ => True

mutual
/-- No empty list anywhere and no two mergeable neighbours. -/
def niceItem {L T : Type} : DItem L T → Prop
  | .item _ => True
  | .list _ xs => xs ≠ [] ∧ adjOK xs ∧ niceItems xs
/-- Pointwise `niceItem`. -/
def niceItems {L T : Type} : List (DItem L T) → Prop
  | [] => True
  | x :: xs => niceItem x ∧ niceItems xs
end

/-- A well-shaped forest: trees non-empty and nice, neighbouring trees of different types. -/
def niceTrees {L T : Type} : List (L × List (DItem L T)) → Prop
  | [] => True
  | [(_, xs)] => xs ≠ [] ∧ adjOK xs ∧ niceItems xs
  | (l, xs) :: (l', ys) :: r => xs ≠ [] ∧ adjOK xs ∧ niceItems xs ∧ l ≠ l' ∧ niceTrees ((l', ys) :: r)

/-! ### Helper lemmas -/

section
variable {L T : Type}

private theorem readItems_append (d : Nat) (l : L) (a b : List (DItem L T)) :
    readItems d l (a ++ b) = readItems d l a ++ readItems d l b := by
  induction a with
  | nil => simp [readItems]
  | cons x a ih => simp [readItems, ih]

private theorem niceItems_append (a b : List (DItem L T)) :
    niceItems (a ++ b) ↔ niceItems a ∧ niceItems b := by
  induction a with
  | nil => simp [niceItems]
  | cons x a ih => simp [niceItems, ih, and_assoc]

/-- The last node of a list, if any, goes well before `y`. -/
private def lastOK (xs : List (DItem L T)) (y : DItem L T) : Prop := ∀ x, xs.getLast? = some x → sepOK x y

private theorem adjOK_concat (a : List (DItem L T)) (y : DItem L T) :
    adjOK (a ++ [y]) ↔ adjOK a ∧ lastOK a y := by
  induction a with
  | nil => simp [adjOK, lastOK]
  | cons x a ih =>
    cases a with
    | nil => simp [adjOK, lastOK]
    | cons z a =>
      simp only [List.cons_append, adjOK] at ih ⊢
      rw [ih]
      simp [lastOK, List.getLast?_cons, and_assoc]

private theorem niceTrees_concat (ts : List (L × List (DItem L T))) (l : L) (xs : List (DItem L T)) :
    niceTrees (ts ++ [(l, xs)]) ↔
      niceTrees ts ∧ (∀ t, ts.getLast? = some t → t.1 ≠ l) ∧ xs ≠ [] ∧ adjOK xs ∧ niceItems xs := by
  induction ts with
  | nil => simp [niceTrees]
  | cons t ts ih =>
    obtain ⟨l0, x0⟩ := t
    cases ts with
    | nil =>
      simp only [List.cons_append, List.nil_append, niceTrees]
      simp
      constructor
      · rintro ⟨a, b, c, d, e⟩; exact ⟨⟨a, b, c⟩, d, e⟩
      · rintro ⟨⟨a, b, c⟩, d, e⟩; exact ⟨a, b, c, d, e⟩
    | cons u us =>
      obtain ⟨l1, x1⟩ := u
      simp only [List.cons_append, niceTrees] at ih ⊢
      rw [ih]
      simp [List.getLast?_cons, and_assoc]

/-- Contents of the open levels, outermost first, starting at depth `d`. -/
private def readLevels : Nat → List (L × List (DItem L T)) → List (Nat × L × T)
  | _, [] => []
  | d, (l, xs) :: r => readItems d l xs ++ readLevels (d + 1) r

private theorem readLevels_append (d : Nat) (a b : List (L × List (DItem L T))) :
    readLevels d (a ++ b) = readLevels d a ++ readLevels (d + a.length) b := by
  induction a generalizing d with
  | nil => simp [readLevels]
  | cons x a ih =>
    obtain ⟨l, xs⟩ := x
    simp [readLevels, ih, Nat.add_assoc, Nat.add_comm 1]

/-- Everything read so far. -/
private def readStack (s : DStack L T) : List (Nat × L × T) := readTrees s.finished ++ readLevels 0 s.stack.toList

/-- Invariant of the stack: `fin` finished trees, `lv` open levels, outermost first. -/
private structure W (fin lv : List (L × List (DItem L T))) : Prop where
  lev : ∀ p ∈ lv, adjOK p.2 ∧ niceItems p.2
  chain : ∀ pre p q post, lv = pre ++ p :: q :: post → lastOK p.2 (.list q.1 [])
  top : ∀ p, lv.head? = some p → (p.2 = [] → fin = []) ∧ ∀ t, fin.getLast? = some t → t.1 ≠ p.1
  fin : niceTrees fin

/-- The innermost level is not empty unless it is the only one. -/
private def N (lv : List (L × List (DItem L T))) : Prop :=
  ∀ pre p, lv = pre ++ [p] → pre ≠ [] → p.2 ≠ []

private theorem lastOK_concat (xs : List (DItem L T)) (x y : DItem L T) :
    lastOK (xs ++ [x]) y ↔ sepOK x y := by simp [lastOK]

private theorem sepOK_list (l : L) (a b : List (DItem L T)) (x : DItem L T) :
    sepOK x (.list l a) ↔ sepOK x (.list l b) := by cases x <;> simp [sepOK]

private theorem ne_toList_concat (v : NEVec α) : ∃ pre, v.toList = pre ++ [v.last] := by
  obtain ⟨f, os⟩ := v
  rcases List.eq_nil_or_concat os with rfl | ⟨os, x, rfl⟩
  · exact ⟨[], rfl⟩
  · exact ⟨f :: os, by simp [NEVec.toList, NEVec.last]⟩

private theorem modifyLast_toList (v : NEVec α) (f : α → α) (pre : List α) (x : α)
    (h : v.toList = pre ++ [x]) : (v.modifyLast f).toList = pre ++ [f x] := by
  obtain ⟨a, os⟩ := v
  rcases List.eq_nil_or_concat os with rfl | ⟨os, y, rfl⟩
  · cases pre with
    | nil => simp [NEVec.toList] at h; simp [NEVec.modifyLast, NEVec.toList, h]
    | cons b pre => simp [NEVec.toList] at h
  · have h : (a :: os) ++ [y] = pre ++ [x] := by simpa [NEVec.toList] using h
    obtain ⟨h1, h2⟩ := List.append_inj' h rfl
    simp at h2
    subst h1 h2
    simp [NEVec.modifyLast, NEVec.toList]

private theorem dec_spec (s : DStack L T) (pre : List (L × List (DItem L T))) (p q : L × List (DItem L T))
    (h : s.stack.toList = pre ++ [p, q]) :
    ∃ s', s.decreaseDepth = some s' ∧ s'.finished = s.finished ∧
      s'.stack.toList = pre ++ [(p.1, p.2 ++ [.list q.1 q.2])] := by
  obtain ⟨fin, ⟨a, os⟩⟩ := s
  rcases List.eq_nil_or_concat os with rfl | ⟨os, y, rfl⟩
  · exfalso
    have := congrArg List.length h
    simp [NEVec.toList] at this
  · have h : (a :: os) ++ [y] = (pre ++ [p]) ++ [q] := by simpa [NEVec.toList] using h
    obtain ⟨h1, h2⟩ := List.append_inj' h rfl
    simp at h2
    subst h2
    refine ⟨DStack.push ⟨fin, ⟨a, os⟩⟩ (.list y.1 y.2), by simp [DStack.decreaseDepth, NEVec.pop], rfl, ?_⟩
    simp only [DStack.push]
    rw [modifyLast_toList _ _ pre p (by simpa [NEVec.toList] using h1)]

private theorem readTrees_concat (ts : List (L × List (DItem L T))) (l : L) (xs : List (DItem L T)) :
    readTrees (ts ++ [(l, xs)]) = readTrees ts ++ readItems 0 l xs := by simp [readTrees]

/-- One `decrease_depth` on a good stack with at least two levels. -/
private theorem dec_W {s : DStack L T} {pre : List (L × List (DItem L T))} {p q : L × List (DItem L T)}
    (hl : s.stack.toList = pre ++ [p, q]) (hW : W s.finished s.stack.toList) (hN : N s.stack.toList) :
    ∃ s', s.decreaseDepth = some s' ∧ W s'.finished s'.stack.toList ∧ N s'.stack.toList ∧
      readStack s' = readStack s ∧ s'.finished = s.finished ∧
      s'.stack.toList = pre ++ [(p.1, p.2 ++ [.list q.1 q.2])] := by
  obtain ⟨s', h1, h2, h3⟩ := dec_spec s pre p q hl
  have hq : q.2 ≠ [] := hN (pre ++ [p]) q (by simp [hl]) (by simp)
  have hp := hW.lev p (by simp [hl])
  have hqq := hW.lev q (by simp [hl])
  have hc : lastOK p.2 (.list q.1 []) := hW.chain pre p q [] (by simp [hl])
  refine ⟨s', h1, ⟨?_, ?_, ?_, ?_⟩, ?_, ?_, h2, h3⟩
  · rw [h3]
    intro x hx
    rcases List.mem_append.1 hx with hx | hx
    · exact hW.lev x (by simp [hl, hx])
    · simp at hx; subst hx
      simp only
      refine ⟨(adjOK_concat _ _).2 ⟨hp.1, ?_⟩, (niceItems_append _ _).2 ⟨hp.2, ?_⟩⟩
      · intro x hx; exact (sepOK_list q.1 _ [] x).2 (hc x hx)
      · simp [niceItems, niceItem, hq, hqq.1, hqq.2]
  · rw [h3]
    intro pre' p' q' post he
    rcases List.eq_nil_or_concat post with rfl | ⟨post, z, rfl⟩
    · have he : pre ++ [(p.1, p.2 ++ [.list q.1 q.2])] = (pre' ++ [p']) ++ [q'] := by simpa using he
      obtain ⟨e1, e2⟩ := List.append_inj' he rfl
      simp at e2
      rw [← e2]
      have := hW.chain pre' p' p [q] (by rw [hl, e1]; simp)
      exact this
    · have he : pre ++ [(p.1, p.2 ++ [.list q.1 q.2])] = (pre' ++ p' :: q' :: post) ++ [z] := by simpa using he
      obtain ⟨e1, e2⟩ := List.append_inj' he rfl
      exact hW.chain pre' p' q' (post ++ [p, q]) (by rw [hl, e1]; simp)
  · rw [h3, h2]
    intro x hx
    cases pre with
    | nil =>
      simp at hx; subst hx
      have := hW.top p (by simp [hl])
      exact ⟨by simp, this.2⟩
    | cons y pre =>
      simp at hx; subst hx
      exact hW.top y (by simp [hl])
  · rw [h2]; exact hW.fin
  · rw [h3]
    intro pre' p' he _
    obtain ⟨e1, e2⟩ := List.append_inj' he rfl
    simp at e2; subst e2; simp
  · simp only [readStack, h2, h3, hl, readLevels_append, readLevels, List.append_nil, Nat.zero_add]
    simp [readItems_append, readItems, readItem]

/-- Repeated `decrease_depth`. -/
private theorem decN_W (n : Nat) (s : DStack L T) (hn : n < s.stack.toList.length)
    (hW : W s.finished s.stack.toList) (hN : N s.stack.toList) :
    ∃ s', DStack.iterM DStack.decreaseDepth n s = some s' ∧ W s'.finished s'.stack.toList ∧
      N s'.stack.toList ∧ readStack s' = readStack s ∧
      s'.stack.toList.length = s.stack.toList.length - n := by
  induction n generalizing s with
  | zero => exact ⟨s, rfl, hW, hN, rfl, by simp⟩
  | succ n ih =>
    have : ∃ pre p q, s.stack.toList = pre ++ [p, q] := by
      rcases List.eq_nil_or_concat s.stack.toList with h | ⟨a, q, h⟩
      · simp [h] at hn
      · rcases List.eq_nil_or_concat a with rfl | ⟨a, p, rfl⟩
        · simp [h] at hn
        · exact ⟨a, p, q, by simp [h]⟩
    obtain ⟨pre, p, q, hl⟩ := this
    obtain ⟨s1, h1, h2, h3, h4, h5, h6⟩ := dec_W hl hW hN
    have hlen : s1.stack.toList.length = s.stack.toList.length - 1 := by rw [h6, hl]; simp
    obtain ⟨s2, k1, k2, k3, k4, k6⟩ := ih s1 (by omega) h2 h3
    exact ⟨s2, by simp [DStack.iterM, h1, k1], k2, k3, by rw [k4, h4], by omega⟩

/-- `push_item` on a good stack whose innermost level has the item's type. -/
private theorem push_W (s : DStack L T) (t : T) (pre : List (L × List (DItem L T)))
    (p : L × List (DItem L T)) (hl : s.stack.toList = pre ++ [p]) (hW : W s.finished s.stack.toList) :
    W (s.push (.item t)).finished (s.push (.item t)).stack.toList ∧
    (s.push (.item t)).stack.toList = pre ++ [(p.1, p.2 ++ [.item t])] ∧
    readStack (s.push (.item t)) = readStack s ++ [(pre.length, p.1, t)] := by
  have h3 : (s.push (.item t)).stack.toList = pre ++ [(p.1, p.2 ++ [.item t])] := by
    simp only [DStack.push]; rw [modifyLast_toList _ _ pre p hl]
  refine ⟨⟨?_, ?_, ?_, hW.fin⟩, h3, ?_⟩
  · rw [h3]
    intro x hx
    rcases List.mem_append.1 hx with hx | hx
    · exact hW.lev x (by simp [hl, hx])
    · simp at hx; subst hx
      have hp := hW.lev p (by simp [hl])
      refine ⟨(adjOK_concat _ _).2 ⟨hp.1, ?_⟩, (niceItems_append _ _).2 ⟨hp.2, by simp [niceItems, niceItem]⟩⟩
      intro x _; cases x <;> simp [sepOK]
  · rw [h3]
    intro pre' p' q' post he
    rcases List.eq_nil_or_concat post with rfl | ⟨post, z, rfl⟩
    · have he : pre ++ [(p.1, p.2 ++ [.item t])] = (pre' ++ [p']) ++ [q'] := by simpa using he
      obtain ⟨e1, e2⟩ := List.append_inj' he rfl
      simp at e2
      rw [← e2]
      exact hW.chain pre' p' p [] (by rw [hl, e1]; simp)
    · have he : pre ++ [(p.1, p.2 ++ [.item t])] = (pre' ++ p' :: q' :: post) ++ [z] := by simpa using he
      obtain ⟨e1, e2⟩ := List.append_inj' he rfl
      exact hW.chain pre' p' q' (post ++ [p]) (by rw [hl, e1]; simp)
  · rw [h3]
    intro x hx
    cases pre with
    | nil =>
      simp at hx; subst hx
      exact ⟨by simp, (hW.top p (by simp [hl])).2⟩
    | cons y pre =>
      simp at hx; subst hx
      exact hW.top y (by simp [hl])
  · simp only [readStack, h3, hl, readLevels_append, readLevels]
    simp [DStack.push, readItems_append, readItems, readItem]

/-- `increase_depth`. -/
private theorem inc_W (s : DStack L T) (l : L) (pre : List (L × List (DItem L T)))
    (p : L × List (DItem L T)) (hl : s.stack.toList = pre ++ [p]) (hW : W s.finished s.stack.toList)
    (hp : lastOK p.2 (.list l [])) :
    W (s.increaseDepth l).finished (s.increaseDepth l).stack.toList ∧
    (s.increaseDepth l).stack.toList = s.stack.toList ++ [(l, [])] ∧
    readStack (s.increaseDepth l) = readStack s := by
  have h3 : (s.increaseDepth l).stack.toList = s.stack.toList ++ [(l, [])] := by
    simp [DStack.increaseDepth, NEVec.push, NEVec.toList]
  refine ⟨⟨?_, ?_, ?_, hW.fin⟩, h3, ?_⟩
  · rw [h3]
    intro x hx
    rcases List.mem_append.1 hx with hx | hx
    · exact hW.lev x hx
    · simp at hx; subst hx; simp [adjOK, niceItems]
  · rw [h3]
    intro pre' p' q' post he
    rcases List.eq_nil_or_concat post with rfl | ⟨post, z, rfl⟩
    · have he : s.stack.toList ++ [(l, [])] = (pre' ++ [p']) ++ [q'] := by simpa using he
      obtain ⟨e1, e2⟩ := List.append_inj' he rfl
      simp at e2
      rw [hl] at e1
      obtain ⟨_, e4⟩ := List.append_inj' e1 rfl
      simp at e4
      rw [← e2, ← e4]; exact hp
    · have he : s.stack.toList ++ [(l, [])] = (pre' ++ p' :: q' :: post) ++ [z] := by simpa using he
      obtain ⟨e1, e2⟩ := List.append_inj' he rfl
      exact hW.chain pre' p' q' post e1
  · rw [h3, hl]
    intro x hx
    refine hW.top x ?_
    rw [hl]; cases pre <;> simpa using hx
  · rw [readStack, h3, readStack, readLevels_append]
    simp [readLevels, readItems, DStack.increaseDepth]

private theorem incN_W (n : Nat) (s : DStack L T) (l : L) (pre : List (L × List (DItem L T)))
    (p : L × List (DItem L T)) (hl : s.stack.toList = pre ++ [p]) (hW : W s.finished s.stack.toList)
    (hp : lastOK p.2 (.list l [])) :
    ∃ s' pre' p', DStack.iterM (fun s => some (s.increaseDepth l)) n s = some s' ∧
      W s'.finished s'.stack.toList ∧ s'.stack.toList = pre' ++ [p'] ∧
      pre'.length = pre.length + n ∧ (0 < n → p' = (l, [])) ∧ (n = 0 → s' = s) ∧
      readStack s' = readStack s := by
  induction n generalizing s pre p with
  | zero => exact ⟨s, pre, p, rfl, hW, hl, rfl, by simp, by simp, rfl⟩
  | succ n ih =>
    obtain ⟨h1, h2, h3⟩ := inc_W s l pre p hl hW hp
    rw [hl] at h2
    obtain ⟨s', pre', p', k1, k2, k3, k4, k5, k6, k7⟩ := ih (s.increaseDepth l) (pre ++ [p]) (l, []) h2 h1
      (by simp [lastOK])
    refine ⟨s', pre', p', by simp [DStack.iterM, k1], k2, k3, by simp at k4; omega, ?_, by simp, by rw [k7, h3]⟩
    intro _
    cases n with
    | zero =>
      have := k6 rfl; subst this
      rw [h2] at k3
      obtain ⟨_, e⟩ := List.append_inj' k3 rfl
      simpa using e.symm
    | succ n => exact k5 (by omega)

/-- Invariant between two turns of the loop. -/
private structure I (s : DStack L T) (prev : Nat) (done : List (Nat × L × T)) : Prop where
  w : W s.finished s.stack.toList
  n : N s.stack.toList
  len : s.stack.toList.length = prev + 1
  item : ∀ pre p, s.stack.toList = pre ++ [p] → ∀ x, p.2.getLast? = some x → ∃ t, x = .item t
  read : readStack s = done

private theorem N_push (pre : List (L × List (DItem L T))) (l : L) (xs : List (DItem L T)) (i : DItem L T) :
    N (pre ++ [(l, xs ++ [i])]) := by
  intro pre' p' he _
  obtain ⟨e1, e2⟩ := List.append_inj' he rfl
  simp at e2; subst e2; simp

variable [DecidableEq L]

private theorem step_I (s : DStack L T) (prev : Nat) (done : List (Nat × L × T)) (d : Nat) (l : L) (t : T)
    (hI : I s prev done) :
    ∃ s', depthStep (s, prev) (d, l, t) = some (s', d) ∧ I s' d (done ++ [(d, l, t)]) := by
  obtain ⟨pre, hpre⟩ := ne_toList_concat s.stack
  have hlp : pre.length = prev := by
    have := hI.len; rw [hpre] at this; simpa using this
  have key : ∀ s2 pre2 p2, s2.stack.toList = pre2 ++ [p2] → pre2.length = d →
      W s2.finished s2.stack.toList → (p2.1 ≠ l → N s2.stack.toList) → readStack s2 = done →
      ∃ s', ((if s2.lastType ≠ l then s2.newList l else some s2).bind fun s =>
        some (s.push (.item t), d)) = some (s', d) ∧ I s' d (done ++ [(d, l, t)]) := by
    intro s2 pre2 p2 h1 h2 h3 h4 h5
    have hlast : s2.stack.last = p2 := by
      obtain ⟨a, ha⟩ := ne_toList_concat s2.stack
      rw [h1] at ha
      obtain ⟨_, e⟩ := List.append_inj' ha rfl
      simpa using e.symm
    have fin : ∀ s3 pre3 p3, s3.stack.toList = pre3 ++ [p3] → pre3.length = d → p3.1 = l →
        W s3.finished s3.stack.toList → readStack s3 = done →
        I (s3.push (.item t)) d (done ++ [(d, l, t)]) := by
      intro s3 pre3 p3 g1 g2 g3 g4 g5
      obtain ⟨k1, k2, k3⟩ := push_W s3 t pre3 p3 g1 g4
      refine ⟨k1, ?_, ?_, ?_, ?_⟩
      · rw [k2]; exact N_push _ _ _ _
      · rw [k2]; simp [g2]
      · rw [k2]
        intro a p he x hx
        obtain ⟨_, e⟩ := List.append_inj' he rfl
        simp at e; subst e
        simp at hx; exact ⟨t, hx.symm⟩
      · rw [k3, g5, g2, g3]
    by_cases hl : p2.1 = l
    · refine ⟨s2.push (.item t), ?_, fin s2 pre2 p2 h1 h2 hl h3 h5⟩
      simp [DStack.lastType, hlast, hl]
    · have hN := h4 hl
      rcases List.eq_nil_or_concat pre2 with rfl | ⟨pre3, q, rfl⟩
      · -- top level: the tree is finished
        have hs : s2.stack.isSingle = true := by
          have := congrArg List.length h1
          simp [NEVec.toList] at this
          simp [NEVec.isSingle, this]
        have hd : d = 0 := by simpa using h2.symm
        have hother : s2.stack.others = [] := by simpa [NEVec.isSingle] using hs
        have hfirst : s2.stack.first = p2 := by
          have := h1; simp [NEVec.toList] at this; exact this.1
        have htop := h3.top p2 (by simp [h1])
        have hlev := h3.lev p2 (by simp [h1])
        refine ⟨DStack.push ⟨if p2.2.isEmpty then s2.finished else s2.finished ++ [p2],
            ⟨(l, []), []⟩⟩ (.item t), ?_, ?_⟩
        · simp only [DStack.lastType, hlast, ne_eq, hl, not_false_eq_true, if_true, DStack.newList, hs,
            DStack.finishDepthList, NEVec.len, hother, List.length_nil, Nat.zero_add, Nat.sub_self,
            DStack.iterM, hfirst, Option.map_some, Option.getD_some, Option.bind_some]
          congr 2
          split <;> rfl
        · have hst : ∀ f : List (L × List (DItem L T)),
              (DStack.push ⟨f, ⟨(l, []), []⟩⟩ (.item t)).stack.toList = [(l, [.item t])] := by
            intro f; rfl
          have hfn : ∀ f : List (L × List (DItem L T)),
              (DStack.push ⟨f, ⟨(l, []), []⟩⟩ (.item t)).finished = f := fun _ => rfl
          refine ⟨⟨?_, ?_, ?_, ?_⟩, ?_, ?_, ?_, ?_⟩
          · rw [hst]; simp [adjOK, niceItems, niceItem]
          · rw [hst]
            intro a b c e he
            have := congrArg List.length he
            simp at this
            omega
          · rw [hst, hfn]
            intro x hx
            simp at hx; subst hx
            refine ⟨by simp, ?_⟩
            intro tt
            split
            · rename_i he
              have := htop.1 (by simpa using he)
              simp [this]
            · intro h; simp at h; rw [← h]; exact hl
          · rw [hfn]
            split
            · exact h3.fin
            · rename_i he
              have he : p2.2 ≠ [] := by simpa using he
              exact (niceTrees_concat s2.finished p2.1 p2.2).2 ⟨h3.fin, htop.2, he, hlev.1, hlev.2⟩
          · rw [hst]; intro a b he hne
            cases a with
            | nil => simp at hne
            | cons x a => simp at he
          · rw [hst, hd]; rfl
          · rw [hst]
            intro a b he x hx
            cases a with
            | nil => simp at he; subst he; simp at hx; exact ⟨t, hx.symm⟩
            | cons y a => simp at he
          · rw [← h5, readStack, hst, hfn, readStack, h1, hd]
            simp only [List.nil_append, readLevels, readItems, readItem, List.append_nil]
            split
            · rename_i he
              have he : p2.2 = [] := by simpa using he
              simp [he, readItems]
            · simp [readTrees]
      · -- deeper: close this list and open one of the new type
        have hs : s2.stack.isSingle = false := by
          have := congrArg List.length h1
          simp [NEVec.toList] at this
          simp [NEVec.isSingle]; intro h; simp [h] at this
        have h1' : s2.stack.toList = pre3 ++ [q, p2] := by simp [h1]
        obtain ⟨s3, k1, k2, k3, k4, k5, k6⟩ := dec_W h1' h3 hN
        obtain ⟨m1, m2, m3⟩ := inc_W s3 l pre3 _ k6 k2 (by
          rw [lastOK_concat]; simpa [sepOK] using hl)
        refine ⟨_, ?_, fin (s3.increaseDepth l) s3.stack.toList (l, []) m2 ?_ rfl m1 (by rw [m3, k4, h5])⟩
        · simp [DStack.lastType, hlast, hl, DStack.newList, hs, k1]
        · rw [k6]; simp at h2 ⊢; omega
  unfold depthStep
  simp only
  have hlastitem := hI.item pre _ hpre
  by_cases hd : prev < d
  · -- deeper
    obtain ⟨s1, pre1, p1, k1, k2, k3, k4, k5, k6, k7⟩ := incN_W (d - prev) s l pre _ hpre hI.w (by
      intro x hx
      obtain ⟨t', rfl⟩ := hlastitem x hx
      simp [sepOK])
    have hz : prev - d = 0 := by omega
    rw [k1, hz]
    simp only [Option.bind_some, DStack.iterM]
    refine key s1 pre1 p1 k3 (by omega) k2 ?_ (by rw [k7, hI.read])
    intro hne; exact absurd (by rw [k5 (by omega)]) hne
  · have hz : d - prev = 0 := by omega
    rw [hz]
    simp only [DStack.iterM, Option.bind_some]
    obtain ⟨s1, k1, k2, k3, k4, k5⟩ := decN_W (prev - d) s (by rw [hI.len]; omega) hI.w hI.n
    obtain ⟨pre1, hpre1⟩ := ne_toList_concat s1.stack
    rw [k1]
    simp only [Option.bind_some]
    refine key s1 pre1 _ hpre1 ?_ k2 (fun _ => k3) (by rw [k4, hI.read])
    have := k5; rw [hpre1, hI.len] at this; simp at this; omega

private theorem loop_I (items : List (Nat × L × T)) (s : DStack L T) (prev : Nat) (done : List (Nat × L × T))
    (hI : I s prev done) :
    ∃ s' prev', depthLoop items (s, prev) = some (s', prev') ∧ I s' prev' (done ++ items) := by
  induction items generalizing s prev done with
  | nil => exact ⟨s, prev, rfl, by simpa using hI⟩
  | cons x xs ih =>
    obtain ⟨d, l, t⟩ := x
    obtain ⟨s', h1, h2⟩ := step_I s prev done d l t hI
    obtain ⟨s2, p2, h3, h4⟩ := ih s' d _ h2
    exact ⟨s2, p2, by simp [depthLoop, h1, h3], by simpa using h4⟩

/-- C15: `process_depths` never panics; reading its result back gives exactly the given items, in
order, each at its given depth and directly inside a list of its given type; no list in the result
is empty and no two neighbouring lists have the same type. -/
theorem C15_process_depths (top : L) (items : List (Nat × L × T)) :
    ∃ trees, processDepths top items = some trees ∧ readTrees trees = items ∧ niceTrees trees := by
  have h0 : I (DStack.new top : DStack L T) 0 [] := by
    refine ⟨⟨?_, ?_, ?_, ?_⟩, ?_, rfl, ?_, rfl⟩
    · simp [DStack.new, NEVec.new, NEVec.toList, adjOK, niceItems]
    · intro a b c e he
      have := congrArg List.length he
      simp [DStack.new, NEVec.new, NEVec.toList] at this
      omega
    · intro p hp; simp [DStack.new]
    · simp [DStack.new, niceTrees]
    · intro a b he hne
      cases a with
      | nil => simp at hne
      | cons x a => simp [DStack.new, NEVec.new, NEVec.toList] at he
    · intro a b he x hx
      cases a with
      | nil => simp [DStack.new, NEVec.new, NEVec.toList] at he; subst he; simp at hx
      | cons y a => simp [DStack.new, NEVec.new, NEVec.toList] at he
  obtain ⟨s, prev, h1, h2⟩ := loop_I items (DStack.new top) 0 [] h0
  obtain ⟨s', k1, k2, k3, k4, k5⟩ := decN_W (s.stack.len - 1) s
    (by simp [NEVec.len, NEVec.toList]) h2.w h2.n
  have hlen : s'.stack.others = [] := by
    have h := k5
    simp [NEVec.len, NEVec.toList] at h
    exact h
  have hlv : s'.stack.toList = [s'.stack.first] := by simp [NEVec.toList, hlen]
  have hread : readTrees s'.finished ++ readItems 0 s'.stack.first.1 s'.stack.first.2 = items := by
    have := k4
    rw [h2.read, readStack, hlv] at this
    simpa [readLevels] using this
  have htop := k2.top s'.stack.first (by simp [hlv])
  have hlev := k2.lev s'.stack.first (by simp [hlv])
  refine ⟨if s'.stack.first.2.isEmpty then s'.finished else s'.finished ++ [s'.stack.first], ?_, ?_, ?_⟩
  · simp only [processDepths, h1, Option.bind_some, DStack.intoTrees, DStack.finishDepthList, k1,
      Option.map_some]
    congr 1
    split <;> rfl
  · split
    · rename_i he
      have he : s'.stack.first.2 = [] := by simpa using he
      simpa [he, readItems] using hread
    · rw [readTrees_concat]; exact hread
  · split
    · exact k2.fin
    · rename_i he
      have he : s'.stack.first.2 ≠ [] := by simpa using he
      exact (niceTrees_concat _ s'.stack.first.1 s'.stack.first.2).2 ⟨k2.fin, htop.2, he, hlev.1, hlev.2⟩

end

example : processDepths 'b' [(0, 'b', 1), (2, 'n', 2), (1, 'b', 3), (0, 'n', 4)] =
    some [('b', [.item 1, .list 'n' [.list 'n' [.item 2]], .list 'b' [.item 3]]), ('n', [.item 4])] := by
  rfl

end Ftml
