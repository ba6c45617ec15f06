import Verif.Lemmas.InlineMain
import Verif.Props.Data
/-
What the arguments of a block stand for.
-/
namespace Ftml
open M Markup Lexer
variable {env : Env}

/-- The arguments as the parser keeps them. -/
def rawArgs (args : List Arg) : Args := args.foldl (fun m a => argInsert a.name a.value m) []

/-- The entry with that name. -/
def argLook (m : Args) (k : Str) : Option (Str × Str) := m.find? fun q => lowerA q.1 == k

theorem argLook_insert (n v : Str) (m : Args) (k : Str) : argLook (argInsert n v m) k =
    if lowerA n = k then some (((argLook m k).map (·.1)).getD n, v) else argLook m k := by
  induction m with
  | nil =>
    by_cases h : lowerA n = k <;> simp [argLook, argInsert, h]
  | cons q m ih =>
    obtain ⟨k', v'⟩ := q
    simp only [argLook] at ih
    simp only [argInsert, eqIgnoreCase]
    by_cases h1 : lowerA n = lowerA k'
    · by_cases h : lowerA n = k
      · have : lowerA k' = k := by rw [← h1, h]
        simp [argLook, h1, this]
      · have : ¬ lowerA k' = k := by rw [← h1]; exact h
        simp [argLook, h1, this]
    · have h1' : (lowerA n == lowerA k') = false := by simpa using h1
      simp only [argLook, h1', Bool.false_eq_true, if_false, List.find?_cons]
      by_cases h2 : lowerA k' = k
      · have : ¬ lowerA n = k := by rw [← h2]; exact h1
        simp [h2, this]
      · have h2' : (lowerA k' == k) = false := by simpa using h2
        rw [h2']
        exact ih

theorem optionOf_cons (a : Arg) (args : List Arg) (k : Str) : optionOf (a :: args) k =
    if lowerA a.name = k then some ((optionOf args k).getD a.value) else optionOf args k := by
  unfold optionOf
  by_cases h : lowerA a.name = k
  · have : a.called k = true := by simpa [Arg.called] using h
    rw [List.filter_cons_of_pos (p := fun b : Arg => b.called k) this, if_pos h, List.getLast?_cons]
    cases (args.filter (·.called k)).getLast? <;> rfl
  · have : ¬ a.called k = true := by simpa [Arg.called] using h
    rw [List.filter_cons_of_neg (p := fun b : Arg => b.called k) this, if_neg h]

theorem optionOf_none {args : List Arg} {k : Str} (h : args.find? (·.called k) = none) : optionOf args k = none := by
  induction args with
  | nil => rfl
  | cons a args ih =>
    rw [List.find?_cons] at h
    cases hc : a.called k with
    | true => rw [hc] at h; cases h
    | false =>
      rw [hc] at h
      rw [optionOf_cons, if_neg (by simpa [Arg.called] using hc), ih h]

theorem argLook_fold (args : List Arg) (m : Args) (k : Str) :
    argLook (args.foldl (fun m a => argInsert a.name a.value m) m) k =
      match argLook m k with
      | some q => some (q.1, (optionOf args k).getD q.2)
      | none => (args.find? (·.called k)).map fun a => (a.name, (optionOf args k).getD []) := by
  induction args generalizing m with
  | nil =>
    rw [List.foldl_nil]
    cases argLook m k <;> rfl
  | cons a args ih =>
    rw [List.foldl_cons, ih, argLook_insert, optionOf_cons, List.find?_cons]
    by_cases h : lowerA a.name = k
    · have hc : a.called k = true := by simpa [Arg.called] using h
      simp only [if_pos h, hc]
      cases argLook m k <;> rfl
    · have hc : a.called k = false := by simpa [Arg.called] using h
      simp only [if_neg h, hc]

theorem argLook_raw (args : List Arg) (k : Str) : argLook (rawArgs args) k =
    (args.find? (·.called k)).map fun a => (a.name, (optionOf args k).getD []) := argLook_fold args [] k

theorem argLook_value (args : List Arg) (k : Str) : (argLook (rawArgs args) k).map (·.2) = optionOf args k := by
  rw [argLook_raw]
  cases h : args.find? (·.called k) with
  | none => rw [optionOf_none h]; rfl
  | some a =>
    have h1 := List.find?_some h
    have h2 := List.mem_of_find?_eq_some h
    cases ho : optionOf args k with
    | some v => rfl
    | none =>
      have : args.filter (·.called k) = [] := by
        simp only [optionOf, Option.map_eq_none_iff, List.getLast?_eq_none_iff] at ho
        exact ho
      have := List.filter_eq_nil_iff.1 this a h2
      exact (this h1).elim

theorem argInsert_keys (n v : Str) (m : Args) : (argInsert n v m).map (lowerA ·.1) =
    if lowerA n ∈ m.map (lowerA ·.1) then m.map (lowerA ·.1) else m.map (lowerA ·.1) ++ [lowerA n] := by
  induction m with
  | nil => rfl
  | cons q m ih =>
    obtain ⟨k', v'⟩ := q
    simp only [argInsert, eqIgnoreCase]
    by_cases h1 : lowerA n = lowerA k'
    · simp [h1]
    · have h1' : (lowerA n == lowerA k') = false := by simpa using h1
      simp only [h1', Bool.false_eq_true, if_false]
      rw [List.map_cons, ih]
      simp only [List.map_cons, List.mem_cons, h1, false_or]
      split <;> simp

theorem rawArgs_nodup (args : List Arg) : ((rawArgs args).map (lowerA ·.1)).Nodup := by
  have : ∀ (args : List Arg) (m : Args), (m.map (lowerA ·.1)).Nodup →
      ((args.foldl (fun m a => argInsert a.name a.value m) m).map (lowerA ·.1)).Nodup := by
    intro args
    induction args with
    | nil => intro m h; exact h
    | cons a args ih =>
      intro m h
      refine ih _ ?_
      rw [argInsert_keys]
      split
      · exact h
      · next hn =>
        rw [List.nodup_append]
        exact ⟨h, by simp, fun x hx y hy => by simp at hy; subst hy; rintro rfl; exact hn hx⟩
  exact this args [] (by simp)

theorem argLook_mem {m : Args} (h : (m.map (lowerA ·.1)).Nodup) (q : Str × Str) : q ∈ m ↔ argLook m (lowerA q.1) = some q := by
  constructor
  · intro hq
    induction m with
    | nil => cases hq
    | cons p m ih =>
      rw [List.map_cons, List.nodup_cons] at h
      rcases List.mem_cons.1 hq with rfl | hq
      · simp [argLook]
      · have hne : lowerA p.1 ≠ lowerA q.1 := fun e => h.1 (e ▸ List.mem_map.2 ⟨q, hq, rfl⟩)
        have := ih h.2 hq
        simp only [argLook] at this ⊢
        rw [List.find?_cons, (by simpa using hne : (lowerA p.1 == lowerA q.1) = false)]
        exact this
  · exact List.mem_of_find?_eq_some

theorem argInsert_filter (n v k : Str) (m : Args) : (argInsert n v m).filter (fun q => !(lowerA q.1 == k)) =
    if lowerA n = k then m.filter (fun q => !(lowerA q.1 == k)) else argInsert n v (m.filter fun q => !(lowerA q.1 == k)) := by
  induction m with
  | nil => by_cases h : lowerA n = k <;> simp [argInsert, h]
  | cons q m ih =>
    obtain ⟨k', v'⟩ := q
    simp only [argInsert, eqIgnoreCase]
    by_cases h1 : lowerA n = lowerA k'
    · by_cases h : lowerA n = k
      · have : lowerA k' = k := by rw [← h1, h]
        simp [h1, this]
      · have : ¬ lowerA k' = k := by rw [← h1]; exact h
        simp [h1, this, argInsert, eqIgnoreCase]
    · have h1' : (lowerA n == lowerA k') = false := by simpa using h1
      simp only [h1', Bool.false_eq_true, if_false]
      by_cases h2 : lowerA k' = k
      · simp only [h2, List.filter_cons, beq_self_eq_true, Bool.not_true, Bool.false_eq_true, if_false, ih]
      · have h2' : (lowerA k' == k) = false := by simpa using h2
        simp only [List.filter_cons, h2', Bool.not_false, if_true, ih]
        split
        · rfl
        · simp only [argInsert, eqIgnoreCase, h1', Bool.false_eq_true, if_false]

theorem rawArgs_filter (args : List Arg) (k : Str) : (rawArgs args).filter (fun q => !(lowerA q.1 == k)) =
    rawArgs (args.filter fun a => !(lowerA a.name == k)) := by
  have : ∀ (args : List Arg) (m : Args),
      (args.foldl (fun m a => argInsert a.name a.value m) m).filter (fun q => !(lowerA q.1 == k)) =
      (args.filter fun a => !(lowerA a.name == k)).foldl (fun m a => argInsert a.name a.value m) (m.filter fun q => !(lowerA q.1 == k)) := by
    intro args
    induction args with
    | nil => intro m; rfl
    | cons a args ih =>
      intro m
      rw [List.foldl_cons, ih, argInsert_filter]
      by_cases h : lowerA a.name = k
      · have : (lowerA a.name == k) = true := by simpa using h
        rw [if_pos h, List.filter_cons_of_neg (by simp [this])]
      · have : (lowerA a.name == k) = false := by simpa using h
        rw [if_neg h, List.filter_cons_of_pos (by simp [this]), List.foldl_cons]
  exact this args []

theorem argGet_raw (args : List Arg) (k : Str) : argGet (rawArgs args) k =
    (optionOf args (lowerA k), rawArgs (args.filter fun a => !(lowerA a.name == lowerA k))) := by
  have hc : (fun q : Str × Str => lowerA k == lowerA q.1) = fun q => lowerA q.1 == lowerA k := by
    funext a
    rw [Bool.eq_iff_iff, beq_iff_eq, beq_iff_eq, eq_comm]
  have hc' : (fun q : Str × Str => !(lowerA k == lowerA q.1)) = fun q => !(lowerA q.1 == lowerA k) := by
    funext a
    exact congrArg Bool.not (congrFun hc a)
  simp only [argGet, eqIgnoreCase]
  rw [hc', rawArgs_filter, hc]
  exact congrArg (·, _) (argLook_value args (lowerA k))

theorem optionOf_filter {args : List Arg} {k k' : Str} (h : k' ≠ k) :
    optionOf (args.filter fun a => !(lowerA a.name == k)) k' = optionOf args k' := by
  simp only [optionOf, List.filter_filter]
  congr 2
  apply List.filter_congr
  intro a _
  simp only [Arg.called]
  cases h1 : lowerA a.name == k' with
  | false => simp
  | true =>
    rw [beq_iff_eq] at h1
    simp [h1, h]

/-! ### Attributes -/

theorem btInsert_self (k v : Str) (m : AttrMap) : (k, v) ∈ btInsert k v m := by
  induction m with
  | nil => simp [btInsert]
  | cons q m ih =>
    obtain ⟨k', v'⟩ := q
    simp only [btInsert]
    split
    · simp
    · split
      · simp
      · simp [ih]

theorem btInsert_other {k v : Str} {m : AttrMap} {p : Str × Str} (hp : p ∈ m) (h : p.1 ≠ k) : p ∈ btInsert k v m := by
  induction m with
  | nil => cases hp
  | cons q m ih =>
    obtain ⟨k', v'⟩ := q
    simp only [btInsert]
    rcases List.mem_cons.1 hp with rfl | hp
    · rw [if_neg (Ne.symm h)]
      split <;> simp
    · have := ih hp
      split
      · simp [hp]
      · split
        · simp [hp]
        · simp [this]

theorem attrOfArg_key {e : Ext} {k v : Str} {b : Str × Str} (h : attrOfArg e k v = some b) : b.1 = lowerA k := by
  unfold attrOfArg at h
  split at h
  · obtain ⟨w, _, rfl⟩ := Option.map_eq_some_iff.1 h; rfl
  · cases h

theorem attrFromArgs_iff {e : Ext} {args : Args} (hn : (args.map (lowerA ·.1)).Nodup) {p : Str × Str} :
    p ∈ attrFromArgs e args ↔ ∃ k v, (k, v) ∈ args ∧ attrOfArg e k v = some p := by
  refine ⟨attrFromArgs_mem, ?_⟩
  rintro ⟨k, v, h1, h2⟩
  have key : ∀ (args : Args) (m : AttrMap), (args.map (lowerA ·.1)).Nodup →
      ((k, v) ∈ args ∨ (p ∈ m ∧ lowerA k ∉ args.map (lowerA ·.1))) →
      p ∈ (args.filterMap fun (k, v) => attrOfArg e k v).foldl (fun m (x : Str × Str) => btInsert x.1 x.2 m) m := by
    intro args
    induction args with
    | nil =>
      intro m _ h
      rcases h with h | h
      · cases h
      · exact h.1
    | cons q args ih =>
      intro m hn h
      obtain ⟨k', v'⟩ := q
      rw [List.map_cons, List.nodup_cons] at hn
      rw [List.filterMap_cons]
      rcases h with h | ⟨h, h'⟩
      · rcases List.mem_cons.1 h with h | h
        · cases h
          simp only [h2, List.foldl_cons]
          exact ih _ hn.2 (.inr ⟨btInsert_self .., hn.1⟩)
        · cases ha : attrOfArg e k' v' with
          | none => simp only [ha]; exact ih _ hn.2 (.inl h)
          | some b => simp only [ha, List.foldl_cons]; exact ih _ hn.2 (.inl h)
      · rw [List.map_cons, List.mem_cons, not_or] at h'
        cases ha : attrOfArg e k' v' with
        | none => simp only [ha]; exact ih _ hn.2 (.inr ⟨h, h'.2⟩)
        | some b =>
          simp only [ha, List.foldl_cons]
          refine ih _ hn.2 (.inr ⟨btInsert_other h ?_, h'.2⟩)
          rw [attrOfArg_key ha, attrOfArg_key h2]
          exact h'.1
  exact key args [] hn (.inl h1)

theorem sortedKeys_ext {a b : AttrMap} (ha : SortedKeys a) (hb : SortedKeys b) (h : ∀ p, p ∈ a ↔ p ∈ b) : a = b := by
  induction a generalizing b with
  | nil =>
    cases b with
    | nil => rfl
    | cons q b => exact absurd ((h q).2 (by simp)) (by simp)
  | cons p a ih =>
    cases b with
    | nil => exact absurd ((h p).1 (by simp)) (by simp)
    | cons q b =>
      simp only [SortedKeys, List.pairwise_cons] at ha hb
      have hpq : p = q := by
        rcases List.mem_cons.1 ((h p).1 (by simp)) with h1 | h1
        · exact h1
        · rcases List.mem_cons.1 ((h q).2 (by simp)) with h2 | h2
          · exact h2.symm
          · have := strLt_trans (hb.1 p h1) (ha.1 q h2)
            rw [strLt_irrefl] at this
            cases this
      subst hpq
      have hna : p ∉ a := fun hp => by have := ha.1 p hp; rw [strLt_irrefl] at this; cases this
      have hnb : p ∉ b := fun hp => by have := hb.1 p hp; rw [strLt_irrefl] at this; cases this
      rw [ih ha.2 hb.2]
      intro x
      constructor
      · intro hx
        rcases List.mem_cons.1 ((h x).1 (by simp [hx])) with rfl | h1
        · exact (hna hx).elim
        · exact h1
      · intro hx
        rcases List.mem_cons.1 ((h x).2 (by simp [hx])) with rfl | h1
        · exact (hnb hx).elim
        · exact h1

theorem insertName_mem {k x : Str} {ks : List Str} : x ∈ insertName k ks ↔ x = k ∨ x ∈ ks := by
  induction ks with
  | nil => simp [insertName]
  | cons k' ks ih =>
    simp only [insertName]
    split
    · next h => subst h; simp
    · split
      · simp
      · simp only [List.mem_cons, ih]
        constructor
        · rintro (h | h | h) <;> simp [h]
        · rintro (h | h | h) <;> simp [h]

theorem insertName_sorted {k : Str} {ks : List Str} (h : ks.Pairwise fun a b => strLt a b = true) :
    (insertName k ks).Pairwise fun a b => strLt a b = true := by
  induction ks with
  | nil => simp [insertName]
  | cons k' ks ih =>
    have h' := h
    rw [List.pairwise_cons] at h'
    simp only [insertName]
    split
    · exact h
    · next hne =>
      split
      · next hlt =>
        refine List.pairwise_cons.2 ⟨fun x hx => ?_, h⟩
        rcases List.mem_cons.1 hx with rfl | hx
        · exact hlt
        · exact strLt_trans hlt (h'.1 x hx)
      · next hnlt =>
        refine List.pairwise_cons.2 ⟨fun x hx => ?_, ih h'.2⟩
        rcases insertName_mem.1 hx with rfl | hx
        · rcases strLt_total x k' with h | h | h
          · exact absurd h hnlt
          · exact absurd h hne
          · exact h
        · exact h'.1 x hx

theorem argNames_mem {args : List Arg} {k : Str} : k ∈ argNames args ↔ ∃ a ∈ args, lowerA a.name = k := by
  induction args with
  | nil => simp [argNames]
  | cons a args ih =>
    have : argNames (a :: args) = insertName (lowerA a.name) (argNames args) := rfl
    rw [this, insertName_mem, ih]
    constructor
    · rintro (rfl | ⟨b, hb, h⟩)
      · exact ⟨a, by simp, rfl⟩
      · exact ⟨b, by simp [hb], h⟩
    · rintro ⟨b, hb, h⟩
      rcases List.mem_cons.1 hb with rfl | hb
      · exact .inl h.symm
      · exact .inr ⟨b, hb, h⟩

theorem argNames_sorted (args : List Arg) : (argNames args).Pairwise fun a b => strLt a b = true := by
  induction args with
  | nil => exact .nil
  | cons a args ih => exact insertName_sorted ih

/-- Ids are isolated. -/
def isoAttr (cx : Markup.Ctx) (p : Str × Str) : Str × Str :=
  if cx.settings.isolateUserIds && p.1 == c!"id" then (p.1, isolateIds p.2) else p

theorem containsCI_has {l : List Str} (hl : ∀ x ∈ l, lowerA x = x) (k : Str) : containsCI l k = l.contains (lowerA k) := by
  rw [Bool.eq_iff_iff]
  simp only [containsCI, List.any_eq_true, eqIgnoreCase, beq_iff_eq, List.contains_iff_mem]
  constructor
  · rintro ⟨x, hx, h⟩
    rw [hl x hx] at h
    rwa [← h]
  · intro h
    exact ⟨lowerA k, h, by rw [hl _ h]⟩

theorem safe_lower : ∀ k ∈ safeAttributes, lowerA k = k := by decide +kernel

theorem isSafe_iff (k : Str) : isSafeAttribute k =
    (safeAttributes.contains (lowerA k) || startsWith k c!"data-" || startsWith k c!"aria-") := by
  have pre : ∀ p : Str, p ≠ [] → p.all isSuffixSafeChar = true → startsWith k p = true → k.any isSuffixSafeChar = true := by
    intro p h0 h1 h
    obtain ⟨r, rfl⟩ := startsWith_iff.1 h
    obtain ⟨c, p, rfl⟩ := List.exists_cons_of_ne_nil h0
    rw [List.all_cons, Bool.and_eq_true] at h1
    simp [h1.1]
  unfold isSafeAttribute
  rw [containsCI_has safe_lower]
  simp only [List.any_cons, List.any_nil, Bool.or_false, Bool.or_assoc]
  congr 1
  have h1 := pre c!"aria-" (by decide) (by decide)
  have h2 := pre c!"data-" (by decide) (by decide)
  cases ha : startsWith k c!"aria-" <;> cases hd : startsWith k c!"data-"
  · rfl
  · simp [h2 hd]
  · simp [h1 ha]
  · simp [h1 ha]

theorem attrOf_eq (cx : Markup.Ctx) (n v : Str) : attrOf cx n v = (attrOfArg cx.world.toExt n v).map (isoAttr cx) := by
  unfold attrOf attrOfArg
  rw [isSafe_iff, containsCI_has (l := booleanAttributes) (by decide +kernel), containsCI_has (l := urlAttributes) (by decide +kernel)]
  dsimp only
  split
  rotate_left
  · rfl
  cases hb : booleanAttributes.contains (lowerA n) with
  | true =>
    have hid : (lowerA n == c!"id") = false := by
      cases h : lowerA n == c!"id" with
      | false => rfl
      | true => rw [beq_iff_eq] at h; rw [h] at hb; revert hb; decide +kernel
    have hu : urlAttributes.contains (lowerA n) = false := by
      cases h : urlAttributes.contains (lowerA n) with
      | false => rfl
      | true =>
        simp only [urlAttributes, List.contains_iff_mem, List.mem_cons, List.not_mem_nil, or_false] at h
        rcases h with h | h <;> rw [h] at hb <;> exact absurd hb (by decide +kernel)
    simp only [if_true, hu, Bool.false_eq_true, if_false]
    cases hp : parseBoolean v with
    | none => simp [isoAttr, hid]
    | some b => cases b <;> simp [isoAttr, hid]
  | false =>
    simp only [Bool.false_eq_true, if_false, Option.map_some]
    cases hu : urlAttributes.contains (lowerA n) with
    | true =>
      have hid : (lowerA n == c!"id") = false := by
        cases h : lowerA n == c!"id" with
        | false => rfl
        | true => rw [beq_iff_eq] at h; rw [h] at hu; revert hu; decide +kernel
      simp [isoAttr, hid]
    | false =>
      simp only [Bool.false_eq_true, if_false, isoAttr]
      by_cases hid : lowerA n = c!"id"
      · cases hi : cx.settings.isolateUserIds <;> simp [hid]
      · have : (lowerA n == c!"id") = false := by simpa using hid
        simp [hid]

theorem attrOf_key {cx : Markup.Ctx} {n v : Str} {b : Str × Str} (h : attrOf cx n v = some b) : b.1 = lowerA n := by
  rw [attrOf_eq, Option.map_eq_some_iff] at h
  obtain ⟨a, h1, rfl⟩ := h
  rw [← attrOfArg_key h1]
  unfold isoAttr
  split <;> rfl

theorem toAttrs_args (args : List Arg) (s : St) : toAttrs (rawArgs args) env s = .ok (attrsOf env.cx args) s := by
  unfold toAttrs
  rw [bind_ok (m := M.env) (s' := s) (a := env) rfl]
  have hiso : ∀ m : AttrMap, attrIsolateId env.settings.isolateUserIds m = m.map (isoAttr env.cx) := by
    intro m
    unfold attrIsolateId
    cases hi : env.settings.isolateUserIds with
    | false =>
      rw [if_neg (by simp)]
      have : isoAttr env.cx = id := by funext p; simp [isoAttr, Env.cx, hi]
      rw [this, List.map_id]
    | true =>
      rw [if_pos rfl]
      refine List.map_congr_left fun p _ => ?_
      simp [isoAttr, Env.cx, hi]
  have : attrIsolateId env.settings.isolateUserIds (attrFromArgs env.world.toExt (rawArgs args)) = attrsOf env.cx args := by
    rw [hiso]
    refine sortedKeys_ext ?_ ?_ ?_
    · have := attrFromArgs_sorted env.world.toExt (rawArgs args)
      unfold SortedKeys at this ⊢
      rw [List.pairwise_map]
      refine this.imp ?_
      intro a b h
      have e : ∀ p, (isoAttr env.cx p).1 = p.1 := by intro p; unfold isoAttr; split <;> rfl
      rw [e, e]; exact h
    · unfold SortedKeys attrsOf
      rw [List.pairwise_filterMap]
      refine (argNames_sorted args).imp ?_
      intro a b h p hp q hq
      have key : ∀ k p, (match args.find? (·.called k), optionOf args k with
          | some a, some v => attrOf env.cx a.name v
          | _, _ => none) = some p → p.1 = k := by
        intro k p h
        split at h
        · next a v h1 h2 =>
          have := List.find?_some h1
          simp only [Arg.called, beq_iff_eq] at this
          rw [attrOf_key h, this]
        · cases h
      rw [key a p hp, key b q hq]; exact h
    · intro p
      rw [List.mem_map]
      simp only [attrFromArgs_iff (rawArgs_nodup args), argLook_mem (rawArgs_nodup args), argLook_raw]
      unfold attrsOf
      rw [List.mem_filterMap]
      constructor
      · rintro ⟨q, ⟨k, v, h1, h2⟩, rfl⟩
        rw [Option.map_eq_some_iff] at h1
        obtain ⟨a, h1, h3⟩ := h1
        simp only [Prod.mk.injEq] at h3
        have hc := List.find?_some h1
        simp only [Arg.called, beq_iff_eq] at hc
        refine ⟨lowerA k, argNames_mem.2 ⟨a, List.mem_of_find?_eq_some h1, hc⟩, ?_⟩
        have hv := argLook_value args (lowerA k)
        rw [argLook_raw, h1] at hv
        rw [h1, ← hv]
        simp only [Option.map_some]
        rw [attrOf_eq, h3.1, h3.2]
        show (attrOfArg env.world.toExt k v).map _ = _
        rw [h2]; rfl
      · rintro ⟨k, _, h⟩
        split at h
        · next a v h1 h2 =>
          rw [attrOf_eq, Option.map_eq_some_iff] at h
          obtain ⟨q, h, rfl⟩ := h
          have hc := List.find?_some h1
          simp only [Arg.called, beq_iff_eq] at hc
          refine ⟨q, ⟨a.name, v, ?_, h⟩, rfl⟩
          simp only [hc, h1, h2, Option.map_some, Option.getD_some]
        · cases h
  rw [this]
  rfl

end Ftml
