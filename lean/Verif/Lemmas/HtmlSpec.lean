import Verif.Lemmas.HtmlRead
/- What the rendering actions write. -/
namespace Ftml
open HtmlSpec

/-! ### Extracting marks -/

theorem footnoteRefs_append (a b : List Ev) : footnoteRefs (a ++ b) = footnoteRefs a ++ footnoteRefs b := by
  induction a with
  | nil => rfl
  | cons e a ih =>
    cases e with
    | start t as =>
      simp only [List.cons_append, footnoteRefs]
      split <;> simp [ih]
    | stop t => simp [footnoteRefs, ih]
    | char c => simp [footnoteRefs, ih]

theorem headingIds_append (a b : List Ev) : headingIds (a ++ b) = headingIds a ++ headingIds b := by
  induction a with
  | nil => rfl
  | cons e a ih =>
    cases e with
    | start t as =>
      simp only [List.cons_append, headingIds]
      split <;> simp [ih]
    | stop t => simp [headingIds, ih]
    | char c => simp [headingIds, ih]

theorem footnoteRefs_chars (s : Str) : footnoteRefs (s.map .char) = [] := by
  induction s with
  | nil => rfl
  | cons c s ih => simpa [footnoteRefs] using ih
theorem headingIds_chars (s : Str) : headingIds (s.map .char) = [] := by
  induction s with
  | nil => rfl
  | cons c s ih => simpa [headingIds] using ih

theorem linkHrefs_append (a b : List Ev) : linkHrefs (a ++ b) = linkHrefs a ++ linkHrefs b := by
  induction a with
  | nil => rfl
  | cons e a ih =>
    cases e with
    | start t as =>
      simp only [List.cons_append, linkHrefs]
      split <;> simp [ih]
    | stop t => simp [linkHrefs, ih]
    | char c => simp [linkHrefs, ih]
theorem linkHrefs_chars (s : Str) : linkHrefs (s.map .char) = [] := by
  induction s with
  | nil => rfl
  | cons c s ih => simpa [linkHrefs] using ih

/-- The links recorded are those written. -/
def LinksOk (env : HEnv) (A : Source) (l : Links) (evs : List Ev) (l' : Links) : Prop :=
  ∃ ls : List (LinkLoc × Option Str), (∀ x ∈ ls, A.link x.1 x.2) ∧ l' = ls.foldl (fun b x => addLink x.1 b) l ∧
    linkHrefs evs = ls.map fun x => noNul (normalizeLink env.w.toExt x.1 ++ x.2.getD [])

theorem LinksOk.none {env : HEnv} {A : Source} {l : Links} {evs : List Ev} (h : linkHrefs evs = []) : LinksOk env A l evs l :=
  ⟨[], by simp, rfl, h⟩
theorem LinksOk.app {env : HEnv} {A : Source} {l l' l'' : Links} {e f : List Ev} (h : LinksOk env A l e l')
    (h' : LinksOk env A l' f l'') : LinksOk env A l (e ++ f) l'' := by
  obtain ⟨a, a1, a2, a3⟩ := h
  obtain ⟨b, b1, b2, b3⟩ := h'
  refine ⟨a ++ b, ?_, ?_, ?_⟩
  · intro x hx; exact (List.mem_append.1 hx).elim (a1 x) (b1 x)
  · rw [List.foldl_append, ← a2]; exact b2
  · rw [linkHrefs_append, a3, b3, List.map_append]
theorem LinksOk.wrap {env : HEnv} {A : Source} {l l' : Links} {e : List Ev} {t : Str} {as : List (Str × Str)}
    (h : LinksOk env A l e l') (hl : isLinkTag t as = false) : LinksOk env A l (.start t as :: (e ++ [.stop t])) l' := by
  obtain ⟨a, a1, a2, a3⟩ := h
  refine ⟨a, a1, a2, ?_⟩
  simp [linkHrefs, hl, linkHrefs_append, a3]
theorem notLink {t : Str} (h : t ≠ c!"a") (as : List (Str × Str)) : isLinkTag t as = false := by
  simp [isLinkTag, h]

/-- Numbers from `a` up to but not including `b`. -/
def upTo (a b : Nat) : List Nat := List.range' a (b - a)

theorem upTo_self (a : Nat) : upTo a a = [] := by simp [upTo]
theorem upTo_append {a b c : Nat} (h : a ≤ b) (h' : b ≤ c) : upTo a b ++ upTo b c = upTo a c := by
  unfold upTo
  have : a + (b - a) = b := by omega
  conv => lhs; rhs; rw [← this]
  rw [List.range'_append_1]
  congr 1
  omega
theorem upTo_one (a : Nat) : upTo a (a + 1) = [a] := by simp [upTo, List.range'_succ]

/-- What an action writes, and how it changes the state: `A` describes the attributes found in the tree,
`H` says that headings carry no id of their own. -/
structure HOk (env : HEnv) (A : Source) (H : Prop) (st : HSt) (evs : List Ev) (st' : HSt) : Prop where
  nested : Nested evs
  tags : ∀ t as, Ev.start t as ∈ evs → t ∈ mathTags ∨ TagOk A env.settings.useTrueIds t as
  footLe : st.footnote ≤ st'.footnote
  foot : footnoteRefs evs = (upTo st.footnote st'.footnote).map natToStr
  headLe : st.toc ≤ st'.toc
  head : H → env.settings.useTrueIds = true →
    headingIds evs = (upTo st.toc st'.toc).map fun n => c!"toc" ++ natToStr n
  scopes : st'.scopes = st.scopes
  footMax : st'.footnote ≤ max st.footnote (env.footnotes.length + 1)
  links : LinksOk env A st.links evs st'.links

section
variable {env : HEnv} {A : Source} {H : Prop}

theorem HOk.nil (st : HSt) : HOk env A H st [] st :=
  ⟨.nil, (fun _ _ h => by cases h), Nat.le_refl _, by simp [footnoteRefs, upTo_self], Nat.le_refl _,
    fun _ _ => by simp [headingIds, upTo_self], rfl, Nat.le_max_left .., .none rfl⟩

theorem HOk.chars (st : HSt) (s : Str) : HOk env A H st (s.map .char) st :=
  ⟨.chars s, fun t as h => by simp at h, Nat.le_refl _, by simp [footnoteRefs_chars, upTo_self], Nat.le_refl _,
    fun _ _ => by simp [headingIds_chars, upTo_self], rfl, Nat.le_max_left .., .none (linkHrefs_chars s)⟩

theorem HOk.app {a b c : HSt} {e f : List Ev} (h : HOk env A H a e b) (h' : HOk env A H b f c) :
    HOk env A H a (e ++ f) c :=
  ⟨h.nested.append h'.nested,
   fun t as hm => (List.mem_append.1 hm).elim (h.tags t as) (h'.tags t as),
   Nat.le_trans h.footLe h'.footLe,
   by rw [footnoteRefs_append, h.foot, h'.foot, ← List.map_append, upTo_append h.footLe h'.footLe],
   Nat.le_trans h.headLe h'.headLe,
   fun x y => by rw [headingIds_append, h.head x y, h'.head x y, ← List.map_append, upTo_append h.headLe h'.headLe],
   h'.scopes.trans h.scopes, by have := h.footMax; have := h'.footMax; omega, h.links.app h'.links⟩

/-- A start tag, with what it contributes. -/
theorem HOk.elemL {t : Str} {as : List (Str × Str)} {a b : HSt} {e : List Ev} (l : Links) (hv : t ∉ voidTags)
    (ht : TagOk A env.settings.useTrueIds t as) (h : HOk env A H a e b) (h1 : t ≠ c!"wj-footnote-ref-marker")
    (h2 : t ∉ headTags ∨ as.lookup c!"id" = none ∨ ¬ H) (h3 : LinksOk env A l (.start t as :: (e ++ [.stop t])) b.links) :
    HOk env A H { a with links := l } (.start t as :: (e ++ [.stop t])) b := by
  refine ⟨h.nested.wrap hv, ?_, h.footLe, ?_, h.headLe, ?_, h.scopes, h.footMax, h3⟩
  · intro t' as' hm
    simp only [List.mem_cons, List.mem_append, List.not_mem_nil, or_false, reduceCtorEq, Ev.start.injEq] at hm
    rcases hm with ⟨rfl, rfl⟩ | hm
    · exact .inr ht
    · exact h.tags _ _ hm
  · simp only [footnoteRefs, if_neg h1, footnoteRefs_append, h.foot, List.append_nil]
  · intro x y
    simp only [headingIds]
    rcases h2 with h2 | h2 | h2
    · rw [if_neg h2, headingIds_append, h.head x y]; simp [headingIds]
    · rw [h2]; split <;> simp [headingIds_append, h.head x y, headingIds]
    · exact (h2 x).elim

theorem HOk.elem {t : Str} {as : List (Str × Str)} {a b : HSt} {e : List Ev} (hv : t ∉ voidTags)
    (ht : TagOk A env.settings.useTrueIds t as) (h : HOk env A H a e b) (h1 : t ≠ c!"wj-footnote-ref-marker")
    (h2 : t ∉ headTags ∨ as.lookup c!"id" = none ∨ ¬ H) (h3 : isLinkTag t as = false) :
    HOk env A H a (.start t as :: (e ++ [.stop t])) b := h.elemL a.links hv ht h1 h2 (h.links.wrap h3)

theorem HOk.void {t : Str} {as : List (Str × Str)} {st : HSt} (hv : t ∈ voidTags)
    (ht : TagOk A env.settings.useTrueIds t as) : HOk env A H st [.start t as] st := by
  have h1 : t ≠ c!"wj-footnote-ref-marker" := by rintro rfl; revert hv; decide
  have h2 : t ∉ headTags := by
    intro h
    revert hv
    have : ∀ t ∈ headTags, t ∉ voidTags := by decide
    exact this t h
  have h3 : isLinkTag t as = false := notLink (by rintro rfl; revert hv; decide) _
  refine ⟨.void hv .nil, ?_, Nat.le_refl _, ?_, Nat.le_refl _, ?_, rfl, Nat.le_max_left .., .none (by simp [linkHrefs, h3])⟩
  · intro t' as' hm
    simp only [List.mem_cons, List.not_mem_nil, or_false, Ev.start.injEq] at hm
    obtain ⟨rfl, rfl⟩ := hm
    exact .inr ht
  · simp [footnoteRefs, if_neg h1, upTo_self]
  · intro x y
    simp only [headingIds, if_neg h2, upTo_self, List.map_nil]

/-! ### Actions -/

/-- An action writes what it should. -/
def Wr (env : HEnv) (A : Source) (H : Prop) (a : Act) : Prop :=
  ∀ st s st', a st = .ok s st' → ∃ evs, Frag s evs ∧ HOk env A H st evs st'

theorem andThen_ok {a b : Act} {st st' : HSt} {s : Str} (h : (a ;; b) st = .ok s st') :
    ∃ s1 st1 s2, a st = .ok s1 st1 ∧ b st1 = .ok s2 st' ∧ s = s1 ++ s2 := by
  unfold Act.andThen at h
  split at h
  · cases h
  · cases h
  · next s1 st1 e1 =>
    split at h
    · cases h
    · cases h
    · next s2 st2 e2 =>
      simp only [HR.ok.injEq] at h
      obtain ⟨rfl, rfl⟩ := h
      exact ⟨s1, st1, s2, e1, e2, rfl⟩

theorem Wr.andThen {a b : Act} (ha : Wr env A H a) (hb : Wr env A H b) : Wr env A H (a ;; b) := by
  intro st s st' h
  obtain ⟨s1, st1, s2, e1, e2, rfl⟩ := andThen_ok h
  obtain ⟨ev1, f1, o1⟩ := ha _ _ _ e1
  obtain ⟨ev2, f2, o2⟩ := hb _ _ _ e2
  exact ⟨_, f1.append f2, o1.app o2⟩

theorem Wr.skip : Wr env A H skip := by
  intro st s st' h
  simp only [Ftml.skip, emit, HR.ok.injEq] at h
  obtain ⟨rfl, rfl⟩ := h
  exact ⟨[], .nil, .nil _⟩

theorem Wr.esc (x : Str) : Wr env A H (emitEsc x) := by
  intro st s st' h
  simp only [emitEsc, emit, HR.ok.injEq] at h
  obtain ⟨rfl, rfl⟩ := h
  exact ⟨_, frag_escape x, .chars _ _⟩

theorem Wr.die (p : HPanic) : Wr env A H (die p) := by
  intro st s st' h
  cases h

/-- Text without markup characters. -/
def PlainText (s : Str) : Prop := ∀ c ∈ s, escapeHtmlChar c = none

theorem Wr.emit {x : Str} (hx : PlainText x) : Wr env A H (emit x) := by
  have : emitEsc x = Ftml.emit x := by unfold emitEsc; rw [escape_plain hx]
  rw [← this]
  exact .esc x

theorem Wr.modify {f : HSt → HSt} (h1 : ∀ st, (f st).footnote = st.footnote) (h2 : ∀ st, (f st).toc = st.toc)
    (h3 : ∀ st, (f st).scopes = st.scopes) (h4 : ∀ st, (f st).links = st.links := by intro; rfl) : Wr env A H (modifySt f) := by
  intro st s st' h
  simp only [modifySt, HR.ok.injEq] at h
  obtain ⟨rfl, rfl⟩ := h
  exact ⟨[], .nil, .nil, (fun _ _ h => by cases h), Nat.le_of_eq (h1 st).symm,
    (by rw [h1, upTo_self]; rfl), Nat.le_of_eq (h2 st).symm, (fun _ _ => by rw [h2, upTo_self]; rfl), h3 st,
    (by rw [h1]; exact Nat.le_max_left ..), (by rw [h4]; exact .none rfl)⟩

theorem Wr.repeat {a : Act} (h : Wr env A H a) (n : Nat) : Wr env A H (repeatAct a n) := by
  induction n with
  | zero => exact .skip
  | succ n ih => exact h.andThen ih

theorem Wr.forEach {α : Type} {f : Nat → α → Act} {l : List α} (h : ∀ i, ∀ x ∈ l, Wr env A H (f i x)) (i : Nat) :
    Wr env A H (forEach f i l) := by
  induction l generalizing i with
  | nil => exact .skip
  | cons x l ih => exact (h i x (by simp)).andThen (ih (fun j y hy => h j y (by simp [hy])) (i + 1))

theorem Wr.read (f : HSt → Act) (h : ∀ st, Wr env A H (f st)) : Wr env A H (fun st => f st st) :=
  fun st s st' e => h st st s st' e

/-! ### Attributes -/

theorem assocGet_mem {m : AttrMap} {k v : Str} (h : assocGet m k = some v) : (k, v) ∈ m := by
  unfold assocGet at h
  obtain ⟨⟨a, b⟩, h1, h2⟩ := Option.map_eq_some_iff.1 h
  have := List.find?_some h1
  simp only [beq_iff_eq] at this
  have hm := List.mem_of_find?_eq_some h1
  simp only at h2
  rw [← this, ← h2]
  exact hm

theorem assocGet_isNone {m : AttrMap} {k : Str} (h : (assocGet m k).isNone = true) : ∀ v, (k, v) ∉ m := by
  intro v hm
  unfold assocGet at h
  simp only [Option.isNone_map, Option.isNone_iff_eq_none, List.find?_eq_none] at h
  simpa using h _ hm

/-- The entries that are written. -/
def liveEntries (entries : List AttrEntry) : List (Str × Str) :=
  entries.filterMap fun (k, v, b) => if b then some (k, v) else none

theorem liveEntries_sub (entries : List AttrEntry) :
    ((liveEntries entries).map (·.1)).Sublist (entries.map (·.1)) := by
  induction entries with
  | nil => exact .slnil
  | cons e es ih =>
    obtain ⟨k, v, b⟩ := e
    cases b with
    | false => exact ih.cons k
    | true => exact ih.cons_cons k

theorem mem_attrList {entries : List AttrEntry} {map : AttrMap} {k v : Str} (h : (k, v) ∈ attrList entries map) :
    (∃ v0, (k, v0) ∈ liveEntries entries ∧ ((v = v0 ∧ ∀ x, (k, x) ∉ map) ∨
      ∃ mv, (k, mv) ∈ map ∧ v = v0 ++ c!" " ++ mv)) ∨
    (k, v) ∈ map := by
  simp only [attrList, List.mem_append, List.mem_filterMap, List.mem_filter, Option.map_eq_some_iff,
    Prod.mk.injEq] at h
  rcases h with (⟨⟨k0, v0⟩, h1, mv, h2, h3, h4⟩ | ⟨⟨⟨k0, v0, b0⟩, h1, h2⟩, h3⟩) | ⟨h1, _⟩
  · simp only at h3 h4 h2
    subst h3
    subst h4
    refine .inl ⟨v0, ?_, .inr ⟨mv, assocGet_mem h2, rfl⟩⟩
    simpa [liveEntries, List.mem_filterMap] using h1
  · refine .inl ⟨v, ?_, .inl ⟨rfl, assocGet_isNone h3⟩⟩
    simp only [liveEntries, List.mem_filterMap]
    exact ⟨_, h1, h2⟩
  · exact .inr h1

theorem attrList_nodup {entries : List AttrEntry} {map : AttrMap} (h1 : (entries.map (·.1)).Nodup)
    (h2 : (map.map (·.1)).Nodup) : ((attrList entries map).map (·.1)).Nodup := by
  have hl : ((liveEntries entries).map (·.1)).Nodup := h1.sublist (liveEntries_sub entries)
  have e1 : attrList entries map =
    ((liveEntries entries).filterMap fun (k, v) => (assocGet map k).map fun mv => (k, v ++ c!" " ++ mv)) ++
    ((liveEntries entries).filter fun (k, _) => (assocGet map k).isNone) ++
    (map.filter fun (k, _) => !(((liveEntries entries).filterMap fun (k, v) => (assocGet map k).map fun mv => (k, v ++ c!" " ++ mv)).any fun (k', _) => k' == k)) := rfl
  rw [e1]
  generalize liveEntries entries = es at hl
  have sub1 : ∀ (es : List (Str × Str)),
      ((es.filterMap fun (k, v) => (assocGet map k).map fun mv => (k, v ++ c!" " ++ mv)).map (·.1)).Sublist (es.map (·.1)) := by
    intro es
    induction es with
    | nil => exact .slnil
    | cons e es ih =>
      obtain ⟨k, v⟩ := e
      simp only [List.filterMap_cons]
      cases assocGet map k with
      | none => exact ih.cons k
      | some mv => exact ih.cons_cons k
  rw [List.map_append, List.map_append, List.nodup_append, List.nodup_append]
  refine ⟨⟨hl.sublist (sub1 es), hl.sublist (List.filter_sublist.map _), ?_⟩,
    h2.sublist (List.filter_sublist.map _), ?_⟩
  · intro k hk k' hk' e
    subst e
    simp only [List.mem_map, List.mem_filterMap, List.mem_filter, Option.map_eq_some_iff] at hk hk'
    obtain ⟨⟨a, b⟩, ⟨⟨c, d⟩, _, mv, h3, h4⟩, h5⟩ := hk
    obtain ⟨⟨a', b'⟩, ⟨_, h6⟩, h7⟩ := hk'
    simp only [Prod.mk.injEq] at h4 h5 h7 h3 h6
    rw [h7, ← h5, ← h4.1, h3] at h6
    cases h6
  · intro k hk k' hk' e
    subst e
    rw [List.mem_map] at hk'
    obtain ⟨⟨a', b'⟩, h6, h7⟩ := hk'
    simp only [List.mem_filter] at h6
    simp only at h7
    subst h7
    rcases List.mem_append.1 hk with hk | hk
    · obtain ⟨⟨a, b⟩, h8, h9⟩ := List.mem_map.1 hk
      simp only at h9
      subst h9
      have := h6.2
      simp only [Bool.not_eq_true', List.any_eq_false] at this
      exact this _ h8 (by simp)
    · obtain ⟨⟨a, b⟩, h8, h9⟩ := List.mem_map.1 hk
      simp only at h9
      subst h9
      simp only [List.mem_filter] at h8
      exact assocGet_isNone h8.2 b' h6.1

/-- Attribute names the renderer writes with arbitrary values. -/
def freeKeys : List Str := outputAttrs.filter fun k => k != c!"href" && k != c!"onclick" && k != c!"id"

/-- A tag with attributes that need no further justification, apart from its id. -/
def idCheck (t : Str) (ks : List Str) : Bool :=
  decide (t ∈ outputTags) && decide (t ∉ rawTags) && decide (TagName t) &&
    ks.all (fun k => decide (k ∈ freeKeys) || decide (k = c!"id")) && decide ks.Nodup

/-- A tag with attributes that need no further justification. -/
def tagCheck (t : Str) (ks : List Str) : Bool := idCheck t ks && decide (c!"id" ∉ ks)

theorem outputAttrs_plain : ∀ k ∈ outputAttrs, PlainName k := by
  have h : ∀ k ∈ outputAttrs, k ≠ [] ∧ ∀ c ∈ k, (c.isAlphanum = true ∨ c = '-' ∨ c = '_' ∨ c = ':' ∨ c = '.') := by
    decide +kernel
  exact h

theorem freeKeys_sub' {k : Str} (h : k ∈ freeKeys) : k ∈ outputAttrs ∧ k ≠ c!"href" ∧ k ≠ c!"onclick" ∧ k ≠ c!"id" := by
  unfold freeKeys at h
  rw [List.mem_filter] at h
  simpa [and_assoc] using h

theorem freeKeys_sub {k : Str} (h : k ∈ freeKeys) : k ∈ outputAttrs ∧ k ≠ c!"href" ∧ k ≠ c!"onclick" :=
  ⟨(freeKeys_sub' h).1, (freeKeys_sub' h).2.1, (freeKeys_sub' h).2.2.1⟩

/-- The attributes of a tree's map. -/
structure MapOk (A : Source) (m : AttrMap) : Prop where
  plain : PlainAttrs m
  attr : ∀ k v, (k, v) ∈ m → A.attr k v

theorem MapOk.nil : MapOk A [] := ⟨⟨by simp, by simp⟩, by simp⟩

/-- Attributes as read. -/
abbrev asRead (l : List (Str × Str)) : List (Str × Str) := l.map fun p => (p.1, noNul p.2)

theorem mem_asRead {l : List (Str × Str)} {k v : Str} (h : (k, v) ∈ asRead l) : ∃ v', (k, v') ∈ l ∧ v = noNul v' := by
  obtain ⟨⟨a, b⟩, h1, h2⟩ := List.mem_map.1 h
  simp only [Prod.mk.injEq] at h2
  obtain ⟨rfl, rfl⟩ := h2
  exact ⟨b, h1, rfl⟩

theorem asRead_keys (l : List (Str × Str)) : (asRead l).map (·.1) = l.map (·.1) := by
  simp [asRead]

theorem attrList_plain {entries : List AttrEntry} {map : AttrMap} (h : ∀ k ∈ entries.map (·.1), PlainName k)
    (hm : MapOk A map) : ∀ p ∈ attrList entries map, PlainName p.1 := by
  rintro ⟨k, v⟩ hp
  rcases mem_attrList hp with ⟨v0, h1, _⟩ | h1
  · refine h k ((liveEntries_sub entries).subset (List.mem_map.2 ⟨_, h1, rfl⟩))
  · exact hm.plain.1 _ h1

/-- What may stand as the address of an image. -/
def ImageOk (A : Source) (t : Str) (as : List (Str × Str)) : Prop :=
  t = c!"img" → ∀ v, (c!"src", v) ∈ as → v = dummyAvatar ∨
    (∃ u, A.picture u ∧ (v = noNul u ∨ ∃ v', A.attr c!"src" v' ∧ v = noNul (u ++ c!" " ++ v')))

theorem ImageOk.other {t : Str} {as : List (Str × Str)} (h : t ≠ c!"img") : ImageOk A t as := fun e => absurd e h

/-- What may stand as an id. -/
def IdOk (env : HEnv) (A : Source) (entries : List AttrEntry) : Prop := ∀ v, (c!"id", v) ∈ liveEntries entries → OwnId env.settings.useTrueIds v ∨ A.name v

theorem IdOk.tag {entries : List AttrEntry} {map : AttrMap} (h : IdOk env A entries) (hm : MapOk A map) :
    ∀ v, (c!"id", v) ∈ asRead (attrList entries map) → (∃ v', A.attr c!"id" v' ∧ v = noNul v') ∨
      ∃ g, (OwnId env.settings.useTrueIds g ∨ A.name g) ∧ (v = noNul g ∨ ∃ v', A.attr c!"id" v' ∧ v = noNul (g ++ c!" " ++ v')) := by
  intro v hv
  obtain ⟨v', h1, rfl⟩ := mem_asRead hv
  rcases mem_attrList h1 with ⟨v0, h2, h3⟩ | h2
  · refine .inr ⟨v0, h v0 h2, ?_⟩
    rcases h3 with ⟨rfl, _⟩ | ⟨mv, h4, rfl⟩
    · exact .inl rfl
    · exact .inr ⟨mv, hm.attr _ _ h4, rfl⟩
  · exact .inl ⟨v', hm.attr _ _ h2, rfl⟩

theorem IdOk.none {entries : List AttrEntry} (h : c!"id" ∉ entries.map (·.1)) : IdOk env A entries := fun _ hv =>
  (h ((liveEntries_sub entries).subset (List.mem_map.2 ⟨_, hv, rfl⟩))).elim

theorem tagOk_id {t : Str} {entries : List AttrEntry} {map : AttrMap} {ks : List Str}
    (hk : entries.map (·.1) = ks) (hc : idCheck t ks = true) (hm : MapOk A map)
    (hi : IdOk env A entries) (hg : ImageOk A t (asRead (attrList entries map))) :
    TagOk A env.settings.useTrueIds t (asRead (attrList entries map)) ∧ (∀ p ∈ attrList entries map, PlainName p.1) ∧ t ∉ rawTags ∧
      TagName t := by
  subst hk
  simp only [idCheck, Bool.and_eq_true, Bool.or_eq_true, decide_eq_true_eq, List.all_eq_true] at hc
  obtain ⟨⟨⟨⟨c1, c2⟩, c3⟩, c4⟩, c5⟩ := hc
  have keys : ∀ k ∈ entries.map (·.1), k ∈ outputAttrs ∧ k ≠ c!"href" ∧ k ≠ c!"onclick" := by
    intro k hk
    rcases c4 k hk with h | rfl
    · exact freeKeys_sub h
    · decide +kernel
  have live : ∀ {k v}, (k, v) ∈ liveEntries entries → k ∈ outputAttrs ∧ k ≠ c!"href" ∧ k ≠ c!"onclick" := fun h =>
    keys _ ((liveEntries_sub entries).subset (List.mem_map.2 ⟨_, h, rfl⟩))
  refine ⟨⟨c1, ?_, ?_, ?_, ?_, ?_, ?_, hi.tag hm, hg⟩, attrList_plain (fun k hk => outputAttrs_plain k (keys k hk).1) hm, c2, c3⟩
  · rw [asRead_keys]; exact attrList_nodup c5 hm.plain.2
  · intro k v h
    obtain ⟨v', h1, rfl⟩ := mem_asRead h
    rcases mem_attrList h1 with ⟨v0, h2, _⟩ | h2
    · exact .inl (live h2).1
    · exact .inr ⟨v', hm.attr _ _ h2, rfl⟩
  · intro v h
    obtain ⟨v', h1, rfl⟩ := mem_asRead h
    rcases mem_attrList h1 with ⟨v0, h2, _⟩ | h2
    · exact ((live h2).2.1 rfl).elim
    · exact .inr (.inr ⟨v', hm.attr _ _ h2, rfl⟩)
  · intro v h
    obtain ⟨v', h1, rfl⟩ := mem_asRead h
    rcases mem_attrList h1 with ⟨v0, h2, _⟩ | h2
    · exact ((live h2).2.2 rfl).elim
    · exact .inr ⟨v', hm.attr _ _ h2, rfl⟩
  · rintro rfl
    exact (c2 (by decide)).elim
  · rintro rfl
    exact (c2 (by decide)).elim

theorem tagOk_check {t : Str} {entries : List AttrEntry} {map : AttrMap} {ks : List Str}
    (hk : entries.map (·.1) = ks) (hc : tagCheck t ks = true) (hm : MapOk A map)
    (hg : ImageOk A t (asRead (attrList entries map))) :
    TagOk A env.settings.useTrueIds t (asRead (attrList entries map)) ∧ (∀ p ∈ attrList entries map, PlainName p.1) ∧ t ∉ rawTags ∧
      TagName t := by
  simp only [tagCheck, Bool.and_eq_true, decide_eq_true_eq] at hc
  exact tagOk_id hk hc.1 hm (.none (hk ▸ hc.2)) hg

theorem soloTags_eq : soloTags = voidTags := rfl

/-- A tag, given what it is read as, after a change of the links. -/
theorem tagA_wrL {t : Str} {entries : List AttrEntry} {map : AttrMap} {body : Act} (f : Links → Links)
    (ht : TagOk A env.settings.useTrueIds t (asRead (attrList entries map))) (hp : ∀ p ∈ attrList entries map, PlainName p.1)
    (hr : t ∉ rawTags) (hn : TagName t) (h1 : t ≠ c!"wj-footnote-ref-marker") (hv : t ∉ voidTags)
    (h2 : t ∉ headTags ∨ (asRead (attrList entries map)).lookup c!"id" = none ∨ ¬ H)
    (h3 : ∀ l e l', LinksOk env A (f l) e l' →
      LinksOk env A l (.start t (asRead (attrList entries map)) :: (e ++ [.stop t])) l')
    (hb : Wr env A H body) :
    Wr env A H (modifySt (fun st => { st with links := f st.links }) ;; tagA t entries map body) := by
  intro st s st' h
  obtain ⟨s0, st0, s5, e0, e5, rfl⟩ := andThen_ok h
  simp only [modifySt, HR.ok.injEq] at e0
  obtain ⟨rfl, rfl⟩ := e0
  unfold tagA at e5
  obtain ⟨s1, st1, s2, e1, e2, rfl⟩ := andThen_ok e5
  obtain ⟨s3, st3, s4, e3, e4, rfl⟩ := andThen_ok e2
  simp only [Ftml.emit, HR.ok.injEq] at e1 e4
  obtain ⟨rfl, rfl⟩ := e1
  obtain ⟨rfl, rfl⟩ := e4
  obtain ⟨evs, f, o⟩ := hb _ _ _ e3
  have hs : soloTags.contains t = false := by
    rw [soloTags_eq]; simpa using hv
  rw [hs]
  refine ⟨_, Frag.nil.append ((frag_start hn hr hp).append (f.append (frag_stop hn))), ?_⟩
  have := o.elemL st.links hv ht h1 h2 (h3 _ _ _ o.links)
  exact this

theorem noUpdate (a : Act) : (modifySt (fun st => { st with links := st.links }) ;; a) = a := by
  funext st
  unfold Act.andThen modifySt
  dsimp only
  cases a st <;> rfl

/-- A tag, given what it is read as. -/
theorem tagA_wr {t : Str} {entries : List AttrEntry} {map : AttrMap} {body : Act}
    (ht : TagOk A env.settings.useTrueIds t (asRead (attrList entries map))) (hp : ∀ p ∈ attrList entries map, PlainName p.1)
    (hr : t ∉ rawTags) (hn : TagName t) (h1 : t ≠ c!"wj-footnote-ref-marker") (hv : t ∉ voidTags)
    (h2 : t ∉ headTags ∨ (asRead (attrList entries map)).lookup c!"id" = none ∨ ¬ H)
    (h3 : isLinkTag t (asRead (attrList entries map)) = false)
    (hb : Wr env A H body) : Wr env A H (tagA t entries map body) := by
  rw [← noUpdate (tagA t entries map body)]
  exact tagA_wrL (fun l => l) ht hp hr hn h1 hv h2 (fun _ _ _ h => h.wrap h3) hb

theorem void_not_raw {t : Str} (h : t ∈ voidTags) : t ∉ rawTags := by
  have : ∀ t ∈ voidTags, t ∉ rawTags := by decide +kernel
  exact this t h

/-- A void tag. -/
theorem tagA_void {t : Str} {entries : List AttrEntry} {map : AttrMap} {ks : List Str}
    (hk : entries.map (·.1) = ks) (hc : tagCheck t ks = true) (hv : t ∈ voidTags) (hm : MapOk A map)
    (hg : ImageOk A t (asRead (attrList entries map))) :
    Wr env A H (tagA t entries map Ftml.skip) := by
  obtain ⟨ht, hp, hr, hn⟩ := tagOk_check hk hc hm hg
  intro st s st' h
  unfold tagA at h
  obtain ⟨s1, st1, s2, e1, e2, rfl⟩ := andThen_ok h
  obtain ⟨s3, st3, s4, e3, e4, rfl⟩ := andThen_ok e2
  simp only [Ftml.emit, Ftml.skip, HR.ok.injEq] at e1 e3 e4
  obtain ⟨rfl, rfl⟩ := e1
  obtain ⟨rfl, rfl⟩ := e3
  obtain ⟨rfl, rfl⟩ := e4
  have hs : soloTags.contains t = true := by
    rw [soloTags_eq]; simpa using hv
  rw [hs]
  refine ⟨_, ?_, HOk.void hv ht⟩
  have := frag_start hn hr hp
  simpa using this

/-- A tag whose attributes need no justification. -/
theorem tagA_plain {t : Str} {entries : List AttrEntry} {map : AttrMap} {body : Act} (ks : List Str)
    (hk : entries.map (·.1) = ks) (hc : (tagCheck t ks && decide (t ≠ c!"wj-footnote-ref-marker") &&
      decide (t ∉ voidTags) && decide (t ∉ headTags)) = true) (hm : MapOk A map)
    (h3 : isLinkTag t (asRead (attrList entries map)) = false)
    (hb : Wr env A H body) : Wr env A H (tagA t entries map body) := by
  simp only [Bool.and_eq_true, decide_eq_true_eq] at hc
  obtain ⟨⟨⟨c1, c2⟩, c3⟩, c4⟩ := hc
  obtain ⟨ht, hp, hr, hn⟩ := tagOk_check hk c1 hm (.other (by rintro rfl; revert c3; decide))
  exact tagA_wr ht hp hr hn c2 c3 (.inl c4) h3 hb

/-- The same for tags that are not links. -/
theorem tagA_simple {t : Str} {entries : List AttrEntry} {map : AttrMap} {body : Act} (ks : List Str)
    (hk : entries.map (·.1) = ks) (hc : (tagCheck t ks && decide (t ≠ c!"wj-footnote-ref-marker") &&
      decide (t ∉ voidTags) && decide (t ∉ headTags) && decide (t ≠ c!"a")) = true) (hm : MapOk A map)
    (hb : Wr env A H body) : Wr env A H (tagA t entries map body) := by
  simp only [Bool.and_eq_true, decide_eq_true_eq] at hc
  obtain ⟨⟨⟨⟨c1, c2⟩, c3⟩, c4⟩, c5⟩ := hc
  obtain ⟨ht, hp, hr, hn⟩ := tagOk_check hk c1 hm (.other (by rintro rfl; revert c3; decide))
  exact tagA_wr ht hp hr hn c2 c3 (.inl c4) (notLink c5 _) hb

/-- A tag with an id. -/
theorem tagA_id {t : Str} {entries : List AttrEntry} {map : AttrMap} {body : Act} (ks : List Str)
    (hk : entries.map (·.1) = ks) (hc : (idCheck t ks && decide (t ≠ c!"wj-footnote-ref-marker") &&
      decide (t ∉ voidTags) && decide (t ∉ headTags)) = true) (hm : MapOk A map)
    (hi : IdOk env A entries) (h3 : isLinkTag t (asRead (attrList entries map)) = false)
    (hb : Wr env A H body) : Wr env A H (tagA t entries map body) := by
  simp only [Bool.and_eq_true, decide_eq_true_eq] at hc
  obtain ⟨⟨⟨c1, c2⟩, c3⟩, c4⟩ := hc
  obtain ⟨ht, hp, hr, hn⟩ := tagOk_id hk c1 hm hi (.other (by rintro rfl; revert c3; decide))
  exact tagA_wr ht hp hr hn c2 c3 (.inl c4) h3 hb

theorem tag_simple {t : Str} {entries : List AttrEntry} {body : Act} (ks : List Str)
    (hk : entries.map (·.1) = ks) (hc : (tagCheck t ks && decide (t ≠ c!"wj-footnote-ref-marker") &&
      decide (t ∉ voidTags) && decide (t ∉ headTags) && decide (t ≠ c!"a")) = true)
    (hb : Wr env A H body) : Wr env A H (tag t entries body) := tagA_simple ks hk hc .nil hb

/-- A tag with a link of its own, after a change of the links. -/
theorem tag_hrefL {t : Str} {href : Str} (f : Links → Links) {entries : List AttrEntry} {body : Act} (ks : List Str)
    (hk : entries.map (·.1) = ks) (hc : (tagCheck t (c!"name" :: ks) && decide (t ≠ c!"wj-footnote-ref-marker") &&
      decide (t ∉ voidTags) && decide (t ∉ headTags)) = true)
    (hh : SafeHref (noNul href) ∨ ∃ x, A.extra x ∧ noNul href = c!"javascript:;" ++ noNul x) (hb : Wr env A H body)
    (pos : List AttrEntry) (hpos : pos.Perm (kv c!"href" href :: entries))
    (h3 : ∀ l e l', LinksOk env A (f l) e l' → LinksOk env A l (.start t (asRead (attrList pos [])) :: (e ++ [.stop t])) l') :
    Wr env A H (modifySt (fun st => { st with links := f st.links }) ;; tag t pos body) := by
  simp only [Bool.and_eq_true, decide_eq_true_eq] at hc
  obtain ⟨⟨⟨c1, c2⟩, c3⟩, c4⟩ := hc
  subst hk
  simp only [tagCheck, idCheck, Bool.and_eq_true, Bool.or_eq_true, decide_eq_true_eq, List.all_eq_true, List.mem_cons, List.nodup_cons] at c1
  obtain ⟨⟨⟨⟨⟨d1, d2⟩, d3⟩, d4'⟩, d5⟩, d6⟩ := c1
  have d4 : ∀ k, k = c!"name" ∨ k ∈ entries.map (·.1) → k ∈ freeKeys := by
    intro k hk
    rcases d4' k hk with h | rfl
    · exact h
    · exact (d6 hk).elim
  have keys : ∀ k ∈ pos.map (·.1), k = c!"href" ∨ k ∈ freeKeys := by
    intro k hk
    have := (hpos.map (·.1)).mem_iff.1 hk
    simp only [List.map_cons, List.mem_cons] at this
    rcases this with h | h
    · exact .inl h
    · exact .inr (d4 k (.inr h))
  have live : ∀ {k v}, (k, v) ∈ liveEntries pos → (k = c!"href" ∧ v = href) ∨ k ∈ freeKeys := by
    intro k v h
    simp only [liveEntries, List.mem_filterMap] at h
    obtain ⟨⟨k0, v0, b0⟩, h1, h2⟩ := h
    simp only [Option.ite_none_right_eq_some, Option.some.injEq, Prod.mk.injEq] at h2
    obtain ⟨rfl, rfl, rfl⟩ := h2
    have := hpos.mem_iff.1 h1
    simp only [List.mem_cons, kv, Prod.mk.injEq] at this
    rcases this with h | h
    · exact .inl ⟨h.1, h.2.1⟩
    · exact .inr (d4 _ (.inr (List.mem_map.2 ⟨_, h, rfl⟩)))
  have nd : (pos.map (·.1)).Nodup := by
    rw [(hpos.map (·.1)).nodup_iff]
    simp only [List.map_cons, List.nodup_cons]
    refine ⟨fun h => ?_, d5.2⟩
    exact (freeKeys_sub (d4 _ (.inr h))).2.1 rfl
  have hp : ∀ p ∈ attrList pos [], PlainName p.1 := attrList_plain (A := A) (fun k hk => by
    rcases keys k hk with rfl | h
    · exact outputAttrs_plain _ (by decide +kernel)
    · exact outputAttrs_plain _ (freeKeys_sub h).1) .nil
  refine tagA_wrL f ⟨d1, ?_, ?_, ?_, ?_, ?_, ?_, ?_, ImageOk.other (by rintro rfl; revert c3; decide)⟩ hp d2 d3 c2 c3 (.inl c4) h3 hb
  · rw [asRead_keys]; exact attrList_nodup nd (by simp)
  · intro k v h
    obtain ⟨v', h1, rfl⟩ := mem_asRead h
    rcases mem_attrList h1 with ⟨v0, h2, _⟩ | h2
    · rcases live h2 with ⟨rfl, _⟩ | h
      · exact .inl (by decide +kernel)
      · exact .inl (freeKeys_sub h).1
    · cases h2
  · intro v h
    obtain ⟨v', h1, rfl⟩ := mem_asRead h
    rcases mem_attrList h1 with ⟨v0, h2, h3⟩ | h2
    · rcases live h2 with ⟨_, rfl⟩ | h
      · rcases h3 with ⟨rfl, _⟩ | ⟨mv, h4, _⟩
        · rcases hh with h | h
          · exact .inl h
          · exact .inr (.inl h)
        · cases h4
      · exact ((freeKeys_sub h).2.1 rfl).elim
    · cases h2
  · intro v h
    obtain ⟨v', h1, rfl⟩ := mem_asRead h
    rcases mem_attrList h1 with ⟨v0, h2, h3⟩ | h2
    · rcases live h2 with ⟨h, _⟩ | h
      · exact absurd h (by decide)
      · exact ((freeKeys_sub h).2.2 rfl).elim
    · cases h2
  · rintro rfl
    exact (d2 (by decide)).elim
  · rintro rfl
    exact (d2 (by decide)).elim
  · refine IdOk.tag (fun v hv => ?_) .nil
    rcases live hv with ⟨h, _⟩ | h
    · exact absurd h (by decide)
    · exact ((freeKeys_sub' h).2.2.2 rfl).elim

/-- A tag with a link of its own. -/
theorem tag_href {t : Str} {href : Str} {entries : List AttrEntry} {body : Act} (ks : List Str)
    (hk : entries.map (·.1) = ks) (hc : (tagCheck t (c!"name" :: ks) && decide (t ≠ c!"wj-footnote-ref-marker") &&
      decide (t ∉ voidTags) && decide (t ∉ headTags)) = true)
    (hh : SafeHref (noNul href) ∨ ∃ x, A.extra x ∧ noNul href = c!"javascript:;" ++ noNul x) (hb : Wr env A H body)
    (pos : List AttrEntry) (hpos : pos.Perm (kv c!"href" href :: entries))
    (h3 : isLinkTag t (asRead (attrList pos [])) = false) :
    Wr env A H (tag t pos body) := by
  rw [← noUpdate (tag t pos body)]
  exact tag_hrefL (fun l => l) ks hk hc hh hb pos hpos fun _ _ _ h => h.wrap h3

end
end Ftml
