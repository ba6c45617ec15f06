import Verif.Props.Serde
/-
C104: which JSON is read as a tree: the order of fields and fields with other names do not matter, a field given twice does.
-/
namespace Ftml
open Serde

/-- How often a field is in an object. -/
def timesGiven (fs : List (Str × Json)) (k : Str) : Nat := (fs.map (·.1)).count k

/-- The object has the field once, with that value. -/
def Gives (fs : List (Str × Json)) (k : Str) (v : Json) : Prop := timesGiven fs k = 1 ∧ (k, v) ∈ fs

/-- The object has the field with that text, or with null, or not at all. -/
def MayGive (fs : List (Str × Json)) (k : Str) : Option Str → Prop
  | some s => Gives fs k (.str s)
  | none => timesGiven fs k = 0 ∨ Gives fs k .null

/-- The fields of a tree that must be there. -/
def treeFields : List Str :=
  [c!"elements", c!"table-of-contents", c!"html-blocks", c!"code-blocks", c!"footnotes", c!"bibliographies"]

/-- The field that may be missing. -/
def lengthField : Str := c!"wikitext-len"

/-! ### Fields -/

private abbrev pick (fs : List (Str × Json)) (k : Str) : List (Str × Json) := fs.filter fun p => p.1 == k

private theorem times_pick (fs : List (Str × Json)) (k : Str) : timesGiven fs k = (pick fs k).length := by
  unfold timesGiven
  induction fs with
  | nil => rfl
  | cons p fs ih =>
    rw [List.map_cons, List.count_cons, ih]
    unfold pick
    rw [List.filter_cons]
    split <;> simp [*]

private theorem pick_key {fs : List (Str × Json)} {k : Str} {p : Str × Json} (h : p ∈ pick fs k) : p.1 = k ∧ p ∈ fs := by
  have := List.mem_filter.1 h
  exact ⟨by simpa using this.2, this.1⟩

private theorem gives_iff {fs : List (Str × Json)} {k : Str} {v : Json} : Gives fs k v ↔ pick fs k = [(k, v)] := by
  unfold Gives
  rw [times_pick]
  constructor
  · rintro ⟨h1, h2⟩
    obtain ⟨p, hp⟩ := List.length_eq_one_iff.1 h1
    have : (k, v) ∈ pick fs k := List.mem_filter.2 ⟨h2, by simp⟩
    rw [hp, List.mem_singleton] at this
    rw [hp, this]
  · intro h
    rw [h]
    exact ⟨rfl, (pick_key (k := k) (by rw [h]; simp)).2⟩

private theorem field_iff {fs : List (Str × Json)} {k : Str} {v : Json} : field fs k = some v ↔ Gives fs k v := by
  rw [gives_iff]
  unfold field
  constructor
  · intro h
    split at h
    · rename_i p hp
      cases h
      have := (pick_key (fs := fs) (k := k) (p := p) (by unfold pick; rw [hp]; simp)).1
      unfold pick
      rw [hp, ← this]
    · cases h
  · intro h
    unfold pick at h
    rw [h]

private theorem opt_iff {fs : List (Str × Json)} {k : Str} {r : Option Str} :
    ((optField fs k).bind fun v => asOpt asStr v) = some r ↔ MayGive fs k r := by
  unfold optField
  have hp : ∀ p, (fs.filter fun p => p.1 == k) = [p] → Gives fs k p.2 := by
    intro p hp
    have := (pick_key (fs := fs) (k := k) (p := p) (by unfold pick; rw [hp]; simp)).1
    rw [gives_iff]; unfold pick; rw [hp, ← this]
  constructor
  · intro h
    split at h
    · rename_i h0
      cases h
      exact .inl (by rw [times_pick]; unfold pick; rw [h0]; rfl)
    · rename_i p h0
      have := hp p h0
      cases hv : p.2 with
      | str s =>
        rw [hv] at h this
        cases h
        exact this
      | null =>
        rw [hv] at h this
        cases h
        exact .inr this
      | _ => rw [hv] at h; cases h
    · cases h
  · intro h
    cases r with
    | some s =>
      have h : Gives fs k (.str s) := h
      rw [gives_iff] at h
      unfold pick at h
      rw [h]; rfl
    | none =>
      rcases h with h | h
      · rw [times_pick] at h
        have := List.length_eq_zero_iff.1 h
        unfold pick at this
        rw [this]; rfl
      · rw [gives_iff] at h
        unfold pick at h
        rw [h]; rfl

private theorem field_pick {fs fs' : List (Str × Json)} {k : Str} (h : pick fs k = pick fs' k) : field fs k = field fs' k := by
  unfold field
  unfold pick at h
  rw [h]

private theorem pick_perm {fs fs' : List (Str × Json)} (h : fs.Perm fs') {k : Str} (hk : timesGiven fs k ≤ 1) : pick fs k = pick fs' k := by
  have hp := h.filter fun p => p.1 == k
  rw [times_pick] at hk
  have hl := hp.length_eq
  cases h1 : pick fs k with
  | nil =>
    unfold pick at *
    rw [h1] at hl
    exact (List.length_eq_zero_iff.1 hl.symm).symm
  | cons p l =>
    rw [h1] at hk
    have : l = [] := by
      cases l with
      | nil => rfl
      | cons => simp at hk
    subst this
    unfold pick at *
    rw [h1] at hp
    exact (List.perm_singleton.1 hp.symm).symm

/-! ### Trees -/

private theorem names : [fieldName c!"elements", fieldName c!"table_of_contents", fieldName c!"html_blocks", fieldName c!"code_blocks",
    fieldName c!"footnotes", fieldName c!"bibliographies"] = treeFields ∧ fieldName c!"wikitext_len" = lengthField := by decide

private theorem tree_pick {dates : DateCodec} {n : Nat} {fs fs' : List (Str × Json)}
    (h : ∀ k ∈ lengthField :: treeFields, pick fs k = pick fs' k) : readTree dates n (.obj fs) = readTree dates n (.obj fs') := by
  have e : ∀ k ∈ treeFields, field fs k = field fs' k := fun k hk => field_pick (h k (List.mem_cons_of_mem _ hk))
  have hl : pick fs (fieldName c!"wikitext_len") = pick fs' (fieldName c!"wikitext_len") := by rw [names.2]; exact h _ (by simp)
  unfold pick at hl
  unfold readTree
  simp only [asObj, Option.bind_eq_bind, Option.bind_some]
  rw [e (fieldName c!"elements") (by decide), e (fieldName c!"table_of_contents") (by decide), e (fieldName c!"html_blocks") (by decide),
    e (fieldName c!"code_blocks") (by decide), e (fieldName c!"footnotes") (by decide), e (fieldName c!"bibliographies") (by decide), hl]

/-- C104: the order of the fields of a tree does not matter. -/
theorem C104_order {fs fs' : List (Str × Json)} (h : fs.Perm fs') (dates : DateCodec) (n : Nat)
    (hd : ∀ k, timesGiven fs k ≤ 1) : readTree dates n (.obj fs) = readTree dates n (.obj fs') :=
  tree_pick fun k _ => pick_perm h (hd k)

/-- C104: fields with other names do not matter. -/
theorem C104_extra {pre post : List (Str × Json)} {k : Str} {v : Json} (hk : k ∉ lengthField :: treeFields) (dates : DateCodec) (n : Nat) :
    readTree dates n (.obj (pre ++ (k, v) :: post)) = readTree dates n (.obj (pre ++ post)) := by
  refine tree_pick fun k' hk' => ?_
  have : (k == k') = false := by
    cases h : k == k' with
    | false => rfl
    | true => exact absurd (by rw [beq_iff_eq.1 h]; exact hk') hk
  simp [pick, List.filter_append, this]

/-- C104: what is read as a tree is an object with each of its fields once, the length of the text at most once. -/
theorem C104_needed {j : Json} {dates : DateCodec} {n : Nat} {t : Tree} (h : readTree dates n j = some t) :
    ∃ fs, j = .obj fs ∧ (∀ k ∈ treeFields, timesGiven fs k = 1) ∧ timesGiven fs lengthField ≤ 1 ∧
      (∀ v, Gives fs lengthField v → v = .num t.wikitextLen) ∧ (timesGiven fs lengthField = 0 → t.wikitextLen = 0) := by
  cases j with
  | obj fs =>
    refine ⟨fs, rfl, ?_⟩
    unfold readTree at h
    simp only [asObj, Option.bind_eq_bind, Option.bind_some] at h
    obtain ⟨f1, fh1, h⟩ := Option.bind_eq_some_iff.1 h
    obtain ⟨l1, lh1, h⟩ := Option.bind_eq_some_iff.1 h
    obtain ⟨f2, fh2, h⟩ := Option.bind_eq_some_iff.1 h
    obtain ⟨l2, lh2, h⟩ := Option.bind_eq_some_iff.1 h
    obtain ⟨f3, fh3, h⟩ := Option.bind_eq_some_iff.1 h
    obtain ⟨a3, ah3, h⟩ := Option.bind_eq_some_iff.1 h
    obtain ⟨r3, rh3, h⟩ := Option.bind_eq_some_iff.1 h
    obtain ⟨f4, fh4, h⟩ := Option.bind_eq_some_iff.1 h
    obtain ⟨a4, ah4, h⟩ := Option.bind_eq_some_iff.1 h
    obtain ⟨r4, rh4, h⟩ := Option.bind_eq_some_iff.1 h
    obtain ⟨f5, fh5, h⟩ := Option.bind_eq_some_iff.1 h
    obtain ⟨a5, ah5, h⟩ := Option.bind_eq_some_iff.1 h
    obtain ⟨r5, rh5, h⟩ := Option.bind_eq_some_iff.1 h
    obtain ⟨f6, fh6, h⟩ := Option.bind_eq_some_iff.1 h
    obtain ⟨a6, ah6, h⟩ := Option.bind_eq_some_iff.1 h
    obtain ⟨r6, rh6, h⟩ := Option.bind_eq_some_iff.1 h
    have g : ∀ {k v}, field fs k = some v → timesGiven fs k = 1 := fun h => (field_iff.1 h).1
    refine ⟨?_, ?_⟩
    · intro k hk
      simp only [treeFields, List.mem_cons, List.not_mem_nil, or_false] at hk
      rcases hk with rfl | rfl | rfl | rfl | rfl | rfl
      · exact g fh1
      · exact g fh2
      · exact g fh3
      · exact g fh4
      · exact g fh5
      · exact g fh6
    · have hlen : ∀ l, (fs.filter fun p => p.1 == fieldName c!"wikitext_len") = l → pick fs lengthField = l := by
        intro l hl; rw [← names.2]; exact hl
      split at h
      · rename_i h0
        have h0 := hlen _ h0
        cases h
        refine ⟨by rw [times_pick, h0]; simp, fun v hv => ?_, fun _ => rfl⟩
        rw [gives_iff, h0] at hv
        cases hv
      · rename_i p h0
        have h0 := hlen _ h0
        obtain ⟨m, hm, h⟩ := Option.bind_eq_some_iff.1 h
        cases h
        refine ⟨by rw [times_pick, h0]; simp, fun v hv => ?_, fun hv => ?_⟩
        · rw [gives_iff, h0] at hv
          cases hv
          cases v with
          | num m' => cases hm; rfl
          | _ => cases hm
        · rw [times_pick, h0] at hv
          cases hv
      · cases h
  | _ => cases h

/-- C104: an object with a field of a tree given twice is not a tree. -/
theorem C104_twice {pre mid post : List (Str × Json)} {k : Str} {v v' : Json} (hk : k ∈ lengthField :: treeFields) (dates : DateCodec)
    (n : Nat) : readTree dates n (.obj (pre ++ (k, v) :: (mid ++ (k, v') :: post))) = none := by
  cases h : readTree dates n (.obj (pre ++ (k, v) :: (mid ++ (k, v') :: post))) with
  | none => rfl
  | some t =>
    obtain ⟨fs, e, h1, h2, _⟩ := C104_needed h
    cases e
    have h3 : 2 ≤ timesGiven (pre ++ (k, v) :: (mid ++ (k, v') :: post)) k := by
      simp [timesGiven, List.count_append]
      omega
    rcases List.mem_cons.1 hk with rfl | hk
    · omega
    · have := h1 k hk
      omega

/-- C104: if the length of the text is missing, it counts as zero. -/
theorem C104_length {fs : List (Str × Json)} (h : timesGiven fs lengthField = 0) (dates : DateCodec) (n : Nat) :
    readTree dates n (.obj fs) = readTree dates n (.obj (fs ++ [(lengthField, .num 0)])) := by
  have e : ∀ k ∈ treeFields, field fs k = field (fs ++ [(lengthField, .num 0)]) k := by
    intro k hk
    refine field_pick ?_
    have : (lengthField == k) = false := by
      simp only [treeFields, List.mem_cons, List.not_mem_nil, or_false] at hk
      rcases hk with rfl | rfl | rfl | rfl | rfl | rfl <;> decide
    simp [pick, List.filter_append, this]
  have h1 : (fs.filter fun p => p.1 == fieldName c!"wikitext_len") = [] := by
    rw [times_pick] at h
    rw [names.2]
    exact List.length_eq_zero_iff.1 h
  have h2 : ((fs ++ [(lengthField, Json.num 0)]).filter fun p => p.1 == fieldName c!"wikitext_len") = [(lengthField, .num 0)] := by
    rw [List.filter_append, h1]
    rfl
  unfold readTree
  simp only [asObj, Option.bind_eq_bind, Option.bind_some]
  rw [e (fieldName c!"elements") (by decide), e (fieldName c!"table_of_contents") (by decide), e (fieldName c!"html_blocks") (by decide),
    e (fieldName c!"code_blocks") (by decide), e (fieldName c!"footnotes") (by decide), e (fieldName c!"bibliographies") (by decide), h1, h2]
  rfl

/-! ### Elements -/

private theorem tagged_pick {fs fs' : List (Str × Json)} (h : ∀ k ∈ [c!"element", c!"data"], pick fs k = pick fs' k) :
    readTagged c!"element" c!"data" (.obj fs) = readTagged c!"element" c!"data" (.obj fs') := by
  have h1 : field fs c!"element" = field fs' c!"element" := field_pick (h _ (by simp))
  have h2 := h c!"data" (by simp)
  unfold pick at h2
  unfold readTagged
  simp only [asObj, Option.bind_eq_bind, Option.bind_some]
  rw [h1, h2]

/-- C104: an element is read from its fields `element` and `data`; neither their order nor other fields matter. -/
theorem C104_element_fields {fs fs' : List (Str × Json)} (dates : DateCodec) (n : Nat) :
    (fs.Perm fs' → (∀ k, timesGiven fs k ≤ 1) → readElem dates n .elem (.obj fs) = readElem dates n .elem (.obj fs')) ∧
    (∀ pre post k v, fs = pre ++ (k, v) :: post → k ≠ c!"element" → k ≠ c!"data" →
      readElem dates n .elem (.obj fs) = readElem dates n .elem (.obj (pre ++ post))) := by
  have key : ∀ {a b : List (Str × Json)}, (∀ k ∈ [c!"element", c!"data"], pick a k = pick b k) →
      readElem dates n .elem (.obj a) = readElem dates n .elem (.obj b) := by
    intro a b h
    cases n with
    | zero => rfl
    | succ n =>
      unfold readElem
      rw [tagged_pick h]
  refine ⟨fun h hd => key fun k _ => pick_perm h (hd k), ?_⟩
  rintro pre post k v rfl h1 h2
  refine key fun k' hk' => ?_
  have : (k == k') = false := by
    simp only [List.mem_cons, List.not_mem_nil, or_false] at hk'
    rcases hk' with rfl | rfl <;> simpa
  simp [pick, List.filter_append, this]

/-- C104: what is read as an element is an object with `element`, a text, once and `data` at most once. -/
theorem C104_element_needed {j : Json} {dates : DateCodec} {n : Nat} {e : Elem} (h : readElem dates n .elem j = some e) :
    ∃ fs, j = .obj fs ∧ (∃ name, Gives fs c!"element" (.str name)) ∧ timesGiven fs c!"data" ≤ 1 := by
  cases n with
  | zero => cases h
  | succ n =>
  unfold readElem at h
  dsimp only at h
  obtain ⟨⟨name, c⟩, ht, _⟩ := Option.bind_eq_some_iff.1 h
  unfold readTagged at ht
  cases j with
  | obj fs =>
    simp only [asObj, Option.bind_eq_bind, Option.bind_some] at ht
    obtain ⟨v, hv, ht⟩ := Option.bind_eq_some_iff.1 ht
    obtain ⟨s, hs, ht⟩ := Option.bind_eq_some_iff.1 ht
    refine ⟨fs, rfl, ⟨s, ?_⟩, ?_⟩
    · cases v with
      | str s' => cases hs; exact field_iff.1 hv
      | _ => cases hs
    · rw [times_pick]
      have hd : ∀ l, (fs.filter fun p => p.1 == c!"data") = l → pick fs c!"data" = l := fun l hl => hl
      split at ht
      · rename_i h0; rw [hd _ h0]; simp
      · rename_i h0; rw [hd _ h0]; simp
      · cases ht
  | _ => cases ht

/-- C104: an element without contents has no `data`, or null. -/
theorem C104_no_contents (dates : DateCodec) (n : Nat) : ∀ q ∈ [(c!"footnote", Kind.footnote), (c!"line-break", Kind.lineBreak),
      (c!"horizontal-rule", Kind.horizontalRule)],
    readElem dates (n + 1) .elem (.obj [(c!"element", .str q.1)]) = some (.mk q.2 []) ∧
    ∀ v, (readElem dates (n + 1) .elem (.obj [(c!"element", .str q.1), (c!"data", v)]) = some (.mk q.2 []) ↔ v = .null) ∧
      (v ≠ .null → readElem dates (n + 1) .elem (.obj [(c!"element", .str q.1), (c!"data", v)]) = none) := by
  intro q hq
  simp only [List.mem_cons, List.not_mem_nil, or_false] at hq
  rcases hq with rfl | rfl | rfl <;> refine ⟨rfl, fun v => ?_⟩ <;> cases v <;>
    refine ⟨⟨?_, ?_⟩, ?_⟩ <;> intro h <;> first | rfl | (cases h; done) | exact absurd rfl h

/-! ### References to pages -/

/-- C104: a reference to a page is read from an object that has `page`, a text, once, and `site`, a text or null, at most once. -/
theorem C104_page_reference {fs : List (Str × Json)} {p : PageRef} : readPage (.obj fs) = some p ↔
    Gives fs c!"page" (.str p.page) ∧ MayGive fs c!"site" p.site := by
  have e : readPage (.obj fs) = ((optField fs c!"site").bind fun v => asOpt asStr v).bind fun site =>
      ((field fs c!"page").bind fun v => asStr v).bind fun page => some (⟨site, page⟩ : PageRef) := by
    simp only [Option.bind_assoc]
    rfl
  have hs : ∀ s, ((field fs c!"page").bind fun v => asStr v) = some s ↔ Gives fs c!"page" (.str s) := by
    intro s
    rw [Option.bind_eq_some_iff]
    constructor
    · rintro ⟨v, h1, h2⟩
      cases v with
      | str s' => cases h2; exact field_iff.1 h1
      | _ => cases h2
    · exact fun h => ⟨_, field_iff.2 h, rfl⟩
  rw [e, Option.bind_eq_some_iff]
  simp only [opt_iff, Option.bind_eq_some_iff (f := fun (_ : Str) => _), hs]
  constructor
  · rintro ⟨a, h1, b, h2, e⟩
    cases e
    exact ⟨h2, h1⟩
  · rintro ⟨h1, h2⟩
    exact ⟨_, h2, _, h1, rfl⟩

/-! ### Examples -/

/-- The fields of a tree with one word and one footnote, in another order and with a field `extra`, without the length. -/
private def someFields : List (Str × Json) :=
  [(c!"footnotes", .arr [.arr [.obj [(c!"data", .str c!"n"), (c!"element", .str c!"text")]]]), (c!"extra", .null), (c!"html-blocks", .arr []),
    (c!"code-blocks", .arr []), (c!"bibliographies", .arr []), (c!"table-of-contents", .arr []),
    (c!"elements", .arr [.obj [(c!"data", .str c!"a"), (c!"extra", .num 3), (c!"element", .str c!"text")]])]

example : (∀ k ∈ someFields.map (·.1), timesGiven someFields k ≤ 1) ∧ timesGiven someFields lengthField = 0 := by decide +kernel

example : (match readTree unaryDates 3 (.obj someFields) with
    | some t => (writeTree unaryDates t).written
    | none => []) = c!"{elements:[{element:'text',data:'a',},],table-of-contents:[],html-blocks:[],code-blocks:[]," ++
      c!"footnotes:[[{element:'text',data:'n',},],],bibliographies:[],wikitext-len:0,}" := by decide +kernel

example : (readTree unaryDates 3 (.obj someFields.tail)).isNone = true := by decide +kernel

example : readPage (.obj [(c!"x", .null), (c!"page", .str c!"a")]) = some ⟨none, c!"a"⟩ ∧
    readPage (.obj [(c!"page", .str c!"a"), (c!"site", .str c!"b")]) = some ⟨some c!"b", c!"a"⟩ ∧
    readPage (.obj [(c!"page", .str c!"a"), (c!"site", .num 1)]) = none ∧
    readPage (.obj [(c!"page", .str c!"a"), (c!"page", .str c!"a")]) = none := by decide +kernel

end Ftml
