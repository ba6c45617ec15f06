import Verif.Model.Data
import Verif.Props.Url
/-
Properties of page references, interwiki links, variable scopes, attributes, bibliographies, links,
images, quoted strings and booleans (C16–C23, C54–C56).
-/
namespace Ftml

/-! ### C16, C17: page references -/

/-- C17: `PageRef::parse` fails exactly on a blank string and on a string that starts with a colon and
has no second colon or has it immediately. -/
theorem C17_parse_fails_iff (s : Str) :
    PageRef.parse s = none ↔
      (∀ c ∈ s, isWS c = true) ∨
      (∃ r, trim s = ':' :: r ∧ (':' ∉ r ∨ r.head? = some ':')) := by
  unfold PageRef.parse
  simp only
  by_cases h : trim s = []
  · simp [h]
    exact (trim_nil_iff s).1 h
  · have hne : ¬ ∀ c ∈ s, isWS c = true := fun hh => h ((trim_nil_iff s).2 hh)
    have hemp : (trim s).isEmpty = false := by simpa using h
    simp only [hemp, Bool.false_eq_true, if_false, hne, false_or]
    cases h1 : splitOnce ':' (trim s) with
    | none =>
      simp
      intro r hr
      have := splitOnce_none.1 h1
      simp [hr] at this
    | some x =>
      obtain ⟨a, b⟩ := x
      obtain ⟨h2, h3⟩ := splitOnce_some.1 h1
      cases a with
      | cons y a =>
        simp
        intro r hr
        rw [h2] at hr; simp at hr
        simp [hr.1] at h3
      | nil =>
        simp at h2
        simp only
        cases h4 : splitOnce ':' b with
        | none => simp [h2]; left; exact splitOnce_none.1 h4
        | some x =>
          obtain ⟨c, d⟩ := x
          obtain ⟨h5, h6⟩ := splitOnce_some.1 h4
          cases c with
          | nil => simp [h2, h5]
          | cons y c =>
            simp [h2, h5]
            simp at h6
            exact Ne.symm h6.1

example : PageRef.parse c!" :x" = none ∧ PageRef.parse c!"::x" = none ∧ PageRef.parse c!" \t" = none := by
  decide +kernel

/-- C17: every parsed reference has its parts trimmed, and without a site the page is the trimmed
input, not starting with a colon. -/
theorem C17_parts_trimmed (s : Str) (r : PageRef) (h : PageRef.parse s = some r) :
    Trimmed r.page ∧ (∀ site, r.site = some site → Trimmed site ∧ ':' ∉ site) ∧
    (r.site = none → r.page = trim s ∧ r.page ≠ [] ∧ r.page.head? ≠ some ':') := by
  unfold PageRef.parse at h
  simp only at h
  split at h
  · cases h
  · rename_i hne
    split at h
    · rename_i rest h1
      split at h
      · cases h
      · cases h
      · rename_i site page hx h2
        injection h with h; subst h
        refine ⟨trim_trimmed _, ?_, by simp⟩
        intro st hst
        simp at hst; subst hst
        obtain ⟨_, h3⟩ := splitOnce_some.1 h2
        exact ⟨trim_trimmed _, fun hc => h3 (trim_sub _ _ hc)⟩
    · rename_i h1
      injection h with h; subst h
      refine ⟨trim_trimmed _, by simp, fun _ => ⟨rfl, by simpa using hne, ?_⟩⟩
      intro hh
      cases ht : trim s with
      | nil => simp [ht] at hh
      | cons x r =>
        simp [ht] at hh; subst hh
        exact h1 r (by rw [ht]; simp [splitOnce])

private theorem trimmed_cons_append {c : Char} {s t : Str} (hc : isWS c = false) (ht : t ≠ [])
    (h : Trimmed t) : Trimmed (c :: s ++ t) := by
  constructor
  · intro d hd; simp at hd; subst hd; exact hc
  · intro d hd
    rw [List.getLast?_append] at hd
    obtain ⟨x, hx⟩ : ∃ x, t.getLast? = some x := by
      cases hq : t.getLast? with
      | none => simp at hq; exact absurd hq ht
      | some x => exact ⟨x, rfl⟩
    rw [hx] at hd; simp at hd; subst hd; exact h.2 x hx

/-- C16: displaying and re-parsing gives back every reference with a trimmed, non-empty page (without
a site: not starting with a colon) and a trimmed, non-empty, colon-free site. -/
theorem C16_round_trip (r : PageRef) (hp : r.page ≠ []) (hpt : Trimmed r.page)
    (hs : ∀ site, r.site = some site → site ≠ [] ∧ Trimmed site ∧ ':' ∉ site)
    (hn : r.site = none → r.page.head? ≠ some ':') :
    PageRef.parse r.display = some r := by
  obtain ⟨site, page⟩ := r
  simp only at hp hpt hs hn
  cases site with
  | none =>
    simp only [PageRef.display, PageRef.parse, trim_of_trimmed hpt]
    rw [if_neg (by simpa using hp)]
    split
    · rename_i rest h1
      obtain ⟨h2, _⟩ := splitOnce_some.1 h1
      rw [h2] at hn; simp at hn
    · rfl
  | some site =>
    obtain ⟨h1, h2, h3⟩ := hs site rfl
    have ht : Trimmed (c!":" ++ site ++ c!":" ++ page) := by
      have : c!":" ++ site ++ c!":" ++ page = ':' :: (site ++ c!":") ++ page := by simp
      rw [this]
      exact trimmed_cons_append (by decide) hp hpt
    have e1 : splitOnce ':' (c!":" ++ site ++ c!":" ++ page) = some ([], site ++ c!":" ++ page) :=
      splitOnce_some.2 ⟨by simp, by simp⟩
    have e2 : splitOnce ':' (site ++ c!":" ++ page) = some (site, page) :=
      splitOnce_some.2 ⟨by simp, h3⟩
    simp only [PageRef.display, PageRef.parse, trim_of_trimmed ht]
    rw [if_neg (by simp), e1]
    simp only [e2]
    cases site with
    | nil => exact absurd rfl h1
    | cons a site => simp [trim_of_trimmed h2, trim_of_trimmed hpt]

example : PageRef.parse (PageRef.display ⟨some c!"scp-wiki", c!"component:theme"⟩) =
    some ⟨some c!"scp-wiki", c!"component:theme"⟩ := by decide +kernel

/-- C16: a reference whose page is empty (`":site: "` parses to one) is not recovered in full
generality: parse of the display of a parsed reference can fail to be that reference only if its
site or page is empty. -/
theorem C16_parse_display_stable (s : Str) (r : PageRef) (h : PageRef.parse s = some r)
    (h1 : r.page ≠ []) (h2 : r.site ≠ some []) : PageRef.parse r.display = some r := by
  obtain ⟨a, b, c⟩ := C17_parts_trimmed s r h
  refine C16_round_trip r h1 a ?_ fun hn => (c hn).2.2
  intro site hs
  obtain ⟨d, e⟩ := b site hs
  exact ⟨fun h0 => h2 (h0 ▸ hs), d, e⟩

/-! ### C18: interwiki -/

private theorem replaceFirstSpace_none {s : Str} : replaceFirstSpace s = none ↔ ' ' ∉ s := by
  induction s with
  | nil => simp [replaceFirstSpace]
  | cons c s ih =>
    simp only [replaceFirstSpace]
    split
    · subst_vars; simp
    · rename_i hc; simp [ih, Ne.symm hc]

/-- Specification: every space becomes `%20`. -/
def pct (s : Str) : Str := s.flatMap fun c => if c = ' ' then c!"%20" else [c]

private theorem pct_id {s : Str} (h : ' ' ∉ s) : pct s = s := by
  induction s with
  | nil => rfl
  | cons c s ih =>
    simp at h
    have := ih h.2
    simp only [pct] at this ⊢
    rw [List.flatMap_cons, this, if_neg (Ne.symm h.1)]; rfl

private theorem replaceFirstSpace_some {s s' : Str} (h : replaceFirstSpace s = some s') :
    s'.count ' ' + 1 = s.count ' ' ∧ pct s' = pct s := by
  induction s generalizing s' with
  | nil => simp [replaceFirstSpace] at h
  | cons c s ih =>
    simp only [replaceFirstSpace] at h
    split at h
    · subst_vars
      simp at h; subst h
      refine ⟨by simp, ?_⟩
      simp [pct]
    · rename_i hc
      obtain ⟨t, h1, rfl⟩ := Option.map_eq_some_iff.1 h
      obtain ⟨h2, h3⟩ := ih h1
      refine ⟨by simp [hc]; exact h2, ?_⟩
      simp only [pct, List.flatMap_cons] at h3 ⊢
      rw [h3]

private theorem replaceSpaces_spec (n : Nat) (s : Str) (h : s.count ' ' < n) :
    replaceSpaces n s = some (pct s) := by
  induction n generalizing s with
  | zero => omega
  | succ n ih =>
    simp only [replaceSpaces]
    cases h1 : replaceFirstSpace s with
    | none => simp [pct_id (replaceFirstSpace_none.1 h1)]
    | some s' =>
      obtain ⟨h2, h3⟩ := replaceFirstSpace_some h1
      simp only
      rw [ih s' (by omega), h3]

/-- Specification: the template cut at each (leftmost, non overlapping) `$$`. -/
def dollarPieces : Str → List Str
  | [] => [[]]
  | [c] => [[c]]
  | c :: d :: rest =>
    if c = '$' ∧ d = '$' then [] :: dollarPieces rest
    else match dollarPieces (d :: rest) with
      | [] => [[c]]
      | p :: ps => (c :: p) :: ps

private theorem dollarPieces_ne (s : Str) : dollarPieces s ≠ [] := by
  unfold dollarPieces
  split
  · simp
  · simp
  · split
    · simp
    · split <;> simp

private theorem replaceDollars_spec (to s : Str) : replaceDollars to s = joinWith to (dollarPieces s) := by
  fun_induction replaceDollars to s with
  | case1 => rfl
  | case2 => rfl
  | case3 c d rest h ih =>
    rw [dollarPieces, if_pos h, ih]
    cases hp : dollarPieces rest with
    | nil => exact absurd hp (dollarPieces_ne _)
    | cons p ps => simp [joinWith]
  | case4 c d rest h ih =>
    rw [dollarPieces, if_neg h, ih]
    cases hp : dollarPieces (d :: rest) with
    | nil => exact absurd hp (dollarPieces_ne _)
    | cons p ps => cases ps <;> simp [joinWith]

/-- C18: `build` always terminates, gives a URL exactly for `prefix:path` with non-empty known prefix
and non-empty path, and that URL is the template with the path at each `$$` and spaces escaped. -/
theorem C18_build (iw : Interwiki) (link : Str) :
    ∃ r, iw.build link = some r ∧
      ∀ url, r = some url ↔ ∃ pfx path template, link = pfx ++ ':' :: path ∧ ':' ∉ pfx ∧ pfx ≠ [] ∧
        path ≠ [] ∧ assocGet iw.prefixes pfx = some template ∧
        url = pct (joinWith path (dollarPieces template)) := by
  have uniq : ∀ {a b a' b' : Str}, a ++ ':' :: b = a' ++ ':' :: b' → ':' ∉ a → ':' ∉ a' → a = a' ∧ b = b' := by
    intro a b a' b' h h1 h2
    have e1 : splitOnce ':' (a ++ ':' :: b) = some (a, b) := splitOnce_some.2 ⟨rfl, h1⟩
    have e2 : splitOnce ':' (a' ++ ':' :: b') = some (a', b') := splitOnce_some.2 ⟨rfl, h2⟩
    rw [h, e2] at e1
    simp at e1; exact ⟨e1.1.symm, e1.2.symm⟩
  unfold Interwiki.build
  cases h : splitOnce ':' link with
  | none =>
    refine ⟨none, rfl, fun url => ⟨by simp, ?_⟩⟩
    rintro ⟨a, b, _, rfl, _⟩
    have := splitOnce_none.1 h
    simp at this
  | some x =>
    obtain ⟨a, b⟩ := x
    obtain ⟨rfl, ha⟩ := splitOnce_some.1 h
    cases a with
    | nil =>
      refine ⟨none, rfl, fun url => ⟨by simp, ?_⟩⟩
      rintro ⟨a', b', _, h1, h2, h3, _⟩
      exact absurd (uniq h1 ha h2).1.symm h3
    | cons a0 a =>
      simp only
      by_cases hb : b = []
      · refine ⟨none, by simp [hb], fun url => ⟨by simp, ?_⟩⟩
        rintro ⟨a', b', _, h1, h2, _, h4, _⟩
        exact absurd ((uniq h1 ha h2).2.symm.trans hb) h4
      · have hb' : b.isEmpty = false := by simpa using hb
        simp only [hb', Bool.false_eq_true, if_false]
        cases ht : assocGet iw.prefixes (a0 :: a) with
        | none =>
          refine ⟨none, rfl, fun url => ⟨by simp, ?_⟩⟩
          rintro ⟨a', b', _, h1, h2, _, _, h5, _⟩
          rw [← (uniq h1 ha h2).1, ht] at h5; cases h5
        | some tpl =>
          simp only
          rw [replaceSpaces_spec _ _ (by have := List.count_le_length (a := ' ') (l := replaceDollars b tpl); omega)]
          refine ⟨some (pct (replaceDollars b tpl)), rfl, fun url => ⟨?_, ?_⟩⟩
          · intro e
            injection e with e
            exact ⟨a0 :: a, b, tpl, rfl, ha, by simp, hb, ht, by rw [← e, replaceDollars_spec]⟩
          · rintro ⟨a', b', t', h1, h2, _, _, h5, rfl⟩
            obtain ⟨rfl, rfl⟩ := uniq h1 ha h2
            rw [ht] at h5; injection h5 with h5; subst h5
            rw [replaceDollars_spec]

/-- C18: the URL never contains a space. -/
theorem C18_no_space (iw : Interwiki) (link url : Str) (h : iw.build link = some (some url)) : ' ' ∉ url := by
  obtain ⟨r, h1, h2⟩ := C18_build iw link
  rw [h] at h1; injection h1 with h1; subst h1
  obtain ⟨_, _, _, _, _, _, _, _, rfl⟩ := (h2 url).1 rfl
  simp only [pct, List.mem_flatMap, not_exists, not_and]
  intro c _
  split
  · decide
  · rename_i hc; simpa using Ne.symm hc

example : defaultInterwiki.build c!"wp:SCP 1" = some (some c!"https://wikipedia.org/wiki/SCP%201") := by
  decide +kernel

/-! ### C19: variable scopes -/

/-- C19: `get` returns the value of the innermost scope that defines the name. -/
theorem C19_innermost_wins (s : Scopes) (name : Str) (v : Str) :
    s.get name = some v ↔ ∃ outer m inner, s.scopes = outer ++ m :: inner ∧ assocGet m name = some v ∧
      ∀ m' ∈ inner, assocGet m' name = none := by
  obtain ⟨l⟩ := s
  simp only [Scopes.get]
  generalize hk : l.reverse = k
  obtain rfl : l = k.reverse := by rw [← hk, List.reverse_reverse]
  clear hk
  induction k with
  | nil => simp
  | cons m k ih =>
    rw [List.findSome?_cons, List.reverse_cons]
    generalize k.reverse = l at ih ⊢
    cases h : assocGet m name with
    | some w =>
      simp only [Option.some.injEq]
      constructor
      · rintro rfl; exact ⟨l, m, [], rfl, h, by simp⟩
      · rintro ⟨o, m', i, h1, h2, h3⟩
        rcases List.eq_nil_or_concat i with rfl | ⟨i, x, rfl⟩
        · obtain ⟨_, e⟩ := List.append_inj' h1 rfl
          simp at e; subst e; rw [h] at h2; simpa using h2
        · have h1 : l ++ [m] = (o ++ m' :: i) ++ [x] := by simpa using h1
          obtain ⟨_, e⟩ := List.append_inj' h1 rfl
          simp at e; subst e
          have := h3 m (by simp)
          rw [h] at this; cases this
    | none =>
      simp only [ih]
      constructor
      · rintro ⟨o, m', i, rfl, h2, h3⟩
        refine ⟨o, m', i ++ [m], by simp, h2, ?_⟩
        intro x hx
        rcases List.mem_append.1 hx with hx | hx
        · exact h3 x hx
        · simp at hx; subst hx; exact h
      · rintro ⟨o, m', i, h1, h2, h3⟩
        rcases List.eq_nil_or_concat i with rfl | ⟨i, x, rfl⟩
        · obtain ⟨_, e⟩ := List.append_inj' h1 rfl
          simp at e; subst e; rw [h] at h2; cases h2
        · have h1 : l ++ [m] = (o ++ m' :: i) ++ [x] := by simpa using h1
          obtain ⟨e1, e⟩ := List.append_inj' h1 rfl
          exact ⟨o, m', i, e1, h2, fun y hy => h3 y (by simp [hy])⟩

/-- C19: a matched push and pop restores the scopes; popping an empty stack panics. -/
theorem C19_push_pop (s : Scopes) (m : List (Str × Str)) :
    (s.push m).pop = some s ∧ (Scopes.mk []).pop = none := by
  constructor
  · simp [Scopes.push, Scopes.pop]
  · rfl

example : (((Scopes.mk []).push [(c!"x", c!"1")]).push [(c!"y", c!"2")]).get c!"x" = some c!"1" := by
  decide +kernel

/-! ### C20: attributes -/

/-- Specification of a whitelisted attribute name. -/
def Whitelisted (k : Str) : Prop := k ∈ safeAttributes ∨ c!"aria-" <+: k ∨ c!"data-" <+: k

private theorem lowerC_idem (c : Char) : lowerC (lowerC c) = lowerC c := by
  unfold lowerC
  by_cases h : isUpperA c
  · simp only [h, if_true]
    have h' : 65 ≤ c.toNat ∧ c.toNat ≤ 90 := by simpa [isUpperA] using h
    have hv : (Char.ofNat (c.toNat + 32)).toNat = c.toNat + 32 := by
      have : ∀ n : Nat, n < 91 → 65 ≤ n → (Char.ofNat (n + 32)).toNat = n + 32 := by decide +kernel
      exact this _ (by omega) h'.1
    have : isUpperA (Char.ofNat (c.toNat + 32)) = false := by
      simp [isUpperA, hv]; omega
    simp [this]
  · simp [h]

private theorem lowerA_idem (s : Str) : lowerA (lowerA s) = lowerA s := by
  simp [lowerA, lowerC_idem, Function.comp_def]

private theorem safe_lower : safeAttributes.all (fun k => lowerA k == k) = true := by decide +kernel

theorem containsCI_iff {l : List Str} (hl : l.all (fun k => lowerA k == k) = true) (k : Str) :
    containsCI l k = true ↔ lowerA k ∈ l := by
  simp only [containsCI, List.any_eq_true, eqIgnoreCase, beq_iff_eq]
  have hl := List.all_eq_true.1 hl
  constructor
  · rintro ⟨x, hx, h⟩
    have := hl x hx
    simp at this
    rw [← h, this]; exact hx
  · intro h
    have := hl _ h
    exact ⟨lowerA k, h, lowerA_idem k⟩

private theorem isSafe_whitelisted {k : Str} (h : isSafeAttribute k = true) : Whitelisted (lowerA k) := by
  simp only [isSafeAttribute, Bool.or_eq_true, containsCI_iff safe_lower, List.any_eq_true,
    Bool.and_eq_true, startsWith_iff] at h
  rcases h with h | ⟨p, hp, h, _⟩
  · exact Or.inl h
  · simp at hp
    have hpre : lowerA p <+: lowerA k := by
      obtain ⟨r, rfl⟩ := h; exact ⟨lowerA r, by simp [lowerA]⟩
    rcases hp with rfl | rfl
    · exact Or.inr (Or.inl hpre)
    · exact Or.inr (Or.inr hpre)

theorem btInsert_mem {k v : Str} {m : AttrMap} {p : Str × Str} (h : p ∈ btInsert k v m) :
    p = (k, v) ∨ p ∈ m := by
  induction m with
  | nil => simpa [btInsert] using h
  | cons q m ih =>
    obtain ⟨k', v'⟩ := q
    simp only [btInsert] at h
    split at h
    · rcases List.mem_cons.1 h with h | h
      · exact Or.inl h
      · exact Or.inr (by simp [h])
    · split at h
      · rcases List.mem_cons.1 h with h | h
        · exact Or.inl h
        · exact Or.inr h
      · rcases List.mem_cons.1 h with h | h
        · exact Or.inr (by simp [h])
        · rcases ih h with h | h
          · exact Or.inl h
          · exact Or.inr (by simp [h])

private theorem foldl_btInsert_mem {xs m : AttrMap} {p : Str × Str}
    (h : p ∈ xs.foldl (fun m (x : Str × Str) => btInsert x.1 x.2 m) m) : p ∈ xs ∨ p ∈ m := by
  induction xs generalizing m with
  | nil => exact Or.inr h
  | cons x xs ih =>
    rcases ih h with h | h
    · exact Or.inl (by simp [h])
    · rcases btInsert_mem h with h | h
      · exact Or.inl (by simp [h])
      · exact Or.inr h

theorem attrFromArgs_mem {e : Ext} {args : List (Str × Str)} {p : Str × Str}
    (h : p ∈ attrFromArgs e args) : ∃ k v, (k, v) ∈ args ∧ attrOfArg e k v = some p := by
  rcases foldl_btInsert_mem h with h | h
  · obtain ⟨⟨k, v⟩, h1, h2⟩ := List.mem_filterMap.1 h
    exact ⟨k, v, h1, h2⟩
  · simp at h

/-- C20: every attribute taken from user arguments has a whitelisted lower-case name and comes from
one of the arguments with that name. -/
theorem C20_whitelisted (e : Ext) (args : List (Str × Str)) (p : Str × Str) (h : p ∈ attrFromArgs e args) :
    Whitelisted p.1 ∧ lowerA p.1 = p.1 ∧ ∃ k v, (k, v) ∈ args ∧ lowerA k = p.1 := by
  obtain ⟨k, v, h1, h2⟩ := attrFromArgs_mem h
  unfold attrOfArg at h2
  split at h2
  · rename_i hs
    obtain ⟨w, _, rfl⟩ := Option.map_eq_some_iff.1 h2
    exact ⟨isSafe_whitelisted hs, lowerA_idem k, k, v, h1, rfl⟩
  · cases h2

/-- C20: no event handler attribute survives, however it is spelled. -/
theorem C20_no_event_handlers (e : Ext) (args : List (Str × Str)) (p : Str × Str)
    (h : p ∈ attrFromArgs e args) : ¬ c!"on" <+: p.1 := by
  have hw := (C20_whitelisted e args p h).1
  rintro ⟨r, hr⟩
  rcases hw with hw | ⟨r', hr'⟩ | ⟨r', hr'⟩
  · have : safeAttributes.all (fun k => !startsWith k c!"on") = true := by decide +kernel
    have := List.all_eq_true.1 this _ hw
    simp at this
    rw [← hr] at this
    have h2 : startsWith (c!"on" ++ r) c!"on" = true := startsWith_iff.2 ⟨r, rfl⟩
    rw [h2] at this; cases this
  · rw [← hr] at hr'; simp at hr'
  · rw [← hr] at hr'; simp at hr'

/-- C20: `href` and `src` values are safe in the sense of C12. -/
theorem C20_urls_safe (e : Ext) (args : List (Str × Str)) (v : Str)
    (h : (c!"href", v) ∈ attrFromArgs e args ∨ (c!"src", v) ∈ attrFromArgs e args) : SafeHref v := by
  have key : ∀ k, k ∈ urlAttributes → (k, v) ∈ attrFromArgs e args → SafeHref v := by
    intro k hk h
    obtain ⟨k', v', _, h2⟩ := attrFromArgs_mem h
    unfold attrOfArg at h2
    split at h2
    · obtain ⟨w, _, h3⟩ := Option.map_eq_some_iff.1 h2
      simp only [Prod.mk.injEq] at h3
      have hc : containsCI urlAttributes k' = true := by
        rw [containsCI_iff (by decide), h3.1]; exact hk
      rw [hc, if_pos rfl] at h3
      rw [← h3.2]
      exact C12_normalized_href_safe e w
    · cases h2
  rcases h with h | h
  · exact key _ (by decide) h
  · exact key _ (by decide) h

/-- C20: an argument whose name is not whitelisted has no effect, and `insert` refuses it. -/
theorem C20_unsafe_dropped (e : Ext) (a b : List (Str × Str)) (k v : Str) (m : AttrMap)
    (h : ¬ Whitelisted (lowerA k)) :
    attrFromArgs e (a ++ (k, v) :: b) = attrFromArgs e (a ++ b) ∧ attrInsert m k v = (false, m) := by
  have hs : isSafeAttribute k = false := by
    cases hh : isSafeAttribute k with
    | false => rfl
    | true => exact absurd (isSafe_whitelisted hh) h
  constructor
  · simp [attrFromArgs, attrOfArg, hs]
  · simp [attrInsert, hs]

example : attrFromArgs ⟨id, fun _ => false⟩
    [(c!"onclick", c!"x()"), (c!"CLASS", c!"big"), (c!"href", c!"javascript:x()"), (c!"hidden", c!"yes"),
     (c!"checked", c!"no")] =
    [(c!"class", c!"big"), (c!"hidden", []), (c!"href", c!"#invalid-url")] := by decide +kernel

example : ¬ Whitelisted (lowerA c!"OnClick") := by
  rintro (h | ⟨r, h⟩ | ⟨r, h⟩)
  · revert h; decide +kernel
  · exact absurd (congrArg List.head? h) (by simp; decide)
  · exact absurd (congrArg List.head? h) (by simp; decide)

/-! Order independence: Rust iterates the argument hash map in an unspecified order. -/

/-- Sorted by key without repetition, as a `BTreeMap` is. -/
def SortedKeys (m : AttrMap) : Prop := m.Pairwise fun a b => strLt a.1 b.1 = true

theorem strLt_irrefl (a : Str) : strLt a a = false := by
  induction a with
  | nil => rfl
  | cons c a ih => simp [strLt, ih]

theorem strLt_trans {a b c : Str} (h1 : strLt a b = true) (h2 : strLt b c = true) : strLt a c = true := by
  induction a generalizing b c with
  | nil =>
    cases b with
    | nil => simp [strLt] at h1
    | cons y b => cases c with
      | nil => simp [strLt] at h2
      | cons z c => rfl
  | cons x a ih =>
    cases b with
    | nil => simp [strLt] at h1
    | cons y b =>
      cases c with
      | nil => simp [strLt] at h2
      | cons z c =>
        simp only [strLt] at h1 h2 ⊢
        split at h1
        · rename_i hxy
          split at h2
          · rw [if_pos (by omega)]
          · split at h2
            · subst_vars; rw [if_pos hxy]
            · cases h2
        · split at h1
          · subst_vars
            split at h2
            · rw [if_pos (by assumption)]
            · split at h2
              · subst_vars
                rw [if_neg (by omega), if_pos rfl]
                exact ih h1 h2
              · cases h2
          · cases h1

private theorem char_eq_of_toNat {a b : Char} (h : a.toNat = b.toNat) : a = b :=
  Char.ext (UInt32.toNat_inj.1 h)

theorem strLt_total (a b : Str) : strLt a b = true ∨ a = b ∨ strLt b a = true := by
  induction a generalizing b with
  | nil => cases b <;> simp [strLt]
  | cons x a ih =>
    cases b with
    | nil => simp [strLt]
    | cons y b =>
      simp only [strLt]
      rcases Nat.lt_trichotomy x.toNat y.toNat with h | h | h
      · left; rw [if_pos h]
      · have := char_eq_of_toNat h; subst this
        simp only [Nat.lt_irrefl, if_false, if_true]
        rcases ih b with h | h | h
        · exact Or.inl h
        · exact Or.inr (Or.inl (by rw [h]))
        · exact Or.inr (Or.inr h)
      · right; right; rw [if_pos h]

theorem btInsert_sorted {k v : Str} {m : AttrMap} (h : SortedKeys m) : SortedKeys (btInsert k v m) := by
  induction m with
  | nil => simp [btInsert, SortedKeys]
  | cons q m ih =>
    obtain ⟨k', v'⟩ := q
    simp only [SortedKeys, List.pairwise_cons] at h
    simp only [btInsert]
    split
    · subst_vars; simp only [SortedKeys, List.pairwise_cons]; exact ⟨h.1, h.2⟩
    · split
      · rename_i hlt
        simp only [SortedKeys, List.pairwise_cons]
        refine ⟨?_, h.1, h.2⟩
        intro p hp
        rcases List.mem_cons.1 hp with rfl | hp
        · exact hlt
        · exact strLt_trans hlt (h.1 p hp)
      · rename_i hne hnlt
        simp only [SortedKeys, List.pairwise_cons]
        refine ⟨?_, ih h.2⟩
        intro p hp
        rcases btInsert_mem hp with rfl | hp
        · rcases strLt_total k k' with h | h | h
          · exact absurd h hnlt
          · exact absurd h hne
          · exact h
        · exact h.1 p hp

private theorem btInsert_comm {k1 v1 k2 v2 : Str} (h : k1 ≠ k2) (m : AttrMap) (hm : SortedKeys m) :
    btInsert k1 v1 (btInsert k2 v2 m) = btInsert k2 v2 (btInsert k1 v1 m) := by
  have lt_asymm : ∀ {a b : Str}, strLt a b = true → ¬ strLt b a = true := fun h1 h2 => by
    have := strLt_trans h1 h2; rw [strLt_irrefl] at this; cases this
  have tot := @strLt_total
  induction m with
  | nil =>
    simp only [btInsert]
    rcases tot k1 k2 with h1 | h1 | h1
    · simp [h, Ne.symm h, h1, lt_asymm h1]
    · exact absurd h1 h
    · simp [h, Ne.symm h, h1, lt_asymm h1]
  | cons q m ih =>
    obtain ⟨k', v'⟩ := q
    have hm' : SortedKeys m := by simp only [SortedKeys, List.pairwise_cons] at hm; exact hm.2
    have ih := ih hm'
    simp only [btInsert]
    by_cases h1 : k1 = k'
    · subst h1
      simp only [Ne.symm h, if_false, if_true]
      by_cases h2 : strLt k2 k1 = true
      · simp [h2, btInsert, h, lt_asymm h2, Ne.symm h]
      · simp [h2, btInsert, Ne.symm h]
    · by_cases h2 : k2 = k'
      · subst h2
        simp only [h, if_false, if_true]
        by_cases h3 : strLt k1 k2 = true
        · simp [h3, btInsert, h, lt_asymm h3, Ne.symm h]
        · simp [h3, btInsert, h]
      · simp only [h1, h2, if_false]
        by_cases h3 : strLt k1 k' = true
        · by_cases h4 : strLt k2 k' = true
          · simp only [h3, h4, if_true, btInsert, h, Ne.symm h, if_false, h1, h2]
            rcases tot k1 k2 with h5 | h5 | h5
            · simp [h5, lt_asymm h5]
            · exact absurd h5 h
            · simp [h5, lt_asymm h5]
          · simp only [h3, h4, if_true, Bool.false_eq_true, if_false, btInsert, h1, h2, Ne.symm h]
            have : ¬ strLt k2 k1 = true := fun h5 => h4 (strLt_trans h5 h3)
            simp [this]
        · by_cases h4 : strLt k2 k' = true
          · simp only [h3, h4, if_true, Bool.false_eq_true, if_false, btInsert, h1, h2, h]
            have : ¬ strLt k1 k2 = true := fun h5 => h3 (strLt_trans h5 h4)
            simp [this]
          · simp only [h3, h4, Bool.false_eq_true, if_false, btInsert, h1, h2, ih]

private theorem foldl_perm {xs ys : AttrMap} (hp : xs.Perm ys) (m : AttrMap) (hm : SortedKeys m)
    (hu : xs.Pairwise fun a b => a.1 ≠ b.1) :
    xs.foldl (fun m (x : Str × Str) => btInsert x.1 x.2 m) m =
    ys.foldl (fun m (x : Str × Str) => btInsert x.1 x.2 m) m := by
  induction hp generalizing m with
  | nil => rfl
  | cons x _ ih =>
    simp only [List.foldl_cons]
    exact ih _ (btInsert_sorted hm) (List.pairwise_cons.1 hu).2
  | swap x y l =>
    simp only [List.foldl_cons]
    have := (List.pairwise_cons.1 hu).1 x (by simp)
    rw [btInsert_comm (Ne.symm this) m hm]
  | trans h1 _ ih1 ih2 =>
    rw [ih1 m hm hu, ih2 m hm]
    exact (h1.pairwise_iff (fun h => Ne.symm h)).1 hu

/-- Attribute maps are sorted by name, so no name stands twice. -/
theorem attrFromArgs_sorted (e : Ext) (xs : List (Str × Str)) : SortedKeys (attrFromArgs e xs) := by
  have : ∀ (l m : AttrMap), SortedKeys m → SortedKeys (l.foldl (fun m (x : Str × Str) => btInsert x.1 x.2 m) m) := by
    intro l
    induction l with
    | nil => intro m h; exact h
    | cons x l ih => intro m h; exact ih _ (btInsert_sorted h)
  exact this _ [] (by simp [SortedKeys])

/-- C20: the result does not depend on the iteration order of the argument map (whose keys are pairwise
different up to ASCII case), and it is sorted by key without repetitions. -/
theorem C20_order_independent (e : Ext) (xs ys : List (Str × Str)) (hp : xs.Perm ys)
    (hu : xs.Pairwise fun a b => lowerA a.1 ≠ lowerA b.1) :
    attrFromArgs e xs = attrFromArgs e ys ∧ SortedKeys (attrFromArgs e xs) := by
  constructor
  · apply foldl_perm (hp.filterMap _) [] (by simp [SortedKeys])
    rw [List.pairwise_filterMap]
    refine hu.imp ?_
    rintro ⟨k1, v1⟩ ⟨k2, v2⟩ hne b hb b' hb'
    have key : ∀ k v (b : Str × Str), attrOfArg e k v = some b → b.1 = lowerA k := by
      intro k v b h
      unfold attrOfArg at h
      split at h
      · obtain ⟨w, _, rfl⟩ := Option.map_eq_some_iff.1 h; rfl
      · cases h
    rw [key _ _ _ hb, key _ _ _ hb']; exact hne
  · exact attrFromArgs_sorted e xs

example : [(c!"ID", c!"a"), (c!"class", c!"b")].Pairwise (fun (a b : Str × Str) => lowerA a.1 ≠ lowerA b.1) := by
  decide +kernel

/-! ### C21: bibliographies -/

/-- Specification: position (from 1) of the first entry with the label. -/
def firstEntry {E : Type} (es : List (Str × List E)) (label : Str) (n : Nat) (x : List E) : Prop :=
  ∃ a b, es = a ++ (label, x) :: b ∧ n = a.length + 1 ∧ ∀ p ∈ a, p.1 ≠ label

private theorem getFrom_spec {E : Type} (label : Str) (es : List (Str × List E)) (i n : Nat) (x : List E) :
    Bibl.getFrom label i es = some (n, x) ↔ ∃ a b, es = a ++ (label, x) :: b ∧ n = i + a.length + 1 ∧
      ∀ p ∈ a, p.1 ≠ label := by
  induction es generalizing i with
  | nil => simp [Bibl.getFrom]
  | cons e es ih =>
    obtain ⟨l, y⟩ := e
    simp only [Bibl.getFrom]
    split
    · rename_i h
      subst h
      simp only [Option.some.injEq, Prod.mk.injEq]
      constructor
      · rintro ⟨rfl, rfl⟩; exact ⟨[], es, rfl, by simp, by simp⟩
      · rintro ⟨a, b, h1, h2, h3⟩
        cases a with
        | nil => simp at h1; exact ⟨by simp [h2], h1.1⟩
        | cons z a => simp at h1; have := h3 z (by simp); rw [← h1.1] at this; exact absurd rfl this
    · rename_i h
      rw [ih]
      constructor
      · rintro ⟨a, b, rfl, rfl, h3⟩
        exact ⟨(l, y) :: a, b, rfl, by simp; omega, by simpa using ⟨Ne.symm h, fun x y hxy => h3 (x, y) hxy⟩⟩
      · rintro ⟨a, b, h1, h2, h3⟩
        cases a with
        | nil => simp at h1; exact absurd h1.1.1.symm h
        | cons z a =>
          simp at h1
          exact ⟨a, b, h1.2, by simp at h2; omega, fun p hp => h3 p (by simp [hp])⟩

/-- C21: `get` finds the first entry with the label, numbered from 1. -/
theorem C21_get_first {E : Type} (b : Bibl E) (label : Str) (n : Nat) (x : List E) :
    b.get label = some (n, x) ↔ firstEntry b.entries label n x := by
  unfold Bibl.get firstEntry
  rw [getFrom_spec]; simp

private theorem get_none {E : Type} (b : Bibl E) (label : Str) :
    b.get label = none ↔ ∀ p ∈ b.entries, p.1 ≠ label := by
  have : ∀ (es : List (Str × List E)) (i : Nat), Bibl.getFrom label i es = none ↔ ∀ p ∈ es, p.1 ≠ label := by
    intro es
    induction es with
    | nil => simp [Bibl.getFrom]
    | cons e es ih =>
      intro i
      obtain ⟨l, y⟩ := e
      simp only [Bibl.getFrom]
      split
      · subst_vars; simp
      · rename_i h; rw [ih]; simp [Ne.symm h]
  exact this _ _

/-- C21: after any sequence of `add` calls labels are pairwise different, and each label keeps the
contents and the number of its first definition. -/
theorem C21_add_history {E : Type} (adds : List (Str × List E)) :
    let b := adds.foldl (fun b (x : Str × List E) => b.add x.1 x.2) (Bibl.mk [])
    (b.entries.Pairwise fun p q => p.1 ≠ q.1) ∧
    (∀ label x, (∃ n, b.get label = some (n, x)) ↔ ∃ n, firstEntry adds label n x) ∧
    (∀ (more : List (Str × List E)) n x label, b.get label = some (n, x) →
      (more.foldl (fun b (x : Str × List E) => b.add x.1 x.2) b).get label = some (n, x)) := by
  have add_keep : ∀ (b : Bibl E) l y n x label, b.get label = some (n, x) → (b.add l y).get label = some (n, x) := by
    intro b l y n x label h
    unfold Bibl.add
    split
    · exact h
    · rw [C21_get_first] at h ⊢
      obtain ⟨a, c, h1, h2, h3⟩ := h
      exact ⟨a, c ++ [(l, y)], by simp [h1], h2, h3⟩
  have keep : ∀ (more : List (Str × List E)) (b : Bibl E) n x label, b.get label = some (n, x) →
      (more.foldl (fun b (x : Str × List E) => b.add x.1 x.2) b).get label = some (n, x) := by
    intro more
    induction more with
    | nil => intro b n x label h; exact h
    | cons m ms ih => intro b n x label h; exact ih _ _ _ _ (add_keep _ _ _ _ _ _ h)
  refine ⟨?_, ?_, fun more n x label h => keep more _ n x label h⟩
  · have : ∀ (l : List (Str × List E)) (b : Bibl E), (b.entries.Pairwise fun p q => p.1 ≠ q.1) →
        ((l.foldl (fun b (x : Str × List E) => b.add x.1 x.2) b).entries.Pairwise fun p q => p.1 ≠ q.1) := by
      intro l
      induction l with
      | nil => intro b h; exact h
      | cons x l ih =>
        intro b h
        apply ih
        show (Bibl.add b x.1 x.2).entries.Pairwise _
        unfold Bibl.add
        split
        · exact h
        · rename_i hn
          have hn : b.get x.1 = none := by simpa using hn
          rw [List.pairwise_append]
          refine ⟨h, by simp, ?_⟩
          intro p hp q hq
          simp at hq; subst hq
          exact (get_none b x.1).1 hn p hp
    exact this adds _ (by simp)
  · intro label x
    have : ∀ (l : List (Str × List E)) (b : Bibl E),
        (∃ n, (l.foldl (fun b (x : Str × List E) => b.add x.1 x.2) b).get label = some (n, x)) ↔
        (∃ n, b.get label = some (n, x)) ∨ (b.get label = none ∧ ∃ n, firstEntry l label n x) := by
      intro l
      induction l with
      | nil => intro b; simp [firstEntry]
      | cons y l ih =>
        intro b
        obtain ⟨ly, cy⟩ := y
        simp only [List.foldl_cons]
        rw [ih]
        cases hb : b.get label with
        | some z =>
          obtain ⟨n', x'⟩ := z
          rw [add_keep b ly cy n' x' label hb]
          simp
        | none =>
          by_cases hl : ly = label
          · subst hl
            have : (b.add ly cy).get ly = some (b.entries.length + 1, cy) := by
              unfold Bibl.add
              rw [if_neg (by simp [hb])]
              rw [C21_get_first]
              exact ⟨b.entries, [], rfl, rfl, (get_none b ly).1 hb⟩
            rw [this]
            simp only [reduceCtorEq, false_and, or_false, true_and, Option.some.injEq, Prod.mk.injEq, exists_const,
              exists_eq_left', false_or]
            constructor
            · rintro rfl; exact ⟨1, [], l, rfl, rfl, by simp⟩
            · rintro ⟨n, a, c, h1, h2, h3⟩
              cases a with
              | nil => simp at h1; exact h1.1
              | cons z a => simp at h1; have := h3 z (by simp); rw [← h1.1] at this; exact absurd rfl this
          · have : (b.add ly cy).get label = none := by
              unfold Bibl.add
              split
              · exact hb
              · rw [get_none]
                intro p hp
                rcases List.mem_append.1 hp with hp | hp
                · exact (get_none b label).1 hb p hp
                · simp at hp; subst hp; exact hl
            rw [this]
            simp only [reduceCtorEq, exists_false, true_and, false_or]
            constructor
            · rintro ⟨n, a, c, rfl, h2, h3⟩
              exact ⟨n + 1, (ly, cy) :: a, c, rfl, by simp [h2], by simpa using ⟨hl, fun x y h => h3 (x, y) h⟩⟩
            · rintro ⟨n, a, c, h1, h2, h3⟩
              cases a with
              | nil => simp at h1; exact absurd h1.1.1 hl
              | cons z a =>
                simp at h1
                exact ⟨a.length + 1, a, c, h1.2, rfl, fun p hp => h3 p (by simp [hp])⟩
    rw [this]
    have : (Bibl.mk ([] : List (Str × List E))).get label = none := rfl
    simp [this]

/-- C21: `get_reference` answers from the first bibliography that has the label. -/
theorem C21_reference_first {E : Type} (bs : List (Bibl E)) (label : Str) (r : Nat × List E) :
    biblReference bs label = some r ↔
      ∃ a b c, bs = a ++ b :: c ∧ b.get label = some r ∧ ∀ b' ∈ a, b'.get label = none := by
  unfold biblReference
  induction bs with
  | nil => simp
  | cons b bs ih =>
    rw [List.findSome?_cons]
    cases h : b.get label with
    | some z =>
      simp only [Option.some.injEq]
      constructor
      · rintro rfl; exact ⟨[], b, bs, rfl, h, by simp⟩
      · rintro ⟨a, b', c, h1, h2, h3⟩
        cases a with
        | nil => simp at h1; rw [← h1.1, h] at h2; simpa using h2
        | cons y a => simp at h1; have := h3 y (by simp); rw [← h1.1, h] at this; cases this
    | none =>
      simp only [ih]
      constructor
      · rintro ⟨a, b', c, rfl, h2, h3⟩
        exact ⟨b :: a, b', c, rfl, h2, by simpa using ⟨h, h3⟩⟩
      · rintro ⟨a, b', c, h1, h2, h3⟩
        cases a with
        | nil => simp at h1; rw [← h1.1, h] at h2; cases h2
        | cons y a => simp at h1; exact ⟨a, b', c, h1.2, h2, fun x hx => h3 x (by simp [hx])⟩

example : (([(c!"a", [1]), (c!"b", [2]), (c!"a", [3])] : List (Str × List Nat)).foldl
    (fun b x => b.add x.1 x.2) (Bibl.mk [])).get c!"a" = some (1, [1]) := by decide +kernel

/-! ### C22: link locations -/

/-- Links kept verbatim: whitelisted URL, anchor, or local path. -/
def Verbatim (link : Str) : Prop :=
  (∃ s ∈ urlSchemes, s <+: link) ∨ link.head? = some '#' ∨ link.head? = some '/'

private theorem head_startsWith (link : Str) (c : Char) : startsWith link [c] = true ↔ link.head? = some c := by
  rw [startsWith_iff]
  cases link with
  | nil => simp
  | cons x l => simp [eq_comm]

private theorem verbatim_iff (link : Str) :
    (isUrl link || startsWith link c!"#" || startsWith link c!"/") = true ↔ Verbatim link := by
  simp only [Bool.or_eq_true, isUrl, List.any_eq_true, head_startsWith, Verbatim, or_assoc]
  simp [startsWith_iff]

/-- C22: URLs, anchors and paths are kept verbatim, with nothing extra. -/
theorem C22_verbatim (link : Str) (h : Verbatim link) :
    LinkLoc.parse link = .url link ∧ LinkLoc.parseExtra link = none := by
  have := (verbatim_iff link).2 h
  simp only [LinkLoc.parse, LinkLoc.parseExtra, this, if_true, and_self]

/-- C22: any other link is cut, without loss, into a base free of `/` and `#` and an extra part that is
empty or starts with `/` or `#`; the location is the page reference of the base (or the base as a URL
if it is no valid page reference). -/
theorem C22_split (link : Str) (h : ¬ Verbatim link) :
    ∃ base extra, link = base ++ extra ∧ '/' ∉ base ∧ '#' ∉ base ∧
      (extra = [] ∨ extra.head? = some '/' ∨ extra.head? = some '#') ∧
      LinkLoc.parseExtra link = (if extra = [] then none else some extra) ∧
      LinkLoc.parse link = (match PageRef.parse base with | none => .url base | some r => .page r) := by
  have hv : ¬ ((isUrl link || startsWith link c!"#" || startsWith link c!"/") = true) := by
    rw [verbatim_iff]; exact h
  simp only [LinkLoc.parse, LinkLoc.parseExtra, hv, Bool.false_eq_true, if_false, head_splitOn]
  cases h1 : splitOnce '#' link with
  | none =>
    have hh := splitOnce_none.1 h1
    simp only
    cases h2 : splitOnce '/' link with
    | none =>
      exact ⟨link, [], by simp, splitOnce_none.1 h2, hh, Or.inl rfl, by simp, rfl⟩
    | some x =>
      obtain ⟨a, b⟩ := x
      obtain ⟨rfl, ha⟩ := splitOnce_some.1 h2
      simp at hh
      exact ⟨a, '/' :: b, rfl, ha, hh.1, Or.inr (Or.inl rfl), by simp, rfl⟩
  | some x =>
    obtain ⟨p, q⟩ := x
    obtain ⟨rfl, hp⟩ := splitOnce_some.1 h1
    simp only
    cases h2 : splitOnce '/' p with
    | none =>
      exact ⟨p, '#' :: q, rfl, splitOnce_none.1 h2, hp, Or.inr (Or.inr rfl), by simp, rfl⟩
    | some x =>
      obtain ⟨a, b⟩ := x
      obtain ⟨rfl, ha⟩ := splitOnce_some.1 h2
      simp at hp
      exact ⟨a, '/' :: b ++ '#' :: q, by simp, ha, hp.1, Or.inr (Or.inl rfl), by simp, rfl⟩

example : LinkLoc.parse c!"page/edit#toc0" = .page ⟨none, c!"page"⟩ ∧
    LinkLoc.parseExtra c!"page/edit#toc0" = some c!"/edit#toc0" := by decide +kernel
example : ¬ Verbatim c!"page/edit#toc0" := by
  rw [← verbatim_iff]; decide +kernel

/-! ### C23: image sources -/

/-- The file path an image source stands for. -/
def ImageSource.join : ImageSource → Str
  | .url u => u
  | .file1 f => f
  | .file2 p f => p ++ c!"/" ++ f
  | .file3 s p f => s ++ c!"/" ++ p ++ c!"/" ++ f

/-- The path parts of a (non-URL) image source. -/
def ImageSource.parts : ImageSource → List Str
  | .url _ => []
  | .file1 f => [f]
  | .file2 p f => [p, f]
  | .file3 s p f => [s, p, f]

private theorem splitOn_length (c : Char) (s : Str) : (splitOn c s).length = s.count c + 1 := by
  induction s with
  | nil => rfl
  | cons x s ih =>
    unfold splitOn
    split
    · subst_vars; simp [ih]
    · rename_i h
      cases hs : splitOn c s with
      | nil => exact absurd hs (splitOn_ne_nil _ _)
      | cons p ps => rw [hs] at ih; simp [h] at ih ⊢; exact ih

/-- Remove one leading slash, if any. -/
def dropSlash : Str → Str
  | '/' :: s => s
  | s => s

private theorem dropSlash_eq (s : Str) : (stripPfx c!"/" s).getD s = dropSlash s := by
  unfold dropSlash
  split
  · simp [stripPfx]
  · rename_i h
    cases s with
    | nil => rfl
    | cons c s =>
      simp only [stripPfx]
      rw [if_neg]
      · rfl
      · rintro rfl; exact h s rfl

/-- C23: a URL is kept; otherwise, after dropping one leading slash, parsing fails exactly when more
than two slashes remain, and when it succeeds the parts are slash-free and join back to the source. -/
theorem C23_image_source (s : Str) :
    ((∃ p ∈ urlSchemes, p <+: s) → ImageSource.parse s = some (.url s)) ∧
    (¬ (∃ p ∈ urlSchemes, p <+: s) →
      (ImageSource.parse s = none ↔ 2 < (dropSlash s).count '/') ∧
      ∀ r, ImageSource.parse s = some r → r.join = dropSlash s ∧ (∀ p ∈ r.parts, '/' ∉ p) ∧ r.parts ≠ []) := by
  have hu : isUrl s = true ↔ ∃ p ∈ urlSchemes, p <+: s := by
    simp [isUrl, List.any_eq_true, startsWith_iff]
  constructor
  · intro h; simp [ImageSource.parse, hu.2 h]
  · intro h
    have h' : isUrl s = false := by simpa [← hu] using h
    simp only [ImageSource.parse, h', Bool.false_eq_true, if_false, dropSlash_eq]
    have hl := splitOn_length '/' (dropSlash s)
    have hj := joinWith_splitOn '/' (dropSlash s)
    have hp := splitOn_pieces '/' (dropSlash s)
    split
    · rename_i f hs
      rw [hs] at hl hj hp
      refine ⟨by simp; simp at hl; omega, ?_⟩
      rintro r hr; injection hr with hr; subst hr
      exact ⟨by simpa [joinWith, ImageSource.join] using hj, by simpa [ImageSource.parts] using hp, by simp [ImageSource.parts]⟩
    · rename_i f g hs
      rw [hs] at hl hj hp
      refine ⟨by simp; simp at hl; omega, ?_⟩
      rintro r hr; injection hr with hr; subst hr
      exact ⟨by simpa [joinWith, ImageSource.join] using hj, by simpa [ImageSource.parts] using hp, by simp [ImageSource.parts]⟩
    · rename_i f g k hs
      rw [hs] at hl hj hp
      refine ⟨by simp; simp at hl; omega, ?_⟩
      rintro r hr; injection hr with hr; subst hr
      exact ⟨by simpa [joinWith, ImageSource.join] using hj, by simpa [ImageSource.parts] using hp, by simp [ImageSource.parts]⟩
    · rename_i n1 n2 n3
      refine ⟨⟨fun _ => ?_, fun _ => rfl⟩, by simp⟩
      cases hs : splitOn '/' (dropSlash s) with
      | nil => exact absurd hs (splitOn_ne_nil _ _)
      | cons a l =>
        cases l with
        | nil => exact absurd hs (n1 a)
        | cons b l =>
          cases l with
          | nil => exact absurd hs (n2 a b)
          | cons c l =>
            cases l with
            | nil => exact absurd hs (n3 a b c)
            | cons d l => rw [hs] at hl; simp at hl; omega

example : ImageSource.parse c!"/page/img.png" = some (.file2 c!"page" c!"img.png") ∧
    ImageSource.parse c!"a/b/c/d" = none := by decide +kernel

/-! ### C54: quoted argument strings -/

/-- Specification: how an author writes a value inside quotes. -/
def quoteBody : Str → Str
  | [] => []
  | c :: s => (if c = '\\' then c!"\\\\" else if c = '"' then c!"\\\"" else [c]) ++ quoteBody s

/-- The quoted form of a value. -/
def quote (s : Str) : Str := c!"\"" ++ quoteBody s ++ c!"\""

private theorem unescape_quoteBody (s : Str) : unescapeLoop false (quoteBody s) = s := by
  induction s with
  | nil => rfl
  | cons c s ih =>
    simp only [quoteBody]
    split
    · subst_vars; simp [unescapeLoop, escapeChar, ih]
    · split
      · subst_vars; simp [unescapeLoop, escapeChar, ih]
      · rename_i h _; simp [unescapeLoop, h, ih]

private theorem quoteBody_no_backslash {s : Str} (h : '\\' ∉ quoteBody s) : quoteBody s = s := by
  induction s with
  | nil => rfl
  | cons c s ih =>
    simp only [quoteBody] at h ⊢
    by_cases h1 : c = '\\'
    · simp [h1] at h
    · by_cases h2 : c = '"'
      · simp [h2] at h
      · simp [h1, h2] at h ⊢; exact ih h.2

private theorem sliceMiddle_quote (b : Str) : sliceMiddle (c!"\"" ++ b ++ c!"\"") = some b := by
  simp [sliceMiddle]

/-- C54: any value whatever can be passed in quotes: parsing the quoted form gives the value back. -/
theorem C54_quote_round_trip (s : Str) : parseString (quote s) = s := by
  unfold parseString quote
  rw [sliceMiddle_quote]
  simp only
  split
  · exact unescape_quoteBody s
  · rename_i h; exact quoteBody_no_backslash (by simpa using h)

/-- C54: text that is not enclosed in double quotes is returned as is. -/
theorem C54_unquoted_verbatim (s : Str) (h : s.length < 2 ∨ s.head? ≠ some '"' ∨ s.getLast? ≠ some '"') :
    parseString s = s := by
  have : sliceMiddle s = none := by
    unfold sliceMiddle
    split
    · rename_i rest
      split
      · rename_i mid hr
        exfalso
        have hr' : rest = mid.reverse ++ ['"'] := by
          have := congrArg List.reverse hr; simpa using this
        subst hr'
        rcases h with h | h | h
        · simp at h; omega
        · simp at h
        · rw [← List.cons_append, List.getLast?_concat] at h
          exact h rfl
      · rfl
    · rfl
  simp [parseString, this]

example : parseString c!"\"a\\\"b\\\\c\\n\"" = c!"a\"b\\c\n" := by decide +kernel

/-- C54: a backslash directly before the closing quote is silently lost. -/
theorem C54_trailing_backslash_lost (s : Str) (h : '\\' ∉ s) :
    parseString (c!"\"" ++ s ++ c!"\\\"") = s := by
  have hs : c!"\"" ++ s ++ c!"\\\"" = c!"\"" ++ (s ++ c!"\\") ++ c!"\"" := by simp
  unfold parseString
  rw [hs, sliceMiddle_quote]
  have : (s ++ c!"\\").contains '\\' = true := by simp
  simp only [this, if_true]
  induction s with
  | nil => rfl
  | cons c s ih =>
    simp at h
    have ih := ih h.2 (by simp) (by simp)
    simp [unescapeLoop, Ne.symm h.1]
    exact ih

/-! ### C55: booleans -/

/-- C55: a boolean argument is recognised exactly when, trimmed and without regard to ASCII case, it is
one of eight words, and then has that word's value. -/
theorem C55_parse_boolean (s : Str) (b : Bool) :
    parseBoolean s = some b ↔
      (b = true ∧ lowerA (trim s) ∈ [c!"true", c!"t", c!"1", c!"yes"]) ∨
      (b = false ∧ lowerA (trim s) ∈ [c!"false", c!"f", c!"0", c!"no"]) := by
  have hl : booleanNames.map (fun p => lowerA p.1) = booleanNames.map (fun p => p.1) := by decide +kernel
  simp only [parseBoolean, booleanNames, eqIgnoreCase, List.find?_cons, List.find?_nil]
  have e : ∀ p ∈ [c!"true", c!"false", c!"t", c!"f", c!"1", c!"0", c!"yes", c!"no"], lowerA p = p := by decide +kernel
  rw [e c!"true" (by simp), e c!"false" (by simp), e c!"t" (by simp), e c!"f" (by simp), e c!"1" (by simp),
    e c!"0" (by simp), e c!"yes" (by simp), e c!"no" (by simp)]
  generalize lowerA (trim s) = w
  by_cases h1 : w = c!"true"
  · subst h1; cases b <;> decide
  by_cases h2 : w = c!"false"
  · subst h2; cases b <;> decide
  by_cases h3 : w = c!"t"
  · subst h3; cases b <;> decide
  by_cases h4 : w = c!"f"
  · subst h4; cases b <;> decide
  by_cases h5 : w = c!"1"
  · subst h5; cases b <;> decide
  by_cases h6 : w = c!"0"
  · subst h6; cases b <;> decide
  by_cases h7 : w = c!"yes"
  · subst h7; cases b <;> decide
  by_cases h8 : w = c!"no"
  · subst h8; cases b <;> decide
  have f : ∀ p : Str, w ≠ p → (p == w) = false := by
    intro p hp; simpa using Ne.symm hp
  simp [f _ h1, f _ h2, f _ h3, f _ h4, f _ h5, f _ h6, f _ h7, f _ h8, h1, h2, h3, h4, h5, h6, h7, h8]

example : parseBoolean c!" YES\n" = some true := by decide +kernel

/-! ### C56: anchor targets -/

/-- C56: the target attribute written for `Same` is not one that is accepted (nor one that HTML
defines), whereas every other target's written form parses back to it. -/
theorem C56_anchor_target (t : AnchorTarget) :
    AnchorTarget.ofStr t.htmlAttr = (if t = .same then none else some t) := by
  cases t <;> decide +kernel

/-! ### C13, attributes -/

/-- C13: id isolation of an attribute map keeps the keys in order, replaces the value of `id` by its
isolated form and no other value; without the setting nothing changes. -/
theorem C13_attribute_ids (m : AttrMap) :
    attrIsolateId false m = m ∧ (attrIsolateId true m).map (·.1) = m.map (·.1) ∧
    ∀ (i : Nat) k v, m[i]? = some (k, v) →
      (attrIsolateId true m)[i]? = some (k, if k = c!"id" then isolateIds v else v) := by
  refine ⟨rfl, ?_, ?_⟩
  · simp only [attrIsolateId, if_true, List.map_map]
    apply List.map_congr_left
    rintro ⟨k, v⟩ _
    simp only [Function.comp_apply]
    split <;> rfl
  · intro i k v h
    simp only [attrIsolateId, if_true, List.getElem?_map, h, Option.map_some]
    by_cases hk : k = c!"id"
    · simp [hk]
    · simp [hk]

example : attrIsolateId true [(c!"class", c!"x"), (c!"id", c!"a u-b")] =
    [(c!"class", c!"x"), (c!"id", c!"u-a u-b")] := by decide +kernel

end Ftml
