import Verif.Model.Url
import Verif.Lemmas.Str
/-
Properties of URL handling (`src/url.rs`) and id isolation (`src/id_prefix.rs`): C12, C13.
-/
namespace Ftml

/-! ### Specification -/

/-- What the English property calls a safe href. -/
def SafeHref (u : Str) : Prop :=
  (∃ scheme ∈ urlSchemes, scheme <+: u) ∨ u.head? = some '#' ∨ u = c!"javascript:;" ∨ u.head? = some '/'

/-- The scheme a browser sees (WHATWG URL parser): leading control characters and spaces are dropped,
tabs and line breaks are removed anywhere, and the scheme is what precedes the first colon, compared
without regard to ASCII case. -/
def browserScheme (u : Str) : Option Str :=
  (splitOnce ':' ((u.dropWhile fun c => c.toNat ≤ 32).filter
    fun c => c != '\t' && c != '\n' && c != '\r')).map fun x => lowerA x.1

/-! ### Helper lemmas -/

private theorem join_slash (p : Str) (rest : List Str) :
    (joinWith c!"/" ([] :: p :: rest)).head? = some '/' := by
  simp [joinWith]

/-! ### C12 -/

theorem normalizeHref_path (e : Ext) (u : Str) (h1 : ¬ (isUrl u || startsWith u c!"#" || u == c!"javascript:;") = true)
    (h2 : ¬ dangerousScheme e u = true) : (normalizeHref e u).head? = some '/' := by
  unfold normalizeHref
  rw [if_neg h1, if_neg h2]
  have hd : ∀ (path : Str) (anchor : Option Str),
      (match anchor with
        | some a => joinWith c!"/" (match (match splitOn '/' path with
            | [] => [[]]
            | p0 :: rest => if !p0.isEmpty || (p0.isEmpty && rest.isEmpty) then [] :: p0 :: rest else p0 :: rest) with
          | p0 :: p1 :: rest => p0 :: e.normalize p1 :: rest
          | other => other) ++ c!"#" ++ a
        | none => joinWith c!"/" (match (match splitOn '/' path with
            | [] => [[]]
            | p0 :: rest => if !p0.isEmpty || (p0.isEmpty && rest.isEmpty) then [] :: p0 :: rest else p0 :: rest) with
          | p0 :: p1 :: rest => p0 :: e.normalize p1 :: rest
          | other => other)).head? = some '/' := by
    intro path anchor
    have hh : (joinWith c!"/" (match (match splitOn '/' path with
            | [] => [[]]
            | p0 :: rest => if !p0.isEmpty || (p0.isEmpty && rest.isEmpty) then [] :: p0 :: rest else p0 :: rest) with
          | p0 :: p1 :: rest => p0 :: e.normalize p1 :: rest
          | other => other)).head? = some '/' := by
      cases h : splitOn '/' path with
      | nil => exact absurd h (splitOn_ne_nil _ _)
      | cons p0 rest =>
        cases p0 with
        | cons a p0 => simpa using join_slash _ _
        | nil =>
          cases rest with
          | nil => simpa using join_slash _ _
          | cons r rs => simpa using join_slash _ _
    cases anchor with
    | none => exact hh
    | some a =>
      simp only [List.append_assoc]
      rw [List.head?_append, hh]; rfl
  exact hd _ _

/-- C12: whatever the URL and whatever the page-name normaliser does, the normalised href is safe. -/
theorem C12_normalized_href_safe (e : Ext) (u : Str) : SafeHref (normalizeHref e u) := by
  by_cases h : (isUrl u || startsWith u c!"#" || u == c!"javascript:;") = true
  · unfold normalizeHref
    rw [if_pos h]
    simp only [Bool.or_eq_true, beq_iff_eq, isUrl, List.any_eq_true, startsWith_iff] at h
    rcases h with (⟨p, hp, hs⟩ | h) | h
    · exact Or.inl ⟨p, hp, hs⟩
    · obtain ⟨r, rfl⟩ := h; exact Or.inr (Or.inl rfl)
    · exact Or.inr (Or.inr (Or.inl h))
  · by_cases h2 : dangerousScheme e u = true
    · unfold normalizeHref
      rw [if_neg h, if_pos h2]
      exact Or.inr (Or.inl rfl)
    · exact Or.inr (Or.inr (Or.inr (normalizeHref_path e u h h2)))

example : normalizeHref ⟨id, fun _ => false⟩ c!"some page/edit#toc" = c!"/some page/edit#toc" := by
  decide +kernel
example : normalizeHref ⟨id, fun _ => false⟩ c!"JavaScript:alert(1)" = c!"#invalid-url" := by
  decide +kernel

private theorem filter_prefix_id {p r : Str} {f : Char → Bool} (h : p.all f = true) :
    (p ++ r).filter f = p ++ r.filter f := by
  rw [List.filter_append, List.filter_eq_self.2 (by simpa using h)]

private theorem browser_of_scheme {p : Str} (hp : p ∈ urlSchemes) (r : Str) :
    browserScheme (p ++ r) = (splitOnce ':' p).map fun x => x.1 := by
  have h1 : urlSchemes.all (fun p => (p.all fun c => c != '\t' && c != '\n' && c != '\r') &&
      (p.head?.map fun c => decide (32 < c.toNat)) == some true &&
      ((splitOnce ':' p).map fun x => lowerA x.1) == (splitOnce ':' p).map (fun x => x.1) &&
      (splitOnce ':' p).isSome) = true := by
    decide +kernel
  have h2 := List.all_eq_true.1 h1 p hp
  simp only [Bool.and_eq_true, beq_iff_eq] at h2
  obtain ⟨⟨⟨h3, h4⟩, h5⟩, h6⟩ := h2
  obtain ⟨⟨a, b⟩, hab⟩ := Option.isSome_iff_exists.1 h6
  have h7 : (p ++ r).dropWhile (fun c => decide (c.toNat ≤ 32)) = p ++ r := by
    cases p with
    | nil => simp at h4
    | cons x p =>
      simp at h4
      rw [List.cons_append, List.dropWhile_cons, if_neg]
      simp; exact h4
  unfold browserScheme
  rw [h7, filter_prefix_id h3]
  obtain ⟨rfl, ha⟩ := splitOnce_some.1 hab
  rw [hab] at h5
  rw [show (a ++ ':' :: b) ++ List.filter (fun c => c != '\t' && c != '\n' && c != '\r') r
    = a ++ ':' :: (b ++ List.filter (fun c => c != '\t' && c != '\n' && c != '\r') r) by simp]
  rw [splitOnce_some.2 ⟨rfl, ha⟩, hab]
  simpa using h5

private theorem browser_of_head {u : Str} {c : Char} (hu : u.head? = some c) (h1 : 32 < c.toNat)
    (hc : c ≠ ':') : ∀ s, browserScheme u = some s → s.head? = some (lowerC c) := by
  intro s hs
  cases u with
  | nil => simp at hu
  | cons x u =>
    simp at hu; subst hu
    unfold browserScheme at hs
    have h3 : (x != '\t' && x != '\n' && x != '\r') = true := by
      rcases x with ⟨v, hv⟩
      simp only [bne_iff_ne, Bool.and_eq_true, ne_eq]
      refine ⟨⟨?_, ?_⟩, ?_⟩ <;> (intro h; rw [h] at h1; revert h1; decide)
    have h2 : ¬ x.toNat ≤ 32 := by omega
    simp only [List.dropWhile_cons, h2, decide_false, Bool.false_eq_true, if_false,
      List.filter_cons, h3, if_true, splitOnce, hc, if_false, Option.map_map] at hs
    obtain ⟨⟨a, b⟩, _, hb⟩ := Option.map_eq_some_iff.1 hs
    rw [← hb]; simp [lowerA]

/-- C12: no browser sees a script-carrying scheme in a normalised href, in any letter case and with
any embedded control characters, except in the inert `javascript:;` which is passed through. -/
theorem C12_no_dangerous_scheme (e : Ext) (u : Str) :
    normalizeHref e u = c!"javascript:;" ∨
    (browserScheme (normalizeHref e u) ≠ some c!"javascript" ∧
     browserScheme (normalizeHref e u) ≠ some c!"data" ∧
     browserScheme (normalizeHref e u) ≠ some c!"vbscript") := by
  rcases C12_normalized_href_safe e u with ⟨p, hp, r, hr⟩ | h | h | h
  · right
    rw [← hr, browser_of_scheme hp]
    have h1 : urlSchemes.all (fun p => (splitOnce ':' p).map (fun x => x.1) != some c!"javascript" &&
        (splitOnce ':' p).map (fun x => x.1) != some c!"data" &&
        (splitOnce ':' p).map (fun x => x.1) != some c!"vbscript") = true := by decide +kernel
    have := List.all_eq_true.1 h1 p hp
    simpa [and_assoc] using this
  · right
    refine ⟨?_, ?_, ?_⟩ <;>
    · intro hs
      have := browser_of_head h (by decide) (by decide) _ hs
      revert this; decide
  · exact Or.inl h
  · right
    refine ⟨?_, ?_, ?_⟩ <;>
    · intro hs
      have := browser_of_head h (by decide) (by decide) _ hs
      revert this; decide

example : browserScheme c!" java\nScript:alert(1)" = some c!"javascript" := by decide +kernel

/-- C12 (what the function does *not* promise): a protocol-relative URL passes through, so the link
may lead to another host even though it starts with a slash. -/
theorem C12_protocol_relative_passes (e : Ext) (he : e.normalize [] = []) (host : Str)
    (h1 : '#' ∉ host) (h2 : ':' ∉ host) (h3 : '/' ∉ host) :
    normalizeHref e (c!"//" ++ host) = c!"//" ++ host := by
  have hu : isUrl (c!"//" ++ host) = false := by
    simp only [isUrl, List.any_eq_false]
    intro p hp
    have : urlSchemes.all (fun p => p.head? != some '/' && !p.isEmpty) = true := by decide +kernel
    have := List.all_eq_true.1 this p hp
    rw [startsWith_iff]
    rintro ⟨r, hr⟩
    cases p with
    | nil => simp at this
    | cons x p => simp at hr this; exact this hr.1
  have h4 : splitOnce ':' (c!"//" ++ host) = none := splitOnce_none.2 (by simpa using h2)
  have h5 : splitOnce '#' (c!"//" ++ host) = none := splitOnce_none.2 (by simpa using h1)
  have h6 : splitOn '/' (c!"//" ++ host) = [[], [], host] := by
    have : splitOn '/' host = [host] := splitOn_single h3
    simp [splitOn, this]
  have h7 : startsWith (c!"//" ++ host) c!"#" = false := by
    simp [startsWith, stripPfx]
  unfold normalizeHref dangerousScheme
  simp only [hu, h4, h5, h6, h7]
  simp [joinWith, he]

example : normalizeHref ⟨id, fun _ => false⟩ c!"//evil.com" = c!"//evil.com" := by decide +kernel

/-! ### C13 -/

private theorem splitWS_words (s : Str) : ∀ w ∈ splitWS s, w ≠ [] ∧ ∀ c ∈ w, isWS c = false := by
  have go : ∀ (s acc : Str), (∀ c ∈ acc, isWS c = false) →
      ∀ w ∈ splitWS.go acc s, w ≠ [] ∧ ∀ c ∈ w, isWS c = false := by
    intro s
    induction s with
    | nil =>
      intro acc h w hw
      unfold splitWS.go at hw
      split at hw
      · simp at hw
      · rename_i hacc
        simp at hw; subst hw
        exact ⟨by simpa using hacc, by simpa using h⟩
    | cons c s ih =>
      intro acc h w hw
      unfold splitWS.go at hw
      split at hw
      · split at hw
        · exact ih [] (by simp) w hw
        · rename_i hacc
          rcases List.mem_cons.1 hw with rfl | hw
          · exact ⟨by simpa using hacc, by simpa using h⟩
          · exact ih [] (by simp) w hw
      · rename_i hc
        exact ih (c :: acc) (by simpa using ⟨by simpa using hc, h⟩) w hw
  exact go s [] (by simp)

private theorem splitWS_go_word (acc w r : Str) (hw : ∀ c ∈ w, isWS c = false) :
    splitWS.go acc (w ++ r) = splitWS.go (w.reverse ++ acc) r := by
  induction w generalizing acc with
  | nil => rfl
  | cons c w ih =>
    simp at hw
    rw [List.cons_append, splitWS.go, if_neg (by simp [hw.1]), ih _ (by simpa using hw.2)]
    simp

private theorem splitWS_join (ws : List Str) (h : ∀ w ∈ ws, w ≠ [] ∧ ∀ c ∈ w, isWS c = false) :
    splitWS (joinWith c!" " ws) = ws := by
  induction ws with
  | nil => rfl
  | cons w ws ih =>
    obtain ⟨h1, h2⟩ := h w (by simp)
    have ih := ih fun w hw => h w (by simp [hw])
    cases ws with
    | nil =>
      have := splitWS_go_word [] w [] h2
      simp only [List.append_nil] at this
      rw [joinWith, splitWS, this, splitWS.go, if_neg (by simpa using h1), List.reverse_reverse]
    | cons v ws =>
      have hs : isWS ' ' = true := by decide
      rw [joinWith_cons_cons, List.append_assoc, splitWS, splitWS_go_word _ _ _ h2,
        List.append_nil, List.cons_append, splitWS.go, if_pos hs, if_neg (by simpa using h1),
        List.reverse_reverse, List.nil_append]
      exact congrArg (w :: ·) ih

/-! ### C12, exact rejection -/

/-- The URL is passed through: whitelisted scheme, fragment, or the inert link. -/
def PassedHref (u : Str) : Prop :=
  (∃ scheme ∈ urlSchemes, scheme <+: u) ∨ u.head? = some '#' ∨ u = c!"javascript:;"

/-- What `normalize_href` calls a dangerous scheme: the text before the first colon is empty, has a
character outside `[\w-]`, or is `javascript` or `data` in any letter case. -/
def Dangerous (e : Ext) (u : Str) : Prop :=
  ∃ scheme rest, u = scheme ++ ':' :: rest ∧ ':' ∉ scheme ∧
    (scheme = [] ∨ (∃ c ∈ scheme, isWord e c = false ∧ c ≠ '-') ∨
      lowerA scheme = c!"javascript" ∨ lowerA scheme = c!"data")

private theorem passed_iff (u : Str) :
    (isUrl u || startsWith u c!"#" || u == c!"javascript:;") = true ↔ PassedHref u := by
  simp only [Bool.or_eq_true, beq_iff_eq, isUrl, List.any_eq_true, startsWith_iff, PassedHref]
  constructor
  · rintro ((⟨p, hp, hs⟩ | h) | h)
    · exact Or.inl ⟨p, hp, hs⟩
    · obtain ⟨r, rfl⟩ := h; exact Or.inr (Or.inl rfl)
    · exact Or.inr (Or.inr h)
  · rintro (⟨p, hp, hs⟩ | h | h)
    · exact Or.inl (Or.inl ⟨p, hp, hs⟩)
    · refine Or.inl (Or.inr ?_)
      cases u with
      | nil => simp at h
      | cons c u => simp at h; subst h; exact ⟨u, rfl⟩
    · exact Or.inr h

private theorem dangerous_iff (e : Ext) (u : Str) : dangerousScheme e u = true ↔ Dangerous e u := by
  unfold dangerousScheme Dangerous
  cases h : splitOnce ':' u with
  | none =>
    have := splitOnce_none.1 h
    simp only [Bool.false_eq_true, false_iff]
    rintro ⟨a, b, rfl, _⟩
    simp at this
  | some x =>
    obtain ⟨a, b⟩ := x
    obtain ⟨rfl, ha⟩ := splitOnce_some.1 h
    have hl : lowerA c!"javascript" = c!"javascript" ∧ lowerA c!"data" = c!"data" := by decide
    have hb : (!(!a.isEmpty && a.all fun c => isWord e c || c == '-')) = true ↔
        a = [] ∨ ∃ c ∈ a, isWord e c = false ∧ c ≠ '-' := by
      by_cases hn : a = []
      · simp [hn]
      · have : a.isEmpty = false := by cases a <;> simp_all
        simp [this, hn]
    have key : (if (!(!a.isEmpty && a.all fun c => isWord e c || c == '-')) = true then true
        else eqIgnoreCase a c!"javascript" || eqIgnoreCase a c!"data") = true ↔
        (a = [] ∨ (∃ c ∈ a, isWord e c = false ∧ c ≠ '-') ∨ lowerA a = c!"javascript" ∨ lowerA a = c!"data") := by
      split
      · rename_i h1
        have := hb.1 h1
        simp only [true_iff]
        rcases this with h | h
        · exact Or.inl h
        · exact Or.inr (Or.inl h)
      · rename_i h1
        have h1' := fun h => h1 (hb.2 h)
        simp only [Bool.or_eq_true, eqIgnoreCase, beq_iff_eq, hl.1, hl.2]
        constructor
        · intro h; exact Or.inr (Or.inr h)
        · rintro (h | h | h)
          · exact absurd (Or.inl h) h1'
          · exact absurd (Or.inr h) h1'
          · exact h
    refine Iff.trans key ?_
    constructor
    · intro h; exact ⟨a, b, rfl, ha, h⟩
    · rintro ⟨a', b', he, ha', h'⟩
      have h1 := splitOnce_some.2 ⟨he, ha'⟩
      rw [h] at h1
      simp at h1
      obtain ⟨rfl, rfl⟩ := h1
      exact h'

/-- C12: a URL outside the whitelist with a dangerous scheme is replaced by `#invalid-url`. -/
theorem C12_dangerous_rejected (e : Ext) (u : Str) (hp : ¬ PassedHref u) (hd : Dangerous e u) :
    normalizeHref e u = c!"#invalid-url" := by
  unfold normalizeHref
  rw [if_neg (fun h => hp ((passed_iff u).1 h)), if_pos ((dangerous_iff e u).2 hd)]

/-- C12: whitelisted URLs, fragments and the inert link are returned unchanged. -/
theorem C12_passed_unchanged (e : Ext) (u : Str) (hp : PassedHref u) : normalizeHref e u = u := by
  unfold normalizeHref
  rw [if_pos ((passed_iff u).2 hp)]

example : ¬ PassedHref c!"DATA:text/html,x" ∧ Dangerous ⟨id, fun _ => false⟩ c!"DATA:text/html,x" := by
  refine ⟨fun h => absurd ((passed_iff _).2 h) (by decide +kernel), c!"DATA", c!"text/html,x", rfl, by decide, ?_⟩
  exact Or.inr (Or.inr (Or.inr (by decide)))
example : normalizeHref ⟨id, fun _ => false⟩ c!" javascript:x" = c!"#invalid-url" := by decide +kernel

/-- Specification: the prefix is added exactly when missing. -/
def withPrefix (w : Str) : Str := if c!"u-" <+: w then w else c!"u-" ++ w

private theorem isolate_fold (ws : List Str) (acc : Str) (hacc : acc ≠ []) :
    ws.foldl (fun acc cls =>
      let acc := if acc.isEmpty then acc else acc ++ c!" "
      let acc := if startsWith cls c!"u-" then acc else acc ++ c!"u-"
      acc ++ cls) acc = acc ++ ws.flatMap fun w => c!" " ++ withPrefix w := by
  induction ws generalizing acc with
  | nil => simp
  | cons w ws ih =>
    rw [List.foldl_cons, ih _ (by simp [hacc]; split <;> simp)]
    simp only [List.isEmpty_iff, hacc, if_false, withPrefix, ← startsWith_iff, List.flatMap_cons]
    split <;> simp

private theorem flatMap_join (ws : List Str) (w : Str) :
    w ++ (ws.flatMap fun w => c!" " ++ w) = joinWith c!" " (w :: ws) := by
  induction ws generalizing w with
  | nil => simp [joinWith]
  | cons v ws ih => rw [joinWith_cons_cons, ← ih]; simp

/-- C13: isolation splits at whitespace, gives each word the prefix exactly when it lacks it, and joins
with single spaces. -/
theorem C13_isolate_ids (s : Str) :
    isolateIds s = joinWith c!" " ((splitWS s).map withPrefix) := by
  unfold isolateIds
  have hw := splitWS_words s
  cases h : splitWS s with
  | nil => rfl
  | cons w ws =>
    rw [h] at hw
    have hne := (hw w (by simp)).1
    rw [List.foldl_cons, isolate_fold _ _ (by simp [hne])]
    simp only [List.isEmpty_nil, if_true, List.map_cons]
    rw [← flatMap_join, List.flatMap_map]
    congr 1
    simp only [withPrefix, ← startsWith_iff]
    split <;> simp

/-- C13: every word of the result carries the prefix, and there are as many words as in the input. -/
theorem C13_all_prefixed (s : Str) :
    (splitWS (isolateIds s)) = (splitWS s).map withPrefix ∧
    ∀ w ∈ splitWS (isolateIds s), c!"u-" <+: w := by
  have hw := splitWS_words s
  have h1 : splitWS (isolateIds s) = (splitWS s).map withPrefix := by
    rw [C13_isolate_ids]
    apply splitWS_join
    intro w hw'
    obtain ⟨v, hv, rfl⟩ := List.mem_map.1 hw'
    obtain ⟨h1, h2⟩ := hw v hv
    unfold withPrefix
    split
    · exact ⟨h1, h2⟩
    · refine ⟨by simp, ?_⟩
      intro c hc
      simp at hc
      rcases hc with rfl | rfl | hc
      · decide
      · decide
      · exact h2 c hc
  refine ⟨h1, ?_⟩
  rw [h1]
  intro w hw'
  obtain ⟨v, hv, rfl⟩ := List.mem_map.1 hw'
  unfold withPrefix
  split
  · assumption
  · exact List.prefix_append _ _

/-- C13: isolating twice is isolating once. -/
theorem C13_idempotent (s : Str) : isolateIds (isolateIds s) = isolateIds s := by
  rw [C13_isolate_ids (isolateIds s), (C13_all_prefixed s).1, C13_isolate_ids s, List.map_map]
  congr 1
  apply List.map_congr_left
  intro w _
  have : c!"u-" <+: withPrefix w := by
    unfold withPrefix; split
    · assumption
    · exact List.prefix_append _ _
  show withPrefix (withPrefix w) = withPrefix w
  rw [withPrefix, if_pos this]

example : isolateIds c!" apple \t u-banana" = c!"u-apple u-banana" := by decide +kernel

end Ftml
