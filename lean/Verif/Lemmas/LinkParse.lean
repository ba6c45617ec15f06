import Verif.Lemmas.Lexing
/-
Destinations of links are understood as written.
-/
namespace Ftml
open Markup

theorem trimmed_of {s : Str} (h : trim s = s) : Trimmed s := by rw [← h]; exact trim_trimmed s

theorem Trimmed.append {a b : Str} (ha : Trimmed a) (hb : Trimmed b) (hane : a ≠ []) : Trimmed (a ++ b) := by
  obtain ⟨c, a', rfl⟩ := List.exists_cons_of_ne_nil hane
  constructor
  · intro d hd
    exact ha.1 d (by simpa using hd)
  · intro d hd
    by_cases hbe : b = []
    · subst hbe
      exact ha.2 d (by simpa using hd)
    · have hd' := hd
      rw [List.getLast?_append, List.getLast?_eq_some_getLast hbe] at hd'
      exact hb.2 d (by rw [List.getLast?_eq_some_getLast hbe]; simpa using hd')

theorem trimmed_char {c : Char} (h : isWS c = false) : Trimmed [c] := by
  constructor <;> (intro d hd; simp at hd; rw [← hd]; exact h)

theorem plainText_nil : plainText [] = [] := rfl
theorem plainText_cons (p : Plain) (ps : List Plain) : plainText (p :: ps) = p.str ++ plainText ps := rfl

theorem plain_str_ne {p : Plain} (h : p.ok = true) : p.str ≠ [] := by
  cases p with
  | word s => intro e; simp only [Plain.str] at e; subst e; simp [Plain.ok] at h
  | char c => simp [Plain.str]
  | blanks n => simp [Plain.str]

theorem plainText_ne {ps : List Plain} (h : ps.all Plain.ok = true) (hne : ps ≠ []) : plainText ps ≠ [] := by
  cases ps with
  | nil => exact (hne rfl).elim
  | cons p ps =>
    simp only [List.all_cons, Bool.and_eq_true] at h
    simp [plainText_cons, plain_str_ne h.1]

/-- Excluded characters do not occur. -/
theorem without_not {cs : Str} {ps : List Plain} (h : without cs ps = true) {c : Char} (hc : c ∈ cs)
    (ha : isAlnumA c = false) (hb : c ≠ ' ') : c ∉ plainText ps := by
  induction ps with
  | nil => simp [plainText]
  | cons p ps ih =>
    simp only [without, List.all_cons, Bool.and_eq_true] at h
    rw [plainText_cons, List.mem_append, not_or]
    refine ⟨?_, ih h.2⟩
    cases p with
    | word s =>
      intro hm
      have := h.1.1
      simp only [Plain.ok, Bool.and_eq_true, List.all_eq_true] at this
      rw [this.2 c hm] at ha
      cases ha
    | char d =>
      intro hm
      simp only [Plain.str, List.mem_singleton] at hm
      subst hm
      have := h.1.2
      simp [hc] at this
    | blanks n =>
      intro hm
      simp only [Plain.str, List.mem_replicate] at hm
      exact hb hm.2

/-- Texts cut at the first of some characters. -/
theorem cut_unique {q : Char → Prop} {a b a' b' : Str} (h : a ++ b = a' ++ b') (ha : ∀ c ∈ a, ¬ q c) (ha' : ∀ c ∈ a', ¬ q c)
    (hb : ∀ c, b.head? = some c → q c) (hb' : ∀ c, b'.head? = some c → q c) : a = a' ∧ b = b' := by
  induction a generalizing a' with
  | nil =>
    cases a' with
    | nil => exact ⟨rfl, h⟩
    | cons c a' =>
      rw [List.nil_append] at h
      exact absurd (hb c (by rw [h]; rfl)) (ha' c (by simp))
  | cons c a ih =>
    cases a' with
    | nil =>
      rw [List.nil_append] at h
      exact absurd (hb' c (by rw [← h]; rfl)) (ha c (by simp))
    | cons c' a' =>
      simp only [List.cons_append, List.cons.injEq] at h
      obtain ⟨h1, h2⟩ := ih h.2 (fun c hc => ha c (by simp [hc])) (fun c hc => ha' c (by simp [hc]))
      exact ⟨by rw [h.1, h1], h2⟩

/-- What `partOk` says. -/
theorem part_facts {ps : List Plain} (h : partOk ps = true) : plainText ps ≠ [] ∧ Trimmed (plainText ps) ∧
    (∀ c ∈ plainText ps, c ≠ '/' ∧ c ≠ '#' ∧ c ≠ ':') := by
  simp only [partOk, Bool.and_eq_true, Bool.not_eq_true', List.isEmpty_eq_false_iff, beq_iff_eq] at h
  obtain ⟨⟨h1, h2⟩, h3⟩ := h
  have hok : ps.all Plain.ok = true := by
    refine List.all_eq_true.2 fun p hp => ?_
    have := List.all_eq_true.1 h1 p hp
    simp only [Bool.and_eq_true] at this
    exact this.1
  refine ⟨plainText_ne hok h2, trimmed_of h3, fun c hc => ⟨?_, ?_, ?_⟩⟩
  all_goals
    rintro rfl
    exact without_not h1 (by decide) (by decide) (by decide) hc

theorem pageName_facts {category : Option (List Plain)} {name : List Plain} (hc : category.all partOk = true)
    (hn : partOk name = true) : pageName category name ≠ [] ∧ Trimmed (pageName category name) ∧
    (∀ c ∈ pageName category name, c ≠ '/' ∧ c ≠ '#') ∧ (pageName category name).head? ≠ some ':' := by
  obtain ⟨n1, n2, n3⟩ := part_facts hn
  cases category with
  | none =>
    refine ⟨n1, n2, fun c hc => ⟨(n3 c hc).1, (n3 c hc).2.1⟩, fun h => ?_⟩
    exact (n3 ':' (List.mem_of_mem_head? h)).2.2 rfl
  | some cat =>
    obtain ⟨c1, c2, c3⟩ := part_facts (by simpa using hc)
    have e : pageName (some cat) name = plainText cat ++ ([':'] ++ plainText name) := rfl
    rw [e]
    refine ⟨by simp, c2.append ((trimmed_char (by decide)).append n2 (by simp)) c1, ?_, ?_⟩
    · intro c hc
      simp only [List.mem_append, List.mem_singleton] at hc
      rcases hc with h | rfl | h
      · exact ⟨(c3 c h).1, (c3 c h).2.1⟩
      · exact ⟨by decide, by decide⟩
      · exact ⟨(n3 c h).1, (n3 c h).2.1⟩
    · obtain ⟨d, t, ht⟩ := List.exists_cons_of_ne_nil c1
      rw [ht]
      intro h
      simp at h
      exact (c3 d (by rw [ht]; simp)).2.2 h

/-- The text of a destination. -/
def _root_.Ftml.Markup.Dest.str (d : Dest) : Str := d.pieces.flatten

/-- `:site:`. -/
def siteText : Option (List Plain) → Str
  | some s => ':' :: (plainText s ++ [':'])
  | none => []

theorem dest_text (site category : Option (List Plain)) (name more : List Plain) :
    (Dest.page site category name more).str = siteText site ++ pageName category name ++ plainText more := by
  cases site <;> cases category <;>
    simp [Dest.str, Dest.pieces, sitePieces, categoryPieces, siteText, pageName, plainText]

theorem display_site (site : Option (List Plain)) (page : Str) :
    PageRef.display ⟨site.map plainText, page⟩ = siteText site ++ page := by
  cases site <;> simp [PageRef.display, siteText]

/-- How a destination is understood. -/
structure Understood (d : Dest) : Prop where
  trimmed : trim d.str = d.str
  ne : d.str ≠ []
  loc : ∀ iw, LinkLoc.parseInterwiki iw d.str = some (some (d.loc, d.type))
  extra : LinkLoc.parseExtra d.str = d.extra
  shown : stripCategory (d.str.length + 1) d.str = d.shown

theorem splitOnce_at {c : Char} {a b : Str} (h : c ∉ a) : splitOnce c (a ++ c :: b) = some (a, b) := by
  induction a with
  | nil => simp [splitOnce]
  | cons d a ih =>
    simp only [List.mem_cons, not_or] at h
    simp [splitOnce, Ne.symm h.1, ih h.2]

theorem trimStart_of {s : Str} (h : Trimmed s) : trimStart s = s := by
  cases s with
  | nil => rfl
  | cons c s =>
    have := h.1 c rfl
    simp [trimStart, this]

theorem schemes_colon : ∀ s ∈ urlSchemes, s.head? ≠ some ':' ∧ s ≠ [] := by decide

theorem more_facts {more : List Plain} (h4 : without c!":|" more = true)
    (h5 : (more.isEmpty || more.head? == some (.char '/') || more.head? == some (.char '#')) = true) :
    ':' ∉ plainText more ∧ (∀ c, (plainText more).head? = some c → c = '/' ∨ c = '#') ∧
    (more = [] ↔ plainText more = []) := by
  refine ⟨without_not h4 (by decide) (by decide) (by decide), ?_, ?_⟩
  · intro c hc
    cases more with
    | nil => simp [plainText] at hc
    | cons m more =>
      simp only [List.isEmpty_cons, List.head?_cons, Bool.false_or, Bool.or_eq_true, beq_iff_eq, Option.some.injEq] at h5
      rcases h5 with rfl | rfl
      · left; simpa [plainText, Plain.str] using hc.symm
      · right; simpa [plainText, Plain.str] using hc.symm
  · constructor
    · rintro rfl; rfl
    · intro h
      cases more with
      | nil => rfl
      | cons m more =>
        simp only [List.isEmpty_cons, List.head?_cons, Bool.false_or, Bool.or_eq_true, beq_iff_eq, Option.some.injEq] at h5
        rcases h5 with rfl | rfl <;> simp [plainText, Plain.str] at h

theorem understood_page {site category : Option (List Plain)} {name more : List Plain}
    (h : (Dest.page site category name more).ok = true) : Understood (.page site category name more) := by
  simp only [Dest.ok, Bool.and_eq_true] at h
  obtain ⟨⟨⟨⟨⟨⟨⟨h1, h2⟩, h3⟩, h4⟩, h5⟩, h6⟩, h7⟩, h8⟩ := h
  obtain ⟨p1, p2, p3, p4⟩ := pageName_facts h2 h3
  obtain ⟨m1, m2, m3⟩ := more_facts h4 h5
  have hm := trimmed_of (by simpa using h6 : trim (plainText more) = plainText more)
  obtain ⟨n1, n2, n3⟩ := part_facts h3
  have hsite : ∀ s, site = some s → plainText s ≠ [] ∧ Trimmed (plainText s) ∧ ∀ c ∈ plainText s, c ≠ '/' ∧ c ≠ '#' ∧ c ≠ ':' := by
    rintro s rfl
    exact part_facts (by simpa using h1)
  have hst : Trimmed (siteText site ++ pageName category name) := by
    cases site with
    | none => simpa [siteText] using p2
    | some s =>
      have e : siteText (some s) ++ pageName category name = [':'] ++ (plainText s ++ ([':'] ++ pageName category name)) := by
        simp [siteText]
      rw [e]
      obtain ⟨s1, s2, _⟩ := hsite s rfl
      exact (trimmed_char (by decide)).append (s2.append ((trimmed_char (by decide)).append p2 (by simp)) s1) (by simp)
  have hbne : siteText site ++ pageName category name ≠ [] := by simp [p1]
  have hb : ∀ c ∈ siteText site ++ pageName category name, c ≠ '/' ∧ c ≠ '#' := by
    intro c hc
    rcases List.mem_append.1 hc with hc | hc
    · cases site with
      | none => simp [siteText] at hc
      | some s =>
        obtain ⟨_, _, s3⟩ := hsite s rfl
        simp only [siteText, List.mem_cons, List.mem_append, List.not_mem_nil, or_false] at hc
        rcases hc with rfl | hc | rfl
        · exact ⟨by decide, by decide⟩
        · exact ⟨(s3 c hc).1, (s3 c hc).2.1⟩
        · exact ⟨by decide, by decide⟩
    · exact p3 c hc
  have htr : Trimmed (siteText site ++ pageName category name ++ plainText more) := hst.append hm hbne
  -- the start
  have hhead : ∀ c, (siteText site ++ pageName category name ++ plainText more).head? = some c →
      c ≠ '!' ∧ c ≠ '#' ∧ c ≠ '/' := by
    intro c hc
    obtain ⟨d, t, ht⟩ := List.exists_cons_of_ne_nil hbne
    have hd := hb d (by rw [ht]; simp)
    have hcd : c = d := by
      rw [ht] at hc; simp at hc; exact hc.symm
    subst hcd
    refine ⟨?_, hd.2, hd.1⟩
    rintro rfl
    cases site with
    | some s => simp [siteText] at ht
    | none =>
      simp only [siteText, List.nil_append] at ht
      rw [ht] at h7
      simp at h7
  have hnv : ¬ Verbatim (siteText site ++ pageName category name ++ plainText more) := by
    rintro (⟨s, hs, hp⟩ | hh | hh)
    · cases site with
      | some s' =>
        obtain ⟨h', hne⟩ := schemes_colon s hs
        obtain ⟨t, ht⟩ := hp
        obtain ⟨d, s, rfl⟩ := List.exists_cons_of_ne_nil hne
        simp [siteText] at ht h'
        exact h' ht.1
      | none =>
        simp only [siteText, List.nil_append] at hp
        simp only [Bool.not_eq_true', isUrl, List.any_eq_false] at h8
        exact h8 s hs (startsWith_iff.2 hp)
    · exact (hhead _ hh).2.1 rfl
    · exact (hhead _ hh).2.2 rfl
  obtain ⟨base, extra, e1, e2, e3, e4, e5, e6⟩ := C22_split _ hnv
  obtain ⟨rfl, rfl⟩ := cut_unique (q := fun c => c = '/' ∨ c = '#') e1 (fun c hc => by have := hb c hc; simp [this])
    (fun c hc => by rintro (rfl | rfl); exact e2 hc; exact e3 hc) m2 (by
      intro c hc
      rcases e4 with h | h | h
      · rw [h] at hc; simp at hc
      · rw [h] at hc; simp at hc; exact .inl hc.symm
      · rw [h] at hc; simp at hc; exact .inr hc.symm)
  have hpr : PageRef.parse (siteText site ++ pageName category name) = some ⟨site.map plainText, pageName category name⟩ := by
    rw [← display_site]
    refine C16_round_trip _ p1 p2 ?_ (fun _ => p4)
    intro s hs
    cases site with
    | none => simp at hs
    | some s' =>
      simp at hs
      subst hs
      obtain ⟨s1, s2, s3⟩ := hsite s' rfl
      exact ⟨s1, s2, fun h => (s3 _ h).2.2 rfl⟩
  refine ⟨?_, ?_, fun iw => ?_, ?_, ?_⟩
  · rw [dest_text]; exact trim_of_trimmed htr
  · rw [dest_text]; simp [p1]
  · rw [dest_text, LinkLoc.parseInterwiki]
    have : stripPfx c!"!" (siteText site ++ pageName category name ++ plainText more) = none := by
      cases hs : stripPfx c!"!" (siteText site ++ pageName category name ++ plainText more) with
      | none => rfl
      | some r =>
        have := stripPfx_some.1 hs
        exact ((hhead '!' (by rw [this]; rfl)).1 rfl).elim
    rw [this]
    simp only [e6, hpr]
    rfl
  · rw [dest_text, e5]
    cases more with
    | nil => rfl
    | cons m more =>
      rw [if_neg (fun h => by cases m3.2 h)]
      rfl
  · rw [dest_text]
    have hnm : ':' ∉ plainText name ++ plainText more := by
      rw [List.mem_append, not_or]
      exact ⟨fun h => (n3 _ h).2.2 rfl, m1⟩
    have tnm : Trimmed (plainText name ++ plainText more) := n2.append hm n1
    have cat : ∀ n, stripCategory (n + 1) (pageName category name ++ plainText more) =
        match category with | none => none | some _ => some (plainText name ++ plainText more) := by
      intro n
      cases category with
      | none =>
        show stripCategory (n + 1) (plainText name ++ plainText more) = none
        rw [stripCategory, splitOnce_none.2 hnm]
      | some c =>
        obtain ⟨c1, c2, c3⟩ := part_facts (by simpa using h2 : partOk c = true)
        have e : pageName (some c) name ++ plainText more = plainText c ++ ':' :: (plainText name ++ plainText more) := by
          simp [pageName]
        rw [e, stripCategory, splitOnce_at (fun h => (c3 _ h).2.2 rfl)]
        obtain ⟨d, t, ht⟩ := List.exists_cons_of_ne_nil c1
        rw [ht]
        simp only
        rw [trimStart_of tnm]
    cases site with
    | none =>
      simp only [siteText, List.nil_append]
      rw [cat]
      cases category <;> rfl
    | some s =>
      obtain ⟨s1, s2, s3⟩ := hsite s rfl
      have e : siteText (some s) ++ pageName category name ++ plainText more =
          ':' :: (plainText s ++ ':' :: (pageName category name ++ plainText more)) := by simp [siteText]
      rw [e, stripCategory]
      have : splitOnce ':' (':' :: (plainText s ++ ':' :: (pageName category name ++ plainText more))) =
          some ([], plainText s ++ ':' :: (pageName category name ++ plainText more)) := by simp [splitOnce]
      rw [this]
      simp only
      rw [splitOnce_at (fun h => (s3 _ h).2.2 rfl)]
      simp only
      rw [trimStart_of (p2.append hm p1)]
      have : (':' :: (plainText s ++ ':' :: (pageName category name ++ plainText more))).length =
        ((plainText s ++ (pageName category name ++ plainText more)).length + 1) + 1 := by simp only [List.length_cons, List.length_append]; omega
      rw [this, cat]
      cases category <;> rfl

theorem understood_address {a : Address} (h : (Dest.address a).ok = true) : Understood (.address a) := by
  simp only [Dest.ok, Bool.and_eq_true, beq_iff_eq] at h
  obtain ⟨h1, h2⟩ := h
  have e : (Dest.address a).str = a.str := rfl
  have hv : Verbatim a.str ∧ a.str ≠ [] ∧ a.str.head? ≠ some ':' ∧ a.str.head? ≠ some '!' := by
    cases a with
    | path more =>
      have : (Address.path more).str = '/' :: plainText more := rfl
      rw [this]
      exact ⟨.inr (.inr rfl), by simp, by simp, by simp⟩
    | web url =>
      have : (Address.web url).str = url := by simp [Address.str, Address.pieces]
      rw [this]
      simp only [Address.ok, urlOk, List.any_eq_true, Bool.and_eq_true, decide_eq_true_eq] at h1
      obtain ⟨p, hp, ⟨hpre, _⟩, _⟩ := h1
      have hpre := startsWith_iff.1 hpre
      refine ⟨.inl ⟨p, ?_, hpre⟩, ?_⟩
      · simp only [List.mem_cons, List.not_mem_nil, or_false] at hp
        rcases hp with rfl | rfl | rfl <;> decide
      · obtain ⟨t, rfl⟩ := hpre
        simp only [List.mem_cons, List.not_mem_nil, or_false] at hp
        rcases hp with rfl | rfl | rfl <;> simp
  obtain ⟨v1, v2, v3, v4⟩ := hv
  obtain ⟨c1, c2⟩ := C22_verbatim _ v1
  refine ⟨by rw [e, h2], by rw [e]; exact v2, fun iw => ?_, by rw [e, c2]; rfl, ?_⟩
  · rw [e, LinkLoc.parseInterwiki]
    have : stripPfx c!"!" a.str = none := by
      cases hs : stripPfx c!"!" a.str with
      | none => rfl
      | some r =>
        have := stripPfx_some.1 hs
        exact (v4 (by rw [this]; rfl)).elim
    rw [this]
    simp only [c1]
    rfl
  · rw [e, stripCategory, Dest.shown]
    by_cases hc : ':' ∈ a.str
    · rw [if_pos hc]
      obtain ⟨x, y, hxy, hnx⟩ : ∃ x y, a.str = x ++ ':' :: y ∧ ':' ∉ x := by
        obtain ⟨x, y, h⟩ := List.append_of_mem hc
        clear v1 v2 v3 v4 c1 c2 h1 h2 e
        cases hs : splitOnce ':' a.str with
        | none => exact absurd hc (splitOnce_none.1 hs)
        | some q => exact ⟨q.1, q.2, (splitOnce_some.1 hs).1, (splitOnce_some.1 hs).2⟩
      rw [hxy, splitOnce_at hnx]
      have hd : (x ++ ':' :: y).dropWhile (· != ':') = ':' :: y := by
        clear hxy
        induction x with
        | nil => simp
        | cons d x ih =>
          simp only [List.mem_cons, not_or] at hnx
          simp [Ne.symm hnx.1, ih hnx.2]
      rw [hd]
      cases x with
      | nil => rw [hxy] at v3; simp at v3
      | cons d x => rfl
    · rw [if_neg hc, splitOnce_none.2 hc]

theorem understood {d : Dest} (h : d.ok = true) : Understood d := by
  cases d with
  | page site category name more => exact understood_page h
  | address a => exact understood_address h

end Ftml
