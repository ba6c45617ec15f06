import Verif.Lemmas.WrapRun
import Verif.Lemmas.LinkParse
import Verif.Props.LexLines
/-
Links and other marks are parsed to their meaning.
-/
namespace Ftml
open M Markup Lexer
variable {env : Env}

theorem slices_pairs {xs : List ETok} {l : List (Token × Str)} (h : xs.map ETok.pair = l) :
    slicesOf xs = (l.map (·.2)).flatten := by
  subst h
  simp only [slicesOf, List.map_map]
  rfl

/-- Tokens other than these. -/
def Avoids (ts : List Token) (xs : List ETok) : Prop := ∀ x ∈ xs, x.token ∉ ts ∧ x.token ≠ .inputEnd

theorem goes_cur {cl inv : List Token} {xs : List ETok} {x : ETok} {rest : List ETok} (h : Avoids (cl ++ inv) xs) :
    ∀ a b, xs = a ++ b → b ≠ [] → Goes (cl.map .cur) (inv.map .cur) (b ++ x :: rest) := by
  intro a b e hb
  obtain ⟨z, zs, rfl⟩ := List.exists_cons_of_ne_nil hb
  obtain ⟨h1, h2⟩ := h z (by rw [e]; simp)
  simp only [List.mem_append, not_or] at h1
  refine ⟨by simp, ?_, ?_, by simpa using h2⟩
  · simp only [List.cons_append, Meets, List.any_map, List.any_eq_false]
    intro t ht
    simp only [Function.comp_apply, beq_iff_eq]
    rintro rfl
    exact h1.1 ht
  · simp only [List.cons_append, Meets, List.any_map, List.any_eq_false]
    intro t ht
    simp only [Function.comp_apply, beq_iff_eq]
    rintro rfl
    exact h1.2 ht

theorem plains_avoid {ps : List Plain} {xs : List ETok} (h : xs.map ETok.pair = ps.map Plain.lex) (ts : List Token)
    (ht : ∀ t ∈ ts, isPlainTok t = false) : Avoids ts xs := by
  intro x hx
  have := (plains_tok h).1 x hx
  refine ⟨fun hm => ?_, fun e => ?_⟩
  · rw [ht _ hm] at this; cases this
  · rw [e] at this; cases this

theorem char_tok_of {c : Char} : (charTok c = .rightBracket → c = ']') ∧ (charTok c = .pipe → c = '|') ∧ charTok c ≠ .whitespace := by
  unfold charTok
  refine ⟨?_, ?_, ?_⟩
  all_goals
    repeat' split
    all_goals simp_all

theorem without_avoid {cs : Str} {ps : List Plain} {xs : List ETok} (h : xs.map ETok.pair = ps.map Plain.lex)
    (hw : without cs ps = true) (ts : List Token)
    (ht : ∀ t ∈ ts, isPlainTok t = false ∨ (t = .rightBracket ∧ ']' ∈ cs) ∨ (t = .pipe ∧ '|' ∈ cs)) : Avoids ts xs := by
  intro x hx
  have h1 := (plains_tok h).1 x hx
  have hx' : x.pair ∈ ps.map Plain.lex := by rw [← h]; exact List.mem_map.2 ⟨x, hx, rfl⟩
  obtain ⟨p, hp, hpe⟩ := List.mem_map.1 hx'
  have hpo := List.all_eq_true.1 hw p hp
  simp only [Bool.and_eq_true] at hpo
  have htok : x.token = p.lex.1 := congrArg (·.1) hpe.symm
  refine ⟨fun hm => ?_, fun e => ?_⟩
  · rcases ht _ hm with h' | ⟨h', hc⟩ | ⟨h', hc⟩
    · rw [h'] at h1; cases h1
    · rw [h'] at htok
      cases p with
      | word => cases htok
      | blanks => cases htok
      | char c =>
        have := char_tok_of.1 htok.symm
        subst this
        simp [hc] at hpo
    · rw [h'] at htok
      cases p with
      | word => cases htok
      | blanks => cases htok
      | char c =>
        have := char_tok_of.2.1 htok.symm
        subst this
        simp [hc] at hpo
  · rw [e] at h1; cases h1

theorem solid_avoid {cs : Str} {ps : List Plain} {xs : List ETok} (h : xs.map ETok.pair = ps.map Plain.lex)
    (hw : solid cs ps = true) (ts : List Token)
    (ht : ∀ t ∈ ts, isPlainTok t = false ∨ (t = .rightBracket ∧ ']' ∈ cs) ∨ (t = .pipe ∧ '|' ∈ cs) ∨ t = .whitespace) : Avoids ts xs := by
  simp only [solid, Bool.and_eq_true] at hw
  intro x hx
  have hx' : x.pair ∈ ps.map Plain.lex := by rw [← h]; exact List.mem_map.2 ⟨x, hx, rfl⟩
  obtain ⟨p, hp, hpe⟩ := List.mem_map.1 hx'
  have htok : x.token = p.lex.1 := congrArg (·.1) hpe.symm
  have hws : x.token ≠ .whitespace := by
    intro e
    rw [e] at htok
    cases p with
    | word => cases htok
    | blanks n => have := List.all_eq_true.1 hw.2 _ hp; cases this
    | char c => exact char_tok_of.2.2 htok.symm
  have h1 := without_avoid h hw.1 (ts.filter (· != .whitespace)) (by
    intro t ht'
    simp only [List.mem_filter, bne_iff_ne] at ht'
    rcases ht t ht'.1 with h | h | h | h
    · exact .inl h
    · exact .inr (.inl h)
    · exact .inr (.inr h)
    · exact absurd h ht'.2) x hx
  refine ⟨fun hm => h1.1 ?_, h1.2⟩
  simp only [List.mem_filter, bne_iff_ne]
  exact ⟨hm, hws⟩

theorem address_avoid {a : Address} (h : a.ok = true) {xs : List ETok} (hx : xs.map ETok.pair = a.lex) :
    Avoids [.whitespace, .rightBracket, .paragraphBreak, .lineBreak, .pipe, .rightLink] xs := by
  cases a with
  | web url =>
    obtain ⟨u, rfl, hu⟩ := List.map_eq_singleton_iff.1 hx
    have : u.token = .url := congrArg (·.1) hu
    intro x hx
    simp at hx
    subst hx
    rw [this]
    decide
  | path more =>
    obtain ⟨s, ys, rfl, hs, hys⟩ := List.map_eq_cons_iff.1 hx
    have : s.token = .other := congrArg (·.1) hs
    intro x hx
    rcases List.mem_cons.1 hx with rfl | hx
    · rw [this]; decide
    · exact solid_avoid hys h _ (by decide) x hx

theorem Avoids.append {ts : List Token} {xs ys : List ETok} (h1 : Avoids ts xs) (h2 : Avoids ts ys) : Avoids ts (xs ++ ys) := by
  intro x hx
  rcases List.mem_append.1 hx with hx | hx
  · exact h1 x hx
  · exact h2 x hx
theorem Avoids.single {ts : List Token} {x : ETok} {t : Token} {s : Str} (h : x.pair = (t, s)) (ht : t ∉ ts) (hi : t ≠ .inputEnd) :
    Avoids ts [x] := by
  intro y hy
  simp at hy
  subst hy
  have : y.token = t := congrArg (·.1) h
  rw [this]
  exact ⟨ht, hi⟩
theorem Avoids.mono {ts ts' : List Token} {xs : List ETok} (h : Avoids ts xs) (hs : ∀ t ∈ ts', t ∈ ts) : Avoids ts' xs :=
  fun x hx => ⟨fun hm => (h x hx).1 (hs _ hm), (h x hx).2⟩

theorem part_avoid {ps : List Plain} (h : partOk ps = true) {xs : List ETok} (hx : xs.map ETok.pair = ps.map Plain.lex) :
    Avoids [.pipe, .rightLink, .paragraphBreak, .lineBreak] xs := by
  simp only [partOk, Bool.and_eq_true] at h
  exact without_avoid hx h.1.1 _ (by decide)

theorem dest_avoid {d : Dest} (h : d.ok = true) {xs : List ETok} (hx : xs.map ETok.pair = d.lex) :
    Avoids [.pipe, .rightLink, .paragraphBreak, .lineBreak] xs := by
  cases d with
  | address a =>
    simp only [Dest.ok, Bool.and_eq_true] at h
    exact (address_avoid h.1 hx).mono (by decide)
  | page site category name more =>
    simp only [Dest.ok, Bool.and_eq_true] at h
    obtain ⟨⟨⟨⟨⟨⟨⟨h1, h2⟩, h3⟩, h4⟩, _⟩, _⟩, _⟩, _⟩ := h
    obtain ⟨ss, ys, rfl, hss, hys⟩ := map_append_split hx
    obtain ⟨cs, zs, rfl, hcs, hzs⟩ := map_append_split hys
    obtain ⟨ns, ms, rfl, hns, hms⟩ := map_append_split hzs
    refine Avoids.append ?_ (Avoids.append ?_ (Avoids.append (part_avoid h3 hns) (without_avoid hms h4 _ (by decide))))
    · cases site with
      | none => simp [siteLex] at hss; subst hss; intro x hx; simp at hx
      | some s =>
        obtain ⟨o, ys, rfl, ho, hys⟩ := List.map_eq_cons_iff.1 hss
        obtain ⟨us, vs, rfl, hus, hvs⟩ := map_append_split hys
        obtain ⟨c, rfl, hc⟩ := List.map_eq_singleton_iff.1 hvs
        exact Avoids.append (xs := [o]) (.single ho (by decide) (by decide)) (Avoids.append (part_avoid h1 hus) (.single hc (by decide) (by decide)))
    · cases category with
      | none => simp [categoryLex] at hcs; subst hcs; intro x hx; simp at hx
      | some s =>
        obtain ⟨us, vs, rfl, hus, hvs⟩ := map_append_split hcs
        obtain ⟨c, rfl, hc⟩ := List.map_eq_singleton_iff.1 hvs
        exact Avoids.append (part_avoid h2 hus) (.single hc (by decide) (by decide))

theorem word_facts {m : ETok} {name : Str} (hm : m.pair = (.identifier, name)) (hword : (Plain.word name).ok = true) :
    slicesOf [m] = name ∧ (∀ x ∈ [m], endsName x.token = false ∧ x.token ≠ .inputEnd) ∧ trim (slicesOf [m]) = slicesOf [m] ∧
      stripSfx c!"_" (slicesOf [m]) = none := by
  have h1 : m.slice = name := congrArg (·.2) hm
  have h2 : m.token = .identifier := congrArg (·.1) hm
  have h3 : slicesOf [m] = name := by simp [slicesOf, h1]
  refine ⟨h3, by simp [h2, endsName], ?_, ?_⟩
  · rw [h3]; exact trim_word hword
  · rw [h3]; exact stripSfx_word hword

theorem value_head {ps : List Plain} (h : valueOk ps = true) {xs : List ETok} (hx : xs.map ETok.pair = ps.map Plain.lex)
    (rest : List ETok) : ((xs ++ rest).headD default).token ≠ .whitespace := by
  simp only [valueOk, Bool.and_eq_true, Bool.not_eq_true'] at h
  cases ps with
  | nil => simp at h
  | cons p ps =>
    obtain ⟨x, xs, rfl, hx, _⟩ := List.map_eq_cons_iff.1 hx
    have htok : x.token = p.lex.1 := congrArg (·.1) hx
    show x.token ≠ _
    rw [htok]
    cases p with
    | word => simp [Plain.lex]
    | blanks n => simp [Plain.isBlank] at h
    | char c => exact char_tok_of.2.2

/-- A block with a value, and without contents. -/
theorem value_block {star : Bool} {name : Str} {value : List Plain} {br : BlockRule} {mk : Str → Kind}
    (hrule : getBlockRule name = some br) (hstar : star = true → br.info.star = true) (hnl : br.info.newlines = false)
    (hw : (Plain.word name).ok = true) (hv : valueOk value = true)
    (hparse : ∀ cons, br.parse cons ⟨name, star, false, true⟩ = (do
      let v ← getHeadValue br.info true trimmedArg
      okE [.mk (mk v) []]))
    (hkp : ∀ v, (mk v).paragraphSafe? = some true)
    {xs rest : List ETok} {sol : Bool}
    (hxs : xs.map ETok.pair = (if star then (.leftBlockStar, c!"[[*") else (.leftBlock, c!"[[")) ::
      (.identifier, name) :: (.whitespace, c!" ") :: (value.map Plain.lex ++ [(.rightBlock, c!"]]")]))
    (hr : rest ≠ []) (hs : (xs ++ rest) <:+ (tokenize env.text).tokens) :
    Eats env 1 sol xs rest [.mk (mk (trim (plainText value))) []] true [] := by
  obtain ⟨l, os, rfl, hl, hos⟩ := List.map_eq_cons_iff.1 hxs
  obtain ⟨m, os, rfl, hm, hos⟩ := List.map_eq_cons_iff.1 hos
  obtain ⟨d, os, rfl, hd, hos⟩ := List.map_eq_cons_iff.1 hos
  obtain ⟨vs, rs, rfl, hvs, hrs⟩ := map_append_split hos
  obtain ⟨r, rfl, hr0⟩ := List.map_eq_singleton_iff.1 hrs
  have hrt : r.token = .rightBlock := congrArg (·.1) hr0
  have hdt : d.token = .whitespace := congrArg (·.1) hd
  have hlt : l.token = if star then .leftBlockStar else .leftBlock := by
    have : l.token = _ := congrArg (·.1) hl
    rw [this]; cases star <;> rfl
  obtain ⟨n1, n2, n3, n4⟩ := word_facts hm hw
  obtain ⟨hvt, hvv⟩ := plains_tok hvs
  have e0 : l :: m :: d :: (vs ++ [r]) ++ rest = l :: ([m] ++ d :: (vs ++ r :: rest)) := by simp
  rw [e0] at hs
  have hs1 := List.IsSuffix.trans (List.suffix_cons l _) hs
  have hs2 := List.IsSuffix.trans (List.suffix_append [m, d] _) hs1
  refine eats_rule' hr (rs1 := []) (rs2 := []) (r := if star then .blockStar else .block) (r' := .blk br.info.name) (n := 0)
    (by rw [hlt]; cases star <;> rfl) (by simp) (by cases star <;> simp [RuleId.needsLineStart]) (noParts_cons (fun q e => by have := hkp (trim (plainText value)); rw [e] at this; cases this) noParts_nil) ?_
  intro fuel p sh _ _
  have hfn : ruleFn (consume fuel) (if star = true then RuleId.blockStar else RuleId.block) = ruleBlock (consume fuel) star := by
    cases star <;> rfl
  have hsol : solAfter (l :: m :: d :: (vs ++ [r])) = false := by
    have := solAfter_append (l :: m :: d :: vs) r
    rw [hrt] at this
    exact this
  rw [hfn, hsol, e0]
  refine ruleBlock_run (ns := [m]) (c := d) (rest := vs ++ r :: rest) (br := br) hlt (by simp) n2 (.inl hdt) (by simp) n3 hs1 n4
    (by rw [n1]; exact hrule) hstar (fun _ => value_head hv hvs _) (by rw [n1, hdt]) ?_ (by cases vs with | nil => simpa using hr | cons v vs => simp)
  rw [if_pos hdt]
  have hin : (Token.whitespace == Token.whitespace) = true := rfl
  rw [hin, hparse]
  rw [bind_ok (getHeadValue_at (v := trim (plainText value)) hrt hr ?_ hs2 (by rw [hvv]; rfl) (by simp [hnl]))]
  · unfold okE
    have : elementsParagraphSafe? [.mk (mk (trim (plainText value))) []] = some true := by
      simp [elementsParagraphSafe?, Elem.kind, hkp]
    rw [this]
    rfl
  · intro x hx
    have := hvt x hx
    revert this; cases x.token <;> simp [isPlainTok, isLineTok]

theorem address_valid {a : Address} (h : a.ok = true) : urlValid a.str = true ∧ LinkLoc.parseExtra a.str = none := by
  cases a with
  | path more =>
    have e : (Address.path more).str = '/' :: plainText more := rfl
    rw [e]
    exact ⟨rfl, rfl⟩
  | web url =>
    have e : (Address.web url).str = url := by simp [Address.str, Address.pieces]
    rw [e]
    have hu : isUrl url = true := by
      simp only [Address.ok, urlOk, List.any_eq_true, Bool.and_eq_true] at h
      obtain ⟨q, hq, ⟨hst, _⟩, _⟩ := h
      simp only [isUrl, List.any_eq_true]
      refine ⟨q, ?_, hst⟩
      clear hst
      rename_i h1 h2
      clear h1 h2
      revert q
      decide
    have hne : url ≠ [] := url_ne h
    refine ⟨?_, ?_⟩
    · unfold urlValid
      rw [if_neg (by simpa using hne), hu]
      split <;> rfl
    · simp [LinkLoc.parseExtra, hu]

theorem var_name (name : Str) : (stripPfx c!"{$" (c!"{$" ++ name ++ c!"}")).bind (stripSfx c!"}") = some name := by
  have h1 : stripPfx c!"{$" (c!"{$" ++ name ++ c!"}") = some (name ++ c!"}") := by simp [stripPfx]
  rw [h1]
  simp [stripSfx, stripPfx]

/-- The mark of an image and the name of the block. -/
theorem image_name {side : Option FloatAlign} {block : Str} (hs : side.all (fun s => imageSides.any (·.1 == s)) = true)
    (hb : lowerA block = c!"image") :
    lowerA (plainText (imageMark side) ++ block) = plainText (imageMark side) ++ c!"image" ∧
    trim (plainText (imageMark side) ++ block) = plainText (imageMark side) ++ block ∧
    stripSfx c!"_" (plainText (imageMark side) ++ block) = none ∧
    getBlockRule (plainText (imageMark side) ++ block) = some blockRules[25] ∧
    FloatAlign.parse (plainText (imageMark side) ++ block) = side := by
  have hw : (Plain.word block).ok = true := lower_word hb rfl
  have hlen : block.length = 5 := by
    have := congrArg List.length hb
    simpa [lowerA] using this
  match block, hlen with
  | [c1, c2, c3, c4, c5], _ =>
  have hal : ∀ c ∈ [c1, c2, c3, c4, c5], isAlnumA c = true := (word_chars hw).2
  have hlow : lowerA (plainText (imageMark side) ++ [c1, c2, c3, c4, c5]) = plainText (imageMark side) ++ c!"image" := by
    have : lowerA (plainText (imageMark side)) = plainText (imageMark side) := by
      cases side with
      | none => rfl
      | some s => obtain ⟨a, f⟩ := s; cases a <;> cases f <;> decide +kernel
    rw [lowerA, List.map_append, ← lowerA, ← lowerA, this, hb]
  have hws : ∀ c ∈ plainText (imageMark side), isWS c = false := by
    cases side with
    | none => simp [imageMark, plainText]
    | some s => obtain ⟨a, f⟩ := s; cases a <;> cases f <;> decide +kernel
  have hend : ∀ w : Str, (Plain.word w).ok = true → stripSfx c!"_" (plainText (imageMark side) ++ w) = none := by
    intro w hw
    have hne := (word_chars hw).1
    unfold stripSfx
    rw [List.reverse_append]
    cases hr : w.reverse with
    | nil => simp at hr; exact (hne hr).elim
    | cons c r =>
      have hc : isAlnumA c = true := (word_chars hw).2 c (by have : c ∈ w.reverse := by rw [hr]; simp
                                                             simpa using this)
      have : c ≠ '_' := by rintro rfl; exact absurd hc (by decide)
      simp [stripPfx, Ne.symm this]
  refine ⟨hlow, trim_none ?_, hend _ hw, ?_, ?_⟩
  · intro c hc
    rcases List.mem_append.1 hc with h | h
    · exact hws c h
    · exact alnum_notWS (hal c h)
  · have e : getBlockRule (plainText (imageMark side) ++ [c1, c2, c3, c4, c5]) = getBlockRule (plainText (imageMark side) ++ c!"image") := by
      unfold getBlockRule
      simp only [stripScore, hend _ hw, hend c!"image" (by decide), Option.getD_none, eqIgnoreCase, hlow]
      rw [← hlow, lowerA_idem]
    rw [e]
    cases side with
    | none => exact getBlockRule_idx (k := 25) (by decide +kernel) rfl
    | some s =>
      obtain ⟨a, f⟩ := s
      cases a <;> cases f <;> first
        | exact absurd hs (by decide)
        | exact getBlockRule_idx (k := 25) (by decide +kernel) rfl
  · cases side with
    | some s =>
      obtain ⟨a, f⟩ := s
      cases a <;> cases f <;> first
        | exact absurd hs (by decide)
        | rfl
    | none =>
      have h1 : lowerC c1 = 'i' := by
        have := congrArg List.head? hb
        simpa [lowerA] using this
      show FloatAlign.parse [c1, c2, c3, c4, c5] = none
      have hn : ∀ c, c = '=' ∨ c = '<' ∨ c = '>' ∨ c = 'f' ∨ c = 'F' → lowerC c ≠ 'i' := by
        rintro c (rfl | rfl | rfl | rfl | rfl) <;> decide
      unfold FloatAlign.parse
      split <;> first
        | rfl
        | (rename_i heq; injection heq with heq _; subst heq; exact absurd h1 (by decide))

theorem part_noslash {ps : List Plain} (h : fileOk ps = true) : '/' ∉ plainText ps ∧ plainText ps ≠ [] := by
  simp only [fileOk, solid, without, Bool.and_eq_true, List.all_eq_true] at h
  refine ⟨?_, ?_⟩
  · intro hm
    simp only [plainText, List.mem_flatten, List.mem_map] at hm
    obtain ⟨s, ⟨p, hp, rfl⟩, hc⟩ := hm
    have := h.1.1 p hp
    cases p with
    | word w =>
      have := (word_chars this.1).2 _ hc
      exact absurd this (by decide)
    | blanks n => simp [Plain.str] at hc
    | char c =>
      simp [Plain.str] at hc
      subst hc
      simp at this
  · cases ps with
    | nil => simp at h
    | cons p ps =>
      have := (h.1.1 p (by simp)).1
      intro e
      simp only [plainText, List.map_cons, List.flatten_cons, List.append_eq_nil_iff] at e
      cases p with
      | word w => exact (word_chars this).1 e.1
      | blanks n => simp [Plain.str] at e
      | char c => simp [Plain.str] at e

theorem stripSlash {s : Str} (h : s.head? ≠ some '/') : (stripPfx c!"/" s).getD s = s := by
  cases s with
  | nil => rfl
  | cons c s =>
    have : '/' ≠ c := by simpa [eq_comm] using h
    simp [stripPfx, this]

theorem file_toks {ps : List Plain} (h : fileOk ps = true) {xs : List ETok} (hx : xs.map ETok.pair = ps.map Plain.lex) :
    ∀ x ∈ xs, endsName x.token = false ∧ x.token ≠ .inputEnd := by
  simp only [fileOk, Bool.and_eq_true] at h
  intro x hm
  obtain ⟨h1, h2⟩ := solid_avoid hx h.1 [.whitespace, .lineBreak, .paragraphBreak, .rightBlock] (by decide) x hm
  refine ⟨?_, h2⟩
  revert h1
  cases x.token <;> simp [endsName]

theorem slash_tok {x : ETok} (hx : x.pair = (.other, c!"/")) : endsName x.token = false ∧ x.token ≠ .inputEnd := by
  have : x.token = .other := congrArg (·.1) hx
  rw [this]
  decide

theorem picture_run {p : Picture} (h : p.ok = true) {xs : List ETok} (hx : xs.map ETok.pair = p.lex) :
    slicesOf xs = p.str ∧ (∀ x ∈ xs, endsName x.token = false ∧ x.token ≠ .inputEnd) ∧ trim p.str = p.str ∧
    ImageSource.parse p.str = some p.source ∧ (∀ rest : List ETok, ((xs ++ rest).headD default).token ≠ .whitespace) := by
  have e1 : slicesOf xs = p.str := by rw [slices_pairs hx, picture_str]; rfl
  have hne : xs ≠ [] := by
    rintro rfl
    cases p with
    | web url => simp [Picture.lex] at hx
    | own file =>
      simp only [Picture.ok, Bool.and_eq_true] at h
      refine (part_noslash h.2.1).2 ?_
      have : file = [] := by simpa [Picture.lex] using hx.symm
      rw [this]; rfl
    | ofPage name file => simp [Picture.lex] at hx
    | ofSite host name file => simp [Picture.lex] at hx
  have e2 : ∀ x ∈ xs, endsName x.token = false ∧ x.token ≠ .inputEnd := by
    cases p with
    | web url =>
      obtain ⟨u, rfl, hu⟩ := List.map_eq_singleton_iff.1 hx
      have : u.token = .url := congrArg (·.1) hu
      intro x hx
      simp at hx
      subst hx
      rw [this]
      decide
    | own file =>
      simp only [Picture.ok, Bool.and_eq_true] at h
      exact file_toks h.2.1 hx
    | ofPage name file =>
      simp only [Picture.ok, Bool.and_eq_true] at h
      obtain ⟨as, bs, rfl, ha, hb⟩ := map_append_split hx
      obtain ⟨s, bs, rfl, hs, hb⟩ := List.map_eq_cons_iff.1 hb
      intro x hx
      rcases List.mem_append.1 hx with hx | hx
      · exact file_toks h.2.1.1 ha x hx
      rcases List.mem_cons.1 hx with rfl | hx
      · exact slash_tok hs
      · exact file_toks h.2.1.2 hb x hx
    | ofSite host name file =>
      simp only [Picture.ok, Bool.and_eq_true] at h
      obtain ⟨as, bs, rfl, ha, hb⟩ := map_append_split hx
      obtain ⟨s, bs, rfl, hs, hb⟩ := List.map_eq_cons_iff.1 hb
      obtain ⟨bs', cs, rfl, hb', hc⟩ := map_append_split hb
      obtain ⟨t, cs, rfl, ht, hc⟩ := List.map_eq_cons_iff.1 hc
      intro x hx
      rcases List.mem_append.1 hx with hx | hx
      · exact file_toks h.2.1.1.1 ha x hx
      rcases List.mem_cons.1 hx with rfl | hx
      · exact slash_tok hs
      rcases List.mem_append.1 hx with hx | hx
      · exact file_toks h.2.1.1.2 hb' x hx
      rcases List.mem_cons.1 hx with rfl | hx
      · exact slash_tok ht
      · exact file_toks h.2.1.2 hc x hx
  have e3 : trim p.str = p.str := by
    simp only [Picture.ok, Bool.and_eq_true, beq_iff_eq] at h
    exact h.1
  refine ⟨e1, e2, e3, ?_, ?_⟩
  · have head : ∀ (ps : List Plain) (s : Str), fileOk ps = true → (plainText ps ++ s).head? ≠ some '/' := by
      intro ps s hf
      obtain ⟨h1, h2⟩ := part_noslash hf
      obtain ⟨c, cs, e⟩ := List.exists_cons_of_ne_nil h2
      rw [e] at h1 ⊢
      simp at h1 ⊢
      exact Ne.symm h1.1
    cases p with
    | web url =>
      simp only [Picture.ok, Bool.and_eq_true] at h
      have e : (Picture.web url).str = url := by simp [Picture.str, Picture.pieces]
      have hu : isUrl url = true := by
        have h := h.2
        simp only [urlOk, List.any_eq_true, Bool.and_eq_true] at h
        obtain ⟨q, hq, ⟨hst, _⟩, _⟩ := h
        simp only [isUrl, List.any_eq_true]
        have : ∀ q ∈ [c!"http://", c!"https://", c!"ftp://"], q ∈ urlSchemes := by decide
        exact ⟨q, this q hq, hst⟩
      rw [e]
      simp [ImageSource.parse, hu, Picture.source]
    | own file =>
      simp only [Picture.ok, Bool.and_eq_true, Bool.not_eq_true'] at h
      have e : (Picture.own file).str = plainText file := by simp [Picture.str, Picture.pieces, plainText]
      have hh := head file [] h.2.1
      rw [List.append_nil] at hh
      have hu := h.2.2
      rw [e] at hu ⊢
      simp [ImageSource.parse, hu, stripSlash hh, splitOn_single (part_noslash h.2.1).1, Picture.source]
    | ofPage name file =>
      simp only [Picture.ok, Bool.and_eq_true, Bool.not_eq_true'] at h
      have e : (Picture.ofPage name file).str = plainText name ++ '/' :: plainText file := by
        simp [Picture.str, Picture.pieces, plainText]
      have hu := h.2.2
      rw [e] at hu ⊢
      simp [ImageSource.parse, hu, stripSlash (head name _ h.2.1.1), splitOn_cons (part_noslash h.2.1.1).1,
        splitOn_single (part_noslash h.2.1.2).1, Picture.source]
    | ofSite host name file =>
      simp only [Picture.ok, Bool.and_eq_true, Bool.not_eq_true'] at h
      have e : (Picture.ofSite host name file).str = plainText host ++ '/' :: (plainText name ++ '/' :: plainText file) := by
        simp [Picture.str, Picture.pieces, plainText]
      have hu := h.2.2
      rw [e] at hu ⊢
      simp [ImageSource.parse, hu, stripSlash (head host _ h.2.1.1.1), splitOn_cons (part_noslash h.2.1.1.1).1,
        splitOn_cons (part_noslash h.2.1.1.2).1, splitOn_single (part_noslash h.2.1.2).1, Picture.source]
  · intro rest
    obtain ⟨x, xs, rfl⟩ := List.exists_cons_of_ne_nil hne
    have := (e2 x (by simp)).1
    show x.token ≠ _
    intro e
    rw [e] at this
    cases this

/-- The arguments after a name. -/
theorem nameMap_run {b : BlockInfo} {p : PState} {r : ETok} {args : List Arg} {ns as : List ETok} {T T2 : List ETok} {sh : Shared} {sol sol2 : Bool}
    (hend : HeadEnd b T T2 sol2) (hok : args.all Arg.ok = true)
    (hns : ∀ x ∈ ns, endsName x.token = false ∧ x.token ≠ .inputEnd) (ht : trim (slicesOf ns) = slicesOf ns)
    (has : as.map ETok.pair = args.flatMap Arg.lex) (hr : r.token = .rightBlock) (hT : T ≠ [])
    (hs : (ns ++ (as ++ r :: T)) <:+ (tokenize env.text).tokens) :
    getHeadNameMap b true env ⟨p.at (ns ++ (as ++ r :: T)) sol, sh⟩ = .ok (slicesOf ns, rawArgs args) ⟨p.at T2 sol2, sh⟩ := by
  have hs' := List.IsSuffix.trans (List.suffix_append ns _) hs
  unfold getHeadNameMap
  simp only [Bool.not_true, Bool.false_eq_true, if_false]
  cases args with
  | nil =>
    simp at has
    subst has
    rw [List.nil_append] at hs ⊢
    rw [bind_ok (blockNameInternal_at hns (.inr hr) hT ht hs)]
    dsimp only
    have : (r.token == Token.whitespace) = false := by simp [hr]
    rw [this, bind_ok (getHeadMap_none hend)]
    rfl
  | cons a args =>
    have has' := has
    rw [List.flatMap_cons, Arg.lex, List.cons_append] at has'
    obtain ⟨w, as', rfl, hw, has'⟩ := List.map_eq_cons_iff.1 has'
    have hwt : w.token = .whitespace := congrArg (·.1) hw
    rw [List.cons_append] at hs ⊢
    rw [bind_ok (blockNameInternal_at hns (.inl hwt) (by simp) ht hs)]
    dsimp only
    have : (w.token == Token.whitespace) = true := by simp [hwt]
    rw [this, bind_ok (getHeadMap_args hr hT hok has hs' hend)]
    rfl

/-- An image. -/
theorem image_eats {side : Option FloatAlign} {block : Str} {picture : Picture} {args : List Arg}
    (hok : (Leaf.image side block picture args).ok = true) {xs rest : List ETok} {sol : Bool}
    (hxs : xs.map ETok.pair = (Leaf.image side block picture args).lex)
    (hr : rest ≠ []) (hs : (xs ++ rest) <:+ (tokenize env.text).tokens) :
    Eats env 1 sol xs rest [.mk ((Leaf.image side block picture args).kind env.cx) []] true [] := by
  simp only [Leaf.ok, Bool.and_eq_true, beq_iff_eq] at hok
  obtain ⟨⟨⟨⟨h1, h2⟩, h3⟩, h4⟩, h7⟩ := hok
  obtain ⟨l, os, rfl, hl, hos⟩ := List.map_eq_cons_iff.1 hxs
  obtain ⟨ks, os, rfl, hks, hos⟩ := map_append_split hos
  obtain ⟨m, os, rfl, hm, hos⟩ := List.map_eq_cons_iff.1 hos
  obtain ⟨d, os, rfl, hd, hos⟩ := List.map_eq_cons_iff.1 hos
  obtain ⟨ps, os, rfl, hps, hos⟩ := map_append_split hos
  obtain ⟨as, rs, rfl, has, hrs⟩ := map_append_split hos
  obtain ⟨r, rfl, hr0⟩ := List.map_eq_singleton_iff.1 hrs
  have hrt : r.token = .rightBlock := congrArg (·.1) hr0
  have hdt : d.token = .whitespace := congrArg (·.1) hd
  have hlt : l.token = .leftBlock := congrArg (·.1) hl
  have hmt : m.token = .identifier := congrArg (·.1) hm
  have hms : m.slice = block := congrArg (·.2) hm
  obtain ⟨i1, i2, i3, i4, i5⟩ := image_name h1 h2
  obtain ⟨p1, p2, p3, p4, p5⟩ := picture_run h3 hps
  have hsl : slicesOf (ks ++ [m]) = plainText (imageMark side) ++ block := by
    have := (plains_tok hks).2
    simp only [slicesOf, List.flatMap_append] at this ⊢
    rw [this]
    simp [hms]
  have hkt : ∀ x ∈ ks ++ [m], endsName x.token = false ∧ x.token ≠ .inputEnd := by
    intro x hx
    rcases List.mem_append.1 hx with hx | hx
    · have ht : ks.map (·.token) = (imageMark side).map (·.lex.1) := by
        have := congrArg (List.map (·.1)) hks
        simpa [List.map_map, Function.comp_def] using this
      have : x.token ∈ (imageMark side).map (·.lex.1) := by rw [← ht]; exact List.mem_map_of_mem hx
      revert this
      generalize x.token = t
      revert t
      cases side with
      | none => simp [imageMark]
      | some s => obtain ⟨a, f⟩ := s; cases a <;> cases f <;> decide
    · simp at hx
      subst hx
      simp [hmt, endsName]
  have e0 : l :: (ks ++ m :: d :: (ps ++ (as ++ [r]))) ++ rest = l :: ((ks ++ [m]) ++ d :: (ps ++ (as ++ r :: rest))) := by simp
  rw [e0] at hs
  have hs1 := List.IsSuffix.trans (List.suffix_cons l _) hs
  have hs2 : ps ++ (as ++ r :: rest) <:+ (tokenize env.text).tokens :=
    List.IsSuffix.trans (List.suffix_append (ks ++ [m, d]) _) (by simpa using hs1)
  have hs3 := List.IsSuffix.trans (List.suffix_append ps _) hs2
  refine eats_rule' hr (rs1 := []) (rs2 := []) (r := .block) (r' := .blk blockRules[25].info.name) (n := 0)
    (by rw [hlt]; rfl) (by simp) (by simp [RuleId.needsLineStart]) (noParts_cons (by simp [Leaf.kind]) noParts_nil) ?_
  intro fuel p sh _ _
  have hsol : solAfter (l :: (ks ++ m :: d :: (ps ++ (as ++ [r])))) = false := by
    have := solAfter_append (l :: (ks ++ m :: d :: (ps ++ as))) r
    rw [hrt] at this
    simpa [isLineStartTok] using this
  rw [hsol, e0]
  refine ruleBlock_run (ns := ks ++ [m]) (c := d) (rest := ps ++ (as ++ r :: rest)) (br := blockRules[25]) hlt (by simp) hkt (.inl hdt)
    (by simp) (by rw [hsl]; exact i2) hs1 (by rw [hsl]; exact i3)
    (by rw [hsl]; exact i4) (by simp) (fun _ => p5 _) rfl (out := .ok ⟨[.mk ((Leaf.image side block picture args).kind env.cx) []], [], true⟩ _) ?_ ?_
  · rw [if_pos hdt]
    have hin : (d.token == Token.whitespace) = true := by rw [hdt]; rfl
    rw [hin, hsl]
    show blkImage blockRules[25].info (consume fuel) ⟨plainText (imageMark side) ++ block, false, false, true⟩ env _ = _
    unfold blkImage
    rw [bind_ok (m := noStar _ _ _) (a := ()) rfl, bind_ok (m := noScore _ _ _) (a := ()) rfl]
    rw [bind_ok (nameMap_run (.inl ⟨rfl, rfl, fun h => by cases h⟩) h4 p2 (by rw [p1]; exact p3) has hrt hr hs2)]
    dsimp only
    rw [argGet_raw, p1, p4]
    dsimp only
    rw [bind_ok (m := orFail _ _) (a := picture.source) rfl]
    have hl : lowerA c!"link" = c!"link" := by decide
    have hf : (args.filter fun a => !(lowerA a.name == lowerA c!"link")) = args.filter fun a => !a.isLink := by rw [hl]; rfl
    rw [hf, bind_ok (toAttrs_args _ _), hl, i5]
    have hloc : (optionOf args c!"link").map LinkLoc.parse = (optionOf args c!"link").map LinkLoc.url := by
      cases ho : optionOf args c!"link" with
      | none => rfl
      | some v =>
        rw [ho] at h7
        simp only [Option.all_some, Bool.or_eq_true, beq_iff_eq] at h7
        have : (isUrl v || startsWith v c!"#" || startsWith v c!"/") = true := by
          rcases h7 with (h | h) | h
          · simp [h]
          · cases v with
            | nil => cases h
            | cons c v => simp at h; subst h; simp [startsWith, stripPfx]
          · cases v with
            | nil => cases h
            | cons c v => simp at h; subst h; simp [startsWith, stripPfx]
        simp only [Option.map_some, LinkLoc.parse, this, if_true]
    rw [hloc]
    rfl
  · intro e
    have := congrArg List.length e
    obtain ⟨y, ys, rfl⟩ := List.exists_cons_of_ne_nil hr
    simp at this
    omega

/-- Blanks that belong to a mark. -/
theorem after_blanks {w : ETok} {rest : List ETok} (hw : w.token = .whitespace) (hr : rest ≠ [])
    (hs : (w :: rest) <:+ (tokenize env.text).tokens) : (rest.headD default).token ≠ .whitespace := by
  obtain ⟨pre, hs⟩ := hs
  cases rest with
  | nil => exact (hr rfl).elim
  | cons b rest => exact C57_blanks_maximal env.text hs.symm hw

theorem optSpace {p : PState} {w : ETok} {rest : List ETok} {sh : Shared} (hw : w.token = .whitespace) (hr : rest ≠ []) (sol : Bool) :
    getOptionalSpace env ⟨p.at (w :: rest) sol, sh⟩ = .ok () ⟨p.at rest false, sh⟩ := by
  cases rest with
  | nil => exact (hr rfl).elim
  | cons b rest => exact optTok_yes hw

private theorem checkbox_call {b : BlockInfo} {cons : M (PS Elements)} {name : Str} {checked ih : Bool} {args : List Arg} {s s1 s2 : St}
    (h1 : getHeadMap b ih env s = .ok (rawArgs args) s1) (h2 : getOptionalSpace env s1 = .ok () s2) :
    blkCheckbox b cons ⟨name, checked, false, ih⟩ env s = .ok ⟨[.mk (.checkBox checked (attrsOf env.cx args)) []], [], true⟩ s2 := by
  unfold blkCheckbox
  rw [bind_ok (m := noScore _ _ _) (a := ()) rfl, bind_ok h1, bind_ok h2, bind_ok (toAttrs_args args _)]
  rfl

/-- A checkbox. -/
theorem checkbox_eats {checked : Bool} {block : Str} {args : List Arg} {gap : Nat}
    (hok : (Leaf.checkbox checked block args gap).ok = true) {xs rest : List ETok} {sol : Bool}
    (hxs : xs.map ETok.pair = (Leaf.checkbox checked block args gap).lex)
    (hr : rest ≠ []) (hs : (xs ++ rest) <:+ (tokenize env.text).tokens) :
    Eats env 1 sol xs rest [.mk ((Leaf.checkbox checked block args gap).kind env.cx) []] true [] := by
  simp only [Leaf.ok, Bool.and_eq_true, beq_iff_eq] at hok
  have w1 : (Plain.word block).ok = true := lower_word hok.1 rfl
  obtain ⟨l, os, rfl, hl, hos⟩ := List.map_eq_cons_iff.1 hxs
  obtain ⟨m, os, rfl, hm, hos⟩ := List.map_eq_cons_iff.1 hos
  obtain ⟨as, rs, rfl, has, hrs⟩ := map_append_split hos
  obtain ⟨r, rs, rfl, hr0, hrs⟩ := List.map_eq_cons_iff.1 hrs
  obtain ⟨w, rfl, hw0⟩ := List.map_eq_singleton_iff.1 hrs
  have hrt : r.token = .rightBlock := congrArg (·.1) hr0
  have hwt : w.token = .whitespace := congrArg (·.1) hw0
  have hlt : l.token = if checked then .leftBlockStar else .leftBlock := by
    have : l.token = _ := congrArg (·.1) hl
    rw [this]; cases checked <;> rfl
  obtain ⟨n1, n2, n3, n4⟩ := word_facts hm w1
  have e0 : l :: m :: (as ++ [r, w]) ++ rest = l :: ([m] ++ (as ++ r :: w :: rest)) := by simp
  rw [e0] at hs
  have hs1 := List.IsSuffix.trans (List.suffix_cons l _) hs
  have hs2 : as ++ r :: w :: rest <:+ (tokenize env.text).tokens := List.IsSuffix.trans (List.suffix_append [m] _) hs1
  have hs3 : w :: rest <:+ (tokenize env.text).tokens := List.IsSuffix.trans (List.suffix_append (as ++ [r]) _) (by simpa using hs2)
  refine eats_rule' hr (rs1 := []) (rs2 := []) (r := if checked then .blockStar else .block) (r' := .blk blockRules[10].info.name) (n := 0)
    (by rw [hlt]; cases checked <;> rfl) (by simp) (by cases checked <;> simp [RuleId.needsLineStart]) (noParts_cons (by simp [Leaf.kind]) noParts_nil) ?_
  intro fuel p sh _ _
  have hfn : ruleFn (consume fuel) (if checked = true then RuleId.blockStar else RuleId.block) = ruleBlock (consume fuel) checked := by
    cases checked <;> rfl
  have hsol : solAfter (l :: m :: (as ++ [r, w])) = false := by
    have := solAfter_append (l :: m :: (as ++ [r])) w
    rw [hwt] at this
    simpa [isLineStartTok] using this
  rw [hfn, hsol, e0]
  have hrule : getBlockRule (slicesOf [m]) = some blockRules[10] := by
    rw [n1, getBlockRule_lower w1, hok.1]
    exact getBlockRule_idx (k := 10) (by decide +kernel) rfl
  have hend : HeadEnd blockRules[10].info (w :: rest) (w :: rest) false := .inl ⟨rfl, rfl, fun h => by cases h⟩
  have hend' : HeadEnd blockRules[10].info rest rest false := .inl ⟨rfl, rfl, fun h => by cases h⟩
  cases args with
  | nil =>
    simp at has
    subst has
    rw [List.nil_append] at hs1 ⊢
    refine ruleBlock_run (ns := [m]) (c := r) (rest := w :: rest) (br := blockRules[10]) hlt (by simp) n2 (.inr hrt) (by simp) n3 hs1 n4 hrule
      (fun _ => rfl) (by simp [hrt]) rfl (out := .ok ⟨[.mk ((Leaf.checkbox checked block [] gap).kind env.cx) []], [], true⟩ _) ?_ hr
    rw [if_neg (show ¬ r.token = Token.whitespace by simp [hrt]), if_pos (show ((w :: rest).headD default).token = Token.whitespace from hwt)]
    have hin : (r.token == Token.whitespace) = false := by simp [hrt]
    rw [hin]
    exact checkbox_call (cons := consume fuel) (args := []) (getHeadMap_none hend') (optTok_no (after_blanks hwt hr hs3))
  | cons a args =>
    have has' := has
    rw [List.flatMap_cons, Arg.lex, List.cons_append] at has'
    obtain ⟨d, as', rfl, hd, has'⟩ := List.map_eq_cons_iff.1 has'
    have hdt : d.token = .whitespace := congrArg (·.1) hd
    rw [List.cons_append] at hs1 hs2 ⊢
    refine ruleBlock_run (ns := [m]) (c := d) (rest := as' ++ r :: w :: rest) (br := blockRules[10]) hlt (by simp) n2 (.inl hdt) (by simp) n3 hs1 n4 hrule
      (fun _ => rfl) ?_ rfl (out := .ok ⟨[.mk ((Leaf.checkbox checked block (a :: args) gap).kind env.cx) []], [], true⟩ _) ?_ (by
        cases as' <;> simp)
    · intro _
      exact after_blanks hdt (by simp) hs2
    rw [if_pos hdt]
    have hin : (d.token == Token.whitespace) = true := by simp [hdt]
    rw [hin]
    exact checkbox_call (cons := consume fuel) (args := a :: args) (getHeadMap_args hrt (by simp) hok.2 has hs2 hend) (optSpace hwt hr _)

/-- A radio button. -/
theorem radio_eats {checked : Bool} {block group : Str} {args : List Arg} {gap : Nat}
    (hok : (Leaf.radio checked block group args gap).ok = true) {xs rest : List ETok} {sol : Bool}
    (hxs : xs.map ETok.pair = (Leaf.radio checked block group args gap).lex)
    (hr : rest ≠ []) (hs : (xs ++ rest) <:+ (tokenize env.text).tokens) :
    Eats env 1 sol xs rest [.mk ((Leaf.radio checked block group args gap).kind env.cx) []] true [] := by
  simp only [Leaf.ok, Bool.and_eq_true, beq_iff_eq] at hok
  have w1 : (Plain.word block).ok = true := lower_word hok.1.1 rfl
  obtain ⟨l, os, rfl, hl, hos⟩ := List.map_eq_cons_iff.1 hxs
  obtain ⟨m, os, rfl, hm, hos⟩ := List.map_eq_cons_iff.1 hos
  obtain ⟨d, os, rfl, hd, hos⟩ := List.map_eq_cons_iff.1 hos
  obtain ⟨k, os, rfl, hk, hos⟩ := List.map_eq_cons_iff.1 hos
  obtain ⟨as, rs, rfl, has, hrs⟩ := map_append_split hos
  obtain ⟨r, rs, rfl, hr0, hrs⟩ := List.map_eq_cons_iff.1 hrs
  obtain ⟨w, rfl, hw0⟩ := List.map_eq_singleton_iff.1 hrs
  have hrt : r.token = .rightBlock := congrArg (·.1) hr0
  have hwt : w.token = .whitespace := congrArg (·.1) hw0
  have hdt : d.token = .whitespace := congrArg (·.1) hd
  have hlt : l.token = if checked then .leftBlockStar else .leftBlock := by
    have : l.token = _ := congrArg (·.1) hl
    rw [this]; cases checked <;> rfl
  obtain ⟨n1, n2, n3, n4⟩ := word_facts hm w1
  obtain ⟨k1, k2, k3, k4⟩ := word_facts hk hok.1.2
  have e0 : l :: m :: d :: k :: (as ++ [r, w]) ++ rest = l :: ([m] ++ d :: ([k] ++ (as ++ r :: w :: rest))) := by simp
  rw [e0] at hs
  have hs1 := List.IsSuffix.trans (List.suffix_cons l _) hs
  have hs2 : [k] ++ (as ++ r :: w :: rest) <:+ (tokenize env.text).tokens := List.IsSuffix.trans (List.suffix_append [m, d] _) hs1
  refine eats_rule' hr (rs1 := []) (rs2 := []) (r := if checked then .blockStar else .block) (r' := .blk blockRules[40].info.name) (n := 0)
    (by rw [hlt]; cases checked <;> rfl) (by simp) (by cases checked <;> simp [RuleId.needsLineStart]) (noParts_cons (by simp [Leaf.kind]) noParts_nil) ?_
  intro fuel p sh _ _
  have hfn : ruleFn (consume fuel) (if checked = true then RuleId.blockStar else RuleId.block) = ruleBlock (consume fuel) checked := by
    cases checked <;> rfl
  have hsol : solAfter (l :: m :: d :: k :: (as ++ [r, w])) = false := by
    have := solAfter_append (l :: m :: d :: k :: (as ++ [r])) w
    rw [hwt] at this
    simpa [isLineStartTok] using this
  rw [hfn, hsol, e0]
  have hrule : getBlockRule (slicesOf [m]) = some blockRules[40] := by
    rw [n1, getBlockRule_lower w1, hok.1.1]
    exact getBlockRule_idx (k := 40) (by decide +kernel) rfl
  have hend : HeadEnd blockRules[40].info (w :: rest) (w :: rest) false := .inl ⟨rfl, rfl, fun h => by cases h⟩
  have hkt : k.token = .identifier := congrArg (·.1) hk
  refine ruleBlock_run (ns := [m]) (c := d) (rest := [k] ++ (as ++ r :: w :: rest)) (br := blockRules[40]) hlt (by simp) n2 (.inl hdt) (by simp) n3 hs1 n4 hrule
    (fun _ => rfl) (by simp [hkt]) rfl (out := .ok ⟨[.mk ((Leaf.radio checked block group args gap).kind env.cx) []], [], true⟩ _) ?_ (by simp)
  rw [if_pos hdt]
  have hin : (d.token == Token.whitespace) = true := by simp [hdt]
  rw [hin]
  show blkRadio blockRules[40].info (consume fuel) ⟨slicesOf [m], checked, false, true⟩ env _ = _
  unfold blkRadio
  rw [bind_ok (m := noScore _ _ _) (a := ()) rfl, bind_ok (nameMap_run hend hok.2 k2 k3 has hrt (by simp) hs2)]
  dsimp only
  rw [bind_ok (optSpace hwt hr _), bind_ok (toAttrs_args args _), k1]
  rfl

theorem leaf_eats {l : Leaf} {xs rest : List ETok} {sol : Bool} (hok : l.ok = true) (hxs : xs.map ETok.pair = l.lex)
    (hr : rest ≠ []) (hs : (xs ++ rest) <:+ (tokenize env.text).tokens) :
    Eats env 1 sol xs rest [.mk (l.kind env.cx) []] true [] := by
  cases l with
  | image side block picture args => exact image_eats hok hxs hr hs
  | checkbox checked block args gap => exact checkbox_eats hok hxs hr hs
  | radio checked block group args gap => exact radio_eats hok hxs hr hs
  | user avatar block name =>
    simp only [Leaf.ok, Bool.and_eq_true, beq_iff_eq] at hok
    have w1 : (Plain.word block).ok = true := lower_word hok.1 rfl
    refine value_block (star := avatar) (name := block) (value := name) (br := blockRules[59]) (mk := fun v => .user v avatar) ?_ ?_ rfl w1 hok.2 ?_ ?_ hxs hr hs
    · rw [getBlockRule_lower w1, hok.1]
      exact getBlockRule_idx (k := 59) (by decide +kernel) rfl
    · intro _; rfl
    · intro cons; rfl
    · intro v; rfl
  | citeBlock block label =>
    simp only [Leaf.ok, Bool.and_eq_true, beq_iff_eq] at hok
    have w1 : (Plain.word block).ok = true := lower_word hok.1 rfl
    refine value_block (star := false) (name := block) (value := label) (br := blockRules[5]) (mk := fun v => .bibCite v true) ?_ (by simp) rfl w1 hok.2 ?_ ?_ hxs hr hs
    · rw [getBlockRule_lower w1, hok.1]
      exact getBlockRule_idx (k := 5) (by decide +kernel) rfl
    · intro cons; rfl
    · intro v; rfl
  | cite mark label =>
    simp only [Leaf.ok, Bool.and_eq_true, beq_iff_eq] at hok
    obtain ⟨l, os, rfl, hl, hos⟩ := List.map_eq_cons_iff.1 hxs
    obtain ⟨m, os, rfl, hm, hos⟩ := List.map_eq_cons_iff.1 hos
    obtain ⟨d, os, rfl, hd, hos⟩ := List.map_eq_cons_iff.1 hos
    obtain ⟨vs, rs, rfl, hvs, hrs⟩ := map_append_split hos
    obtain ⟨r, rfl, hr0⟩ := List.map_eq_singleton_iff.1 hrs
    have hrt : r.token = .rightParentheses := congrArg (·.1) hr0
    have hlt : l.token = .leftParentheses := congrArg (·.1) hl
    have hmt : m.token = .identifier := congrArg (·.1) hm
    have hdt : d.token = .whitespace := congrArg (·.1) hd
    obtain ⟨hvt, hvv⟩ := plains_tok hvs
    have e0 : l :: m :: d :: (vs ++ [r]) ++ rest = l :: m :: d :: (vs ++ r :: rest) := by simp
    rw [e0] at hs
    have hs1 := List.IsSuffix.trans (List.suffix_append [l, m, d] _) hs
    have hav := solid_avoid hvs hok.1.2 [.rightParentheses, .whitespace, .paragraphBreak, .lineBreak] (by decide)
    refine eats_rule hr (rs1 := []) (rs2 := [.text]) (r := .bibcite) (n := 0) (by rw [hlt]; rfl) (by simp) (by simp [RuleId.needsLineStart])
      (noParts_cons (by simp [Leaf.kind]) noParts_nil) ?_
    intro fuel p sh _ _
    have hsol : solAfter (l :: m :: d :: (vs ++ [r])) = false := by
      have := solAfter_append (l :: m :: d :: vs) r
      rw [hrt] at this
      exact this
    rw [hsol, e0]
    show ruleBibcite env _ = _
    unfold ruleBibcite
    rw [bind_ok (checkStep_at env p hlt ..)]
    rw [bind_ok (a := m) (s' := ⟨p.at (m :: d :: (vs ++ r :: rest)) (isLineStartTok .leftParentheses), sh⟩) rfl]
    rw [if_neg (by simp [hmt]), bind_ok (step_at ..)]
    rw [bind_ok (a := d.token) (s' := ⟨p.at (d :: (vs ++ r :: rest)) (isLineStartTok m.token), sh⟩) rfl]
    rw [if_neg (by simp [hdt])]
    rw [bind_ok (a := (vs ++ r :: rest).headD default) (s' := ⟨p.at (vs ++ r :: rest) (isLineStartTok d.token), sh⟩) (by cases vs <;> rfl)]
    rw [bind_ok (collectText_at (close := [.cur .rightParentheses]) (invalid := [.cur .whitespace, .cur .paragraphBreak, .cur .lineBreak]) (goes_cur (cl := [.rightParentheses]) (inv := [.whitespace, .paragraphBreak, .lineBreak]) hav)
      (by simp [Meets, hrt]) hr (by simp [hrt]) hs1)]
    rw [hvv, hrt]
    rfl
  | target name =>
    simp only [Leaf.ok, Bool.and_eq_true, beq_iff_eq] at hok
    obtain ⟨l, os, rfl, hl, hos⟩ := List.map_eq_cons_iff.1 hxs
    obtain ⟨d, os, rfl, hd, hos⟩ := List.map_eq_cons_iff.1 hos
    obtain ⟨vs, rs, rfl, hvs, hrs⟩ := map_append_split hos
    obtain ⟨r, rfl, hr0⟩ := List.map_eq_singleton_iff.1 hrs
    have hrt : r.token = .rightBlock := congrArg (·.1) hr0
    have hlt : l.token = .leftBlockAnchor := congrArg (·.1) hl
    have hdt : d.token = .whitespace := congrArg (·.1) hd
    obtain ⟨hvt, hvv⟩ := plains_tok hvs
    have e0 : l :: d :: (vs ++ [r]) ++ rest = l :: d :: (vs ++ r :: rest) := by simp
    rw [e0] at hs
    have hs1 := List.IsSuffix.trans (List.suffix_append [l, d] _) hs
    have hav := solid_avoid hvs hok.1 [.rightBlock, .whitespace, .paragraphBreak, .lineBreak] (by decide)
    refine eats_rule hr (rs1 := []) (rs2 := []) (r := .anchor) (n := 0) (by rw [hlt]; rfl) (by simp) (by simp [RuleId.needsLineStart])
      (noParts_cons (by simp [Leaf.kind]) noParts_nil) ?_
    intro fuel p sh _ _
    have hsol : solAfter (l :: d :: (vs ++ [r])) = false := by
      have := solAfter_append (l :: d :: vs) r
      rw [hrt] at this
      exact this
    rw [hsol, e0]
    show ruleAnchor env _ = _
    unfold ruleAnchor
    rw [bind_ok (checkStep_at env p hlt ..)]
    rw [bind_ok (a := d.slice) (s' := ⟨p.at (vs ++ r :: rest) (isLineStartTok .whitespace), sh⟩) (by
      obtain ⟨y, ys, e⟩ := List.exists_cons_of_ne_nil (l := vs ++ r :: rest) (by simp)
      rw [e]; exact getToken_yes hdt)]
    rw [bind_ok (collectText_at (close := [.cur .rightBlock]) (invalid := [.cur .whitespace, .cur .paragraphBreak, .cur .lineBreak]) (goes_cur (cl := [.rightBlock]) (inv := [.whitespace, .paragraphBreak, .lineBreak]) hav)
      (by simp [Meets, hrt]) hr (by simp [hrt]) hs1)]
    rw [hvv, hrt]
    rfl
  | math source =>
    simp only [Leaf.ok, Bool.and_eq_true, beq_iff_eq] at hok
    obtain ⟨l, os, rfl, hl, hos⟩ := List.map_eq_cons_iff.1 hxs
    obtain ⟨vs, rs, rfl, hvs, hrs⟩ := map_append_split hos
    obtain ⟨r, rfl, hr0⟩ := List.map_eq_singleton_iff.1 hrs
    have hrt : r.token = .rightMath := congrArg (·.1) hr0
    have hlt : l.token = .leftMath := congrArg (·.1) hl
    obtain ⟨hvt, hvv⟩ := plains_tok hvs
    have e0 : l :: (vs ++ [r]) ++ rest = l :: (vs ++ r :: rest) := by simp
    rw [e0] at hs
    have hs1 := List.IsSuffix.trans (List.suffix_append [l] _) hs
    have hav := plains_avoid hvs [.rightMath, .paragraphBreak, .lineBreak] (by decide)
    refine eats_rule hr (rs1 := []) (rs2 := []) (r := .math) (n := 0) (by rw [hlt]; rfl) (by simp) (by simp [RuleId.needsLineStart])
      (noParts_cons (by simp [Leaf.kind]) noParts_nil) ?_
    intro fuel p sh _ _
    have hsol : solAfter (l :: (vs ++ [r])) = false := by
      have := solAfter_append (l :: vs) r
      rw [hrt] at this
      exact this
    rw [hsol, e0]
    show ruleMath env _ = _
    unfold ruleMath
    rw [bind_ok (a := l) (s' := ⟨p.at (vs ++ r :: rest) (isLineStartTok .leftMath), sh⟩) (by
      obtain ⟨y, ys, e⟩ := List.exists_cons_of_ne_nil (l := vs ++ r :: rest) (by simp)
      rw [e]; exact checkStep_at env p hlt ..)]
    rw [bind_ok (collectText_at (close := [.cur .rightMath]) (invalid := [.cur .paragraphBreak, .cur .lineBreak]) (goes_cur (cl := [.rightMath]) (inv := [.paragraphBreak, .lineBreak]) hav)
      (by simp [Meets, hrt]) hr (by simp [hrt]) hs1)]
    rw [hvv, hrt]
    rfl
  | link newTab dest label =>
    simp only [Leaf.ok, Bool.and_eq_true] at hok
    obtain ⟨l, os, rfl, hl, hos⟩ := List.map_eq_cons_iff.1 hxs
    obtain ⟨us, qs, rfl, hus, hqs⟩ := map_append_split hos
    have hlt : l.token = if newTab then .leftLinkStar else .leftLink := by
      have : l.token = _ := congrArg (·.1) hl
      rw [this]; cases newTab <;> rfl
    have hav := dest_avoid hok.1 hus
    have hu := understood hok.1
    have huv : slicesOf us = dest.str := by rw [slices_pairs hus, dest_str]; rfl
    have hfn : ∀ cons, ruleFn cons (if newTab = true then RuleId.linkTripleNewTab else RuleId.linkTriple) =
        ruleLinkTriple (if newTab then .leftLinkStar else .leftLink) (tabOf newTab) := by
      intro cons; cases newTab <;> rfl
    refine eats_rule hr (rs1 := []) (rs2 := []) (r := if newTab then .linkTripleNewTab else .linkTriple) (n := 0)
      (by rw [hlt]; cases newTab <;> rfl) (by simp) (by cases newTab <;> simp [RuleId.needsLineStart])
      (noParts_cons (by simp [Leaf.kind]) noParts_nil) ?_
    intro fuel p sh _ _
    rw [hfn]
    unfold ruleLinkTriple
    cases label with
    | none =>
      obtain ⟨r, rfl, hr0⟩ := List.map_eq_singleton_iff.1 (show qs.map ETok.pair = [(.rightLink, c!"]]]")] from hqs)
      have hrt : r.token = .rightLink := congrArg (·.1) hr0
      have e0 : l :: (us ++ [r]) ++ rest = l :: (us ++ r :: rest) := by simp
      rw [e0] at hs ⊢
      have hs1 := List.IsSuffix.trans (List.suffix_append [l] _) hs
      have hsol : solAfter (l :: (us ++ [r])) = false := by
        have := solAfter_append (l :: us) r
        rw [hrt] at this
        exact this
      rw [hsol]
      rw [bind_ok (a := l) (s' := ⟨p.at (us ++ r :: rest) (isLineStartTok (if newTab then .leftLinkStar else .leftLink)), sh⟩) (by
        obtain ⟨y, ys, e⟩ := List.exists_cons_of_ne_nil (l := us ++ r :: rest) (by simp)
        rw [e]; exact checkStep_at env p hlt ..)]
      rw [bind_ok (collectTextKeep_at (close := [.cur .pipe, .cur .rightLink]) (invalid := [.cur .paragraphBreak, .cur .lineBreak]) (goes_cur (cl := [.pipe, .rightLink]) (inv := [.paragraphBreak, .lineBreak]) hav)
        (by simp [Meets, hrt]) hr (by simp [hrt]) hs1)]
      dsimp only
      rw [huv, hu.trimmed, if_neg (by simpa using hu.ne), if_pos hrt]
      have hloc : parseLinkLoc dest.str env ⟨p.at rest (isLineStartTok r.token), sh⟩ =
          .ok (dest.loc, dest.type) ⟨p.at rest (isLineStartTok r.token), sh⟩ := by
        unfold parseLinkLoc
        rw [bind_ok (m := M.env) (a := env) (s' := ⟨p.at rest (isLineStartTok r.token), sh⟩) rfl, hu.loc]
        rfl
      rw [bind_ok hloc, hu.extra, hu.shown, hrt]
      rfl
    | some lab =>
      obtain ⟨b, ks, rfl, hb, hks⟩ := List.map_eq_cons_iff.1 (show qs.map ETok.pair = (.pipe, c!"|") :: (lab.map Plain.lex ++ [(.rightLink, c!"]]]")]) from hqs)
      obtain ⟨vs, rs, rfl, hvs, hrs⟩ := map_append_split hks
      obtain ⟨r, rfl, hr0⟩ := List.map_eq_singleton_iff.1 hrs
      have hrt : r.token = .rightLink := congrArg (·.1) hr0
      have hbt : b.token = .pipe := congrArg (·.1) hb
      obtain ⟨hvt, hvv⟩ := plains_tok hvs
      have e0 : l :: (us ++ b :: (vs ++ [r])) ++ rest = l :: (us ++ b :: (vs ++ r :: rest)) := by simp
      rw [e0] at hs ⊢
      have hs1 := List.IsSuffix.trans (List.suffix_append [l] _) hs
      have hs2 := List.IsSuffix.trans (List.suffix_append [b] _) (List.IsSuffix.trans (List.suffix_append us _) hs1)
      have hsol : solAfter (l :: (us ++ b :: (vs ++ [r]))) = false := by
        have := solAfter_append (l :: (us ++ b :: vs)) r
        rw [hrt] at this
        simpa [isLineStartTok] using this
      have hlab : (trim (plainText lab)).isEmpty = false := by
        have := hok.2
        simp only [Option.all_some, Bool.and_eq_true, hasText, Bool.not_eq_true'] at this
        exact this.2
      rw [hsol]
      rw [bind_ok (a := l) (s' := ⟨p.at (us ++ b :: (vs ++ r :: rest)) (isLineStartTok (if newTab then .leftLinkStar else .leftLink)), sh⟩) (by
        obtain ⟨y, ys, e⟩ := List.exists_cons_of_ne_nil (l := us ++ b :: (vs ++ r :: rest)) (by simp)
        rw [e]; exact checkStep_at env p hlt ..)]
      rw [bind_ok (collectTextKeep_at (close := [.cur .pipe, .cur .rightLink]) (invalid := [.cur .paragraphBreak, .cur .lineBreak]) (goes_cur (cl := [.pipe, .rightLink]) (inv := [.paragraphBreak, .lineBreak]) hav)
        (by simp [Meets, hbt]) (by simp) (by simp [hbt]) hs1)]
      dsimp only
      rw [huv, hu.trimmed, if_neg (by simpa using hu.ne), if_neg (by simp [hbt]), if_pos hbt]
      rw [bind_ok (collectText_at (close := [.cur .rightLink]) (invalid := [.cur .paragraphBreak, .cur .lineBreak]) (goes_cur (cl := [.rightLink]) (inv := [.paragraphBreak, .lineBreak]) (plains_avoid hvs _ (by decide)))
        (by simp [Meets, hrt]) hr (by simp [hrt]) hs2)]
      have hloc : parseLinkLoc dest.str env ⟨p.at rest (isLineStartTok r.token), sh⟩ =
          .ok (dest.loc, dest.type) ⟨p.at rest (isLineStartTok r.token), sh⟩ := by
        unfold parseLinkLoc
        rw [bind_ok (m := M.env) (a := env) (s' := ⟨p.at rest (isLineStartTok r.token), sh⟩) rfl, hu.loc]
        rfl
      rw [bind_ok hloc, hu.extra, hvv, hlab, hrt]
      rfl
  | address newTab a gap label =>
    simp only [Leaf.ok, Bool.and_eq_true] at hok
    obtain ⟨l, os, rfl, hl, hos⟩ := List.map_eq_cons_iff.1 hxs
    obtain ⟨us, ks, rfl, hus, hks⟩ := map_append_split hos
    obtain ⟨d, ks, rfl, hd, hks⟩ := List.map_eq_cons_iff.1 hks
    obtain ⟨vs, rs, rfl, hvs, hrs⟩ := map_append_split hks
    obtain ⟨r, rfl, hr0⟩ := List.map_eq_singleton_iff.1 hrs
    have hlt : l.token = if newTab then .leftBracketStar else .leftBracket := by
      have : l.token = _ := congrArg (·.1) hl
      rw [this]; cases newTab <;> rfl
    have hrt : r.token = .rightBracket := congrArg (·.1) hr0
    have hdt : d.token = .whitespace := congrArg (·.1) hd
    obtain ⟨hvt, hvv⟩ := plains_tok hvs
    have hav := address_avoid hok.1.1 hus
    have huv : slicesOf us = a.str := by rw [slices_pairs hus, address_str]; rfl
    have hfn : ∀ cons, ruleFn cons (if newTab = true then RuleId.linkSingleNewTab else RuleId.linkSingle) =
        ruleLinkSingle (if newTab then .leftBracketStar else .leftBracket) (tabOf newTab) := by
      intro cons; cases newTab <;> rfl
    refine eats_rule hr (rs1 := []) (rs2 := if newTab then [] else [.text]) (r := if newTab then .linkSingleNewTab else .linkSingle) (n := 0)
      (by rw [hlt]; cases newTab <;> rfl) (by simp) (by cases newTab <;> simp [RuleId.needsLineStart])
      (noParts_cons (by simp [Leaf.kind]) noParts_nil) ?_
    intro fuel p sh _ _
    rw [hfn]
    unfold ruleLinkSingle
    have e0 : l :: (us ++ d :: (vs ++ [r])) ++ rest = l :: (us ++ d :: (vs ++ r :: rest)) := by simp
    rw [e0] at hs ⊢
    have hs1 := List.IsSuffix.trans (List.suffix_append [l] _) hs
    have hs2 := List.IsSuffix.trans (List.suffix_append [d] _) (List.IsSuffix.trans (List.suffix_append us _) hs1)
    have hsol : solAfter (l :: (us ++ d :: (vs ++ [r]))) = false := by
      have := solAfter_append (l :: (us ++ d :: vs)) r
      rw [hrt] at this
      simpa [isLineStartTok] using this
    rw [hsol]
    rw [bind_ok (a := l) (s' := ⟨p.at (us ++ d :: (vs ++ r :: rest)) (isLineStartTok (if newTab then .leftBracketStar else .leftBracket)), sh⟩) (by
      obtain ⟨y, ys, e⟩ := List.exists_cons_of_ne_nil (l := us ++ d :: (vs ++ r :: rest)) (by simp)
      rw [e]; exact checkStep_at env p hlt ..)]
    rw [bind_ok (collectText_at (close := [.cur .whitespace]) (invalid := [.cur .rightBracket, .cur .paragraphBreak, .cur .lineBreak]) (goes_cur (cl := [.whitespace]) (inv := [.rightBracket, .paragraphBreak, .lineBreak]) (hav.mono (by decide)))
      (by simp [Meets, hdt]) (by simp) (by simp [hdt]) hs1)]
    obtain ⟨ha1, ha2⟩ := address_valid hok.1.1
    rw [huv, ha1, if_neg (by simp)]
    rw [bind_ok (collectText_at (close := [.cur .rightBracket]) (invalid := [.cur .paragraphBreak, .cur .lineBreak]) (goes_cur (cl := [.rightBracket]) (inv := [.paragraphBreak, .lineBreak]) (without_avoid hvs hok.1.2 _ (by decide)))
      (by simp [Meets, hrt]) hr (by simp [hrt]) hs2)]
    rw [ha2, hvv, hrt]
    rfl
  | jump name gap label =>
    simp only [Leaf.ok, Bool.and_eq_true] at hok
    obtain ⟨l, os, rfl, hl, hos⟩ := List.map_eq_cons_iff.1 hxs
    obtain ⟨us, ks, rfl, hus, hks⟩ := map_append_split hos
    obtain ⟨d, ks, rfl, hd, hks⟩ := List.map_eq_cons_iff.1 hks
    obtain ⟨vs, rs, rfl, hvs, hrs⟩ := map_append_split hks
    obtain ⟨r, rfl, hr0⟩ := List.map_eq_singleton_iff.1 hrs
    have hlt : l.token = .leftBracketAnchor := congrArg (·.1) hl
    have hrt : r.token = .rightBracket := congrArg (·.1) hr0
    have hdt : d.token = .whitespace := congrArg (·.1) hd
    obtain ⟨hvt, hvv⟩ := plains_tok hvs
    obtain ⟨_, huv⟩ := plains_tok hus
    have hav := solid_avoid hus hok.1.1 [.whitespace, .rightBracket, .paragraphBreak, .lineBreak] (by decide)
    refine eats_rule hr (rs1 := []) (rs2 := []) (r := .linkAnchor) (n := 0)
      (by rw [hlt]; rfl) (by simp) (by simp [RuleId.needsLineStart])
      (noParts_cons (by simp [Leaf.kind]) noParts_nil) ?_
    intro fuel p sh _ _
    show ruleLinkAnchor env _ = _
    unfold ruleLinkAnchor
    have e0 : l :: (us ++ d :: (vs ++ [r])) ++ rest = l :: (us ++ d :: (vs ++ r :: rest)) := by simp
    rw [e0] at hs ⊢
    have hs1 := List.IsSuffix.trans (List.suffix_append [l] _) hs
    have hs2 := List.IsSuffix.trans (List.suffix_append [d] _) (List.IsSuffix.trans (List.suffix_append us _) hs1)
    have hsol : solAfter (l :: (us ++ d :: (vs ++ [r]))) = false := by
      have := solAfter_append (l :: (us ++ d :: vs)) r
      rw [hrt] at this
      simpa [isLineStartTok] using this
    rw [hsol]
    rw [bind_ok (a := l) (s' := ⟨p.at (us ++ d :: (vs ++ r :: rest)) (isLineStartTok .leftBracketAnchor), sh⟩) (by
      obtain ⟨y, ys, e⟩ := List.exists_cons_of_ne_nil (l := us ++ d :: (vs ++ r :: rest)) (by simp)
      rw [e]; exact checkStep_at env p hlt ..)]
    rw [bind_ok (collectText_at (close := [.cur .whitespace]) (invalid := [.cur .rightBracket, .cur .paragraphBreak, .cur .lineBreak]) (goes_cur (cl := [.whitespace]) (inv := [.rightBracket, .paragraphBreak, .lineBreak]) hav)
      (by simp [Meets, hdt]) (by simp) (by simp [hdt]) hs1)]
    rw [bind_ok (m := M.env) (a := env) (s' := ⟨p.at (vs ++ r :: rest) (isLineStartTok d.token), sh⟩) rfl]
    rw [bind_ok (collectText_at (close := [.cur .rightBracket]) (invalid := [.cur .paragraphBreak, .cur .lineBreak]) (goes_cur (cl := [.rightBracket]) (inv := [.paragraphBreak, .lineBreak]) (without_avoid hvs hok.1.2 _ (by decide)))
      (by simp [Meets, hrt]) hr (by simp [hrt]) hs2)]
    have hemp : (plainText name).isEmpty = name.isEmpty := by
      cases name with
      | nil => rfl
      | cons q qs =>
        have := plainText_ne (solid_ok hok.1.1) (by simp)
        simpa using this
    have huv' : slicesOf us = plainText name := huv
    rw [huv', hvv, hrt, hemp]
    rfl
  | url s =>
    obtain ⟨u, rfl, hu⟩ := List.map_eq_singleton_iff.1 hxs
    have h1 : u.token = .url := congrArg (·.1) hu
    have h2 : u.slice = s := congrArg (·.2) hu
    refine eats_tok hr (rs1 := []) (rs2 := []) (r := .url) (by rw [h1]; rfl) (by simp) (by simp [RuleId.needsLineStart])
      (noParts_cons (by simp [Leaf.kind]) noParts_nil) ?_
    intro cons p sh
    rw [← h2]
    rfl
  | var name =>
    obtain ⟨u, rfl, hu⟩ := List.map_eq_singleton_iff.1 hxs
    have h1 : u.token = .variable := congrArg (·.1) hu
    have h2 : u.slice = c!"{$" ++ name ++ c!"}" := congrArg (·.2) hu
    refine eats_tok hr (rs1 := []) (rs2 := [.text]) (r := .variable) (by rw [h1]; rfl) (by simp) (by simp [RuleId.needsLineStart])
      (noParts_cons (by simp [Leaf.kind]) noParts_nil) ?_
    intro cons p sh
    show ruleVariable env _ = _
    unfold ruleVariable
    rw [bind_ok (a := u) (s' := ⟨p.at (u :: rest) sol, sh⟩) rfl, h2, var_name]
    cases name with
    | nil => simp [Leaf.ok, Plain.ok] at hok
    | cons c cs => rfl

end Ftml
