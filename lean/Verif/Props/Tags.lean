import Verif.Props.RawText
import Verif.Props.Values
import Verif.Lemmas.LeafRun
/-
C105: the tags which stand for something small in a line: `[[lines N]]`, `[[char …]]` and `[[equation …]]`.
-/
namespace Ftml
open M Markup Lexer

/-! ### What is claimed -/

/-- What a tag stands for: line breaks, characters, or a reference to an equation. -/
inductive Stand where
  | lines (n : Nat)
  | text (t : Str)
  | equation (name : Str)

/-- The tag with this name and this value stands for this, if `w.entity` are the named characters. -/
inductive Stands (w : World) (name value : Str) : Stand → Prop
  /-- `[[lines 3]]`: up to a hundred line breaks. -/
  | lines {n : Nat} : lowerA name ∈ [c!"lines", c!"newlines"] → positiveOf (trim value) = some n → n ≤ 100 → Stands w name value (.lines n)
  /-- `[[char &#65;]]`, `[[char #x41]]`: a character, by its number. -/
  | code {c : Char} {hex amp semi : Bool} {blanks1 blanks2 : Nat} : lowerA name ∈ [c!"char", c!"character"] →
      value = charArg blanks1 blanks2 amp semi (charCode hex c.toNat) → w.entity (charCode hex c.toNat) = none →
      Stands w name value (.text [c])
  /-- `[[char &lt;]]`, `[[char lt]]`: a character with a name. -/
  | named {ref t : Str} {amp semi : Bool} {blanks1 blanks2 : Nat} : lowerA name ∈ [c!"char", c!"character"] →
      ref ≠ [] → ref.all isAlnumA = true → value = charArg blanks1 blanks2 amp semi ref → w.entity ref = some t →
      Stands w name value (.text t)
  /-- `[[equation name]]`: a reference to this equation. -/
  | equation : lowerA name ∈ [c!"equation", c!"eref", c!"eqref"] → Stands w name value (.equation (trim value))

/-- A part of the line: a word or blanks, or a tag. -/
inductive TagPart where
  | text (p : Plain)
  | tag (name : Str) (value : List Plain) (stands : Stand)

/-- Its symbols. -/
def TagPart.pieces : TagPart → List Str
  | .text p => [p.str]
  | .tag name value _ => c!"[[" :: name :: c!" " :: (value.map Plain.str ++ [c!"]]"])

/-- The tag has a name and a value, and stands for what it says. -/
def TagPart.Ok (w : World) : TagPart → Prop
  | .text p => p.ok = true ∧ ∀ c, p ≠ .char c
  | .tag name value s => (Plain.word name).ok = true ∧ valueOk value = true ∧ Stands w name (plainText value) s

/-- The line. -/
def tagPage (ps : List TagPart) : Str := (ps.flatMap TagPart.pieces).flatten

/-- The element which a part is. -/
def TagPart.elem : TagPart → Elem
  | .text p => .mk (.text p.str) []
  | .tag _ _ (.lines n) => .mk (.lineBreaks n) []
  | .tag _ _ (.text t) => .mk (.text t) []
  | .tag _ _ (.equation name) => .mk (.equationRef name) []

/-- Its HTML. -/
def TagPart.html : TagPart → Str
  | .text p => strHtml p.str
  | .tag _ _ (.lines n) => (List.replicate n c!"<br>").flatten
  | .tag _ _ (.text t) => strHtml t
  | .tag _ _ (.equation name) => wrapWith c!"span" c!"class" c!"wj-equation-ref" (
      wrapAttrs c!"wj-equation-ref-marker" [(c!"class", c!"wj-equation-ref-marker"), (c!"type", c!"button"), (c!"data-name", name)]
        (strHtml name) ++
      wrapAttrs c!"span" [(c!"class", c!"wj-equation-ref-tooltip"), (c!"aria-hidden", c!"true")] [])

/-- Its text. -/
def TagPart.plain : TagPart → Str
  | .text p => p.str
  | .tag _ _ (.lines n) => List.replicate n '\n'
  | .tag _ _ (.text t) => t
  | .tag _ _ (.equation name) => c!"[" ++ name ++ c!"]"

/-! ### Its tokens -/

private def TagPart.lex : TagPart → List (Token × Str)
  | .text p => [p.lex]
  | .tag name value _ => (.leftBlock, c!"[[") :: (.identifier, name) :: (.whitespace, c!" ") :: (value.map Plain.lex ++ [(.rightBlock, c!"]]")])

private theorem part_pieces (p : TagPart) : p.lex.map (·.2) = p.pieces := by
  cases p with
  | text p => rfl
  | tag name value s =>
    have : (fun p : Plain => p.lex.2) = Plain.str := rfl
    simp [TagPart.lex, TagPart.pieces, Function.comp_def, this]

private theorem part_sym {w : World} {p : TagPart} (h : p.Ok w) : ∀ x ∈ p.lex, Sym x := by
  cases p with
  | text p => 
    intro x hx
    simp only [TagPart.lex, List.mem_singleton] at hx
    subst hx
    exact plain_sym h.1
  | tag name value s =>
    obtain ⟨h1, h2, _⟩ := h
    intro x hx
    simp only [TagPart.lex, List.mem_cons, List.mem_append, List.mem_map, List.not_mem_nil, or_false] at hx
    rcases hx with rfl | rfl | rfl | ⟨q, hq, rfl⟩ | rfl
    · exact leftBlock_sym
    · exact word_sym h1
    · exact plain_sym (p := .blanks 0) rfl
    · simp only [valueOk, Bool.and_eq_true] at h2
      exact plain_sym (List.all_eq_true.1 h2.1.1 q hq)
    · exact rightBlock_sym

private theorem tags_lexed {w : World} {ps : List TagPart} (h : ∀ p ∈ ps, p.Ok w) (hs : separate (ps.flatMap TagPart.pieces) = true) :
    LexList (ps.flatMap TagPart.lex) [] ∧ slices (ps.flatMap TagPart.lex) = tagPage ps := by
  have e : (ps.flatMap TagPart.lex).map (·.2) = ps.flatMap TagPart.pieces := by
    rw [List.map_flatMap]
    simp only [part_pieces]
  have hg := grouped_of (xs := ps.flatMap TagPart.lex) (by
    intro x hx
    obtain ⟨p, hp, hx⟩ := List.mem_flatMap.1 hx
    exact part_sym (h p hp) x hx)
  rw [e] at hg
  exact lexList_of hg hs

/-! ### Its elements -/

variable {env : Env}

/-- A block with a value which is converted, and without contents. -/
private theorem tag_block {α : Type} {name : Str} {value : List Plain} {br : BlockRule} {mk : α → Kind} {out : α} {conv : Option Str → M α}
    (hrule : getBlockRule name = some br)
    (hw : (Plain.word name).ok = true) (hv : valueOk value = true)
    (hconv : ∀ s, conv (some (plainText value)) env s = .ok out s)
    (hparse : ∀ cons, br.parse cons ⟨name, false, false, true⟩ = (do
      let v ← getHeadValue br.info true conv
      okE [.mk (mk v) []]))
    (hkp : ∀ v, (mk v).paragraphSafe? = some true)
    {xs rest : List ETok} {sol : Bool}
    (hxs : xs.map ETok.pair = (.leftBlock, c!"[[") ::
      (.identifier, name) :: (.whitespace, c!" ") :: (value.map Plain.lex ++ [(.rightBlock, c!"]]")]))
    (hr : rest ≠ []) (hnl : (rest.headD default).token ≠ .lineBreak) (hs : (xs ++ rest) <:+ (tokenize env.text).tokens) :
    Eats env 1 sol xs rest [.mk (mk out) []] true [] := by
  obtain ⟨l, os, rfl, hl, hos⟩ := List.map_eq_cons_iff.1 hxs
  obtain ⟨m, os, rfl, hm, hos⟩ := List.map_eq_cons_iff.1 hos
  obtain ⟨d, os, rfl, hd, hos⟩ := List.map_eq_cons_iff.1 hos
  obtain ⟨vs, rs, rfl, hvs, hrs⟩ := map_append_split hos
  obtain ⟨r, rfl, hr0⟩ := List.map_eq_singleton_iff.1 hrs
  have hrt : r.token = .rightBlock := congrArg (·.1) hr0
  have hdt : d.token = .whitespace := congrArg (·.1) hd
  have hlt : l.token = .leftBlock := congrArg (·.1) hl
  obtain ⟨n1, n2, n3, n4⟩ := word_facts hm hw
  obtain ⟨hvt, hvv⟩ := plains_tok hvs
  have e0 : l :: m :: d :: (vs ++ [r]) ++ rest = l :: ([m] ++ d :: (vs ++ r :: rest)) := by simp
  rw [e0] at hs
  have hs1 := List.IsSuffix.trans (List.suffix_cons l _) hs
  have hs2 := List.IsSuffix.trans (List.suffix_append [m, d] _) hs1
  refine eats_rule' hr (rs1 := []) (rs2 := []) (r := .block) (r' := .blk br.info.name) (n := 0)
    (by rw [hlt]; rfl) (by simp) (by simp [RuleId.needsLineStart]) (noParts_cons (fun q e => by have := hkp out; rw [e] at this; cases this) noParts_nil) ?_
  intro fuel p sh _ _
  have hfn : ruleFn (consume fuel) .block = ruleBlock (consume fuel) false := rfl
  have hsol : solAfter (l :: m :: d :: (vs ++ [r])) = false := by
    have := solAfter_append (l :: m :: d :: vs) r
    rw [hrt] at this
    exact this
  rw [hfn, hsol, e0]
  refine ruleBlock_run (ns := [m]) (c := d) (rest := vs ++ r :: rest) (br := br) hlt (by simp) n2 (.inl hdt) (by simp) n3 hs1 n4
    (by rw [n1]; exact hrule) (by simp) (fun _ => value_head hv hvs _) (by rw [n1, hdt]) ?_ (by cases vs with | nil => simpa using hr | cons v vs => simp)
  rw [if_pos hdt]
  have hin : (Token.whitespace == Token.whitespace) = true := rfl
  rw [hin, hparse]
  rw [bind_ok (getHeadValue_at (v := out) hrt hr ?_ hs2 (by rw [hvv]; exact hconv _) (fun _ => hnl))]
  · unfold okE
    have : elementsParagraphSafe? [.mk (mk out) []] = some true := by
      simp [elementsParagraphSafe?, Elem.kind, hkp]
    rw [this]
    rfl
  · intro x hx
    have := hvt x hx
    revert this; cases x.token <;> simp [isPlainTok, isLineTok]

private theorem named_ends {ref : Str} (h1 : ref ≠ []) (h2 : ref.all isAlnumA = true) (m k : Nat) (amp semi : Bool) :
    stripEntity (charArg m k amp semi ref) = ref := by
  have hc : ∀ c ∈ ref, isWS c = false ∧ c ≠ '&' ∧ c ≠ ';' := by
    intro c hc
    have := List.all_eq_true.1 h2 c hc
    refine ⟨alnum_notWS this, ?_, ?_⟩ <;> (rintro rfl; revert this; decide)
  exact strip_arg h1 (fun c h => ⟨(hc c (List.mem_of_head? h)).1, (hc c (List.mem_of_head? h)).2.1⟩)
    (fun c h => ⟨(hc c (List.mem_of_getLast? h)).1, (hc c (List.mem_of_getLast? h)).2.2⟩)

private theorem tag_eats {name : Str} {value : List Plain} {s : Stand}
    (hok : (TagPart.tag name value s).Ok env.world) {xs rest : List ETok} {sol : Bool}
    (hxs : xs.map ETok.pair = (TagPart.tag name value s).lex)
    (hr : rest ≠ []) (hnl : (rest.headD default).token ≠ .lineBreak) (hs : (xs ++ rest) <:+ (tokenize env.text).tokens) :
    Eats env 1 sol xs rest [(TagPart.tag name value s).elem] true [] := by
  obtain ⟨h1, h2, h3⟩ := hok
  have char : ∀ t, lowerA name ∈ [c!"char", c!"character"] → findEntity env.world (stripEntity (plainText value)) = some t →
      Eats env 1 sol xs rest [.mk (.text t) []] true [] := by
    intro t hn ht
    have hrule : getBlockRule name = some blockRules[9] := by
      rw [getBlockRule_lower h1]
      simp only [List.mem_cons, List.not_mem_nil, or_false] at hn
      rcases hn with e | e <;> rw [e] <;> exact getBlockRule_idx (k := 9) (by decide +kernel) rfl
    refine tag_block (mk := .text) (out := t) (conv := fun arg => do
      let e ← M.env
      let arg ← orFail .blockMissingArguments arg
      orFail .blockMalformedArguments (findEntity e.world (stripEntity arg))) hrule h1 h2 ?_ (fun _ => rfl) (fun _ => rfl) hxs hr hnl hs
    intro st
    show orFail .blockMalformedArguments (findEntity env.world (stripEntity (plainText value))) env st = _
    rw [ht]; rfl
  cases h3 with
  | @lines n hn hp hm =>
    have hrule : getBlockRule name = some blockRules[33] := by
      rw [getBlockRule_lower h1]
      simp only [List.mem_cons, List.not_mem_nil, or_false] at hn
      rcases hn with e | e <;> rw [e] <;> exact getBlockRule_idx (k := 33) (by decide +kernel) rfl
    refine tag_block (mk := .lineBreaks) (out := n) (conv := fun arg => do
      let arg ← orFail .blockMissingArguments arg
      let n ← orFail .blockMalformedArguments (parseNonZeroU32 (trim arg))
      if n > 100 then fail .blockMalformedArguments else pure n) hrule h1 h2 ?_ (fun _ => rfl) (fun _ => rfl) hxs hr hnl hs
    intro st
    show (do
      let n ← orFail .blockMalformedArguments (parseNonZeroU32 (trim (plainText value)))
      if n > 100 then fail .blockMalformedArguments else pure n : M Nat) env st = _
    rw [nonZero_positive, hp]
    show (if n > 100 then fail .blockMalformedArguments else pure n : M Nat) env st = _
    rw [if_neg (by omega)]
    rfl
  | code hn hv he => exact char _ hn (by rw [hv]; exact C78_char_codes _ _ _ _ _ _ _ he)
  | named hn hne ha hv he =>
    refine char _ hn ?_
    rw [hv, named_ends hne ha]
    unfold findEntity
    rw [he]
  | equation hn =>
    have hrule : getBlockRule name = some blockRules[17] := by
      rw [getBlockRule_lower h1]
      simp only [List.mem_cons, List.not_mem_nil, or_false] at hn
      rcases hn with e | e | e <;> rw [e] <;> exact getBlockRule_idx (k := 17) (by decide +kernel) rfl
    exact tag_block (mk := .equationRef) (out := trim (plainText value)) (conv := trimmedArg) hrule h1 h2 (fun _ => rfl)
      (fun _ => rfl) (fun _ => rfl) hxs hr hnl hs

/-- What a part can start with. -/
private def partStart (t : Token) : Prop := t = .identifier ∨ t = .whitespace ∨ t = .leftBlock ∨ t = .inputEnd

private theorem text_eats {p : Plain} (hok : (TagPart.text p).Ok env.world) {x y : ETok} {ys : List ETok} {sol : Bool}
    (hx : x.pair = p.lex) (hy : partStart y.token) : Eats env 1 sol [x] (y :: ys) [(TagPart.text p).elem] true [] := by
  have hxs : x.slice = p.str := congrArg (·.2) hx
  have hxt : x.token = p.lex.1 := congrArg (·.1) hx
  show Eats env 1 sol [x] (y :: ys) [eText p.str] true []
  rw [← hxs]
  cases p with
  | char c => exact (hok.2 c rfl).elim
  | word s => exact eats_text (by simp) (rs1 := []) (by rw [hxt]; rfl) (by simp)
  | blanks n =>
    have hxt : x.token = .whitespace := hxt
    refine eats_text (by simp) (rs1 := [.underscoreLineBreak, .list]) (by rw [hxt]; rfl) ?_
    intro r hr
    simp only [List.mem_cons, List.not_mem_nil, or_false] at hr
    rcases hr with rfl | rfl
    · refine fails_underscore hxt ?_
      rintro z zs e
      simp only [List.cons.injEq] at e
      rw [← e.1]
      rcases hy with h | h | h | h <;> simp [h]
    · refine fails_list hxt ?_
      rcases hy with h | h | h | h <;> rw [h] <;> rfl

private theorem tags_gather {e : ETok} (he : e.token = .inputEnd) {p : PState} {sh : Shared} (hp : p.depth = 0) {ps : List TagPart} 
    (hok : ∀ q ∈ ps, q.Ok env.world) : ∀ {xs : List ETok} {sol : Bool},
    xs.map ETok.pair = ps.flatMap TagPart.lex → (xs ++ [e]) <:+ (tokenize env.text).tokens → ∃ sol', ∀ c,
    Gathers env (consume maxRecursionDepth) p (xs ++ [e]) sol sh ⟨c, [], []⟩ [e] sol' sh ⟨addTo c (ps.map TagPart.elem), [], []⟩ := by
  induction ps with
  | nil =>
    intro xs sol hx hs
    cases List.map_eq_nil_iff.1 hx
    refine ⟨sol, fun c => ?_⟩
    have : addTo c [] = c := by cases c <;> simp [addTo]
    simp only [List.map_nil, this]
    exact .nil
  | cons q ps ih =>
    intro xs sol hx hs
    rw [List.flatMap_cons] at hx
    obtain ⟨xs, ys, rfl, hxs, hys⟩ := map_append_split hx
    rw [List.append_assoc] at hs ⊢
    have hs1 := List.IsSuffix.trans (List.suffix_append xs _) hs
    obtain ⟨y, zs, hyz, hy⟩ : ∃ y zs, ys ++ [e] = y :: zs ∧ partStart y.token := by
      cases ps with
      | nil => 
        cases List.map_eq_nil_iff.1 hys
        exact ⟨e, [], rfl, by simp [partStart, he]⟩
      | cons q' ps =>
        have hq' := hok q' (by simp)
        cases q' with
        | text p =>
          obtain ⟨y, zs, rfl, hy, _⟩ := List.map_eq_cons_iff.1 hys
          refine ⟨y, zs ++ [e], rfl, ?_⟩
          have hyt : y.token = p.lex.1 := congrArg (·.1) hy
          rw [hyt]
          cases p with
          | char c => exact (hq'.2 c rfl).elim
          | word s => exact .inl rfl
          | blanks n => exact .inr (.inl rfl)
        | tag name value s =>
          obtain ⟨y, zs, rfl, hy, _⟩ := List.map_eq_cons_iff.1 hys
          refine ⟨y, zs ++ [e], rfl, ?_⟩
          have hyt : y.token = .leftBlock := congrArg (·.1) hy
          rw [hyt]
          exact .inr (.inr (.inl rfl))
    obtain ⟨x, xs', rfl, hxt⟩ : ∃ x xs', xs = x :: xs' ∧ partStart x.token ∧ x.token ≠ .inputEnd := by
      have hq := hok q (by simp)
      cases q with
      | text p =>
        obtain ⟨y, zs, rfl, hy, _⟩ := List.map_eq_cons_iff.1 hxs
        refine ⟨y, zs, rfl, ?_⟩
        have hyt : y.token = p.lex.1 := congrArg (·.1) hy
        rw [hyt]
        cases p with
        | char c => exact (hq.2 c rfl).elim
        | word s => exact ⟨.inl rfl, by simp [Plain.lex]⟩
        | blanks n => exact ⟨.inr (.inl rfl), by simp [Plain.lex]⟩
      | tag name value s =>
        obtain ⟨y, zs, rfl, hy, _⟩ := List.map_eq_cons_iff.1 hxs
        refine ⟨y, zs, rfl, ?_⟩
        have hyt : y.token = .leftBlock := congrArg (·.1) hy
        rw [hyt]
        exact ⟨.inr (.inr (.inl rfl)), by simp⟩
    have hq : Eats env 1 sol (x :: xs') (ys ++ [e]) [q.elem] true [] := by
      rw [hyz] at hs ⊢
      have hqok := hok q (by simp)
      cases q with
      | text p =>
        obtain ⟨rfl, hx0⟩ : xs' = [] ∧ x.pair = p.lex := by
          simp only [TagPart.lex, List.map_cons, List.cons.injEq, List.map_eq_nil_iff] at hxs
          exact ⟨hxs.2, hxs.1⟩
        exact text_eats hqok hx0 hy
      | tag name value s =>
        refine tag_eats hqok hxs (by simp) ?_ hs
        show y.token ≠ _
        rcases hy with h | h | h | h <;> simp [h]
    obtain ⟨sol', h⟩ := ih (fun q hq => hok q (by simp [hq])) (xs := ys) (sol := solAfter (x :: xs')) hys hs1
    refine ⟨sol', fun c => ?_⟩
    have he : (q :: ps).map TagPart.elem = [q.elem] ++ ps.map TagPart.elem := rfl
    rw [he]
    refine gather_one hq ?_ (by simp) hp h
    have hx1 := hxt.1
    have hx2 := hxt.2
    refine ⟨?_, ?_, ⟨?_, ?_⟩, ?_⟩
    all_goals simp
    all_goals first | omega | (rcases hx1 with h | h | h | h <;> simp_all)

/-- C105: a line of words, blanks and such tags is one paragraph of what they stand for, and nothing is reported. -/
theorem C105_tags {w : World} {ps : List TagPart} (hne : ps ≠ []) (hok : ∀ p ∈ ps, p.Ok w)
    (hs : separate (ps.flatMap TagPart.pieces) = true) (info : PageInfo) (settings : Settings) :
    ∃ o, parse w (tokenize (tagPage ps)) info settings = some (.ok o) ∧ o.errors = [] ∧
      o.tree = ⟨[.mk (.container .paragraph []) (ps.map TagPart.elem), .mk (.footnoteBlock none false) []], [], [], [], [], [],
        byteLen (tagPage ps)⟩ := by
  obtain ⟨hl, hsl⟩ := tags_lexed hok hs
  obtain ⟨xs, e, ht, hx, he⟩ : ∃ xs e, (tokenize (tagPage ps)).tokens =
      ⟨.inputStart, [], 0, 0⟩ :: (xs ++ [e]) ∧ xs.map ETok.pair = ps.flatMap TagPart.lex ∧ e.token = .inputEnd := by
    obtain ⟨mid, m1, _, m3⟩ := C07_tokens_tile (tagPage ps)
    refine ⟨_, _, m1, ?_, rfl⟩
    rw [← hsl, tokenize_list hl] at m1
    simp only [List.cons.injEq, true_and, List.append_cancel_right_eq] at m1
    rw [← m1]
    exact addSpans_map _ _
  let env : Env := ⟨tagPage ps, (tokenize (tagPage ps)).tokens, info, settings, w⟩
  let p0 : PState := ⟨⟨.inputStart, [], 0, 0⟩, xs ++ [e], .page, 0, .none, false, false, true⟩
  have hs : (xs ++ [e]) <:+ (tokenize env.text).tokens := by
    show _ <:+ (tokenize (tagPage ps)).tokens
    rw [ht]; exact List.suffix_cons ..
  have hxne : xs ≠ [] := by
    rintro rfl
    obtain ⟨q, qs, rfl⟩ := List.exists_cons_of_ne_nil hne
    cases q <;> simp [TagPart.lex] at hx
  have hstart : consume maxRecursionDepth env ⟨p0.at (⟨.inputStart, [], 0, 0⟩ :: (xs ++ [e])) true, ⟨[], [], [], [], []⟩⟩ =
      .ok ⟨[], [], true⟩ ⟨p0.at (xs ++ [e]) true, ⟨[], [], [], [], []⟩⟩ :=
    eats_tok (env := env) (x := ⟨.inputStart, [], 0, 0⟩) (rest := xs ++ [e]) (sol := true) (r := .null) (rs1 := [])
      (rs2 := []) (es := []) (safe := true) (by simp) rfl (by simp) (by simp) noParts_nil (fun _ _ _ => rfl)
      maxRecursionDepth p0 _ (by decide) (by simp [p0]) (fun _ => rfl)
  obtain ⟨sol', hg0⟩ := tags_gather (env := env) (e := e) he (p := p0) (sh := ⟨[], [], [], [], []⟩) rfl hok (sol := true) hx hs
  have hel : addTo [] (ps.map TagPart.elem) = ps.map TagPart.elem := by
    obtain ⟨q, qs, rfl⟩ := List.exists_cons_of_ne_nil hne
    cases q with
    | text p => rfl
    | tag n v s => cases s <;> rfl
  have hg : Gathers env (consume maxRecursionDepth) p0 (⟨.inputStart, [], 0, 0⟩ :: (xs ++ [e])) true ⟨[], [], [], [], []⟩
      PStack.new [e] sol' ⟨[], [], [], [], []⟩ ⟨ps.map TagPart.elem, [], []⟩ :=
    .cons ⟨by simp, by simp, ⟨by simp, by simp⟩, by simp⟩ hstart (by simp) (by
      have := hg0 []
      rw [hel] at this
      exact this)
  have hrun := gatherParagraphs_gathers (r := .page) (close := none) (p := p0) (toks2 := [e]) (sol2 := sol') hg (by simp) (by simp) ⟨he, rfl, rfl⟩
    (.inl ⟨he, rfl, rfl⟩) (by
      obtain ⟨q, qs, rfl⟩ := List.exists_cons_of_ne_nil hne
      rfl) (safe := false) (by
      obtain ⟨q, qs, rfl⟩ := List.exists_cons_of_ne_nil hne
      rfl)
  refine ⟨⟨⟨[.mk (.container .paragraph []) (ps.map TagPart.elem)] ++ [.mk (.footnoteBlock none false) []],
      [], [], [], [], [], byteLen (tagPage ps)⟩, []⟩, ?_, rfl, rfl⟩
  have hint := hrun
  rw [show gatherParagraphs (consume maxRecursionDepth) .page none env ⟨p0.at (⟨.inputStart, [], 0, 0⟩ :: (xs ++ [e])) true, ⟨[], [], [], [], []⟩⟩ =
    parseInternal env by
      unfold parseInternal
      rw [show env.tokens = ⟨.inputStart, [], 0, 0⟩ :: (xs ++ [e]) from ht]
      rfl] at hint
  show parseEnv env = _
  unfold parseEnv
  rw [hint]
  obtain ⟨q, qs, rfl⟩ := List.exists_cons_of_ne_nil hne
  rfl

/-! ### What it renders to -/

private theorem brs_shown (st : HSt) : ∀ n, repeatAct (tag c!"br" [] skip) n st = .ok (List.replicate n c!"<br>").flatten st
  | 0 => rfl
  | n + 1 => by
    have h1 : tag c!"br" [] skip st = .ok c!"<br>" st := rfl
    simp only [repeatAct, Act.andThen, h1, brs_shown st n, List.replicate_succ, List.flatten_cons]

private theorem act_seq {a b : Act} {s t : Str} {st st' st'' : HSt} (h1 : a st = .ok s st') (h2 : b st' = .ok t st'') :
    (a ;; b) st = .ok (s ++ t) st'' := by simp [Act.andThen, h1, h2]

private theorem part_shown (e : HEnv) (ext : List Elem → Act) (p : TagPart) (st : HSt) :
    htmlElem e ext p.elem st = .ok p.html st := by
  cases p with
  | text p =>
    show emitEsc p.str st = _
    rw [emitEsc, escape_eq]
    rfl
  | tag name value s =>
    cases s with
    | lines n => exact brs_shown st n
    | text t =>
      show emitEsc t st = _
      rw [emitEsc, escape_eq]
      rfl
    | equation name =>
      show renderEquationRef name st = _
      have h1 : tag c!"span" [kv c!"class" c!"wj-equation-ref-tooltip", kv c!"aria-hidden" c!"true"] skip st =
          .ok (wrapAttrs c!"span" [(c!"class", c!"wj-equation-ref-tooltip"), (c!"aria-hidden", c!"true")] []) st := rfl
      have h2 : tag c!"wj-equation-ref-marker" [kv c!"class" c!"wj-equation-ref-marker", kv c!"type" c!"button",
          kv c!"data-name" name] (emitEsc name) st =
          .ok (wrapAttrs c!"wj-equation-ref-marker" [(c!"class", c!"wj-equation-ref-marker"), (c!"type", c!"button"), (c!"data-name", name)]
            (strHtml name)) st := by
        have := act_around (a := emitEsc name) (s := strHtml name) (st := st) (st' := st)
          (c!"<wj-equation-ref-marker" ++ attrsStr (attrList [kv c!"class" c!"wj-equation-ref-marker", kv c!"type" c!"button",
            kv c!"data-name" name] []) ++ c!">") c!"</wj-equation-ref-marker>" (by rw [emitEsc, escape_eq]; rfl)
        refine Eq.trans this ?_
        have ha : attrsStr (attrList [kv c!"class" c!"wj-equation-ref-marker", kv c!"type" c!"button", kv c!"data-name" name] []) =
            [(c!"class", c!"wj-equation-ref-marker"), (c!"type", c!"button"), (c!"data-name", name)].flatMap attrHtml := by
          show c!" class=\"wj-equation-ref-marker\" type=\"button\"" ++ (attrStr c!"data-name" name ++ []) =
            c!" class=\"wj-equation-ref-marker\" type=\"button\"" ++ (attrHtml (c!"data-name", name) ++ [])
          congr 2
          simp only [attrStr, attrHtml, escape_eq, List.isEmpty_iff]
        rw [ha]
        simp [wrapAttrs]
      have h3 := tag_with (name := c!"span") (k := c!"class") (v := c!"wj-equation-ref") rfl rfl (by simp)
        (act_seq h2 h1)
      simp only [renderEquationRef, tag, TagPart.html]
      exact h3

private theorem parts_shown (e : HEnv) (ext : List Elem → Act) (st : HSt) : ∀ (ps : List TagPart),
    htmlElem.go e ext (ps.map TagPart.elem) st = .ok (ps.flatMap TagPart.html) st
  | [] => rfl
  | p :: ps => by
    simp only [List.map_cons, List.flatMap_cons]
    rw [htmlElem.go]
    simp only [Act.andThen, part_shown, parts_shown e ext st ps]

private theorem newlines_said (n : Nat) : ∀ (c : Str), addNewlines n ⟨c, ⟨[]⟩, 0⟩ = ⟨c ++ List.replicate n '\n', ⟨[]⟩, 0⟩ := by
  induction n with
  | zero => intro c; simp [addNewlines]
  | succ n ih =>
    intro c
    simp only [addNewlines, TCtx.addNewline]
    rw [ih, List.replicate_succ]
    simp

private theorem part_said (w : World) (site : Str) (p : TagPart) (c : Str) :
    textElem w site p.elem ⟨c, ⟨[]⟩, 0⟩ = some ⟨c ++ p.plain, ⟨[]⟩, 0⟩ := by
  cases p with
  | text p => rfl
  | tag name value s =>
    cases s with
    | lines n =>
      show some (addNewlines n _) = _
      rw [newlines_said]
      rfl
    | text t => rfl
    | equation name => rfl

private theorem parts_said (w : World) (site : Str) : ∀ (ps : List TagPart) (c : Str),
    textElem.go w site (ps.map TagPart.elem) ⟨c, ⟨[]⟩, 0⟩ = some ⟨c ++ ps.flatMap TagPart.plain, ⟨[]⟩, 0⟩
  | [], c => by simp [textElem.go]
  | p :: ps, c => by
    simp only [List.map_cons, List.flatMap_cons, textElem.go, part_said, Option.bind_some, parts_said w site ps]
    simp

/-- C105: it is shown as a paragraph with line breaks, characters and references for the tags, with nothing but these
becoming HTML. -/
theorem C105_html {w : HWorld} {ps : List TagPart} (hne : ps ≠ []) (hok : ∀ p ∈ ps, p.Ok w.toWorld)
    (hs : separate (ps.flatMap TagPart.pieces) = true) (info : PageInfo) (settings : Settings) :
    ∃ o, parse w.toWorld (tokenize (tagPage ps)) info settings = some (.ok o) ∧
      ∀ n ≥ 1, ∃ out, htmlRender n w info settings o.tree = .ok out ∧
        out.body = wrapWith c!"wj-body" c!"class" c!"wj-body" (wrap c!"p" (ps.flatMap TagPart.html)) ∧ out.links = ⟨[], []⟩ := by
  obtain ⟨o, o1, _, o2⟩ := C105_tags hne hok hs info settings
  refine ⟨o, o1, ?_⟩
  intro n hn
  obtain ⟨n, rfl⟩ : ∃ k, n = k + 1 := ⟨n - 1, by omega⟩
  rw [o2]
  let env := HEnv.of w info settings ⟨[.mk (.container .paragraph []) (ps.map TagPart.elem), .mk (.footnoteBlock none false) []], [], [], [], [], [],
        byteLen (tagPage ps)⟩
  have h2 : htmlElem.go env (renderLevel env n) [.mk (.container .paragraph []) (ps.map TagPart.elem), .mk (.footnoteBlock none false) []] HSt.init =
      .ok (wrap c!"p" (ps.flatMap TagPart.html)) HSt.init := by
    have h3 : htmlElem env (renderLevel env n) (.mk (.container .paragraph []) (ps.map TagPart.elem)) HSt.init =
        .ok (wrap c!"p" (ps.flatMap TagPart.html)) HSt.init := by
      show tagA c!"p" [] [] (htmlElem.go env (renderLevel env n) (ps.map TagPart.elem)) HSt.init = _
      exact tag_plain rfl (parts_shown env (renderLevel env n) HSt.init ps)
    have h4 : htmlElem env (renderLevel env n) (.mk (.footnoteBlock none false) []) HSt.init = .ok [] HSt.init := rfl
    rw [htmlElem.go, htmlElem.go, htmlElem.go]
    simp only [Act.andThen, h3, h4, skip, emit, List.append_nil]
  refine ⟨⟨wrapWith c!"wj-body" c!"class" c!"wj-body" (wrap c!"p" (ps.flatMap TagPart.html)), initialMeta w info settings.layout, ⟨[], []⟩⟩, ?_, rfl, rfl⟩
  have h5 := tag_with (name := c!"wj-body") (k := c!"class") (v := c!"wj-body") rfl rfl (by simp) h2
  unfold htmlRender tag
  rw [renderLevel]
  erw [h5]
  rfl

/-- C105: and its text has line ends, these characters and `[name]` for the tags, without empty lines at the beginning and the end. -/
theorem C105_text {w : World} {ps : List TagPart} (hne : ps ≠ []) (hok : ∀ p ∈ ps, p.Ok w)
    (hs : separate (ps.flatMap TagPart.pieces) = true) (info : PageInfo) (settings : Settings) :
    ∃ o, parse w (tokenize (tagPage ps)) info settings = some (.ok o) ∧
      textRender w info o.tree = some (trimLines (ps.flatMap TagPart.plain)) := by
  obtain ⟨o, o1, _, o2⟩ := C105_tags hne hok hs info settings
  refine ⟨o, o1, ?_⟩
  rw [o2]
  unfold textRender textRenderPartial
  have h3 : textElem.go w info.site [.mk (.container .paragraph []) (ps.map TagPart.elem), .mk (.footnoteBlock none false) []] ⟨[], ⟨[]⟩, 0⟩ =
      some ⟨c!"\n" ++ ps.flatMap TagPart.plain ++ c!"\n", ⟨[]⟩, 0⟩ := by
    have h4 : textElem w info.site (.mk (.container .paragraph []) (ps.map TagPart.elem)) ⟨[], ⟨[]⟩, 0⟩ =
        some ⟨c!"\n" ++ ps.flatMap TagPart.plain ++ c!"\n", ⟨[]⟩, 0⟩ := by
      show (textElem.go w info.site (ps.map TagPart.elem) ⟨c!"\n", ⟨[]⟩, 0⟩).map (fun ctx => ctx.addNewline) = _
      rw [parts_said]; rfl
    rw [textElem.go, h4]
    rfl
  simp only [h3, Option.map_some, Option.some.injEq]
  exact trimLines_around _

/-- A line with all of them; the names are found in capitals too. -/
def someTags : List TagPart :=
  [.text (.word c!"a"), .text (.blanks 0), .tag c!"char" [.char '&', .char '#', .word c!"60", .char ';'] (.text c!"<"),
    .tag c!"LINES" [.char '+', .word c!"2"] (.lines 2), .tag c!"character" [.word c!"hearts"] (.text c!"!"),
    .tag c!"eqref" [.word c!"e1"] (.equation c!"e1"), .text (.word c!"b")]

example (info : PageInfo) (settings : Settings) (w : HWorld) (hn : w.entity c!"#60" = none) (hh : w.entity c!"hearts" = some c!"!") :
    tagPage someTags = c!"a [[char &#60;]][[LINES +2]][[character hearts]][[eqref e1]]b" ∧
    ∃ o, parse w.toWorld (tokenize (tagPage someTags)) info settings = some (.ok o) ∧
      ∀ n ≥ 1, ∃ out, htmlRender n w info settings o.tree = .ok out ∧ out.body = c!"<wj-body class=\"wj-body\"><p>a &lt;<br><br>!" ++
        c!"<span class=\"wj-equation-ref\"><wj-equation-ref-marker class=\"wj-equation-ref-marker\" type=\"button\" data-name=\"e1\">" ++
        c!"e1</wj-equation-ref-marker><span class=\"wj-equation-ref-tooltip\" aria-hidden=\"true\"></span></span>b</p></wj-body>" := by
  refine ⟨by decide +kernel, ?_⟩
  have hc : charCode false ('<' : Char).toNat = c!"#60" := by decide +kernel
  obtain ⟨o, h1, h2⟩ := C105_html (w := w) (ps := someTags) (by simp [someTags]) (by
    intro p hp
    simp only [someTags, List.mem_cons, List.not_mem_nil, or_false] at hp
    rcases hp with rfl | rfl | rfl | rfl | rfl | rfl | rfl
    · exact ⟨by decide, by simp⟩
    · exact ⟨by decide, by simp⟩
    · exact ⟨by decide, by decide, .code (hex := false) (amp := true) (semi := true) (blanks1 := 0) (blanks2 := 0) (by decide)
        (by decide +kernel) (by rw [hc]; exact hn)⟩
    · exact ⟨by decide, by decide, .lines (by decide) (by decide +kernel) (by decide)⟩
    · exact ⟨by decide, by decide, .named (ref := c!"hearts") (amp := false) (semi := false) (blanks1 := 0) (blanks2 := 0) (by decide) (by decide) (by decide)
        (by decide +kernel) hh⟩
    · exact ⟨by decide, by decide, .equation (by decide)⟩
    · exact ⟨by decide, by simp⟩) (by decide +kernel) info settings
  refine ⟨o, h1, fun n hn => ?_⟩
  obtain ⟨out, o1, o2, _⟩ := h2 n hn
  refine ⟨out, o1, o2.trans ?_⟩
  decide +kernel

end Ftml
