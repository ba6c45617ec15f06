import Verif.Lemmas.SectionRun
import Verif.Props.LexerShape
/-
Blocks whose contents are not markup.
-/
namespace Ftml
open M Markup Lexer
variable {env : Env}

/-! ### The contents -/

theorem containsSub_of {p a b : Str} (hp : p ≠ []) : containsSub p (a ++ p ++ b) = true := by
  induction a with
  | nil =>
    obtain ⟨c, p, rfl⟩ := List.exists_cons_of_ne_nil hp
    have : stripPfx (c :: p) (c :: p ++ b) = some b := stripPfx_some.2 rfl
    simp only [List.nil_append, List.cons_append, containsSub]
    rw [← List.cons_append, this]
    rfl
  | cons x a ih => simp only [List.cons_append, containsSub]; simp only [List.append_assoc] at ih ⊢; rw [ih]; simp

theorem slices_pair (xs : List ETok) : slices (xs.map ETok.pair) = slicesOf xs := by
  induction xs with
  | nil => rfl
  | cons x xs ih =>
    simp only [slices, slicesOf, List.map_cons, List.flatMap_cons] at ih ⊢
    rw [ih]

theorem text_toks {text : Str} (h : textOk text = true) (hne : text ≠ []) {xs rest : List ETok} (hx : xs.map ETok.pair = textsLex text)
    (hs : (xs ++ rest) <:+ (tokenize env.text).tokens) :
    ∃ ys w, xs = ys ++ [w] ∧ w.token = .lineBreak ∧ slicesOf ys = text ∧ ys ≠ [] ∧ ∀ y ∈ ys, y.token ≠ .leftBlockEnd := by
  rw [textsLex, if_neg hne] at hx
  obtain ⟨ys, ws, rfl, hy, hw⟩ := map_append_split hx
  obtain ⟨w, rfl, hw0⟩ := List.map_eq_singleton_iff.1 hw
  have hsl : slicesOf ys = text := by
    rw [← slices_pair, hy]
    exact (textLex_spec (text_whole h hne)).1
  refine ⟨ys, w, rfl, congrArg (·.1) hw0, hsl, ?_, ?_⟩
  · rintro rfl
    exact hne hsl.symm
  · intro y hm e
    have hmem : y ∈ (tokenize env.text).tokens := hs.subset (by simp [hm])
    have hshape := C57_token_shapes _ y hmem
    rw [e] at hshape
    simp only [TokenShape, tokenLiteral, Option.some.injEq] at hshape
    obtain ⟨a, b, rfl⟩ := List.append_of_mem hm
    simp only [textOk, Bool.and_eq_true, Bool.not_eq_true'] at h
    have hc := containsSub_of (p := c!"[[/") (a := slicesOf a) (b := slicesOf b) (by simp)
    have e2 : slicesOf a ++ c!"[[/" ++ slicesOf b = text := by
      rw [← hsl, hshape]
      simp [slicesOf]
    rw [e2, h.1] at hc
    cases hc

/-- The contents up to the end of the block. -/
theorem bodyText_run {b : BlockInfo} (hnl : b.newlines = true) {text : Str} (h : textOk text = true) {xs ns rest : List ETok} {o c : ETok}
    {p : PState} {sh : Shared} {sol : Bool}
    (hx : xs.map ETok.pair = textsLex text) (ho : o.token = .leftBlockEnd) (hn : EndName ns) (hc : c.token = .rightBlock) (hr : rest ≠ [])
    (hb : b.names.any (fun m => eqIgnoreCase (stripScore (slicesOf ns)) m) = true)
    (hs : (xs ++ o :: (ns ++ c :: rest)) <:+ (tokenize env.text).tokens) :
    getBodyText b env ⟨p.at (xs ++ o :: (ns ++ c :: rest)) sol, sh⟩ = .ok text ⟨p.at rest false, sh⟩ := by
  have hs1 : (ns ++ c :: rest) <:+ (tokenize env.text).tokens :=
    List.IsSuffix.trans (List.suffix_cons o _) (List.IsSuffix.trans (List.suffix_append xs _) hs)
  have slice : ∀ {a z : ETok} {m r r' : List ETok}, (a :: r) <:+ (tokenize env.text).tokens → a :: r = m ++ z :: r' → ∀ s : St,
      slicePartialText a z env s = .ok (slicesOf m) s := by
    intro a z m r r' h1 h2 s
    unfold slicePartialText
    rw [bind_ok (m := M.env) (s' := s) (a := env) rfl, slicePartial_ok h1 h2]
    rfl
  unfold getBodyText
  by_cases hne : text = []
  · subst hne
    have : xs = [] := by simpa [textsLex] using hx
    subst this
    rw [List.nil_append] at hs ⊢
    rw [bind_ok (s' := ⟨p.at (o :: (ns ++ c :: rest)) sol, sh⟩) (a := o) rfl]
    refine (bind_ok (a := o) (s' := ⟨p.at rest false, sh⟩) ?_).trans ?_
    · show loopN _ _ _ env _ = _
      rw [loopN]
      refine (bind_ok (a := .done o) (s' := ⟨p.at rest false, sh⟩) ?_).trans rfl
      have hv := verifyEnd_yes (env := env) (b := b) (first := true) (p := p) (sol := sol) (sh := sh) (W := []) (.inl rfl) ho hn hc hr hb hs1
      simp only [List.nil_append] at hv
      rw [bind_ok hv]
      rfl
    · exact slice (m := []) hs rfl _
  · obtain ⟨ys, w, rfl, hw, hsl, hyn, hy⟩ := text_toks h hne hx hs
    have loopRun : ∀ (zs : List ETok), (∀ z ∈ zs, z.token ≠ .leftBlockEnd) → ∀ (k : Nat) (first : Bool) (sol : Bool), zs.length ≤ k →
        (zs = [] → first = false) →
        loopN (fun (first : Bool) => do
          match ← verifyEndBlock first b with
          | some stop => pure (.done stop)
          | none => do
            let _ ← step
            pure (.more false)) (k + 1) first env ⟨p.at (zs ++ w :: o :: (ns ++ c :: rest)) sol, sh⟩ = .ok w ⟨p.at rest false, sh⟩ := by
      intro zs
      induction zs with
      | nil =>
        intro _ k first sol _ hf
        rw [loopN]
        refine (bind_ok (a := .done w) (s' := ⟨p.at rest false, sh⟩) ?_).trans rfl
        have hv := verifyEnd_yes (env := env) (b := b) (first := first) (p := p) (sol := sol) (sh := sh) (W := [w]) (.inr ⟨w, rfl, hw, hnl, hf rfl⟩) ho hn hc hr hb hs1
        simp only [List.singleton_append] at hv
        rw [List.nil_append, bind_ok hv]
        rfl
      | cons z zs ih =>
        intro hz k first sol hk _
        obtain ⟨k, rfl⟩ : ∃ j, k = j + 1 := ⟨k - 1, by simp at hk; omega⟩
        obtain ⟨y, r, e, hyy⟩ : ∃ y r, zs ++ w :: o :: (ns ++ c :: rest) = y :: r ∧ y.token ≠ .leftBlockEnd := by
          cases zs with
          | nil => exact ⟨w, _, rfl, by simp [hw]⟩
          | cons y zs => exact ⟨y, _, rfl, hz y (by simp)⟩
        rw [loopN]
        refine (bind_ok (a := .more false) (s' := ⟨p.at (zs ++ w :: o :: (ns ++ c :: rest)) (isLineStartTok z.token), sh⟩) ?_).trans ?_
        · rw [List.cons_append, e]
          rw [bind_ok (verifyEnd_no ⟨by simpa using hz z (by simp), fun _ _ => by simpa using hyy⟩)]
          dsimp only
          rw [bind_ok (step_at ..)]
          rfl
        · exact ih (fun z h => hz z (by simp [h])) k false _ (by simp at hk; omega) (fun _ => rfl)
    obtain ⟨y, ys, rfl⟩ := List.exists_cons_of_ne_nil hyn
    have e0 : (y :: ys) ++ [w] ++ o :: (ns ++ c :: rest) = (y :: ys) ++ w :: o :: (ns ++ c :: rest) := by simp
    rw [e0] at hs ⊢
    rw [bind_ok (s' := ⟨p.at (y :: ys ++ w :: o :: (ns ++ c :: rest)) sol, sh⟩) (a := y) rfl]
    refine (bind_ok (a := w) (s' := ⟨p.at rest false, sh⟩) (loopRun (y :: ys) hy _ true sol ?_ (by simp))).trans ?_
    · simp [PState.at]
    · rw [← hsl]
      exact slice (m := y :: ys) hs rfl _

/-! ### What is noted down -/

/-- The shared lists with what the blocks put there. -/
def addNotes (cx : Markup.Ctx) (sh : Shared) (d : Page) : Shared :=
  { sh with
    toc := sh.toc ++ Page.toc d
    htmlBlocks := sh.htmlBlocks ++ Page.htmls d
    codeBlocks := sh.codeBlocks ++ Page.codes cx d
    footnotes := sh.footnotes ++ (Page.notes d).map (noteElems cx)
    bibs := sh.bibs ++ (Page.bibs d).map (Biblio.bibl cx) }

theorem addNotes_nil (cx : Markup.Ctx) (sh : Shared) : addNotes cx sh [] = sh := by simp [addNotes, Page.toc, Page.htmls, Page.codes, Page.notes, Page.bibs]
theorem addNotes_append (cx : Markup.Ctx) (sh : Shared) (a b : Page) : addNotes cx (addNotes cx sh a) b = addNotes cx sh (a ++ b) := by
  simp [addNotes, Page.toc, Page.htmls, Page.codes, Page.notes, Page.bibs]

theorem addNotes_cons (cx : Markup.Ctx) (sh : Shared) (x : Block × Bool) (d : Page) : addNotes cx sh (x :: d) = addNotes cx (addNotes cx sh [x]) d :=
  (addNotes_append cx sh [x] d).symm
theorem addNotes_quiet {cx : Markup.Ctx} {sh : Shared} {b : Block} {t : Bool} (h1 : b.toc = []) (h2 : b.htmls = []) (h3 : b.codes cx = [])
    (h4 : b.bibs = []) : addNotes cx sh [(b, t)] = putNotes sh (b.notes.map (noteElems cx)) := by
  simp [addNotes, putNotes_eq, Page.toc, Page.htmls, Page.codes, Page.notes, Page.bibs, h1, h2, h3, h4]

/-- The names of code blocks differ, what is about the page is allowed, and the bibliographies are numbered. -/
def Named (cx : Markup.Ctx) (sh : Shared) (d : Page) : Prop :=
  ((sh.codeBlocks ++ Page.codes cx d).filterMap (·.name)).Nodup ∧ (d.any (·.1.isPage) = true → cx.settings.enablePageSyntax = true) ∧
  (Page.bibs d).map (·.number) = List.range' sh.bibs.length (Page.bibs d).length

theorem range'_append_eq {l1 l2 : List Nat} {n : Nat} (h : l1 ++ l2 = List.range' n (l1.length + l2.length)) :
    l1 = List.range' n l1.length ∧ l2 = List.range' (n + l1.length) l2.length := by
  rw [← List.range'_append_1] at h
  exact List.append_inj h (by simp)

theorem Named.append {cx : Markup.Ctx} {sh : Shared} {a b : Page} (h : Named cx sh (a ++ b)) : Named cx sh a ∧ Named cx (addNotes cx sh a) b := by
  constructor
  · unfold Named at h ⊢
    rw [Page.codes, List.flatMap_append, ← List.append_assoc, List.filterMap_append] at h
    refine ⟨(List.nodup_append.1 h.1).1, fun ha => h.2.1 (by rw [List.any_append, ha, Bool.true_or]), ?_⟩
    have h3 := h.2.2
    simp only [Page.bibs, List.flatMap_append, List.map_append, List.length_append] at h3
    have := range'_append_eq (l1 := (a.flatMap (·.1.bibs)).map (·.number)) (l2 := (b.flatMap (·.1.bibs)).map (·.number)) (by simpa using h3)
    simpa [Page.bibs] using this.1
  · unfold Named at h ⊢
    refine ⟨by simpa [addNotes, Page.codes] using h.1, fun ha => h.2.1 (by rw [List.any_append, ha, Bool.or_true]), ?_⟩
    have h3 := h.2.2
    simp only [Page.bibs, List.flatMap_append, List.map_append, List.length_append] at h3
    have := range'_append_eq (l1 := (a.flatMap (·.1.bibs)).map (·.number)) (l2 := (b.flatMap (·.1.bibs)).map (·.number)) (by simpa using h3)
    simpa [Page.bibs, addNotes] using this.2

theorem pushCode_run {code : CodeBlock} {p : PState} {sh : Shared} (h : ((sh.codeBlocks ++ [code]).filterMap (·.name)).Nodup) :
    pushCodeBlock code env ⟨p, sh⟩ = .ok true ⟨p, { sh with codeBlocks := sh.codeBlocks ++ [code] }⟩ := by
  unfold pushCodeBlock
  rw [bind_ok (m := getSh) (a := sh) (s' := ⟨p, sh⟩) rfl]
  rw [if_neg]
  · rfl
  · intro hc
    rw [Bool.and_eq_true] at hc
    obtain ⟨h1, h2⟩ := hc
    obtain ⟨nm, hnm⟩ := Option.isSome_iff_exists.1 h1
    obtain ⟨b, hb, hbn⟩ := List.any_eq_true.1 h2
    rw [beq_iff_eq, hnm] at hbn
    rw [List.filterMap_append, List.nodup_append] at h
    exact h.2.2 nm (List.mem_filterMap.2 ⟨b, hb, hbn⟩) nm (by simp [hnm]) rfl

/-! ### The whole block -/

/-- The rule of such a block. -/
def foreignRule : Foreign → BlockRule
  | .code .. => blockRules[11]
  | .html .. => blockRules[21]
  | .math .. => blockRules[35]

/-- Its name. -/
def foreignName : Foreign → Str
  | .code n _ _ | .html n _ | .math n _ _ => n

theorem foreign_rule {v : Foreign} {text : Str} (h : v.ok text = true) : (Plain.word (foreignName v)).ok = true ∧
    getBlockRule (lowerA (foreignName v)) = some (foreignRule v) ∧ (foreignRule v).info.newlines = true := by
  cases v with
  | code name args close =>
    simp only [Foreign.ok, Bool.and_eq_true, beq_iff_eq] at h
    have hn := h.1.1
    exact ⟨lower_word hn rfl, by rw [foreignName, hn]; exact getBlockRule_idx (k := 11) (by decide +kernel) rfl, rfl⟩
  | html name close =>
    simp only [Foreign.ok, Bool.and_eq_true, beq_iff_eq] at h
    have hn := h.1
    exact ⟨lower_word hn rfl, by rw [foreignName, hn]; exact getBlockRule_idx (k := 21) (by decide +kernel) rfl, rfl⟩
  | math name label close =>
    simp only [Foreign.ok, Bool.and_eq_true, beq_iff_eq] at h
    have hn := h.1.1.1
    exact ⟨lower_word hn rfl, by rw [foreignName, hn]; exact getBlockRule_idx (k := 35) (by decide +kernel) rfl, rfl⟩

theorem foreign_run {v : Foreign} {text : Str} {t : Bool} (hok : (Block.foreign v text).ok = true) {os body cs rest : List ETok} {x : ETok} {sol : Bool}
    (hos : os.map ETok.pair = v.openLex) (hx : x.token = .lineBreak) (hbody : body.map ETok.pair = textsLex text)
    (hcs : cs.map ETok.pair = v.closeLex) (hr : rest ≠ [])
    (hs : (os ++ x :: (body ++ (cs ++ rest))) <:+ (tokenize env.text).tokens) {cons : M (PS Elements)} {p : PState} {sh : Shared}
    (hname : Named env.cx sh [(.foreign v text, t)]) :
    ruleBlock cons false env ⟨p.at (os ++ x :: (body ++ (cs ++ rest))) sol, sh⟩ =
        .ok ⟨[.mk (v.kind text) []], [], false⟩
          ⟨({ p with rule := .blk (foreignRule v).info.name } : PState).at rest false, addNotes env.cx sh [(.foreign v text, t)]⟩ := by
  simp only [Block.ok, Bool.and_eq_true] at hok
  obtain ⟨hok, htext⟩ := hok
  obtain ⟨w1, k1, k2⟩ := foreign_rule hok
  have hB : body ++ (cs ++ rest) ≠ [] := by simp [hr]
  have headEnd : HeadEnd (foreignRule v).info (x :: (body ++ (cs ++ rest))) (body ++ (cs ++ rest)) true :=
    .inr ⟨k2, hB, rfl, x, rfl, hx⟩
  have getB : ∀ {o c n : ETok}, cs = [o, n, c] → EndName [n] →
      (foreignRule v).info.names.any (fun m => eqIgnoreCase (stripScore (slicesOf [n])) m) = true → o.token = .leftBlockEnd → c.token = .rightBlock →
      ∀ (p : PState) (sh : Shared),
      getBodyText (foreignRule v).info env ⟨p.at (body ++ (cs ++ rest)) true, sh⟩ = .ok text ⟨p.at rest false, sh⟩ := by
    intro o c n hcs' hend hnm ho hc p sh
    have e : cs ++ rest = o :: ([n] ++ c :: rest) := by rw [hcs']; rfl
    rw [e] at hs ⊢
    refine bodyText_run k2 htext hbody ho hend hc hr hnm ?_
    exact List.IsSuffix.trans (List.suffix_cons x _) (List.IsSuffix.trans (List.suffix_append os _) hs)
  cases v with
  | code name args close =>
    simp only [Foreign.ok, Bool.and_eq_true, beq_iff_eq] at hok
    obtain ⟨⟨hn1, hn2⟩, hall⟩ := hok
    have w2 : (Plain.word close).ok = true := lower_word hn2 rfl
    obtain ⟨l, os, rfl, hl, hos⟩ := List.map_eq_cons_iff.1 hos
    obtain ⟨m, os, rfl, hm, hos⟩ := List.map_eq_cons_iff.1 hos
    obtain ⟨as, rs, rfl, has, hrs⟩ := map_append_split hos
    obtain ⟨r, rfl, hr0⟩ := List.map_eq_singleton_iff.1 hrs
    have hrt : r.token = .rightBlock := congrArg (·.1) hr0
    obtain ⟨o, cs', hcse, ho, hcs⟩ := List.map_eq_cons_iff.1 hcs
    obtain ⟨n, cs', rfl, hn, hcs⟩ := List.map_eq_cons_iff.1 hcs
    obtain ⟨c, rfl, hc⟩ := List.map_eq_singleton_iff.1 hcs
    obtain ⟨n1, n2, n3, n4, _⟩ := word_name hm w1
    obtain ⟨e1, _, _, _, e5⟩ := word_name hn w2
    have e0 : l :: m :: (as ++ [r]) ++ x :: (body ++ (cs ++ rest)) = l :: ([m] ++ (as ++ r :: x :: (body ++ (cs ++ rest)))) := by simp
    rw [e0] at hs
    have hs1 := List.IsSuffix.trans (List.suffix_cons l _) hs
    have hs2 := List.IsSuffix.trans (List.suffix_append [m] _) hs1
    let br := foreignRule (.code name args close)
    obtain ⟨d, tl, q1, h1, h2, h3, h4⟩ := head_parts (env := env) (b := br.info) (p := { p with rule := .blk br.info.name }) (sh := sh)
      hall has hrt (by simp) hs2 headEnd (fun _ => by simp [hx])
    have hb := getB hcse e5 (by rw [e1]; exact names_lower w2 _ (by rw [hn2]; exact List.mem_singleton.2 rfl)) (congrArg (·.1) ho) (congrArg (·.1) hc)
      { p with rule := .blk br.info.name } sh
    rw [e0, q1]
    rw [q1] at hs1
    refine ruleBlock_run (ns := [m]) (c := d) (rest := tl) (br := br) (congrArg (·.1) hl) (by simp) n2 h1 h2 n3 hs1 n4
      (by rw [n1]; exact (getBlockRule_lower w1).trans k1) (by simp) h3 (bc := blkCode br.info cons ⟨slicesOf [m], false, false, d.token == .whitespace⟩) rfl ?_ ?_
    · unfold blkCode
      rw [bind_ok (m := noStar _ _ _) (a := ()) (s' := _) rfl, bind_ok (m := noScore _ _ _) (a := ()) (s' := _) rfl]
      rw [bind_ok h4]
      have t1 : lowerA c!"type" = c!"type" := by decide
      have t2 : lowerA c!"name" = c!"name" := by decide
      simp only [argGet_raw, t1, t2]
      rw [bind_ok (m := M.env) (a := env) (s' := ⟨({ p with rule := .blk br.info.name } : PState).at (body ++ (cs ++ rest)) true, sh⟩) rfl]
      rw [bind_ok hb]
      rw [optionOf_filter (k := c!"type") (k' := c!"name") (by decide)]
      rw [bind_ok (pushCode_run (by simpa [Named, Page.codes, Block.codes, Env.cx] using hname.1))]
      simp [addNotes, Page.toc, Block.toc, Page.htmls, Block.htmls, Page.codes, Block.codes, Page.notes, Block.notes, Page.bibs, Block.bibs]
      rfl
    · have := congrArg List.length q1
      intro e
      have h5 := congrArg List.length e
      have h6 := List.length_pos_iff.2 hr
      simp at this h5
      omega
  | html name close =>
    simp only [Foreign.ok, Bool.and_eq_true, beq_iff_eq] at hok
    obtain ⟨hn1, hn2⟩ := hok
    have w2 : (Plain.word close).ok = true := lower_word hn2 rfl
    obtain ⟨l, os, rfl, hl, hos⟩ := List.map_eq_cons_iff.1 hos
    obtain ⟨m, os, rfl, hm, hos⟩ := List.map_eq_cons_iff.1 hos
    obtain ⟨r, rfl, hr0⟩ := List.map_eq_singleton_iff.1 hos
    have hrt : r.token = .rightBlock := congrArg (·.1) hr0
    obtain ⟨o, cs', hcse, ho, hcs⟩ := List.map_eq_cons_iff.1 hcs
    obtain ⟨n, cs', rfl, hn, hcs⟩ := List.map_eq_cons_iff.1 hcs
    obtain ⟨c, rfl, hc⟩ := List.map_eq_singleton_iff.1 hcs
    obtain ⟨n1, n2, n3, n4, _⟩ := word_name hm w1
    obtain ⟨e1, _, _, _, e5⟩ := word_name hn w2
    have e0 : [l, m, r] ++ x :: (body ++ (cs ++ rest)) = l :: ([m] ++ (r :: x :: (body ++ (cs ++ rest)))) := by simp
    rw [e0] at hs ⊢
    have hs1 := List.IsSuffix.trans (List.suffix_cons l _) hs
    let br := foreignRule (.html name close)
    have hb := getB hcse e5 (by rw [e1]; exact names_lower w2 _ (by rw [hn2]; exact List.mem_singleton.2 rfl)) (congrArg (·.1) ho) (congrArg (·.1) hc)
      { p with rule := .blk br.info.name } sh
    refine ruleBlock_run (ns := [m]) (c := r) (rest := x :: (body ++ (cs ++ rest))) (br := br) (congrArg (·.1) hl) (by simp) n2 (.inr hrt) (by simp) n3 hs1 n4
      (by rw [n1]; exact (getBlockRule_lower w1).trans k1) (by simp) (by simp [hrt]) (bc := blkHtml br.info cons ⟨slicesOf [m], false, false, r.token == .whitespace⟩) rfl ?_ (by simpa using hB)
    rw [if_neg (by simp [hrt]), if_neg (by simp [hx])]
    have hih : (r.token == Token.whitespace) = false := by simp [hrt]
    rw [hih]
    unfold blkHtml
    rw [bind_ok (m := noStar _ _ _) (a := ()) (s' := _) rfl, bind_ok (m := noScore _ _ _) (a := ()) (s' := _) rfl]
    have hhead : getHeadNone br.info false env ⟨({ p with rule := .blk br.info.name } : PState).at (x :: (body ++ (cs ++ rest))) false, sh⟩ =
        .ok () ⟨({ p with rule := .blk br.info.name } : PState).at (body ++ (cs ++ rest)) true, sh⟩ := by
      unfold getHeadNone getOptionalSpace
      rw [bind_ok (optTok_no (by simp [hx]))]
      exact headEnd_false headEnd
    rw [bind_ok hhead, bind_ok hb]
    refine (bind_ok (m := pushHtmlBlock text) (a := ()) (s' := ⟨({ p with rule := .blk br.info.name } : PState).at rest false, { sh with htmlBlocks := sh.htmlBlocks ++ [text] }⟩) rfl).trans ?_
    simp [addNotes, Page.toc, Block.toc, Page.htmls, Block.htmls, Page.codes, Block.codes, Page.notes, Block.notes, Page.bibs, Block.bibs]
    rfl
  | math name label close =>
    simp only [Foreign.ok, Bool.and_eq_true, beq_iff_eq, Bool.not_eq_true'] at hok
    obtain ⟨⟨⟨hn1, hn2⟩, hlab⟩, htr⟩ := hok
    have w2 : (Plain.word close).ok = true := lower_word hn2 rfl
    obtain ⟨o, cs', hcse, ho, hcs⟩ := List.map_eq_cons_iff.1 hcs
    obtain ⟨n, cs', rfl, hn, hcs⟩ := List.map_eq_cons_iff.1 hcs
    obtain ⟨c, rfl, hc⟩ := List.map_eq_singleton_iff.1 hcs
    obtain ⟨e1, _, _, _, e5⟩ := word_name hn w2
    let br := foreignRule (.math name label close)
    have hb := getB hcse e5 (by rw [e1]; exact names_lower w2 _ (by rw [hn2]; exact List.mem_singleton.2 rfl)) (congrArg (·.1) ho) (congrArg (·.1) hc)
      { p with rule := .blk br.info.name } sh
    have hnotes : addNotes env.cx sh [(.foreign (.math name label close) text, t)] = sh := by
      simp [addNotes, Page.toc, Block.toc, Page.htmls, Block.htmls, Page.codes, Block.codes, Page.notes, Block.notes, Page.bibs, Block.bibs]
    rw [hnotes]
    cases label with
    | none =>
      obtain ⟨l, os, rfl, hl, hos⟩ := List.map_eq_cons_iff.1 hos
      obtain ⟨m, os, rfl, hm, hos⟩ := List.map_eq_cons_iff.1 hos
      obtain ⟨r, rfl, hr0⟩ := List.map_eq_singleton_iff.1 hos
      have hrt : r.token = .rightBlock := congrArg (·.1) hr0
      obtain ⟨n1, n2, n3, n4, _⟩ := word_name hm w1
      have e0 : [l, m, r] ++ x :: (body ++ (cs ++ rest)) = l :: ([m] ++ (r :: x :: (body ++ (cs ++ rest)))) := by simp
      rw [e0] at hs ⊢
      have hs1 := List.IsSuffix.trans (List.suffix_cons l _) hs
      refine ruleBlock_run (ns := [m]) (c := r) (rest := x :: (body ++ (cs ++ rest))) (br := br) (congrArg (·.1) hl) (by simp) n2 (.inr hrt) (by simp) n3 hs1 n4
        (by rw [n1]; exact (getBlockRule_lower w1).trans k1) (by simp) (by simp [hrt]) (bc := blkMath br.info cons ⟨slicesOf [m], false, false, r.token == .whitespace⟩) rfl ?_ (by simpa using hB)
      rw [if_neg (by simp [hrt]), if_neg (by simp [hx])]
      have hih : (r.token == Token.whitespace) = false := by simp [hrt]
      rw [hih]
      unfold blkMath
      rw [bind_ok (m := noStar _ _ _) (a := ()) (s' := _) rfl, bind_ok (m := noScore _ _ _) (a := ()) (s' := _) rfl]
      have hhead : getHeadValue br.info false (fun v => pure (v.map trim)) env ⟨({ p with rule := .blk br.info.name } : PState).at (x :: (body ++ (cs ++ rest))) false, sh⟩ =
          .ok none ⟨({ p with rule := .blk br.info.name } : PState).at (body ++ (cs ++ rest)) true, sh⟩ := by
        unfold getHeadValue
        simp only [Bool.false_eq_true, if_false]
        rw [bind_ok (pure_ok _ _ _), bind_ok (pure_ok _ _ _), bind_ok (headEnd_false headEnd)]
        rfl
      rw [bind_ok hhead, bind_ok hb, htr]
      rfl
    | some label =>
      obtain ⟨l, os, rfl, hl, hos⟩ := List.map_eq_cons_iff.1 hos
      obtain ⟨m, os, rfl, hm, hos⟩ := List.map_eq_cons_iff.1 hos
      obtain ⟨d, os, rfl, hd, hos⟩ := List.map_eq_cons_iff.1 hos
      obtain ⟨vs, rs, rfl, hvs, hrs⟩ := map_append_split hos
      obtain ⟨r, rfl, hr0⟩ := List.map_eq_singleton_iff.1 hrs
      have hrt : r.token = .rightBlock := congrArg (·.1) hr0
      have hdt : d.token = .whitespace := congrArg (·.1) hd
      obtain ⟨n1, n2, n3, n4, _⟩ := word_name hm w1
      obtain ⟨hvt, hvv⟩ := plains_tok hvs
      have e0 : l :: m :: d :: (vs ++ [r]) ++ x :: (body ++ (cs ++ rest)) = l :: ([m] ++ d :: (vs ++ r :: x :: (body ++ (cs ++ rest)))) := by simp
      rw [e0] at hs ⊢
      have hs1 := List.IsSuffix.trans (List.suffix_cons l _) hs
      have hs2 := List.IsSuffix.trans (List.suffix_append [m, d] _) hs1
      refine ruleBlock_run (ns := [m]) (c := d) (rest := vs ++ r :: x :: (body ++ (cs ++ rest))) (br := br) (congrArg (·.1) hl) (by simp) n2 (.inl hdt) (by simp) n3 hs1 n4
        (by rw [n1]; exact (getBlockRule_lower w1).trans k1) (by simp) (fun _ => value_head (by simpa using hlab) hvs _)
        (bc := blkMath br.info cons ⟨slicesOf [m], false, false, d.token == .whitespace⟩) rfl ?_ (by cases vs <;> simp)
      rw [if_pos hdt]
      have hih : (d.token == Token.whitespace) = true := by simp [hdt]
      rw [hih]
      unfold blkMath
      rw [bind_ok (m := noStar _ _ _) (a := ()) (s' := _) rfl, bind_ok (m := noScore _ _ _) (a := ()) (s' := _) rfl]
      rw [bind_ok (getHeadValue_end (v := some (trim (plainText label))) hrt (by simp) (fun x hx => by
        have := hvt x hx
        revert this; cases x.token <;> simp [isPlainTok, isLineTok]) hs2 (by rw [hvv]; rfl) headEnd)]
      rw [bind_ok hb, htr]
      rfl

/-- The line break before it is left out. -/
theorem foreign_skip {v : Foreign} {text : Str} (hok : v.ok text = true) {os rest : List ETok} {w : ETok} {p : PState} {sol : Bool} {sh : Shared}
    (hos : os.map ETok.pair = v.openLex) (hr : rest ≠ []) (hs : (os ++ rest) <:+ (tokenize env.text).tokens) :
    ruleBlockSkip env ⟨p.at (w :: (os ++ rest)) sol, sh⟩ = .ok ⟨[], [], true⟩ ⟨p.at (os ++ rest) (isLineStartTok w.token), sh⟩ := by
  obtain ⟨w1, k1, k2⟩ := foreign_rule hok
  obtain ⟨l, m, c, tl, e, hl, hm, hc, htl⟩ : ∃ l m c tl, os ++ rest = l :: ([m] ++ c :: tl) ∧ l.token = .leftBlock ∧
      m.pair = (.identifier, foreignName v) ∧ (c.token = .whitespace ∨ c.token = .rightBlock) ∧ tl ≠ [] := by
    have one : ∀ {name : Str} {more : List (Token × Str)}, os.map ETok.pair = (.leftBlock, c!"[[") :: (.identifier, name) :: more →
        (∃ c more', more = c :: more' ∧ (c.1 = .whitespace ∨ c.1 = .rightBlock)) → ∃ l m c tl, os ++ rest = l :: ([m] ++ c :: tl) ∧ l.token = .leftBlock ∧
      m.pair = (.identifier, name) ∧ (c.token = .whitespace ∨ c.token = .rightBlock) ∧ tl ≠ [] := by
      rintro name more hos ⟨c, more', rfl, hc⟩
      obtain ⟨l, os', rfl, hl, hos⟩ := List.map_eq_cons_iff.1 hos
      obtain ⟨m, os', rfl, hm, hos⟩ := List.map_eq_cons_iff.1 hos
      obtain ⟨c', os', rfl, hc', hos⟩ := List.map_eq_cons_iff.1 hos
      refine ⟨l, m, c', os' ++ rest, rfl, congrArg (·.1) hl, hm, ?_, by simp [hr]⟩
      rw [← hc'] at hc
      exact hc
    cases v with
    | code name args close =>
      refine one hos ?_
      cases args with
      | nil => exact ⟨_, _, rfl, .inr rfl⟩
      | cons a args =>
        rw [List.flatMap_cons, Arg.lex]
        exact ⟨_, _, rfl, .inl rfl⟩
    | html name close => exact one hos ⟨_, _, rfl, .inr rfl⟩
    | math name label close =>
      cases label with
      | none => exact one hos ⟨_, _, rfl, .inr rfl⟩
      | some label => exact one hos ⟨_, _, rfl, .inl rfl⟩
  obtain ⟨n1, n2, n3, n4, _⟩ := word_name hm w1
  rw [e] at hs ⊢
  unfold ruleBlockSkip
  rw [bind_ok (step_at ..)]
  rw [bind_ok (evaluateFn_ok (b := true) (s' := ⟨p.at tl false, sh⟩) ?_)]
  · rfl
  · rw [if_neg (by simp [hl])]
    rw [bind_ok (blockName_open (star := false) (by simp [hl]) (by simp) n2 hc htl n3 (List.IsSuffix.trans (List.suffix_cons l _) hs))]
    dsimp only
    rw [n1, getBlockRule_lower w1, k1]
    dsimp only
    rw [k2]
    rfl

end Ftml
