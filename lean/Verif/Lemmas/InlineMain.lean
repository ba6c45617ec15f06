import Verif.Lemmas.InlineEats
/-
Inline markup is parsed to its meaning: all of it.
-/
namespace Ftml
open M Markup Lexer
variable {env : Env}

/-- Token and text. -/
abbrev ETok.pair (x : ETok) : Token × Str := (x.token, x.slice)

theorem tline_cons {ol : Nat} {b : Bool} {x : ETok} {xs : List ETok} (h : TLine ol b (x :: xs)) :
    (isStop x.token = true ∨ (x.token = .lineBreak ∧ xs.length < ol)) ∨ (x.token = .lineBreak ∧ noBlockNext xs = true ∧ TLine ol false xs) ∨ (x.token = .whitespace ∧ TLine ol b xs) ∨
    (isInlineTok x.token = true ∧ TLine ol true xs) ∨ ((isLineTok x.token = true ∨ isColumnTok x.token = true) ∧ b = true ∧ (isLineTok x.token = true → TLine ol true xs)) := by
  rw [TLine] at h
  split at h
  · rename_i h1; refine .inl (.inl ?_); simp [isStop]; exact h1
  split at h
  · rename_i h0 h1; exact .inr (.inr (.inr (.inr ⟨.inr h1, h, fun h2 => by revert h1 h2; cases x.token <;> simp [isColumnTok, isLineTok]⟩)))
  · split at h
    · rename_i h2
      rcases h with h | h
      · exact .inl (.inr ⟨h2, h⟩)
      · exact .inr (.inl ⟨h2, h⟩)
    · split at h
      · rename_i h3; exact .inr (.inr (.inl ⟨h3, h⟩))
      · rcases h.1 with h1 | ⟨h1, h2⟩
        · exact .inr (.inr (.inr (.inl ⟨h1, h.2⟩)))
        · exact .inr (.inr (.inr (.inr ⟨.inl h1, h2, fun _ => h.2⟩)))

theorem stop_tok {ol : Nat} {t : Token} {xs : List ETok} (h : isStop t = true ∨ (t = .lineBreak ∧ xs.length < ol)) :
    t = .paragraphBreak ∨ t = .inputEnd ∨ t = .lineBreak := by
  refine h.elim (fun h => ?_) (fun h => .inr (.inr h.1))
  simp [isStop] at h
  rcases h with h | h
  · exact .inl h
  · exact .inr (.inl h)

/-- Tokens that can stand at the start of a line of inline markup. -/
def lineOpen : Token → Bool
  | .paragraphBreak | .inputEnd | .lineBreak | .whitespace => true
  | t => isInlineTok t

theorem tline_false {ol : Nat} {x : ETok} {xs : List ETok} (h : TLine ol false (x :: xs)) : lineOpen x.token = true := by
  rcases tline_cons h with h | ⟨h, _⟩ | ⟨h, _⟩ | ⟨h, _⟩ | ⟨_, h, _⟩
  · rcases stop_tok h with h | h | h <;> rw [h] <;> rfl
  · rw [h]; rfl
  · rw [h]; rfl
  · unfold lineOpen; split <;> first | rfl | exact h
  · cases h

theorem tline_any {ol : Nat} {b : Bool} {x : ETok} {xs : List ETok} (h : TLine ol b (x :: xs)) : x.token ≠ .underscore := by
  rcases tline_cons h with h | ⟨h, _⟩ | ⟨h, _⟩ | ⟨h, _⟩ | ⟨h | h, _, _⟩
  · rcases stop_tok h with h | h | h <;> rw [h] <;> simp
  · rw [h]; simp
  · rw [h]; simp
  · intro e; rw [e] at h; cases h
  · intro e; rw [e] at h; cases h
  · intro e; rw [e] at h; cases h

theorem charTok_cases (c : Char) : isLineTok (charTok c) = true ∨ charTok c = .rightBracket ∨ charTok c = .pipe ∨
    charTok c = .other := by
  unfold charTok
  repeat' split
  all_goals simp [isLineTok]

theorem plain_eats {p : Plain} {x : ETok} {rest : List ETok} {sol b : Bool} {ol : Nat} (hok : p.ok = true)
    (hx : x.pair = p.lex) (hr : rest ≠ []) (hl : TLine ol b (x :: rest)) (hb : b = true → sol = false) :
    Eats env 1 sol [x] rest [eText p.str] true [] := by
  have hs : x.slice = p.str := congrArg (·.2) hx
  have ht : x.token = p.lex.1 := congrArg (·.1) hx
  rw [← hs]
  cases p with
  | word s => exact eats_text hr (rs1 := []) (by rw [ht]; rfl) (by simp)
  | blanks n =>
    have ht : x.token = .whitespace := ht
    obtain ⟨y, ys, rfl⟩ := List.exists_cons_of_ne_nil hr
    have hl' : TLine ol b (y :: ys) := by
      rcases tline_cons hl with h | ⟨h, _⟩ | ⟨_, h⟩ | ⟨h, _⟩ | ⟨h | h, _, _⟩
      · rw [ht] at h; rcases stop_tok h with h | h | h <;> cases h
      · rw [ht] at h; cases h
      · exact h
      · rw [ht] at h; cases h
      · rw [ht] at h; cases h
      · rw [ht] at h; cases h
    refine eats_text hr (rs1 := [.underscoreLineBreak, .list]) (by rw [ht]; rfl) ?_
    intro r hr'
    simp at hr'
    rcases hr' with rfl | rfl
    · refine fails_underscore ht (fun z zs e => ?_)
      cases e
      exact tline_any hl'
    · cases b with
      | true => rw [hb rfl]; exact .line rfl _
      | false =>
        refine fails_list ht ?_
        have := tline_false hl'
        revert this
        cases y.token <;> simp [lineOpen, isInlineTok, getListType]
  | char c =>
    have ht : x.token = charTok c := ht
    by_cases hlt : isLineTok x.token = true
    · have hsol : sol = false := by
        rcases tline_cons hl with h | ⟨h, _⟩ | ⟨h, _⟩ | ⟨h, _⟩ | ⟨_, h, _⟩
        · rcases stop_tok h with h | h | h <;> rw [h] at hlt <;> cases hlt
        · rw [h] at hlt; cases hlt
        · rw [h] at hlt; cases hlt
        · exfalso; revert h hlt; cases x.token <;> simp [isInlineTok, isLineTok]
        · exact hb h
      subst hsol
      cases htt : x.token <;> rw [htt] at hlt <;> try (exact absurd hlt (by decide))
      case equals => exact eats_text hr (rs1 := [.center]) (by rw [htt]; rfl) (by simp; exact .line rfl _)
      case colon => exact eats_text hr (rs1 := [.definitionList]) (by rw [htt]; rfl) (by simp; exact .line rfl _)
      case heading => exact eats_text hr (rs1 := [.header]) (by rw [htt]; rfl) (by simp; exact .line rfl _)
      case bulletItem => exact eats_text hr (rs1 := [.list]) (by rw [htt]; rfl) (by simp; exact .line rfl _)
      case numberedItem => exact eats_text hr (rs1 := [.list]) (by rw [htt]; rfl) (by simp; exact .line rfl _)
      case quote =>
        refine eats_text hr (rs1 := [.blockquote, .doubleAngle]) (by rw [htt]; rfl) ?_
        intro r hr'
        simp at hr'
        rcases hr' with rfl | rfl
        · exact .line rfl _
        · exact fails_doubleAngle htt (by rw [hs]; simp [Plain.str])
    · have : x.token = .rightBracket ∨ x.token = .pipe ∨ x.token = .other := by
        rw [ht] at hlt ⊢
        exact (charTok_cases c).resolve_left hlt
      rcases this with h | h | h <;> exact eats_text hr (rs1 := []) (by rw [h]; rfl) (by simp)

theorem newline_eats {x : ETok} {rest : List ETok} {sol b : Bool} {ol : Nat} (hx : x.token = .lineBreak) (hr : rest ≠ [])
    (hl : TLine ol b (x :: rest)) (hst : Within ol [x] rest) (hs : rest <:+ (tokenize env.text).tokens) :
    Eats env 1 sol [x] rest [eLineBreak] true [] := by
  have hl' : noBlockNext rest = true ∧ TLine ol false rest := by
    rcases tline_cons hl with h | ⟨_, h⟩ | ⟨h, _⟩ | ⟨h, _⟩ | ⟨h | h, _, _⟩
    · exact (hst [] [x] rfl (by simp) (.inl h)).elim
    · exact h
    · rw [hx] at h; cases h
    · rw [hx] at h; cases h
    · rw [hx] at h; cases h
    · rw [hx] at h; cases h
  obtain ⟨hnb, hl'⟩ := hl'
  obtain ⟨y, ys, rfl⟩ := List.exists_cons_of_ne_nil hr
  have hy := tline_false hl'
  simp only [noBlockNext, Bool.and_eq_true, bne_iff_ne, ne_eq] at hnb
  refine eats_tok hr (rs1 := [.blockSkipNewline, .definitionListSkipNewline]) (r := .lineBreak) (rs2 := [])
    (by rw [hx]; rfl) ?_ (by simp [RuleId.needsLineStart]) (noParts_cons (by simp) noParts_nil) ?_
  · intro r hr'
    simp at hr'
    rcases hr' with rfl | rfl
    · exact fails_blockSkip hnb.1 hnb.2
    · refine fails_defSkip ?_
      intro e; rw [e] at hy; cases hy
  · intro cons p sh
    show ruleLineBreak env _ = _
    cases ys with
    | nil =>
      have he : y.token = .inputEnd := (inputEnd_last hs).2 rfl
      exact run_lineBreak1 (by rw [he]; simp) (by rw [he]; rfl)
    | cons z zs =>
      refine run_lineBreak ?_
      simp only [afterBlank]
      by_cases hw : y.token = .whitespace
      · rw [if_pos hw]
        have hz : TLine ol false (z :: zs) := by
          rcases tline_cons hl' with h | ⟨h, _⟩ | ⟨_, h⟩ | ⟨h, _⟩ | ⟨h | h, _, _⟩
          · rw [hw] at h; rcases stop_tok h with h | h | h <;> cases h
          · rw [hw] at h; cases h
          · exact h
          · rw [hw] at h; cases h
          · rw [hw] at h; cases h
          · rw [hw] at h; cases h
        have := tline_false hz
        revert this
        cases z.token <;> simp [lineOpen, isInlineTok, isSkipTok]
      · rw [if_neg hw]
        revert hy
        cases y.token <;> simp [lineOpen, isInlineTok, isSkipTok]

/-! ### Raw text and comments -/

/-- Tokens of plain pieces. -/
def isPlainTok : Token → Bool
  | .identifier | .whitespace | .other | .pipe | .rightBracket => true
  | t => isLineTok t

theorem plain_tok (p : Plain) : isPlainTok p.lex.1 = true := by
  cases p with
  | word => rfl
  | blanks => rfl
  | char c =>
    simp only [Plain.lex]
    unfold charTok
    repeat' split
    all_goals rfl

theorem plains_tok {ps : List Plain} {xs : List ETok} (h : xs.map ETok.pair = ps.map Plain.lex) :
    (∀ x ∈ xs, isPlainTok x.token = true) ∧ slicesOf xs = plainText ps := by
  induction ps generalizing xs with
  | nil => simp at h; subst h; simp [slicesOf, plainText]
  | cons p ps ih =>
    cases xs with
    | nil => simp at h
    | cons x xs =>
      simp only [List.map_cons, List.cons.injEq] at h
      obtain ⟨h1, h2⟩ := ih h.2
      refine ⟨?_, ?_⟩
      · intro y hy
        rcases List.mem_cons.1 hy with rfl | hy
        · have := plain_tok p
          rw [← h.1] at this; exact this
        · exact h1 y hy
      · have : x.slice = p.str := congrArg (·.2) h.1
        simp only [slicesOf, List.flatMap_cons, plainText, List.map_cons, List.flatten_cons, this] at h2 ⊢
        rw [h2]

/-- Tokens that do not end raw text or a comment. -/
def isIdleTok : Token → Bool
  | .raw | .rightComment | .lineBreak | .paragraphBreak | .inputEnd => false
  | _ => true

theorem sign_tok {i : Sign} (h : i.ok = true) : isIdleTok i.lex.1 = true := by
  cases i with
  | plain p =>
    have := plain_tok p
    revert this
    show isPlainTok p.lex.1 = true → isIdleTok p.lex.1 = true
    cases p.lex.1 <;> simp [isPlainTok, isIdleTok, isLineTok]
  | url s => rfl
  | var s => rfl
  | quoted s => rfl
  | mark s =>
    simp only [Sign.ok, idleMarks, List.contains_eq_mem, decide_eq_true_eq, List.mem_cons, List.not_mem_nil, or_false] at h
    rcases h with rfl | rfl | rfl | rfl | rfl | rfl | rfl | rfl | rfl | rfl | rfl | rfl | rfl | rfl | rfl | rfl | rfl | rfl |
      rfl | rfl | rfl | rfl | rfl | rfl | rfl | rfl <;> rfl

theorem signs_tok {ss : List Sign} {xs : List ETok} (h : xs.map ETok.pair = ss.map Sign.lex) (hok : ss.all Sign.ok = true) :
    (∀ x ∈ xs, isIdleTok x.token = true) ∧ slicesOf xs = signText ss := by
  induction ss generalizing xs with
  | nil => simp at h; subst h; simp [slicesOf, signText]
  | cons p ps ih =>
    cases xs with
    | nil => simp at h
    | cons x xs =>
      simp only [List.map_cons, List.cons.injEq] at h
      simp only [List.all_cons, Bool.and_eq_true] at hok
      obtain ⟨h1, h2⟩ := ih h.2 hok.2
      have e1 : x.token = p.lex.1 := congrArg (·.1) h.1
      have e2 : x.slice = p.lex.2 := congrArg (·.2) h.1
      refine ⟨?_, ?_⟩
      · intro y hy
        rcases List.mem_cons.1 hy with rfl | hy
        · rw [e1]; exact sign_tok hok.1
        · exact h1 y hy
      · simp only [slicesOf, signText, List.map_cons, List.flatten_cons] at h2 ⊢
        rw [List.flatMap_cons, e2, sign_str, h2]

theorem run_comment {x y : ETok} {xs rest : List ETok} {sol : Bool} {p : PState} {sh : Shared} (hr : rest ≠ [])
    (hx : x.token = .leftComment) (hy : y.token = .rightComment) (hxs : ∀ z ∈ xs, isIdleTok z.token = true) :
    ruleComment env ⟨p.at (x :: (xs ++ y :: rest)) sol, sh⟩ = .ok ⟨[], [], true⟩ ⟨p.at rest false, sh⟩ := by
  have key : ∀ (zs : List ETok), (∀ z ∈ zs, isIdleTok z.token = true) → ∀ n (sol : Bool), zs.length < n →
      loopN (fun (_ : Unit) => do
        let t ← curTok
        if t = .rightComment then do
          let _ ← step
          let r ← okE []
          pure (.done r)
        else if t = .inputEnd then fail .endOfInput
        else do
          let _ ← step
          pure (.more ())) n () env ⟨p.at (zs ++ y :: rest) sol, sh⟩ = .ok ⟨[], [], true⟩ ⟨p.at rest false, sh⟩ := by
    intro zs
    induction zs with
    | nil =>
      intro _ n sol hn
      obtain ⟨n, rfl⟩ : ∃ k, n = k + 1 := ⟨n - 1, by simp at hn; omega⟩
      obtain ⟨z, zs, rfl⟩ := List.exists_cons_of_ne_nil hr
      rw [loopN, bind_ok (a := .done ⟨[], [], true⟩) (s' := ⟨p.at (z :: zs) false, sh⟩)]
      · rfl
      · rw [bind_ok (s' := ⟨p.at (y :: z :: zs) sol, sh⟩) (a := y.token) rfl, if_pos hy]
        rw [bind_ok (step_at ..), hy]
        rfl
    | cons z zs ih =>
      intro hz n sol hn
      obtain ⟨n, rfl⟩ : ∃ k, n = k + 1 := ⟨n - 1, by simp at hn; omega⟩
      have hzt := hz z (by simp)
      obtain ⟨w, ws, hw⟩ : ∃ w ws, zs ++ y :: rest = w :: ws := by cases zs <;> simp
      rw [loopN, bind_ok (a := .more ()) (s' := ⟨p.at (zs ++ y :: rest) (isLineStartTok z.token), sh⟩)]
      · exact ih (fun z h => hz z (by simp [h])) n _ (by simp at hn; omega)
      · rw [bind_ok (s' := ⟨p.at (z :: zs ++ y :: rest) sol, sh⟩) (a := z.token) rfl]
        rw [if_neg (by intro e; rw [e] at hzt; cases hzt), if_neg (by intro e; rw [e] at hzt; cases hzt)]
        rw [List.cons_append, hw, bind_ok (step_at ..)]
        rfl
  obtain ⟨w, ws, hw⟩ : ∃ w ws, xs ++ y :: rest = w :: ws := by cases xs <;> simp
  unfold ruleComment
  rw [hw, bind_ok (checkStep_at _ _ hx _ _ _ _), ← hw]
  exact key xs hxs _ _ (by simp [PState.at]; omega)

/-- Tokens within raw text. -/
def isRawTok (t : Token) : Bool :=
  match t with
  | .raw | .lineBreak | .paragraphBreak | .inputEnd => false
  | _ => true

theorem isRawTok_of {t : Token} (h : isIdleTok t = true) : isRawTok t = true := by
  cases t <;> simp_all [isIdleTok, isRawTok]

theorem run_raw {x y : ETok} {xs rest : List ETok} {sol : Bool} {p : PState} {sh : Shared} (hr : rest ≠ [])
    (hne : xs ≠ []) (hx : x.token = .raw) (hy : y.token = .raw) (hxs : ∀ z ∈ xs, isRawTok z.token = true)
    (hs : (x :: (xs ++ y :: rest)) <:+ (tokenize env.text).tokens) :
    ruleRaw env ⟨p.at (x :: (xs ++ y :: rest)) sol, sh⟩ =
      .ok ⟨[.mk (.raw (slicesOf xs)) []], [], true⟩ ⟨p.at rest false, sh⟩ := by
  obtain ⟨a, as, rfl⟩ := List.exists_cons_of_ne_nil hne
  obtain ⟨r1, rs, rfl⟩ := List.exists_cons_of_ne_nil hr
  have ha := hxs a (by simp)
  have ha' : a.token ≠ .raw ∧ a.token ≠ .lineBreak ∧ a.token ≠ .paragraphBreak ∧ a.token ≠ .inputEnd := by
    revert ha; cases a.token <;> simp [isRawTok]
  unfold ruleRaw
  rw [bind_ok (s' := ⟨p.at (x :: (a :: as ++ y :: r1 :: rs)) sol, sh⟩) (a := x.token) rfl, if_pos hx]
  rw [bind_ok (s' := ⟨p.at (x :: (a :: as ++ y :: r1 :: rs)) sol, sh⟩) (a := a) rfl]
  cases as with
  | nil =>
    rw [bind_ok (s' := ⟨p.at (x :: ([a] ++ y :: r1 :: rs)) sol, sh⟩) (a := y) rfl]
    rw [if_neg ha'.1, if_neg (by simp [ha']), if_pos hy]
    rw [bind_ok (s' := ⟨p.at (r1 :: rs) false, sh⟩) (a := ())]
    · simp [slicesOf]; rfl
    · show stepN 3 env ⟨p.at (x :: a :: y :: r1 :: rs) sol, sh⟩ = _
      rw [stepN, bind_ok (step_at ..), stepN, bind_ok (step_at ..), stepN, bind_ok (step_at ..), hy]
      rfl
  | cons a2 as =>
    have ha2 := hxs a2 (by simp)
    have ha2' : a2.token ≠ .raw := by
      revert ha2; cases a2.token <;> simp [isRawTok]
    rw [bind_ok (s' := ⟨p.at (x :: (a :: a2 :: as ++ y :: r1 :: rs)) sol, sh⟩) (a := a2) rfl]
    rw [if_neg ha'.1, if_neg (by simp [ha']), if_neg ha2']
    unfold rawScan
    have key : ∀ (zs pre : List ETok), (∀ z ∈ zs, isRawTok z.token = true) → a :: a2 :: as = pre ++ zs →
        ∀ n (sol : Bool), zs.length < n →
        loopN (fun (stop : ETok) => do
          let t ← curTok
          if t = .raw then do
            let s ← slicePartialText a stop
            let _ ← step
            let r ← okE [.mk (.raw s) []]
            pure (.done r)
          else if t = .lineBreak || t = .paragraphBreak then fail .ruleFailed
          else if t = .inputEnd then fail .endOfInput
          else do
            let n ← step
            pure (.more n)) n ((zs ++ y :: r1 :: rs).headD default) env ⟨p.at (zs ++ y :: r1 :: rs) sol, sh⟩ =
          .ok ⟨[.mk (.raw (slicesOf (a :: a2 :: as))) []], [], true⟩ ⟨p.at (r1 :: rs) false, sh⟩ := by
      intro zs
      induction zs with
      | nil =>
        intro pre _ he n sol hn
        obtain ⟨n, rfl⟩ : ∃ k, n = k + 1 := ⟨n - 1, by simp at hn; omega⟩
        rw [loopN, bind_ok (a := .done ⟨[.mk (.raw (slicesOf (a :: a2 :: as))) []], [], true⟩) (s' := ⟨p.at (r1 :: rs) false, sh⟩)]
        · rfl
        · rw [bind_ok (s' := ⟨p.at (y :: r1 :: rs) sol, sh⟩) (a := y.token) rfl, if_pos hy]
          have hsl : fullSlicePartial env.text a y = some (slicesOf (a :: a2 :: as)) := by
            refine slicePartial_ok (r := a2 :: as ++ y :: r1 :: rs) (r' := r1 :: rs) ?_ rfl
            exact List.IsSuffix.trans (List.suffix_cons x _) hs
          have : slicePartialText a y env ⟨p.at (y :: r1 :: rs) sol, sh⟩ =
              .ok (slicesOf (a :: a2 :: as)) ⟨p.at (y :: r1 :: rs) sol, sh⟩ := by
            unfold slicePartialText
            rw [bind_ok (m := M.env) (s' := ⟨p.at (y :: r1 :: rs) sol, sh⟩) (a := env) rfl, hsl]
            rfl
          rw [List.nil_append]
          show ((slicePartialText a y >>= fun s => _) : M _) env _ = _
          rw [bind_ok this, bind_ok (step_at ..), hy]
          rfl
      | cons z zs ih =>
        intro pre hz he n sol hn
        obtain ⟨n, rfl⟩ : ∃ k, n = k + 1 := ⟨n - 1, by simp at hn; omega⟩
        have hzt := hz z (by simp)
        have hz' : z.token ≠ .raw ∧ z.token ≠ .lineBreak ∧ z.token ≠ .paragraphBreak ∧ z.token ≠ .inputEnd := by
          revert hzt; cases z.token <;> simp [isRawTok]
        obtain ⟨w, ws, hw⟩ : ∃ w ws, zs ++ y :: r1 :: rs = w :: ws := by cases zs <;> simp
        rw [loopN, bind_ok (a := .more ((zs ++ y :: r1 :: rs).headD default))
          (s' := ⟨p.at (zs ++ y :: r1 :: rs) (isLineStartTok z.token), sh⟩)]
        · exact ih (pre ++ [z]) (fun z h => hz z (by simp [h])) (by rw [he]; simp) n _ (by simp at hn; omega)
        · rw [bind_ok (s' := ⟨p.at (z :: zs ++ y :: r1 :: rs) sol, sh⟩) (a := z.token) rfl]
          rw [if_neg hz'.1, if_neg (by simp [hz']), if_neg hz'.2.2.2]
          rw [List.cons_append, hw, bind_ok (step_at ..)]
          rfl
    rw [List.cons_append, List.cons_append, bind_ok (step_at ..)]
    exact key (a :: a2 :: as) [] hxs rfl _ _ (by simp [PState.at])

/-- Raw text without contents. -/
theorem run_raw_empty {x y r : ETok} {rs : List ETok} {sol : Bool} {p : PState} {sh : Shared}
    (hx : x.token = .raw) (hy : y.token = .raw) (hr : r.token ≠ .raw) (hr' : r.token ≠ .other) :
    ruleRaw env ⟨p.at (x :: y :: r :: rs) sol, sh⟩ = .ok ⟨[.mk (.raw []) []], [], true⟩ ⟨p.at (r :: rs) false, sh⟩ := by
  unfold ruleRaw
  rw [bind_ok (s' := ⟨p.at (x :: y :: r :: rs) sol, sh⟩) (a := x.token) rfl, if_pos hx]
  rw [bind_ok (s' := ⟨p.at (x :: y :: r :: rs) sol, sh⟩) (a := y) rfl]
  rw [bind_ok (s' := ⟨p.at (x :: y :: r :: rs) sol, sh⟩) (a := r) rfl]
  rw [if_pos hy, if_neg hr, if_neg (by simp [hr'])]
  rw [bind_ok (s' := ⟨p.at (r :: rs) false, sh⟩) (a := ())]
  · rfl
  · rw [stepN, bind_ok (step_at ..), stepN, bind_ok (step_at ..), hy]
    rfl

end Ftml
