import Verif.Lemmas.ForeignRun
import Verif.Lemmas.Number
/-
Blocks without contents are parsed to their meaning.
-/
namespace Ftml
open M Markup Lexer
variable {env : Env}

/-! ### Numbers -/

theorem argNonZero_raw {args : List Arg} {k : Str} (h : ∀ v, optionOf args (lowerA k) = some v → (positiveOf v).isSome = true) (s : St) :
    argNonZero (rawArgs args) k env s =
      .ok ((optionOf args (lowerA k)).bind positiveOf, rawArgs (args.filter fun a => !(lowerA a.name == lowerA k))) s := by
  unfold argNonZero
  rw [argGet_raw]
  cases hv : optionOf args (lowerA k) with
  | none => rfl
  | some v =>
    obtain ⟨b, hb⟩ := Option.isSome_iff_exists.1 (h v hv)
    simp only [nonZero_positive, Option.bind_some, hb]
    rfl

/-! ### Names -/

/-- The rule of such a block. -/
def gadgetRule : Gadget → BlockRule
  | .contents .. => blockRules[53]
  | .frame .. => blockRules[23]
  | .video .. => blockRules[16]
  | .module .. => blockRules[36]

/-- Its name. -/
def gadgetName : Gadget → Str
  | .contents side n _ => plainText (imageMark side) ++ n
  | .frame n _ _ | .video n _ _ | .module n _ _ => n

theorem contents_name {side : Option FloatAlign} {name : Str}
    (hs : side = none ∨ side = some ⟨.left, true⟩ ∨ side = some ⟨.right, true⟩) (hb : lowerA name = c!"toc") :
    trim (plainText (imageMark side) ++ name) = plainText (imageMark side) ++ name ∧
    stripSfx c!"_" (plainText (imageMark side) ++ name) = none ∧
    getBlockRule (plainText (imageMark side) ++ name) = some blockRules[53] ∧
    FloatAlign.parse (plainText (imageMark side) ++ name) = side := by
  have hw : (Plain.word name).ok = true := lower_word hb rfl
  have hlen : name.length = 3 := by
    have := congrArg List.length hb
    simpa [lowerA] using this
  match name, hlen with
  | [c1, c2, c3], _ =>
  have hal : ∀ c ∈ [c1, c2, c3], isAlnumA c = true := (word_chars hw).2
  have hlow : lowerA (plainText (imageMark side) ++ [c1, c2, c3]) = plainText (imageMark side) ++ c!"toc" := by
    have : lowerA (plainText (imageMark side)) = plainText (imageMark side) := by
      rcases hs with rfl | rfl | rfl <;> decide +kernel
    rw [lowerA, List.map_append, ← lowerA, ← lowerA, this, hb]
  have hws : ∀ c ∈ plainText (imageMark side), isWS c = false := by
    rcases hs with rfl | rfl | rfl <;> decide +kernel
  have hend : ∀ w : Str, (Plain.word w).ok = true → stripSfx c!"_" (plainText (imageMark side) ++ w) = none := by
    intro w hw
    have hne := (word_chars hw).1
    unfold stripSfx
    rw [List.reverse_append]
    cases hr : w.reverse with
    | nil => simp at hr; exact (hne hr).elim
    | cons c r =>
      have hc : isAlnumA c = true := (word_chars hw).2 c (by have : c ∈ w.reverse := by rw [hr]; simp
                                                             simpa using this)
      have : c ≠ '_' := by rintro rfl; exact absurd hc (by decide)
      simp [stripPfx, Ne.symm this]
  refine ⟨trim_none ?_, hend _ hw, ?_, ?_⟩
  · intro c hc
    rcases List.mem_append.1 hc with h | h
    · exact hws c h
    · exact alnum_notWS (hal c h)
  · have e : getBlockRule (plainText (imageMark side) ++ [c1, c2, c3]) = getBlockRule (plainText (imageMark side) ++ c!"toc") := by
      unfold getBlockRule
      simp only [stripScore, hend _ hw, hend c!"toc" (by decide), Option.getD_none, eqIgnoreCase, hlow]
      rw [← hlow, lowerA_idem]
    rw [e]
    rcases hs with rfl | rfl | rfl <;> exact getBlockRule_idx (k := 53) (by decide +kernel) rfl
  · rcases hs with rfl | rfl | rfl
    · have h1 : lowerC c1 = 't' := by
        have := congrArg List.head? hb
        simpa [lowerA] using this
      have hn : ∀ c, c = '=' ∨ c = '<' ∨ c = '>' ∨ c = 'f' ∨ c = 'F' → lowerC c ≠ 't' := by
        rintro c (rfl | rfl | rfl | rfl | rfl) <;> decide
      show FloatAlign.parse [c1, c2, c3] = none
      unfold FloatAlign.parse
      split <;> first
        | rfl
        | (rename_i e; simp only [List.cons.injEq] at e; exact absurd h1 (hn c1 (by simp [e.1])))
    · rfl
    · rfl

theorem gadget_rule {g : Gadget} (h : g.ok = true) :
    trim (gadgetName g) = gadgetName g ∧ stripSfx c!"_" (gadgetName g) = none ∧
    getBlockRule (gadgetName g) = some (gadgetRule g) ∧ (gadgetRule g).info.newlines = true := by
  cases g with
  | contents side name args =>
    simp only [Gadget.ok, Bool.and_eq_true, beq_iff_eq] at h
    obtain ⟨h1, h2, h3, _⟩ := contents_name (contents_side h.1.1) h.1.2
    exact ⟨h1, h2, h3, rfl⟩
  | frame name url args =>
    simp only [Gadget.ok, Bool.and_eq_true, beq_iff_eq] at h
    have hn := h.1.1.1
    have hw := lower_word hn rfl
    exact ⟨trim_word hw, stripSfx_word hw,
      by rw [gadgetName, getBlockRule_lower hw, hn]; exact getBlockRule_idx (k := 23) (by decide +kernel) rfl, rfl⟩
  | video name host args =>
    simp only [Gadget.ok, Bool.and_eq_true, beq_iff_eq] at h
    have hn := h.1.1.1
    have hw := lower_word hn rfl
    exact ⟨trim_word hw, stripSfx_word hw,
      by rw [gadgetName, getBlockRule_lower hw, hn]; exact getBlockRule_idx (k := 16) (by decide +kernel) rfl, rfl⟩
  | module name which args =>
    simp only [Gadget.ok, Bool.and_eq_true, List.contains_iff_mem, List.mem_cons, List.not_mem_nil, or_false] at h
    have hw : (Plain.word name).ok = true := by rcases h.1.1.1.1 with e | e <;> exact lower_word e rfl
    refine ⟨trim_word hw, stripSfx_word hw, ?_, rfl⟩
    rw [gadgetName, getBlockRule_lower hw]
    rcases h.1.1.1.1 with e | e <;> rw [e] <;> exact getBlockRule_idx (k := 36) (by decide +kernel) rfl

private theorem contents_tokens {side : Option FloatAlign} (hs : side = none ∨ side = some ⟨.left, true⟩ ∨ side = some ⟨.right, true⟩)
    {ks : List ETok} {m : ETok} (hks : ks.map ETok.pair = (imageMark side).map Plain.lex) (hmt : m.token = .identifier) :
    ∀ x ∈ ks ++ [m], endsName x.token = false ∧ x.token ≠ .inputEnd := by
  intro x hx
  rcases List.mem_append.1 hx with hx | hx
  · have ht : ks.map (·.token) = (imageMark side).map (·.lex.1) := by
      have := congrArg (List.map (·.1)) hks
      simpa [List.map_map, Function.comp_def] using this
    have : x.token ∈ (imageMark side).map (·.lex.1) := by rw [← ht]; exact List.mem_map_of_mem hx
    revert this
    generalize x.token = t
    revert t
    rcases hs with rfl | rfl | rfl <;> decide
  · simp at hx
    subst hx
    simp [hmt, endsName]

/-- The tokens of the name, and what follows. -/
theorem gadget_open {g : Gadget} {os tail : List ETok} (hok : g.ok = true) (hos : os.map ETok.pair = g.lex) (ht : tail ≠ []) :
    ∃ l ns c rest, os ++ tail = l :: (ns ++ c :: rest) ∧ l.token = .leftBlock ∧ ns ≠ [] ∧ slicesOf ns = gadgetName g ∧
      (∀ x ∈ ns, endsName x.token = false ∧ x.token ≠ .inputEnd) ∧ (c.token = .whitespace ∨ c.token = .rightBlock) ∧ rest ≠ [] := by
  have one : ∀ {name : Str} {more : List (Token × Str)}, os.map ETok.pair = (.leftBlock, c!"[[") :: (.identifier, name) :: more →
      (∃ c more', more = c :: more' ∧ (c.1 = .whitespace ∨ c.1 = .rightBlock)) → ∃ l ns c rest, os ++ tail = l :: (ns ++ c :: rest) ∧
      l.token = .leftBlock ∧ ns ≠ [] ∧ slicesOf ns = name ∧
      (∀ x ∈ ns, endsName x.token = false ∧ x.token ≠ .inputEnd) ∧ (c.token = .whitespace ∨ c.token = .rightBlock) ∧ rest ≠ [] := by
    rintro name more hos ⟨c, more', rfl, hc⟩
    obtain ⟨l, os', rfl, hl, hos⟩ := List.map_eq_cons_iff.1 hos
    obtain ⟨m, os', rfl, hm, hos⟩ := List.map_eq_cons_iff.1 hos
    obtain ⟨c', os', rfl, hc', hos⟩ := List.map_eq_cons_iff.1 hos
    have h1 : m.slice = name := congrArg (·.2) hm
    have h2 : m.token = .identifier := congrArg (·.1) hm
    refine ⟨l, [m], c', os' ++ tail, rfl, congrArg (·.1) hl, by simp, by simp [slicesOf, h1], by simp [h2, endsName], ?_, by simp [ht]⟩
    rw [← hc'] at hc
    exact hc
  cases g with
  | frame name url args => exact one hos ⟨_, _, rfl, .inl rfl⟩
  | video name url args => exact one hos ⟨_, _, rfl, .inl rfl⟩
  | module name url args => exact one hos ⟨_, _, rfl, .inl rfl⟩
  | contents side name args =>
    simp only [Gadget.ok, Bool.and_eq_true, beq_iff_eq] at hok
    obtain ⟨l, os, rfl, hl, hos⟩ := List.map_eq_cons_iff.1 hos
    obtain ⟨ks, os, rfl, hks, hos⟩ := map_append_split hos
    obtain ⟨m, os, rfl, hm, hos⟩ := List.map_eq_cons_iff.1 hos
    have hmt : m.token = .identifier := congrArg (·.1) hm
    have hms : m.slice = name := congrArg (·.2) hm
    have hsl : slicesOf (ks ++ [m]) = plainText (imageMark side) ++ name := by
      have := (plains_tok hks).2
      simp only [slicesOf, List.flatMap_append] at this ⊢
      rw [this]
      simp [hms]
    have hkt := contents_tokens (contents_side hok.1.1) hks hmt
    obtain ⟨c, os', rfl, hc⟩ : ∃ c os', os = c :: os' ∧ (c.token = .whitespace ∨ c.token = .rightBlock) := by
      cases args with
      | nil =>
        obtain ⟨c, rfl, hc⟩ := List.map_eq_singleton_iff.1 hos
        exact ⟨c, [], rfl, .inr (congrArg (·.1) hc)⟩
      | cons a args =>
        rw [List.flatMap_cons, Arg.lex] at hos
        obtain ⟨c, os', rfl, hc, _⟩ := List.map_eq_cons_iff.1 hos
        exact ⟨c, os', rfl, .inl (congrArg (·.1) hc)⟩
    exact ⟨l, ks ++ [m], c, os' ++ tail, by simp, congrArg (·.1) hl, by simp, hsl, hkt, hc, by simp [ht]⟩

/-- The line break before it is left out. -/
theorem gadget_skip {g : Gadget} (hok : g.ok = true) {os rest : List ETok} {w : ETok} {p : PState} {sol : Bool} {sh : Shared}
    (hos : os.map ETok.pair = g.lex) (hr : rest ≠ []) (hs : (os ++ rest) <:+ (tokenize env.text).tokens) :
    ruleBlockSkip env ⟨p.at (w :: (os ++ rest)) sol, sh⟩ = .ok ⟨[], [], true⟩ ⟨p.at (os ++ rest) (isLineStartTok w.token), sh⟩ := by
  obtain ⟨k0, _, k1, k2⟩ := gadget_rule hok
  obtain ⟨l, ns, c, tl, e, hl, hne, hn, hns, hc, htl⟩ := gadget_open hok hos hr
  rw [e] at hs ⊢
  unfold ruleBlockSkip
  rw [bind_ok (step_at ..)]
  rw [bind_ok (evaluateFn_ok (b := true) (s' := ⟨p.at tl false, sh⟩) ?_)]
  · rfl
  · rw [if_neg (by simp [hl])]
    rw [bind_ok (blockName_open (star := false) (by simp [hl]) hne hns hc htl (by rw [hn]; exact k0) (List.IsSuffix.trans (List.suffix_cons l _) hs))]
    dsimp only
    rw [hn, k1]
    dsimp only
    rw [k2]
    rfl

/-! ### The whole block -/

theorem switch_bool {args : List Arg} {k : Str} (hk : lowerA k = k') (h : switchOk args k' = true) (s : St) :
    argBool (rawArgs args) k env s = .ok ((optionOf args k').map (fun v => ! [c!"false", c!"f", c!"0", c!"no"].contains (lowerA (trim v))),
      rawArgs (args.filter fun a => !(lowerA a.name == k'))) s ∧
    ((optionOf args k').map (fun v => ! [c!"false", c!"f", c!"0", c!"no"].contains (lowerA (trim v)))).getD false = switchedOn args k' := by
  unfold argBool
  rw [argGet_raw, hk]
  unfold switchOk at h
  cases ho : optionOf args k' with
  | none => exact ⟨rfl, by simp [switchedOn, ho]⟩
  | some v =>
    rw [ho] at h
    simp only [Option.all_some] at h
    dsimp only
    rw [folded_bool h]
    refine ⟨rfl, ?_⟩
    simp only [Option.map_some, Option.getD_some, switchedOn, ho, Option.any_some]
    generalize lowerA (trim v) = w at h ⊢
    simp only [List.contains_iff_mem, List.mem_cons, List.not_mem_nil, or_false] at h
    rcases h with rfl | rfl | rfl | rfl | rfl | rfl | rfl | rfl <;> decide

/-- Blocks with a first argument. -/
private theorem named_gadget {os tail T2 : List ETok} {sol sol2 : Bool} {name : Str} {u : Token × Str} {args : List Arg} {i : Nat} (hi : i < blockRules.length)
    (hname : (Plain.word name).ok = true) (hbr : getBlockRule name = some blockRules[i]) (hnl : blockRules[i].info.newlines = true)
    (hu : endsName u.1 = false ∧ u.1 ≠ .inputEnd) (hut : trim u.2 = u.2) (hargs : args.all Arg.ok = true)
    (hos : os.map ETok.pair = (.leftBlock, c!"[[") :: (.identifier, name) :: (.whitespace, c!" ") :: u ::
      (args.flatMap Arg.lex ++ [(.rightBlock, c!"]]")])) (ht : tail ≠ [])
    (hend : ∀ b : BlockInfo, b.newlines = true → HeadEnd b tail T2 sol2)
    (hs : (os ++ tail) <:+ (tokenize env.text).tokens)
    {cons : M (PS Elements)} {p : PState} {sh : Shared} {r' : RuleId} {k : Kind}
    {f : BlockInfo → M (PS Elements) → BCall → M (PS Elements)} (hf : blockRules[i].parse = f blockRules[i].info)
    (hrun : ∀ s1 : St, getHeadNameMap blockRules[i].info true env s1 =
        .ok (u.2, rawArgs args) ⟨({ p with rule := .blk blockRules[i].info.name } : PState).at T2 sol2, sh⟩ →
      f blockRules[i].info cons ⟨name, false, false, true⟩ env s1 = .ok ⟨[.mk k []], [], false⟩ ⟨({ p with rule := r' } : PState).at T2 sol2, sh⟩) :
    ruleBlock cons false env ⟨p.at (os ++ tail) sol, sh⟩ =
        .ok ⟨[.mk k []], [], false⟩ ⟨({ p with rule := r' } : PState).at T2 sol2, sh⟩ := by
  obtain ⟨l, os, rfl, hl, hos⟩ := List.map_eq_cons_iff.1 hos
  obtain ⟨m, os, rfl, hm, hos⟩ := List.map_eq_cons_iff.1 hos
  obtain ⟨d, os, rfl, hd, hos⟩ := List.map_eq_cons_iff.1 hos
  obtain ⟨x, os, rfl, hx, hos⟩ := List.map_eq_cons_iff.1 hos
  obtain ⟨as, rs, rfl, has, hrs⟩ := map_append_split hos
  obtain ⟨r, rfl, hr0⟩ := List.map_eq_singleton_iff.1 hrs
  have hrt : r.token = .rightBlock := congrArg (·.1) hr0
  have hdt : d.token = .whitespace := congrArg (·.1) hd
  have hlt : l.token = .leftBlock := congrArg (·.1) hl
  have hxt : x.token = u.1 := congrArg (·.1) hx
  have hxs : slicesOf [x] = u.2 := by simp [slicesOf, ← hx, ETok.pair]
  obtain ⟨n1, n2, n3, n4, _⟩ := word_name hm hname
  have e0 : l :: m :: d :: x :: (as ++ [r]) ++ tail = l :: ([m] ++ d :: ([x] ++ (as ++ r :: tail))) := by simp
  rw [e0] at hs ⊢
  have hs1 := List.IsSuffix.trans (List.suffix_cons l _) hs
  have hs2 : [x] ++ (as ++ r :: tail) <:+ (tokenize env.text).tokens :=
    List.IsSuffix.trans (List.suffix_append [m, d] _) (by simpa using hs1)
  have hxw : x.token ≠ .whitespace := by
    intro e
    rw [hxt] at e
    rw [e] at hu
    exact absurd hu.1 (by decide)
  refine ruleBlock_runs (ns := [m]) (c := d) (rest := [x] ++ (as ++ r :: tail)) (br := blockRules[i]) hlt (by simp) n2 (.inl hdt) (by simp) n3
    hs1 n4 (by rw [n1]; exact hbr) (by simp) (fun _ => hxw) rfl ?_ (by simp)
  rw [if_pos hdt]
  have hin : (d.token == Token.whitespace) = true := by rw [hdt]; rfl
  rw [hin, n1, hf]
  refine hrun _ ?_
  have := nameMap_run (env := env) (b := blockRules[i].info) (p := { p with rule := .blk blockRules[i].info.name }) (sh := sh) (sol := false) (ns := [x])
    (hend _ hnl) hargs (by simp only [List.mem_singleton, forall_eq]; rw [hxt]; exact hu) (by rw [hxs]; exact hut) has hrt ht hs2
  rw [hxs] at this
  exact this

theorem gadget_run {g : Gadget} (hok : g.ok = true) {os tail T2 : List ETok} {sol sol2 : Bool} (hos : os.map ETok.pair = g.lex) (ht : tail ≠ [])
    (hend : ∀ b : BlockInfo, b.newlines = true → HeadEnd b tail T2 sol2) (htw : (tail.headD default).token ≠ .whitespace)
    (hs : (os ++ tail) <:+ (tokenize env.text).tokens) (hpage : g.isPage = true → env.settings.enablePageSyntax = true)
    {cons : M (PS Elements)} {p : PState} {sh : Shared} :
    ∃ r', ruleBlock cons false env ⟨p.at (os ++ tail) sol, sh⟩ =
        .ok ⟨[.mk (g.kind env.cx) []], [], false⟩ ⟨({ p with rule := r' } : PState).at T2 sol2, sh⟩ := by
  obtain ⟨k0, k3, k1, k2⟩ := gadget_rule hok
  have hpc : g.isPage = true → ∀ s, checkPageSyntax env s = .ok () s := by
    intro h s
    unfold checkPageSyntax
    rw [bind_ok (m := M.env) (s' := s) (a := env) rfl]
    simp only [hpage h, if_true]
    rfl
  cases g with
  | contents side name args =>
    have hok' := hok
    simp only [Gadget.ok, Bool.and_eq_true, beq_iff_eq] at hok
    obtain ⟨_, _, _, f4⟩ := contents_name (contents_side hok.1.1) hok.1.2
    obtain ⟨l, os, rfl, hl, hos⟩ := List.map_eq_cons_iff.1 hos
    obtain ⟨ks, os, rfl, hks, hos⟩ := map_append_split hos
    obtain ⟨m, os, rfl, hm, hos⟩ := List.map_eq_cons_iff.1 hos
    obtain ⟨as, rs, rfl, has, hrs⟩ := map_append_split hos
    obtain ⟨r, rfl, hr0⟩ := List.map_eq_singleton_iff.1 hrs
    have hrt : r.token = .rightBlock := congrArg (·.1) hr0
    have hmt : m.token = .identifier := congrArg (·.1) hm
    have hms : m.slice = name := congrArg (·.2) hm
    have hsl : slicesOf (ks ++ [m]) = plainText (imageMark side) ++ name := by
      have := (plains_tok hks).2
      simp only [slicesOf, List.flatMap_append] at this ⊢
      rw [this]
      simp [hms]
    have hkt := contents_tokens (contents_side hok.1.1) hks hmt
    have e0 : l :: (ks ++ m :: (as ++ [r])) ++ tail = l :: ((ks ++ [m]) ++ (as ++ r :: tail)) := by simp
    rw [e0] at hs ⊢
    have hs1 := List.IsSuffix.trans (List.suffix_cons l _) hs
    have hs2 := List.IsSuffix.trans (List.suffix_append (ks ++ [m]) _) hs1
    obtain ⟨d, tl, q1, h1, h2, h3, h4⟩ := head_parts (env := env) (b := blockRules[53].info) (p := { p with rule := .blk blockRules[53].info.name }) (sh := sh)
      hok.2 has hrt ht hs2 (hend _ rfl) (fun _ => htw)
    rw [q1] at hs1 ⊢
    refine ⟨.blk blockRules[53].info.name, ruleBlock_runs (ns := ks ++ [m]) (c := d) (rest := tl) (br := blockRules[53]) (congrArg (·.1) hl) (by simp) hkt h1 h2
      (by rw [hsl]; exact k0) hs1 (by rw [hsl]; exact k3) (by rw [hsl]; exact k1) (by simp) h3 rfl ?_ ?_⟩
    · show blkToc blockRules[53].info cons _ env _ = _
      unfold blkToc
      rw [bind_ok (hpc rfl _), bind_ok (m := noStar _ _ _) (a := ()) rfl, bind_ok (m := noScore _ _ _) (a := ()) rfl, bind_ok h4,
        bind_ok (toAttrs_args _ _)]
      dsimp only
      rw [hsl, f4]
      rfl
    · intro hw
      rcases h1 with h1 | h1
      · exact absurd hw (h3 h1)
      · cases as with
        | nil =>
          simp at q1
          rw [← q1.2] at hw
          exact absurd hw htw
        | cons a as =>
          intro e
          have := congrArg List.length q1
          have h5 := congrArg List.length e
          have h6 := List.length_pos_iff.2 ht
          simp at this h5
          omega
  | frame name url args =>
    simp only [Gadget.ok, Bool.and_eq_true, beq_iff_eq] at hok
    obtain ⟨⟨⟨h1, h2⟩, h3⟩, h4⟩ := hok
    have hu : isUrl url = true := by
      simp only [urlOk, List.any_eq_true, Bool.and_eq_true] at h2
      obtain ⟨q, hq, ⟨hst, _⟩, _⟩ := h2
      simp only [isUrl, List.any_eq_true]
      have : ∀ q ∈ [c!"http://", c!"https://", c!"ftp://"], q ∈ urlSchemes := by decide
      exact ⟨q, this q hq, hst⟩
    refine ⟨.blk blockRules[23].info.name, named_gadget (i := 23) (by decide) (lower_word h1 rfl) k1 rfl ⟨rfl, by simp⟩ h3 h4 hos ht hend hs
      (f := blkIframe) rfl ?_⟩
    intro s1 hm
    unfold blkIframe
    rw [bind_ok (m := noStar _ _ _) (a := ()) rfl, bind_ok (m := noScore _ _ _) (a := ()) rfl, bind_ok hm]
    dsimp only
    rw [hu, if_neg (by simp), bind_ok (toAttrs_args _ _)]
    rfl
  | video name host args =>
    simp only [Gadget.ok, Bool.and_eq_true, beq_iff_eq, List.contains_iff_mem, List.mem_cons, List.not_mem_nil, or_false] at hok
    obtain ⟨⟨⟨h1, h2⟩, h3⟩, h4⟩ := hok
    have hw : (Plain.word host).ok = true := by rcases h2 with e | e <;> exact lower_word e rfl
    refine ⟨.blk blockRules[16].info.name, named_gadget (i := 16) (by decide) (lower_word h1 rfl) k1 rfl ⟨rfl, by simp⟩ (trim_word hw) h3 hos ht hend hs
      (f := blkEmbed) rfl ?_⟩
    intro s1 hm
    obtain ⟨v, hv⟩ := Option.isSome_iff_exists.1 h4
    unfold blkEmbed
    rw [bind_ok (m := noStar _ _ _) (a := ()) rfl, bind_ok (m := noScore _ _ _) (a := ()) rfl, bind_ok hm]
    dsimp only
    rw [argGet_raw]
    have hl : lowerA c!"video" = c!"video" := by decide
    rw [hl, hv]
    have e1 : lowerA c!"youtube" = c!"youtube" := by decide
    have e2 : lowerA c!"vimeo" = c!"vimeo" := by decide
    unfold eqIgnoreCase
    rw [e1, e2]
    rcases h2 with e | e
    · rw [e, if_pos (by simp)]
      simp only [Gadget.kind, videoOf, hv, e, Option.getD_some, if_true]
      rfl
    · rw [e, if_neg (by decide), if_pos (by simp)]
      have : c!"vimeo" ≠ c!"youtube" := by decide
      simp only [Gadget.kind, videoOf, hv, e, Option.getD_some, if_neg this]
      rfl
  | module name which args =>
    simp only [Gadget.ok, Bool.and_eq_true, List.contains_iff_mem, List.mem_cons, List.not_mem_nil, or_false] at hok
    obtain ⟨⟨⟨⟨h1, h2⟩, h3⟩, h4⟩, h5⟩ := hok
    have hw1 : (Plain.word name).ok = true := by rcases h1 with e | e <;> exact lower_word e rfl
    have hw : (Plain.word which).ok = true := by rcases h2 with e | e | e | e | e <;> exact lower_word e rfl
    have hrun : ∃ r', ∀ s1 : St, getHeadNameMap blockRules[36].info true env s1 =
        .ok (which, rawArgs args) ⟨({ p with rule := .blk blockRules[36].info.name } : PState).at T2 sol2, sh⟩ →
      blkModule blockRules[36].info cons ⟨name, false, false, true⟩ env s1 =
        .ok ⟨[.mk ((Gadget.module name which args).kind env.cx) []], [], false⟩ ⟨({ p with rule := r' } : PState).at T2 sol2, sh⟩ := by
      have hfind : ∀ {low : Str} {r : Str × Str}, lowerA which = low → (moduleRules.find? fun r => low == lowerA r.2) = some r →
          (moduleRules.find? fun r => eqIgnoreCase which r.2) = some r := by
        intro low r e h
        rw [← h]
        congr 1
        funext q
        simp [eqIgnoreCase, e]
      have start : ∀ {rule nm : Str}, (moduleRules.find? fun r => eqIgnoreCase which r.2) = some (rule, nm) →
          moduleParse blockRules[36].info rule (rawArgs args) env ⟨({ p with rule := .blk rule } : PState).at T2 sol2, sh⟩ =
            .ok ⟨[.mk ((Gadget.module name which args).kind env.cx) []], [], false⟩ ⟨({ p with rule := .blk rule } : PState).at T2 sol2, sh⟩ →
          ∃ r', ∀ s1 : St, getHeadNameMap blockRules[36].info true env s1 =
            .ok (which, rawArgs args) ⟨({ p with rule := .blk blockRules[36].info.name } : PState).at T2 sol2, sh⟩ →
          blkModule blockRules[36].info cons ⟨name, false, false, true⟩ env s1 =
            .ok ⟨[.mk ((Gadget.module name which args).kind env.cx) []], [], false⟩ ⟨({ p with rule := r' } : PState).at T2 sol2, sh⟩ := by
        intro rule nm hf hm
        refine ⟨.blk rule, fun s1 h => ?_⟩
        unfold blkModule
        rw [bind_ok (hpc rfl s1), bind_ok (m := noStar _ _ _) (a := ()) rfl, bind_ok (m := noScore _ _ _) (a := ()) rfl, bind_ok h]
        dsimp only
        rw [hf]
        exact hm
      rcases h2 with e | e | e | e | e
      · refine start (hfind e (r := (c!"module-backlinks", c!"Backlinks")) (by decide)) ?_
        unfold moduleParse
        rw [if_pos rfl, argGet_raw]
        simp only [Gadget.kind, moduleOf, e]
        rfl
      · refine start (hfind e (r := (c!"module-categories", c!"Categories")) (by decide)) ?_
        unfold moduleParse
        rw [if_neg (by decide), if_pos rfl]
        have hsw : switchOk args c!"includehidden" = true := by simpa [e] using h4
        obtain ⟨b1, b2⟩ := switch_bool (env := env) (k := c!"includeHidden") (k' := c!"includehidden") (by decide) hsw
          ⟨({ p with rule := .blk c!"module-categories" } : PState).at T2 sol2, sh⟩
        rw [bind_ok b1]
        dsimp only
        rw [b2]
        simp only [Gadget.kind, moduleOf, e]
        rfl
      · refine start (hfind e (r := (c!"module-join", c!"Join")) (by decide)) ?_
        unfold moduleParse
        rw [if_neg (by decide), if_neg (by decide), if_neg (by decide), if_pos rfl]
        rw [argGet_raw]
        dsimp only
        rw [bind_ok (toAttrs_args _ _)]
        simp only [Gadget.kind, moduleOf, e]
        rfl
      · refine start (hfind e (r := (c!"module-page-tree", c!"PageTree")) (by decide)) ?_
        unfold moduleParse
        rw [if_neg (by decide), if_neg (by decide), if_neg (by decide), if_neg (by decide), if_pos rfl]
        have hsw : switchOk args c!"showroot" = true ∧ ∀ v, optionOf args c!"depth" = some v → (positiveOf v).isSome = true := by
          simp only [e, bne_self_eq_false, Bool.false_or, Bool.and_eq_true] at h5
          exact ⟨h5.1, fun v hv => by rw [hv] at h5; exact h5.2⟩
        rw [argGet_raw]
        dsimp only
        have l1 : lowerA c!"root" = c!"root" := by decide
        have l2 : lowerA c!"depth" = c!"depth" := by decide
        rw [bind_ok (argNonZero_raw (k := c!"depth") (by
          rw [l2, l1, optionOf_filter (by decide)]; exact hsw.2) _)]
        rw [l1, l2, optionOf_filter (by decide)]
        dsimp only
        have hsw' : switchOk ((args.filter fun a => !(lowerA a.name == c!"root")).filter fun a => !(lowerA a.name == c!"depth")) c!"showroot" = true := by
          unfold switchOk
          rw [optionOf_filter (by decide), optionOf_filter (by decide)]
          exact hsw.1
        obtain ⟨b1, b2⟩ := switch_bool (env := env) (k := c!"showRoot") (k' := c!"showroot") (by decide) hsw'
          ⟨({ p with rule := .blk c!"module-page-tree" } : PState).at T2 sol2, sh⟩
        rw [bind_ok b1]
        dsimp only
        rw [b2]
        have b3 : switchedOn ((args.filter fun a => !(lowerA a.name == c!"root")).filter fun a => !(lowerA a.name == c!"depth")) c!"showroot" =
            switchedOn args c!"showroot" := by
          unfold switchedOn
          rw [optionOf_filter (by decide), optionOf_filter (by decide)]
        rw [b3]
        simp only [Gadget.kind, moduleOf, e]
        rfl
      · refine start (hfind e (r := (c!"module-rate", c!"Rate")) (by decide)) ?_
        unfold moduleParse
        rw [if_neg (by decide), if_neg (by decide), if_neg (by decide), if_neg (by decide), if_neg (by decide)]
        simp only [Gadget.kind, moduleOf, e]
        rfl
    obtain ⟨r', hrun⟩ := hrun
    exact ⟨r', named_gadget (i := 36) (by decide) hw1 k1 rfl ⟨rfl, by simp⟩ (trim_word hw) h3 hos ht hend hs (f := blkModule) rfl hrun⟩

end Ftml
