import Verif.Lemmas.Tokens
/-
Invariants of the parser state and of the elements it produces, and a program logic for `M`.
-/
namespace Ftml
open M

/-! ### Elements -/

/-- What a node may depend on: the inputs, the shared lists, the footnote-block flag, whether the node
is inside a footnote. -/
structure Gam where
  env : Env
  sh : Shared
  fb : Bool
  fn : Bool

/-- Facts about particular kinds of nodes. -/
def Special (g : Gam) (k : Kind) (ks : List Elem) : Prop :=
  match k with
  | .email _ => False
  | .container .paragraph _ => ks ≠ [] ∧ ∀ e ∈ ks, e.inParagraph
  | .container (.header h) a => 1 ≤ h.level ∧ h.level ≤ 6 ∧ a = []
  | .text t => TextFrom g.env.world g.env.text t
  | .raw t | .user t _ | .bibCite t _ | .equationRef t | .mathInline t | .radioButton t _ _ | .tab t => OnLine g.env.text t
  | .color t => ∃ x, OnLine g.env.text x ∧ (t = x ∨ t = '#' :: x)
  | .variable s => (s ≠ [] ∧ ∀ c ∈ s, isAlnumA c = true) ∧ c!"{$" ++ s ++ c!"}" <:+: g.env.text
  | .link ty loc extra label _ => LinkFrom g.env.world g.env.settings g.env.text ty loc extra label ∧
      ∀ u, loc = .url u → label = .page → HasBlankLabel g.env.text
  | .footnote => g.fn = false
  | .footnoteBlock t _ => g.fb = true ∧ ∀ v, t = some v → ArgGiven g.env.text c!"title" v
  | .bibBlock i t _ => i < g.sh.bibs.length ∧ ∀ v, t = some v → ArgGiven g.env.text c!"title" v
  | .code c l => (∃ b ∈ g.sh.codeBlocks, b.contents = c) ∧ c <:+: g.env.text ∧
      ∀ v, l = some v → ∃ x, ArgGiven g.env.text c!"type" x ∧ v = lowerA x
  | .collapsible _ _ a b _ _ => (∀ v, a = some v → ArgGiven g.env.text c!"show" v) ∧
      ∀ v, b = some v → ArgGiven g.env.text c!"hide" v
  | .date _ f _ => ∀ v, f = some v → ArgGiven g.env.text c!"format" v
  | .image src l _ _ => ImageFrom g.env.text src ∧
      ∀ d, l = some d → ∃ x, ArgGiven g.env.text c!"link" x ∧ d = LinkLoc.parse x
  | .module (.backlinks p) => ∀ v, p = some v → ArgGiven g.env.text c!"page" v
  | .module (.join p _) => ∀ v, p = some v → ArgGiven g.env.text c!"button" v
  | .module (.pageTree p _ d) => (∀ v, p = some v → ArgGiven g.env.text c!"root" v) ∧ d ≠ some 0
  | .html c => c ∈ g.sh.htmlBlocks ∧ c <:+: g.env.text
  | .style c => c <:+: g.env.text
  | .iframe _ u => isUrl u = true ∧ OnLine g.env.text u
  | .include ps vars _ => ps = false ∧ (vars.map (·.1)).Nodup
  | .lineBreaks n => 1 ≤ n ∧ n ≤ 100
  | .anchorName s => ∃ x, OnLine g.env.text x ∧ s = if g.env.settings.isolateUserIds then isolateIds x else x
  | .embed e => ∃ v, ArgGiven g.env.text c!"video" v ∧ (e = .youtube v ∨ e = .vimeo v)
  | .math _ l => l ≠ [] ∧ l <:+: g.env.text
  | .tabView | .definitionList => ks ≠ []
  | .list .. => ks ≠ [] ∨ OpensOne g.env.text [c!"ul", c!"ol"]
  | .cell _ n _ _ => 1 ≤ n
  | .defItem _ => ∃ a b, ks = [.mk .defKey a, .mk .defValue b]
  | .subList | .part _ => ks.length = 1
  | _ => True

/-- Local well-formedness of a node. -/
structure NodeOk (g : Gam) (k : Kind) (ks : List Elem) : Prop where
  kids : ∀ e ∈ ks, allowedKid k e.kind = true
  leaf : k.isLeaf = true → ks = []
  attrs : AttrOk g.env.settings g.env.text k.attrs
  page : k.pageOnly = true → g.env.settings.enablePageSyntax = true
  block : ∀ ns, k.blocks = some ns → OpensOne g.env.text ns
  special : Special g k ks

/-- The partial elements that can remain below a node. -/
def adds : Kind → List PartKind
  | .item _ => [.listItem]
  | .cell .. => [.tableCell]
  | .tab _ => [.tab]
  | .container .ruby _ => [.rubyText]
  | _ => []

/-- The partial elements that can remain below a node where `A` can remain beside it: a row made by
`[[row]]` shuts out what its table's surroundings accept. -/
def below (k : Kind) (A : List PartKind) : List PartKind :=
  match k with
  | .part .tableRow => []
  | _ => adds k ++ A

theorem below_mono {k : Kind} {A B : List PartKind} (h : A ⊆ B) : below k A ⊆ below k B := by
  unfold below
  split
  · exact List.Subset.refl _
  · intro x hx
    rcases List.mem_append.1 hx with h' | h'
    · exact List.mem_append_left _ h'
    · exact List.mem_append_right _ (h h')

theorem sub_below {k : Kind} (h : k ≠ .part .tableRow) (A : List PartKind) : A ⊆ below k A := by
  unfold below
  split
  · exact (h rfl).elim
  · exact fun x hx => List.mem_append_right _ hx

/-- An element all of whose nodes are well-formed and whose partial elements are among `A` or added by
an ancestor. -/
inductive Good (g : Gam) : List PartKind → Elem → Prop where
  | mk {A k ks} : (∀ p, k = .part p → p ∈ A) → NodeOk g k ks → (∀ e ∈ ks, Good g (below k A) e) →
      Good g A (.mk k ks)

/-- As `Good`, but the element itself may be any partial element. -/
def GoodR (g : Gam) (A : List PartKind) : Elem → Prop
  | .mk k ks => NodeOk g k ks ∧ ∀ e ∈ ks, Good g (below k A) e

theorem good_iff {g A e} : Good g A e ↔ GoodR g A e ∧ ∀ p, e.kind = .part p → p ∈ A := by
  constructor
  · intro h; cases h with | mk h1 h2 h3 => exact ⟨⟨h2, h3⟩, h1⟩
  · cases e with | mk k ks => intro h; exact .mk h.2 h.1.1 h.1.2

/-- The shared lists only grow. -/
structure ShLe (a b : Shared) : Prop where
  toc : a.toc <+: b.toc
  html : a.htmlBlocks <+: b.htmlBlocks
  code : a.codeBlocks <+: b.codeBlocks
  foot : a.footnotes <+: b.footnotes
  bibs : a.bibs <+: b.bibs

theorem ShLe.refl (a : Shared) : ShLe a a := by constructor <;> exact List.prefix_rfl
theorem ShLe.trans {a b c : Shared} (h : ShLe a b) (h' : ShLe b c) : ShLe a c :=
  ⟨h.toc.trans h'.toc, h.html.trans h'.html, h.code.trans h'.code, h.foot.trans h'.foot, h.bibs.trans h'.bibs⟩

/-- Weaker contexts. -/
structure Gam.Le (g g' : Gam) : Prop where
  env : g'.env = g.env
  sh : ShLe g.sh g'.sh
  fb : g.fb = true → g'.fb = true
  fn : g'.fn = true → g.fn = true

theorem Special.mono {g g' : Gam} (hg : g.Le g') {k ks} (h : Special g k ks) : Special g' k ks := by
  unfold Special at *
  rw [hg.env]
  split <;> try exact h
  · cases hf : g'.fn with
    | false => rfl
    | true => rw [hg.fn hf] at h; cases h
  · exact ⟨hg.fb h.1, h.2⟩
  · exact ⟨Nat.lt_of_lt_of_le h.1 hg.sh.bibs.length_le, h.2⟩
  · obtain ⟨⟨b, hb, e⟩, h⟩ := h; exact ⟨⟨b, hg.sh.code.subset hb, e⟩, h⟩
  · exact ⟨hg.sh.html.subset h.1, h.2⟩
  · trivial

theorem NodeOk.mono {g g' : Gam} (hg : g.Le g') {k ks} (h : NodeOk g k ks) : NodeOk g' k ks :=
  ⟨h.kids, h.leaf, by rw [hg.env]; exact h.attrs, by rw [hg.env]; exact h.page,
    by rw [hg.env]; exact h.block, h.special.mono hg⟩

theorem Good.mono {g g' : Gam} (hg : g.Le g') {A B e} (hAB : A ⊆ B) (h : Good g A e) : Good g' B e := by
  induction h generalizing B with
  | @mk A k ks h1 h2 _ ih =>
    refine .mk (fun p hp => hAB (h1 p hp)) (h2.mono hg) (fun e he => ih e he (below_mono hAB))

theorem GoodR.mono {g g' : Gam} (hg : g.Le g') {A B e} (hAB : A ⊆ B) (h : GoodR g A e) : GoodR g' B e := by
  cases e with
  | mk k ks =>
    refine ⟨h.1.mono hg, fun e he => (h.2 e he).mono hg (below_mono hAB)⟩

theorem Gam.Le.refl (g : Gam) : g.Le g := ⟨rfl, ShLe.refl _, id, id⟩

/-! ### Counting -/

@[simp] theorem countIn_nil (m : Meas) : countIn m [] = 0 := rfl
@[simp] theorem countIn_cons (m : Meas) (e es) : countIn m (e :: es) = e.count m + countIn m es := rfl
@[simp] theorem count_mk (m : Meas) (k ks) : (Elem.mk k ks).count m = m.ofKind k + countIn m ks := rfl
@[simp] theorem countIn_append (m : Meas) (a b) : countIn m (a ++ b) = countIn m a + countIn m b := by
  induction a with
  | nil => simp
  | cons e es ih => simp only [List.cons_append, countIn_cons, ih]; omega

/-- The shared list a measure counts. -/
def Meas.size : Meas → Shared → Nat
  | .footnotes, s => s.footnotes.length
  | .headings, s => s.toc.length

theorem Meas.size_mono {a b : Shared} (h : ShLe a b) (m : Meas) : m.size a ≤ m.size b := by
  cases m
  · exact h.foot.length_le
  · exact h.toc.length_le

/-! ### States -/

/-- All partial kinds. -/
def allParts : List PartKind := [.listItem, .tableRow, .tableCell, .tab, .rubyText]
theorem mem_allParts (p : PartKind) : p ∈ allParts := by cases p <;> decide

/-- The partial elements a setting of `accepts_partial` lets through. -/
def partsOf : Accepts → List PartKind
  | .none => []
  | .listItem => [.listItem]
  | .tableRow => [.tableRow]
  | .tableCell => [.tableCell]
  | .tab => [.tab]
  | .ruby => [.rubyText]

theorem matches_iff (a : Accepts) (p : PartKind) : a.matches p = true ↔ p ∈ partsOf a := by
  cases a <;> cases p <;> decide

/-- Invariant of the shared lists. -/
structure ShOk (env : Env) (sh : Shared) : Prop where
  foot : ∀ f ∈ sh.footnotes, ∀ e ∈ f, Good ⟨env, sh, true, true⟩ allParts e ∧ e.kind.isStruct = false
  bibs : ∀ b ∈ sh.bibs, ∀ x ∈ b.entries, ∀ e ∈ x.2,
    Good ⟨env, sh, true, false⟩ allParts e ∧ e.kind.isStruct = false
  code : sh.codeBlocks.Pairwise fun a b => a.name.isSome = true → a.name ≠ b.name
  footB : sh.footnotes ≠ [] → OpensBlock env.text c!"footnote"
  bibsB : sh.bibs ≠ [] → OpensBlock env.text c!"bibliography"
  codeB : ∀ x ∈ sh.codeBlocks, x.contents <:+: env.text ∧ OpensBlock env.text c!"code"
  htmlB : ∀ x ∈ sh.htmlBlocks, x <:+: env.text ∧ OpensBlock env.text c!"html"

/-- An error whose span is that of a token. -/
def ErrOk (env : Env) (x : PErr) : Prop :=
  ∃ t ∈ env.tokens, x.token = t.token ∧ x.start = t.start ∧ x.stop = t.stop

/-- The panics that can happen, and the texts on which they can. -/
def PanicOk (text : Str) (p : Panic) : Prop :=
  (p = .checkStep ∧ ∃ a b, text = a ++ c!"))" ++ b) ∨
  ((p = .partialSafety ∨ p = .textRender) ∧ OpensOne text allPartBlocks) ∨
  (p = .textRender ∧ HasBlankLabel text)

/-- The context of a call. -/
structure Ctx where
  env : Env
  D : Nat
  accepts : Accepts
  fn : Bool

/-- Invariant of the parser state. -/
structure Inv (c : Ctx) (s : St) : Prop where
  wf : c.env.tokens = (tokenize c.env.text).tokens
  sfx : (s.p.cur :: s.p.rem) <:+ c.env.tokens
  dep : c.D ≤ s.p.depth
  acc : s.p.accepts = c.accepts
  fn : s.p.inFootnote = c.fn
  fb : s.p.hasFootnoteBlock = true → OpensBlock c.env.text c!"footnoteblock"
  sh : ShOk c.env s.sh

/-- What every call may change. -/
structure Le (s s' : St) : Prop where
  sfx : (s'.p.cur :: s'.p.rem) <:+ (s.p.cur :: s.p.rem)
  fb : s.p.hasFootnoteBlock = true → s'.p.hasFootnoteBlock = true
  sh : ShLe s.sh s'.sh

theorem Le.refl (s : St) : Le s s := ⟨List.suffix_rfl, id, ShLe.refl _⟩
theorem Le.trans {a b c : St} (h : Le a b) (h' : Le b c) : Le a c :=
  ⟨h'.sfx.trans h.sfx, fun x => h'.fb (h.fb x), h.sh.trans h'.sh⟩
theorem Le.len {a b : St} (h : Le a b) : b.p.rem.length ≤ a.p.rem.length := by
  have := h.sfx.length_le; simpa using this
theorem Le.eq_of_len {a b : St} (h : Le a b) (hl : b.p.rem.length = a.p.rem.length) :
    b.p.cur = a.p.cur ∧ b.p.rem = a.p.rem := by
  have := h.sfx.eq_of_length (by simp [hl]); simpa using this

/-- The context of the elements made in a state. -/
def Ctx.gam (c : Ctx) (s : St) : Gam := ⟨c.env, s.sh, s.p.hasFootnoteBlock, c.fn⟩

theorem Le.gam {s s' : St} (h : Le s s') (c : Ctx) : (c.gam s).Le (c.gam s') := ⟨rfl, h.sh, h.fb, id⟩

/-- Hoare triple with exceptional outcomes. -/
def Tri (c : Ctx) (s : St) {α : Type} (m : M α) (Q : α → St → Prop) : Prop :=
  match m c.env s with
  | .ok a s' => Inv c s' ∧ Le s s' ∧ Q a s'
  | .err x s' => Inv c s' ∧ Le s s' ∧ ErrOk c.env x
  | .panic p => PanicOk c.env.text p
  | .diverge => False

section
variable {α β : Type} {c : Ctx} {s : St}

theorem Tri.mono {m : M α} {Q R : α → St → Prop} (h : Tri c s m Q)
    (hqr : ∀ a s', Inv c s' → Le s s' → Q a s' → R a s') : Tri c s m R := by
  unfold Tri at *
  split at h
  · exact ⟨h.1, h.2.1, hqr _ _ h.1 h.2.1 h.2.2⟩
  · exact h
  · exact h
  · exact h

theorem Tri.bind {m : M α} {f : α → M β} {Q : α → St → Prop} {R : β → St → Prop} (h : Tri c s m Q)
    (hf : ∀ a s', Inv c s' → Le s s' → Q a s' → Tri c s' (f a) R) : Tri c s (m >>= f) R := by
  unfold Tri at *
  simp only [Bind.bind, M.bind]
  split at h
  · rename_i a s' e
    rw [e]
    have := hf a s' h.1 h.2.1 h.2.2
    dsimp only
    split at this
    · exact ⟨this.1, h.2.1.trans this.2.1, this.2.2⟩
    · exact ⟨this.1, h.2.1.trans this.2.1, this.2.2⟩
    · exact this
    · exact this
  · rename_i e; rw [e]; exact h
  · rename_i e; rw [e]; exact h
  · exact h.elim

theorem Tri.pure {a : α} {Q : α → St → Prop} (hi : Inv c s) (h : Q a s) : Tri c s (pure a) Q :=
  ⟨hi, Le.refl s, h⟩

theorem Tri.pure' {a : α} {Q : α → St → Prop} (hi : Inv c s) (h : Q a s) : Tri c s (M.pure a) Q :=
  ⟨hi, Le.refl s, h⟩

/-- A panic that cannot happen. -/
theorem Tri.absurd {m : M α} {Q : α → St → Prop} (h : False) : Tri c s m Q := h.elim

theorem tri_getP {f : PState → M β} {R} : Tri c s (getP >>= f) R = Tri c s (f s.p) R := rfl
theorem tri_getSh {f : Shared → M β} {R} : Tri c s (getSh >>= f) R = Tri c s (f s.sh) R := rfl
theorem tri_env {f : Env → M β} {R} : Tri c s (M.env >>= f) R = Tri c s (f c.env) R := rfl
theorem tri_current {f : ETok → M β} {R} : Tri c s (current >>= f) R = Tri c s (f s.p.cur) R := rfl
theorem tri_curTok {f : Token → M β} {R} : Tri c s (curTok >>= f) R = Tri c s (f s.p.cur.token) R := rfl
theorem tri_remLen {f : Nat → M β} {R} : Tri c s (remLen >>= f) R = Tri c s (f s.p.rem.length) R := rfl
theorem tri_pure {a : α} {f : α → M β} {R} : Tri c s (Pure.pure a >>= f) R = Tri c s (f a) R := rfl
theorem tri_mpure {a : α} {f : α → M β} {R} : Tri c s (M.pure a >>= f) R = Tri c s (f a) R := rfl
theorem tri_nextTwo {f : Token × Option Token → M β} {R} : Tri c s (nextTwo >>= f) R =
  Tri c s (f (s.p.cur.token, s.p.rem[0]?.map (·.token))) R := rfl
theorem tri_nextThree {f : Token × Option Token × Option Token → M β} {R} : Tri c s (nextThree >>= f) R =
  Tri c s (f (s.p.cur.token, s.p.rem[0]?.map (·.token), s.p.rem[1]?.map (·.token))) R := rfl
theorem tri_lookAhead {n : Nat} {f : Option ETok → M β} {R} : Tri c s (lookAhead n >>= f) R =
  Tri c s (f s.p.rem[n]?) R := rfl

theorem tri_retSome {a : α} {Q} : Tri c s (Pure.pure a) Q = Tri c s (M.pure a) Q := rfl

theorem Inv.cur_mem (hi : Inv c s) : s.p.cur ∈ c.env.tokens := hi.sfx.subset (List.mem_cons_self ..)

theorem fail_spec {k : EKind} {Q : α → St → Prop} (hi : Inv c s) : Tri c s (fail k) Q :=
  ⟨hi, Le.refl s, ⟨s.p.cur, hi.cur_mem, rfl, rfl, rfl⟩⟩

theorem throw_spec {x : PErr} {Q : α → St → Prop} (hi : Inv c s) (hx : ErrOk c.env x) :
    Tri c s (throw x) Q := ⟨hi, Le.refl s, hx⟩

theorem attempt_spec {m : M α} {Q : α → St → Prop} (h : Tri c s m Q) :
    Tri c s (attempt m) fun r s' =>
      match r with
      | .ok a => Q a s'
      | .error x => ErrOk c.env x := by
  unfold Tri at *
  simp only [attempt]
  split at h <;> rename_i e
  · rw [e]; exact h
  · rw [e]; exact h
  · rw [e]; exact h
  · exact h.elim

theorem onClone_spec {m : M α} {Q : α → St → Prop} (hi : Inv c s) (h : Tri c s m Q) :
    Tri c s (onClone m) fun r s' => s'.p = s.p ∧
      match r.1 with
      | .ok a => ∃ s1, s1.p = r.2 ∧ s1.sh = s'.sh ∧ Inv c s1 ∧ Le s s1 ∧ Q a s1
      | .error x => ErrOk c.env x := by
  unfold Tri at *
  simp only [onClone]
  split at h <;> rename_i e
  · rename_i a s1
    rw [e]
    refine ⟨⟨hi.wf, hi.sfx, hi.dep, hi.acc, hi.fn, hi.fb, h.1.sh⟩, ⟨List.suffix_rfl, id, h.2.1.sh⟩, rfl, s1, rfl, rfl, h⟩
  · rename_i x s1
    rw [e]
    exact ⟨⟨hi.wf, hi.sfx, hi.dep, hi.acc, hi.fn, hi.fb, h.1.sh⟩, ⟨List.suffix_rfl, id, h.2.1.sh⟩, rfl, h.2.2⟩
  · rw [e]; exact h
  · exact h.elim

/-- Taking over the fields of a successful clone. -/
theorem updateP_spec {q : PState} {s0 s1 : St} (hi : Inv c s) (hs : s.p = s0.p) (hq : s1.p = q)
    (hsh : s1.sh = s.sh) (h1 : Inv c s1) (hl : Le s0 s1) :
    Tri c s (updateP q) fun _ s' => s'.sh = s1.sh ∧ s'.p.cur = s1.p.cur ∧ s'.p.rem = s1.p.rem ∧
      s'.p.hasFootnoteBlock = s1.p.hasFootnoteBlock := by
  subst hq
  refine ⟨⟨hi.wf, h1.sfx, hi.dep, h1.acc, h1.fn, h1.fb, hi.sh⟩, ⟨?_, ?_, ShLe.refl _⟩, hsh.symm, rfl, rfl, rfl⟩
  · have := hl.sfx; rw [← hs] at this; exact this
  · have := hl.fb; rw [← hs] at this; exact this

theorem setRule_spec {r : RuleId} (hi : Inv c s) :
    Tri c s (setRule r) fun _ s' => s' = { s with p := { s.p with rule := r } } :=
  ⟨⟨hi.wf, hi.sfx, hi.dep, hi.acc, hi.fn, hi.fb, hi.sh⟩, ⟨List.suffix_rfl, id, ShLe.refl _⟩, rfl⟩

/-- Running under another `accepts_partial`. -/
theorem withAccepts_spec {a : Accepts} {m : M α} {Q R : α → St → Prop} (hi : Inv c s)
    (h : Inv { c with accepts := a } { s with p := { s.p with accepts := a } } →
      Tri { c with accepts := a } { s with p := { s.p with accepts := a } } m Q)
    (hqr : ∀ r s', Q r s' → Le s s' → R r { s' with p := { s'.p with accepts := s.p.accepts } }) :
    Tri c s (withAccepts a m) R := by
  have hi' : Inv { c with accepts := a } { s with p := { s.p with accepts := a } } :=
    ⟨hi.wf, hi.sfx, hi.dep, rfl, hi.fn, hi.fb, hi.sh⟩
  have h := h hi'
  unfold Tri at *
  simp only [withAccepts, Bind.bind, M.bind, getP, setAccepts, modP, attempt]
  split at h <;> rename_i e
  · rename_i r s'
    simp only at e
    rw [e]
    have hl : Le s s' := ⟨h.2.1.sfx, h.2.1.fb, h.2.1.sh⟩
    exact ⟨⟨hi.wf, h.1.sfx, h.1.dep, hi.acc, h.1.fn, h.1.fb, h.1.sh⟩, ⟨hl.sfx, hl.fb, hl.sh⟩, hqr _ _ h.2.2 hl⟩
  · rename_i x s'
    simp only at e
    rw [e]
    exact ⟨⟨hi.wf, h.1.sfx, h.1.dep, hi.acc, h.1.fn, h.1.fb, h.1.sh⟩, ⟨h.2.1.sfx, h.2.1.fb, h.2.1.sh⟩, h.2.2⟩
  · simp only at e; rw [e]; exact h
  · exact h.elim

/-- Running inside a footnote. -/
theorem withFootnote_spec {m : M α} {Q R : α → St → Prop} (hi : Inv c s) (hfn : c.fn = false)
    (h : Inv { c with fn := true } { s with p := { s.p with inFootnote := true } } →
      Tri { c with fn := true } { s with p := { s.p with inFootnote := true } } m Q)
    (hqr : ∀ r s', Q r s' → Le s s' → R r { s' with p := { s'.p with inFootnote := false } }) :
    Tri c s (withFootnote m) R := by
  have hi' : Inv { c with fn := true } { s with p := { s.p with inFootnote := true } } :=
    ⟨hi.wf, hi.sfx, hi.dep, hi.acc, rfl, hi.fb, hi.sh⟩
  have h := h hi'
  unfold Tri at *
  simp only [withFootnote, Bind.bind, M.bind, setInFootnote, modP, attempt]
  split at h <;> rename_i e
  · rename_i r s'
    simp only at e
    rw [e]
    have hl : Le s s' := ⟨h.2.1.sfx, h.2.1.fb, h.2.1.sh⟩
    exact ⟨⟨hi.wf, h.1.sfx, h.1.dep, h.1.acc, hfn.symm, h.1.fb, h.1.sh⟩, ⟨hl.sfx, hl.fb, hl.sh⟩, hqr _ _ h.2.2 hl⟩
  · rename_i x s'
    simp only at e
    rw [e]
    exact ⟨⟨hi.wf, h.1.sfx, h.1.dep, h.1.acc, hfn.symm, h.1.fb, h.1.sh⟩, ⟨h.2.1.sfx, h.2.1.fb, h.2.1.sh⟩, h.2.2⟩
  · simp only at e; rw [e]; exact h
  · exact h.elim

/-- Loops: every further turn consumes a token. -/
theorem loop_spec {σ : Type} {body : σ → M (Turn σ β)} {a : σ} {I : σ → St → Prop} {Q : β → St → Prop}
    (hi : Inv c s) (h0 : I a s)
    (hb : ∀ a s', Inv c s' → Le s s' → I a s' → Tri c s' (body a) fun t s'' =>
      match t with
      | .more a' => s''.p.rem.length < s'.p.rem.length ∧ I a' s''
      | .done b => Q b s'') :
    Tri c s (loop body a) Q := by
  have key : ∀ n a s', Inv c s' → Le s s' → I a s' → s'.p.rem.length < n → Tri c s' (loopN body n a) Q := by
    intro n
    induction n with
    | zero => intro a s' _ _ _ h; omega
    | succ n ih =>
      intro a s' hi' hl hI hn
      unfold loopN
      refine (hb a s' hi' hl hI).bind ?_
      intro t s'' hi'' hl' ht
      cases t with
      | more a' => exact ih a' s'' hi'' (hl.trans hl') ht.2 (by omega)
      | done b => exact Tri.pure hi'' ht
  have := key (s.p.rem.length + 1) a s hi (Le.refl s) h0 (by omega)
  exact this

/-! ### Basic functions -/

theorem step_spec (hi : Inv c s) : Tri c s step fun a s' => s'.p.cur = a ∧ s.p.rem = a :: s'.p.rem ∧
    s'.sh = s.sh ∧ s'.p.hasFootnoteBlock = s.p.hasFootnoteBlock := by
  unfold step Tri
  simp only [Bind.bind, M.bind, modP, getP]
  cases hr : s.p.rem with
  | nil => exact ⟨⟨hi.wf, by simpa [hr] using hi.sfx, hi.dep, hi.acc, hi.fn, hi.fb, hi.sh⟩,
      ⟨by simp [hr], id, ShLe.refl _⟩, ⟨s.p.cur, hi.cur_mem, rfl, rfl, rfl⟩⟩
  | cons x r =>
    refine ⟨⟨hi.wf, ?_, hi.dep, hi.acc, hi.fn, hi.fb, hi.sh⟩, ⟨?_, id, ShLe.refl _⟩, rfl, rfl, rfl, rfl⟩
    · have := hi.sfx; rw [hr] at this; exact (List.suffix_cons ..).trans this
    · simp only [hr]; exact List.suffix_cons ..

theorem step_spec' (hi : Inv c s) : Tri c s step fun a s' => s'.p.cur = a ∧ s.p.rem = a :: s'.p.rem ∧
    s'.p.rem.length < s.p.rem.length ∧ s'.sh = s.sh := by
  refine (step_spec hi).mono ?_
  intro a s' _ _ h
  refine ⟨h.1, h.2.1, ?_, h.2.2.1⟩
  rw [h.2.1]; simp

theorem stepN_spec (n : Nat) (hi : Inv c s) : Tri c s (stepN n) fun _ s' =>
    s'.p.rem.length + n = s.p.rem.length ∧ s'.sh = s.sh := by
  induction n generalizing s with
  | zero => exact Tri.pure hi ⟨by simp, rfl⟩
  | succ n ih =>
    unfold stepN
    refine (step_spec hi).bind ?_
    intro a s' hi' _ h
    refine (ih hi').mono ?_
    intro _ s'' _ _ h'
    refine ⟨?_, h'.2.trans h.2.2.1⟩
    rw [h.2.1]; simp; omega

theorem getOptionalToken_spec {t : Token} (hi : Inv c s) : Tri c s (getOptionalToken t) fun _ s' =>
    s'.sh = s.sh ∧ ((s.p.cur.token = t ∧ s.p.rem = s'.p.cur :: s'.p.rem) ∨
      (s.p.cur.token ≠ t ∧ s' = s)) := by
  unfold getOptionalToken
  rw [tri_curTok]
  split
  · rename_i ht
    refine (step_spec hi).bind ?_
    intro a s' hi' _ h
    refine Tri.pure hi' ⟨h.2.2.1, .inl ⟨ht, ?_⟩⟩
    rw [h.2.1, h.1]
  · rename_i ht
    exact Tri.pure hi ⟨rfl, .inr ⟨ht, rfl⟩⟩

theorem getOptionalSpace_spec (hi : Inv c s) : Tri c s getOptionalSpace fun _ s' => s'.sh = s.sh :=
  (getOptionalToken_spec hi).mono fun _ _ _ _ h => h.1
theorem getOptionalLineBreak_spec (hi : Inv c s) : Tri c s getOptionalLineBreak fun _ s' => s'.sh = s.sh :=
  (getOptionalToken_spec hi).mono fun _ _ _ _ h => h.1

theorem getToken_spec {t : Token} {k : EKind} (hi : Inv c s) : Tri c s (getToken t k) fun a s' =>
    s'.sh = s.sh ∧ s.p.cur.token = t ∧ a = s.p.cur.slice ∧ s'.p.rem.length < s.p.rem.length := by
  unfold getToken
  rw [tri_current]
  split
  · rename_i ht
    refine (step_spec hi).bind ?_
    intro a s' hi' _ h
    refine Tri.pure hi' ⟨h.2.2.1, ht, rfl, by rw [h.2.1]; simp⟩
  · exact fail_spec hi

theorem getOptionalSpacesAny_spec (hi : Inv c s) : Tri c s getOptionalSpacesAny fun _ s' => s'.sh = s.sh := by
  unfold getOptionalSpacesAny
  refine loop_spec (I := fun _ s' => s'.sh = s.sh) hi rfl ?_
  intro _ s' hi' _ hI
  rw [tri_curTok]
  split
  · refine (step_spec hi').bind ?_
    intro _ s'' hi'' _ h
    exact Tri.pure hi'' ⟨by rw [h.2.1]; simp, h.2.2.1.trans hI⟩
  · exact Tri.pure hi' hI

theorem checkStep_spec {t : Token} (hi : Inv c s) (h : s.p.cur.token = t) :
    Tri c s (checkStep t) fun a s' => a = s.p.cur ∧ s.p.rem = s'.p.cur :: s'.p.rem ∧ s'.sh = s.sh := by
  unfold checkStep
  rw [tri_current]
  rw [if_pos h]
  refine (step_spec hi).bind ?_
  intro _ s'' hi'' _ h
  exact Tri.pure hi'' ⟨rfl, by rw [h.2.1, h.1], h.2.2.1⟩

theorem require_spec {b : Bool} (hi : Inv c s) : Tri c s (require b) fun _ s' => s' = s ∧ b = true := by
  unfold require
  split
  · rename_i h; exact Tri.pure hi ⟨rfl, h⟩
  · exact fail_spec hi

theorem orFail_spec {k : EKind} {o : Option α} (hi : Inv c s) :
    Tri c s (orFail k o) fun a s' => s' = s ∧ o = some a := by
  unfold orFail
  split
  · exact Tri.pure hi ⟨rfl, rfl⟩
  · exact fail_spec hi

theorem assertM_spec {b : Bool} {f : Str} {n : Nat} (hi : Inv c s) (h : b = true) :
    Tri c s (assertM b f n) fun _ s' => s' = s := by
  unfold assertM
  rw [if_pos h]
  exact Tri.pure hi rfl

theorem checkPageSyntax_spec (hi : Inv c s) :
    Tri c s checkPageSyntax fun _ s' => s' = s ∧ c.env.settings.enablePageSyntax = true := by
  unfold checkPageSyntax
  rw [tri_env]
  split
  · rename_i h; exact Tri.pure hi ⟨rfl, h⟩
  · exact fail_spec hi

theorem unwrap_spec {p : Panic} {o : Option α} {Q : α → St → Prop} (hi : Inv c s) (h : o ≠ none)
    (hq : ∀ a, o = some a → Q a s) : Tri c s (unwrap p o) Q := by
  unfold unwrap
  split
  · exact Tri.pure hi (hq _ rfl)
  · exact (h rfl).elim

/-- `slice_partial` from an earlier state's token to the current one. -/
theorem slicePartialText_spec {s0 : St} (hi : Inv c s) (h0 : Inv c s0) (hl : Le s0 s) :
    Tri c s (slicePartialText s0.p.cur s.p.cur) fun a s' => s' = s ∧
      ∃ m, s0.p.cur :: s0.p.rem = m ++ s.p.cur :: s.p.rem ∧ a = slicesOf m := by
  unfold slicePartialText
  rw [tri_env]
  obtain ⟨m, hm⟩ := hl.sfx
  have h1 := h0.sfx
  rw [hi.wf] at h1
  have := slicePartial_ok h1 hm.symm
  rw [this]
  exact Tri.pure hi ⟨rfl, m, hm.symm, rfl⟩

end

/-- The read-only primitives. -/
macro "tri" : tactic => `(tactic| simp only [tri_getP, tri_getSh, tri_env, tri_current, tri_curTok,
  tri_remLen, tri_pure, tri_mpure, tri_nextTwo, tri_nextThree, tri_lookAhead])

end Ftml
