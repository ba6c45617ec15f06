import Verif.Props.Data
import Verif.Spec.Doc
/- How the text renderer treats a node. -/
namespace Ftml

section
variable {w : World} {site : Str}

/-- A context that went through an element. -/
structure TLe (c c' : TCtx) : Prop where
  out : c.out <+: c'.out
  scopes : c'.scopes = c.scopes
  inv : c'.invisible = c.invisible

theorem TLe.refl (c : TCtx) : TLe c c := ⟨List.prefix_rfl, rfl, rfl⟩
theorem TLe.trans {a b c : TCtx} (h : TLe a b) (h' : TLe b c) : TLe a c :=
  ⟨h.out.trans h'.out, h'.scopes.trans h.scopes, h'.inv.trans h.inv⟩

theorem TLe.pushStr (c : TCtx) (s : Str) : TLe c (c.pushStr s) := ⟨List.prefix_append .., rfl, rfl⟩
theorem TLe.write (c : TCtx) (s : Str) : TLe c (c.write s) := ⟨List.prefix_append .., rfl, rfl⟩
theorem TLe.addNewline (c : TCtx) : TLe c c.addNewline := ⟨List.prefix_append .., rfl, rfl⟩
theorem TLe.freshLine (c : TCtx) : TLe c c.freshLine := by
  unfold TCtx.freshLine
  split
  · exact .refl c
  · exact .addNewline c
theorem TLe.addNewlines (n : Nat) (c : TCtx) : TLe c (addNewlines n c) := by
  induction n generalizing c with
  | zero => exact .refl c
  | succ n ih => exact (TLe.addNewline c).trans (ih _)

/-- What was written, if it is invisible, are spaces and newlines. -/
def TQ (c c' : TCtx) : Prop :=
  ∃ x, c'.out = c.out ++ x ∧ (0 < c.invisible → ∀ ch ∈ x, ch = ' ' ∨ ch = '\n')

theorem TQ.refl (c : TCtx) : TQ c c := ⟨[], by simp, by simp⟩
theorem TQ.pre {c c' : TCtx} (h : TQ c c') : c.out <+: c'.out := by
  obtain ⟨x, e, _⟩ := h; exact ⟨x, e.symm⟩
theorem TQ.trans {a b c : TCtx} (h : TQ a b) (hi : 0 < a.invisible → 0 < b.invisible) (h' : TQ b c) : TQ a c := by
  obtain ⟨x, e, h1⟩ := h
  obtain ⟨y, e', h2⟩ := h'
  refine ⟨x ++ y, by rw [e', e]; simp, fun h ch hc => ?_⟩
  rcases List.mem_append.1 hc with hc | hc
  · exact h1 h ch hc
  · exact h2 (hi h) ch hc
theorem TQ.pushStr (c : TCtx) (s : Str) : TQ c (c.pushStr s) :=
  ⟨_, rfl, fun h ch hc => by rw [if_pos h] at hc; simp at hc; exact .inl hc.2.symm⟩
theorem TQ.addNewline (c : TCtx) : TQ c c.addNewline := ⟨_, rfl, fun _ ch hc => by simp at hc; exact .inr hc⟩
theorem TQ.freshLine (c : TCtx) : TQ c c.freshLine := by
  unfold TCtx.freshLine
  split
  · exact .refl c
  · exact .addNewline c
theorem TQ.addNewlines (n : Nat) (c : TCtx) : TQ c (addNewlines n c) := by
  induction n generalizing c with
  | zero => exact .refl c
  | succ n ih => exact (TQ.addNewline c).trans id (ih _)

/-- A node the text renderer panics on. -/
def Kind.textBad : Kind → Bool
  | .part _ => true
  | .link _ (.url _) _ .page _ => true
  | _ => false

theorem textBad_none {k : Kind} {ks : List Elem} {c : TCtx} (h : k.textBad = true) :
    textElem w site (.mk k ks) c = none := by
  unfold Kind.textBad at h
  split at h
  · rfl
  · simp [textElem, getLinkLabel]
  · cases h

/-- Nodes whose text is written even where everything is invisible. -/
def Kind.loud : Kind → Bool
  | .date .. | .equationRef _ => true
  | _ => false

/-- Nodes without contents. -/
theorem textLeaf {k : Kind} {ks : List Elem} {c : TCtx} (h : k.isLeaf = true) (hb : k.textBad = false) :
    ∃ c', textElem w site (.mk k ks) c = some c' ∧ TLe c c' ∧ (k.loud = false → TQ c c') := by
  cases k <;> simp only [Kind.isLeaf, Bool.false_eq_true] at h
  case link lt loc ex label t =>
    have : getLinkLabel site loc label ≠ none := by
      intro hn
      unfold getLinkLabel at hn
      split at hn
      · cases hn
      · cases hn
      · split at hn <;> cases hn
      · split at hn
        · simp [Kind.textBad] at hb
        · cases hn
    cases hl : getLinkLabel site loc label with
    | none => exact (this hl).elim
    | some t => exact ⟨c.pushStr t, by simp [textElem, hl], .pushStr .., fun _ => .pushStr ..⟩
  case «variable» name =>
    unfold textElem
    dsimp only
    split <;> exact ⟨_, rfl, .pushStr .., fun _ => .pushStr ..⟩
  case code s l =>
    exact ⟨_, rfl, ((TLe.addNewline c).trans (.pushStr ..)).trans (.addNewline _),
      fun _ => ((TQ.addNewline c).trans id (.pushStr ..)).trans id (.addNewline _)⟩
  case lineBreaks n => exact ⟨_, rfl, .addNewlines .., fun _ => .addNewlines ..⟩
  case lineBreak => exact ⟨_, rfl, .addNewline c, fun _ => .addNewline c⟩
  case date => exact ⟨_, rfl, .write .., fun h => Bool.noConfusion h⟩
  case equationRef => exact ⟨_, rfl, .write .., fun h => Bool.noConfusion h⟩
  all_goals first
    | exact ⟨_, rfl, .refl c, fun _ => .refl c⟩
    | exact ⟨_, rfl, .pushStr .., fun _ => .pushStr ..⟩

/-- Whether a node is a container of the kind. -/
def Kind.isCont (ct : CType) : Kind → Bool
  | .container c _ => c = ct
  | _ => false

/-- Nodes with contents. -/
theorem textInner {k : Kind} {ks : List Elem} {c : TCtx} (h : k.isLeaf = false) (hb : k.textBad = false)
    (hh : k.isCont .hidden = false) : ∃ (c1 : TCtx) (fin : TCtx → TCtx),
    (∀ c2, textElem.go w site ks c1 = some c2 → c2.scopes = c1.scopes →
      textElem w site (.mk k ks) c = some (fin c2)) ∧
    (textElem.go w site ks c1 = none → textElem w site (.mk k ks) c = none) ∧
    TQ c c1 ∧ c1.invisible = c.invisible + (if k.isCont .invisible then 1 else 0) ∧
    ∀ c2, TLe c1 c2 → TQ c2 (fin c2) ∧ (fin c2).invisible = c.invisible ∧
      (fin c2).scopes = c.scopes := by
  cases k <;> simp only [Kind.isLeaf, Bool.true_eq_false] at h
  case part p => simp [Kind.textBad] at hb
  case container ct a =>
    simp only [Kind.isCont, decide_eq_false_iff_not] at hh
    let c0 : TCtx := if ct = .invisible then { c with invisible := c.invisible + 1 } else c
    let ca := if ct = .rubyText then c0.pushStr ['('] else c0
    let cb := if ct.textNewlines then ca.addNewline else ca
    refine ⟨cb, fun c2 =>
      let c2 := if ct = .rubyText then c2.pushStr [')'] else c2
      let c2 := if ct.textNewlines then c2.addNewline else c2
      if ct = .invisible then { c2 with invisible := c2.invisible - 1 } else c2, ?_, ?_, ?_, ?_, ?_⟩
    · intro c2 e _
      unfold textElem
      dsimp only
      rw [if_neg hh]
      show Option.map _ (textElem.go w site ks cb) = _
      rw [e]
      rfl
    · intro e
      unfold textElem
      dsimp only
      rw [if_neg hh]
      show Option.map _ (textElem.go w site ks cb) = _
      rw [e]
      rfl
    · have h0 : TQ c c0 := by
        simp only [c0]; split
        · exact ⟨[], by simp, by simp⟩
        · exact TQ.refl _
      have h1 : TQ c0 ca ∧ ca.invisible = c0.invisible := by
        simp only [ca]; split
        · exact ⟨TQ.pushStr .., rfl⟩
        · exact ⟨TQ.refl _, rfl⟩
      have h2 : TQ ca cb := by
        simp only [cb]; split
        · exact TQ.addNewline _
        · exact TQ.refl _
      have h3 : c.invisible ≤ c0.invisible := by simp only [c0]; split <;> simp
      exact (h0.trans (by omega) h1.1).trans (by rw [h1.2]; omega) h2
    · simp only [Kind.isCont, decide_eq_true_eq]
      simp only [cb, ca, c0]
      split <;> split <;> split <;> rfl
    · intro c2 hc
      have hcb : cb.scopes = c.scopes ∧ cb.invisible = c.invisible + (if ct = .invisible then 1 else 0) := by
        simp only [cb, ca, c0]
        split <;> split <;> split <;> exact ⟨rfl, rfl⟩
      refine ⟨?_, ?_, ?_⟩
      · have h1 : TQ c2 (if ct = .rubyText then c2.pushStr [')'] else c2) ∧
            (if ct = .rubyText then c2.pushStr [')'] else c2).invisible = c2.invisible := by
          split
          · exact ⟨TQ.pushStr .., rfl⟩
          · exact ⟨TQ.refl _, rfl⟩
        dsimp only
        generalize (if ct = .rubyText then c2.pushStr [')'] else c2) = c3 at h1 ⊢
        have h2 : TQ c3 (if ct.textNewlines then c3.addNewline else c3) := by
          split
          · exact TQ.addNewline _
          · exact TQ.refl _
        generalize (if ct.textNewlines then c3.addNewline else c3) = c4 at h2 ⊢
        have h3 := h1.1.trans (by rw [h1.2]; exact id) h2
        split
        · obtain ⟨x, e, h⟩ := h3
          exact ⟨x, e, h⟩
        · exact h3
      · have := hc.inv
        rw [hcb.2] at this
        dsimp only
        split <;> split <;> split <;> simp_all [TCtx.pushStr, TCtx.addNewline]
      · have := hc.scopes
        rw [hcb.1] at this
        dsimp only
        split <;> split <;> split <;> simp_all [TCtx.pushStr, TCtx.addNewline]
  case «include» ps vars loc =>
    refine ⟨{ c with scopes := c.scopes.push vars }, fun c2 => { c2 with scopes := c.scopes }, ?_, ?_,
      TQ.refl _, rfl, fun c2 hc => ⟨TQ.refl _, hc.inv, rfl⟩⟩
    · intro c2 e hs
      simp only [textElem, e, Option.bind_some, hs, (C19_push_pop c.scopes vars).1, Option.map_some]
    · intro e
      simp only [textElem, e, Option.bind_none]
  case item a =>
    refine ⟨c, fun c2 => if ks.isEmpty then c2 else c2.addNewline, ?_, ?_, TQ.refl _, rfl, ?_⟩
    · intro c2 e _
      unfold textElem
      dsimp only
      cases ks with
      | nil => simp [textElem.go] at e; simp [e]
      | cons x xs => rw [e]; rfl
    · intro e
      unfold textElem
      dsimp only
      cases ks with
      | nil => simp [textElem.go] at e
      | cons x xs => rw [e]; rfl
    · intro c2 hc
      dsimp only
      split
      · exact ⟨TQ.refl _, hc.inv, hc.scopes⟩
      · exact ⟨TQ.addNewline c2, hc.inv, hc.scopes⟩
  case table a =>
    refine ⟨c.freshLine, TCtx.addNewline, fun c2 e _ => by simp [textElem, e], fun e => by simp [textElem, e],
      TQ.freshLine c, (TLe.freshLine c).inv, fun c2 hc => ⟨TQ.addNewline c2, ?_, ?_⟩⟩
    · exact hc.inv.trans (TLe.freshLine c).inv
    · exact hc.scopes.trans (TLe.freshLine c).scopes
  case list a b =>
    refine ⟨c.freshLine, id, fun c2 e _ => by simp [textElem, e], fun e => by simp [textElem, e],
      TQ.freshLine c, (TLe.freshLine c).inv, fun c2 hc => ⟨TQ.refl _, ?_, ?_⟩⟩
    · exact hc.inv.trans (TLe.freshLine c).inv
    · exact hc.scopes.trans (TLe.freshLine c).scopes
  case tab label =>
    refine ⟨(c.pushStr label).addNewline, TCtx.addNewline, fun c2 e _ => by simp [textElem, e],
      fun e => by simp [textElem, e], (TQ.pushStr c label).trans id (.addNewline _), rfl,
      fun c2 hc => ⟨TQ.addNewline c2, hc.inv, hc.scopes⟩⟩
  case defKey =>
    exact ⟨c, fun c2 => c2.pushStr [' '], fun c2 e _ => by simp [textElem, e],
      fun e => by simp [textElem, e], TQ.refl _, rfl,
      fun c2 hc => ⟨TQ.pushStr .., hc.inv, hc.scopes⟩⟩
  case definitionList | row | defItem =>
    exact ⟨c, TCtx.addNewline, fun c2 e _ => by simp [textElem, e], fun e => by simp [textElem, e],
      TQ.refl _, rfl, fun c2 hc => ⟨TQ.addNewline c2, hc.inv, hc.scopes⟩⟩
  all_goals exact ⟨c, id, fun c2 e _ => by simp [textElem, e], fun e => by simp [textElem, e],
    TQ.refl _, rfl, fun c2 hc => ⟨TQ.refl _, hc.inv, hc.scopes⟩⟩

theorem textHidden {k : Kind} {ks : List Elem} {c : TCtx} (h : k.isCont .hidden = true) :
    textElem w site (.mk k ks) c = some c := by
  unfold Kind.isCont at h
  split at h
  · simp only [decide_eq_true_eq] at h
    subst h
    rfl
  · cases h

mutual
theorem textElem_le (e : Elem) (c c' : TCtx) (h : textElem w site e c = some c') : TLe c c' := by
  cases e with
  | mk k ks =>
    have ih := fun c c' => textGo_le ks c c'
    by_cases hb : k.textBad = true
    · rw [textBad_none hb] at h; cases h
    · simp only [Bool.not_eq_true] at hb
      by_cases hl : k.isLeaf = true
      · obtain ⟨c1, e1, h1⟩ := textLeaf (w := w) (site := site) (ks := ks) (c := c) hl hb
        rw [e1] at h
        simp only [Option.some.injEq] at h
        exact h ▸ h1.1
      · by_cases hh : k.isCont .hidden = true
        · rw [textHidden hh] at h
          simp only [Option.some.injEq] at h
          exact h ▸ .refl c
        · simp only [Bool.not_eq_true] at hl hh
          obtain ⟨c1, fin, h1, h2, h3, h4, h5⟩ := textInner (w := w) (site := site) (ks := ks) (c := c) hl hb hh
          cases hg : textElem.go w site ks c1 with
          | none => rw [h2 hg] at h; cases h
          | some c2 =>
            have hle := ih c1 c2 hg
            rw [h1 c2 hg hle.scopes] at h
            simp only [Option.some.injEq] at h
            obtain ⟨h6, h7, h8⟩ := h5 c2 hle
            exact h ▸ ⟨(h3.pre.trans hle.out).trans h6.pre, h8, h7⟩
theorem textGo_le (es : List Elem) (c c' : TCtx) (h : textElem.go w site es c = some c') : TLe c c' := by
  cases es with
  | nil =>
    simp only [textElem.go, Option.some.injEq] at h
    exact h ▸ .refl c
  | cons e es =>
    simp only [textElem.go] at h
    cases he : textElem w site e c with
    | none => rw [he] at h; cases h
    | some c1 =>
      rw [he] at h
      exact (textElem_le e c c1 he).trans (textGo_le es c1 c' h)
end

end
end Ftml
