import Verif.Lemmas.Lexing
/-
Line ends part texts: how the text before a line end is cut into tokens does not depend on what follows the
line end.
-/
namespace Ftml
open Lexer Markup

/-- The text ends here, or a line does. -/
def Ends (w : Str) : Prop := w = [] ∨ ∃ v, w = '\n' :: v

/-- On texts `u` of `G`, the outcome in front of a line end does not depend on what follows it, and it stops
before the line end. -/
def LocalOn (G : Str → Prop) (f : Str → Option (Str × Str)) : Prop := ∀ u, G u →
  (∀ w, Ends w → f (u ++ w) = none) ∨ ∃ m r, u = m ++ r ∧ G r ∧ ∀ w, Ends w → f (u ++ w) = some (m, r ++ w)

/-- Whether there is a match does not depend on what follows the line end. -/
def Decides (p : Peg) : Prop := ∀ u, u ≠ [] →
  (∀ w, Ends w → (p.run (u ++ w)).isSome = true) ∨ (∀ w, Ends w → (p.run (u ++ w)).isSome = false)

/-- All texts. -/
abbrev Anything : Str → Prop := fun _ => True

theorem LocalOn.decides {p : Peg} (h : LocalOn Anything p.run) : Decides p := by
  intro u _
  rcases h u trivial with h | ⟨m, r, _, _, h⟩
  · exact .inr (fun w hw => by rw [h w hw]; rfl)
  · exact .inl (fun w hw => by rw [h w hw]; rfl)

theorem local_lit {q : Str} (hq : '\n' ∉ q) : LocalOn Anything (Peg.lit q).run := by
  intro u _
  have key : ∀ (q : Str), '\n' ∉ q → ∀ u : Str, (∀ w, Ends w → stripPfx q (u ++ w) = none) ∨
      ∃ r, u = q ++ r ∧ ∀ w, Ends w → stripPfx q (u ++ w) = some (r ++ w) := by
    intro q
    induction q with
    | nil => intro _ u; exact .inr ⟨u, rfl, fun w hw => stripPfx_nil _⟩
    | cons c q ih =>
      intro hq u
      simp only [List.mem_cons, not_or] at hq
      cases u with
      | nil =>
        refine .inl (fun w hw => ?_)
        rcases hw with rfl | ⟨v, rfl⟩
        · rfl
        · rw [List.nil_append, stripPfx_cons, if_neg hq.1]
      | cons d u =>
        by_cases hd : d = c
        · subst hd
          rcases ih hq.2 u with h | ⟨r, rfl, h⟩
          · exact .inl (fun w hw => by rw [List.cons_append, stripPfx_cons, if_pos rfl, h w hw])
          · exact .inr ⟨r, rfl, fun w hw => by rw [List.cons_append, stripPfx_cons, if_pos rfl, h w hw]⟩
        · exact .inl (fun w hw => by rw [List.cons_append, stripPfx_cons, if_neg hd])
  rcases key q hq u with h | ⟨r, h1, h⟩
  · exact .inl (fun w hw => by simp [Peg.run, h w hw])
  · exact .inr ⟨q, r, h1, trivial, fun w hw => by simp [Peg.run, h w hw]⟩

theorem local_cls {f : Char → Bool} (hf : f '\n' = false) : LocalOn Anything (Peg.cls f).run := by
  intro u _
  cases u with
  | nil =>
    refine .inl (fun w hw => ?_)
    rcases hw with rfl | ⟨v, rfl⟩
    · rfl
    · simp [Peg.run, hf]
  | cons c u =>
    cases h : f c with
    | false => exact .inl (fun w hw => by simp [Peg.run, h])
    | true => exact .inr ⟨[c], u, rfl, trivial, fun w hw => by simp [Peg.run, h]⟩

theorem local_seq {G : Str → Prop} {a b : Peg} (ha : LocalOn G a.run) (hb : LocalOn G b.run) : LocalOn G (Peg.seq a b).run := by
  intro u hu
  rcases ha u hu with h | ⟨m, r, rfl, hr, h⟩
  · exact .inl (fun w hw => by simp only [Peg.run, h w hw])
  · rcases hb r hr with h' | ⟨m', r', rfl, hr', h'⟩
    · exact .inl (fun w hw => by simp only [Peg.run, h w hw, h' w hw])
    · exact .inr ⟨m ++ m', r', by simp, hr', fun w hw => by simp only [Peg.run, h w hw, h' w hw]⟩

theorem local_alt {G : Str → Prop} {a b : Peg} (ha : LocalOn G a.run) (hb : LocalOn G b.run) : LocalOn G (Peg.alt a b).run := by
  intro u hu
  rcases ha u hu with h | ⟨m, r, e, hr, h⟩
  · rcases hb u hu with h' | ⟨m', r', e, hr', h'⟩
    · exact .inl (fun w hw => by simp only [Peg.run, h w hw, h' w hw])
    · exact .inr ⟨m', r', e, hr', fun w hw => by simp only [Peg.run, h w hw, h' w hw]⟩
  · exact .inr ⟨m, r, e, hr, fun w hw => by simp only [Peg.run, h w hw]⟩

theorem local_opt {G : Str → Prop} {a : Peg} (ha : LocalOn G a.run) : LocalOn G (Peg.opt a).run := by
  intro u hu
  rcases ha u hu with h | ⟨m, r, e, hr, h⟩
  · exact .inr ⟨[], u, rfl, hu, fun w hw => by simp only [Peg.run, h w hw]⟩
  · exact .inr ⟨m, r, e, hr, fun w hw => by simp only [Peg.run, h w hw]⟩

theorem local_upTo {G : Str → Prop} {a : Peg} (ha : LocalOn G a.run) (n : Nat) : LocalOn G (Peg.upTo n a).run := by
  have key : ∀ n u, G u → ∃ m r, u = m ++ r ∧ G r ∧ ∀ w, Ends w → repeatUpTo a.run n (u ++ w) = (m, r ++ w) := by
    intro n
    induction n with
    | zero => intro u hu; exact ⟨[], u, rfl, hu, fun w hw => rfl⟩
    | succ n ih =>
      intro u hu
      rcases ha u hu with h | ⟨m, r, rfl, hr, h⟩
      · exact ⟨[], u, rfl, hu, fun w hw => by simp only [repeatUpTo, h w hw]⟩
      · obtain ⟨m', r', rfl, hr', h'⟩ := ih r hr
        exact ⟨m ++ m', r', by simp, hr', fun w hw => by simp only [repeatUpTo, h w hw, h' w hw]⟩
  intro u hu
  obtain ⟨m, r, e, hr, h⟩ := key n u hu
  exact .inr ⟨m, r, e, hr, fun w hw => by simp only [Peg.run, h w hw]⟩

theorem local_star {G : Str → Prop} {a : Peg} (ha : LocalOn G a.run) (hc : a.consumes = true) : LocalOn G (Peg.star a).run := by
  have key : ∀ k u, u.length ≤ k → G u → ∃ m r, u = m ++ r ∧ G r ∧
      ∀ w n, Ends w → u.length ≤ n → repeatUpTo a.run n (u ++ w) = (m, r ++ w) := by
    intro k
    induction k with
    | zero =>
      intro u hk hu
      obtain rfl : u = [] := by simpa using hk
      rcases ha [] hu with h | ⟨m, r, e, hr, h⟩
      · refine ⟨[], [], rfl, hu, fun w n hw hn => ?_⟩
        cases n with
        | zero => rfl
        | succ n => simp only [repeatUpTo, h w hw]
      · have := Peg.consumes_sound hc (h [] (.inl rfl))
        simp only [List.nil_eq, List.append_eq_nil_iff] at e
        exact (this e.1).elim
    | succ k ih =>
      intro u hk hu
      rcases ha u hu with h | ⟨m, r, rfl, hr, h⟩
      · refine ⟨[], u, rfl, hu, fun w n hw hn => ?_⟩
        cases n with
        | zero => rfl
        | succ n => simp only [repeatUpTo, h w hw]
      · have hm := List.length_pos_iff.2 (Peg.consumes_sound hc (h [] (.inl rfl)))
        rw [List.length_append] at hk
        obtain ⟨m', r', rfl, hr', h'⟩ := ih r (by omega) hr
        refine ⟨m ++ m', r', by simp, hr', fun w n hw hn => ?_⟩
        rw [List.length_append] at hn
        obtain ⟨n, rfl⟩ : ∃ j, n = j + 1 := ⟨n - 1, by omega⟩
        simp only [repeatUpTo, h w hw, h' w n hw (by omega)]
  intro u hu
  obtain ⟨m, r, e, hr, h⟩ := key _ u (Nat.le_refl _) hu
  exact .inr ⟨m, r, e, hr, fun w hw => by simp only [Peg.run]; rw [h w _ hw (by simp)]⟩

theorem local_plus {G : Str → Prop} {a : Peg} (ha : LocalOn G a.run) (hc : a.consumes = true) : LocalOn G (Peg.plus a).run :=
  local_seq ha (local_star ha hc)

theorem local_notp {a : Peg} (ha : LocalOn Anything a.run) : LocalOn Anything (Peg.notp a).run := by
  intro u _
  rcases ha u trivial with h | ⟨m, r, _, _, h⟩
  · exact .inr ⟨[], u, rfl, trivial, fun w hw => by simp only [Peg.run, h w hw, Option.isSome_none, Bool.false_eq_true, if_false]⟩
  · exact .inl (fun w hw => by simp only [Peg.run, h w hw, Option.isSome_some, if_true])

/-- Any character but those that start something, if a line end does. -/
theorem local_guard {a : Peg} (ha : Decides a) (hn : ∀ v, (a.run ('\n' :: v)).isSome = true) :
    LocalOn Anything (Peg.seq (.notp a) Peg.any).run := by
  intro u _
  cases u with
  | nil =>
    refine .inl (fun w hw => ?_)
    rcases hw with rfl | ⟨v, rfl⟩
    · simp only [Peg.run, Peg.any, List.append_nil]
      cases (a.run []).isSome <;> rfl
    · rw [List.nil_append]
      simp only [Peg.run, hn, if_true]
  | cons c u =>
    rcases ha (c :: u) (by simp) with h | h
    · exact .inl (fun w hw => by simp only [Peg.run, h w hw, if_true])
    · refine .inr ⟨[c], u, rfl, trivial, fun w hw => ?_⟩
      have := h w hw
      rw [List.cons_append] at this ⊢
      simp only [Peg.run, this, Bool.false_eq_true, if_false, Peg.any, if_true, List.nil_append]

theorem newline_start (c : Char) (s : Str) : (Peg.newline.run (c :: s)).isSome = (c == '\n' || c == '\r') := by
  simp only [Peg.newline, Peg.run, stripPfx_cons, stripPfx_nil]
  by_cases h1 : c = '\n'
  · simp [h1]
  · by_cases h2 : c = '\r'
    · subst h2
      simp only [show ('\r' : Char) ≠ '\n' by decide, if_false, Option.map_none, if_true]
      cases stripPfx ['\n'] s <;> simp
    · simp [h1, h2]

theorem decides_newline : Decides Peg.newline := by
  intro u hu
  cases u with
  | nil => exact (hu rfl).elim
  | cons c u =>
    cases h : (c == '\n' || c == '\r') with
    | true => exact .inl (fun w hw => by rw [List.cons_append, newline_start, h])
    | false => exact .inr (fun w hw => by rw [List.cons_append, newline_start, h])

theorem decides_alt {a b : Peg} (ha : Decides a) (hb : Decides b) : Decides (.alt a b) := by
  have e : ∀ s, ((Peg.alt a b).run s).isSome = ((a.run s).isSome || (b.run s).isSome) := by
    intro s
    simp only [Peg.run]
    cases a.run s <;> simp
  intro u hu
  rcases ha u hu with h | h
  · exact .inl (fun w hw => by rw [e, h w hw, Bool.true_or])
  · rcases hb u hu with h' | h'
    · exact .inl (fun w hw => by rw [e, h' w hw, Bool.or_true])
    · exact .inr (fun w hw => by rw [e, h w hw, h' w hw, Bool.or_false])

theorem newline_first {b : Peg} (v : Str) : ((Peg.alt Peg.newline b).run ('\n' :: v)).isSome = true := by
  have h := newline_start '\n' v
  simp only [Peg.run] at h ⊢
  cases hr : Peg.newline.run ('\n' :: v) with
  | none => rw [hr] at h; cases h
  | some x => rfl

theorem local_url : LocalOn Anything gUrl.run := by
  refine local_seq (local_alt (local_seq (local_lit (by decide)) (local_opt (local_lit (by decide)))) (local_lit (by decide)))
    (local_seq (local_lit (by decide)) (local_plus (local_guard ?_ newline_first) rfl))
  refine decides_alt decides_newline ?_
  exact (local_alt (local_lit (by decide)) (local_alt (local_lit (by decide)) (local_alt (local_lit (by decide)) (local_lit (by decide))))).decides

theorem local_identifier : LocalOn Anything gIdentifier.run :=
  local_plus (local_alt (local_cls (by decide)) (local_cls (by decide))) rfl

theorem local_variable : LocalOn Anything gVariable.run :=
  local_seq (local_lit (by decide)) (local_seq local_identifier (local_lit (by decide)))

theorem local_string : LocalOn Anything gString.run := by
  refine local_seq (local_lit (by decide)) (local_seq (local_star ?_ rfl) (local_lit (by decide)))
  refine local_alt (local_guard (decides_alt decides_newline ?_) newline_first) (local_seq (local_lit (by decide)) (local_guard decides_newline ?_))
  · exact (local_alt (local_lit (by decide)) (local_lit (by decide))).decides
  · intro v; rw [newline_start]; rfl

theorem local_three {x : Str} (h : '\n' ∉ x) (hx : (Peg.lit x).consumes = true) : LocalOn Anything (gThreePlus x).run :=
  local_seq (local_lit h) (local_seq (local_lit h) (local_plus (local_lit h) hx))

theorem local_heading : LocalOn Anything gHeading.run :=
  local_seq (local_seq (local_lit (by decide)) (local_upTo (local_lit (by decide)) 5))
    (local_opt (local_seq (local_lit (by decide)) (local_notp (local_lit (by decide)))))

/-- All tokens of an alternative are local. -/
def LocalAlt (a : List (Token × Peg)) : Prop := ∀ x ∈ a, LocalOn Anything x.2.run

theorem alt_local {a : List (Token × Peg)} (h : LocalAlt a) : ∀ u, (∀ w, Ends w → runAlt a (u ++ w) = none) ∨
    ∃ ts r, u = slices ts ++ r ∧ ∀ w, Ends w → runAlt a (u ++ w) = some (ts, r ++ w) := by
  induction a with
  | nil => intro u; exact .inr ⟨[], u, rfl, fun w hw => rfl⟩
  | cons x a ih =>
    intro u
    obtain ⟨t, p⟩ := x
    have hp : LocalOn Anything p.run := h (t, p) (by simp)
    rcases hp u trivial with h1 | ⟨m, r, rfl, _, h1⟩
    · exact .inl (fun w hw => by simp only [runAlt, h1 w hw])
    · rcases ih (fun x hx => h x (by simp [hx])) r with h2 | ⟨ts, r', rfl, h2⟩
      · exact .inl (fun w hw => by simp only [runAlt, h1 w hw, h2 w hw])
      · exact .inr ⟨(t, m) :: ts, r', by simp [slices], fun w hw => by simp only [runAlt, h1 w hw, h2 w hw]⟩

theorem lone {t : Token} {p : Peg} (h : LocalOn Anything p.run) (u : Str) : (∀ w, Ends w → runAlt [(t, p)] (u ++ w) = none) ∨
    ∃ ts r, u = slices ts ++ r ∧ ∀ w, Ends w → runAlt [(t, p)] (u ++ w) = some (ts, r ++ w) :=
  alt_local (by intro x hx; simp only [List.mem_cons, List.not_mem_nil, or_false] at hx; subst hx; exact h) u

macro "lit0" : tactic => `(tactic| (refine local_lit ?_; decide))

/-- The last character is not a line end. -/
def Whole (u : Str) : Prop := ∃ x y, u = x ++ [y] ∧ y ≠ '\n' ∧ y ≠ '\r'

theorem Whole.tail {m r : Str} (h : Whole (m ++ r)) (hr : r ≠ []) : Whole r := by
  obtain ⟨x, y, e, h⟩ := h
  rw [← List.dropLast_concat_getLast hr] at e ⊢
  rw [← List.append_assoc] at e
  have := List.append_inj_right' e rfl
  simp only [List.cons.injEq, and_true] at this
  exact ⟨_, _, rfl, by rw [this]; exact h⟩

theorem local_newline : LocalOn Whole Peg.newline.run := by
  intro u hu
  cases u with
  | nil => obtain ⟨x, y, e, _⟩ := hu; simp at e
  | cons c u =>
    by_cases h1 : c = '\n'
    · subst h1
      cases u with
      | nil =>
        obtain ⟨x, y, e, h, _⟩ := hu
        cases x with
        | nil => simp at e; exact (h e.symm).elim
        | cons z x => simp at e
      | cons d u => exact .inr ⟨['\n'], d :: u, rfl, Whole.tail (m := ['\n']) hu (by simp), fun w hw => by
          simp [Peg.newline, Peg.run, stripPfx_cons, stripPfx_nil]⟩
    · by_cases h2 : c = '\r'
      · subst h2
        cases u with
        | nil =>
          obtain ⟨x, y, e, _, h⟩ := hu
          cases x with
          | nil => simp at e; exact (h e.symm).elim
          | cons z x => simp at e
        | cons d u =>
          by_cases h3 : d = '\n'
          · subst h3
            cases u with
            | nil =>
              obtain ⟨x, y, e, h, _⟩ := hu
              cases x with
              | nil => simp at e
              | cons z x =>
                cases x with
                | nil => simp at e; exact (h e.2.symm).elim
                | cons z x => simp at e
            | cons d u => exact .inr ⟨['\r', '\n'], d :: u, rfl, Whole.tail (m := ['\r', '\n']) hu (by simp), fun w hw => by
                simp [Peg.newline, Peg.run, stripPfx_cons, stripPfx_nil]⟩
          · exact .inr ⟨['\r'], d :: u, rfl, Whole.tail (m := ['\r']) hu (by simp), fun w hw => by
                simp [Peg.newline, Peg.run, stripPfx_cons, stripPfx_nil, h3]⟩
      · exact .inl (fun w hw => by
          have := newline_start c (u ++ w)
          have h3 : (c == '\n' || c == '\r') = false := by simp [h1, h2]
          rw [h3] at this
          rw [List.cons_append]
          cases hr : Peg.newline.run (c :: (u ++ w)) with
          | none => rfl
          | some x => rw [hr] at this; cases this)

/-- The next token of a text in front of a line end. -/
theorem token_local {u : Str} (hu : Whole u) : ∃ ts r, u = slices ts ++ r ∧ r.length < u.length ∧
    ∀ w, Ends w → runToken alternatives (u ++ w) = some (ts, r ++ w) := by
  have main : ∀ alts : List (List (Token × Peg)), (∀ a ∈ alts, (∀ w, Ends w → runAlt a (u ++ w) = none) ∨
      ∃ ts r, u = slices ts ++ r ∧ ∀ w, Ends w → runAlt a (u ++ w) = some (ts, r ++ w)) →
      (∀ w, Ends w → runToken alts (u ++ w) = none) ∨
      ∃ ts r, u = slices ts ++ r ∧ ∀ w, Ends w → runToken alts (u ++ w) = some (ts, r ++ w) := by
    intro alts
    induction alts with
    | nil => intro _; exact .inl (fun w hw => rfl)
    | cons a as ih =>
      intro h
      rcases h a (by simp) with h1 | ⟨ts, r, e, h1⟩
      · rcases ih (fun a ha => h a (by simp [ha])) with h2 | ⟨ts, r, e, h2⟩
        · exact .inl (fun w hw => by simp only [runToken, h1 w hw, h2 w hw])
        · exact .inr ⟨ts, r, e, fun w hw => by simp only [runToken, h1 w hw, h2 w hw]⟩
      · exact .inr ⟨ts, r, e, fun w hw => by simp only [runToken, h1 w hw]⟩
  have one : ∀ {t : Token} {p : Peg}, LocalOn Whole p.run → (∀ w, Ends w → runAlt [(t, p)] (u ++ w) = none) ∨
      ∃ ts r, u = slices ts ++ r ∧ ∀ w, Ends w → runAlt [(t, p)] (u ++ w) = some (ts, r ++ w) := by
    intro t p hp
    rcases hp u hu with h | ⟨m, r, e, _, h⟩
    · exact .inl (fun w hw => by simp only [runAlt, h w hw])
    · exact .inr ⟨[(t, m)], r, by simpa [slices] using e, fun w hw => by simp only [runAlt, h w hw]⟩
  have mail : (∀ w, Ends w → runAlt [(.email, gEmail)] (u ++ w) = none) ∨
      ∃ ts r, u = slices ts ++ r ∧ ∀ w, Ends w → runAlt [(.email, gEmail)] (u ++ w) = some (ts, r ++ w) :=
    .inl (fun w hw => by simp [runAlt, gEmail_fails])
  have anyone : (∀ w, Ends w → runAlt [(.other, Peg.any)] (u ++ w) = none) ∨
      ∃ ts r, u = slices ts ++ r ∧ ∀ w, Ends w → runAlt [(.other, Peg.any)] (u ++ w) = some (ts, r ++ w) := by
    obtain ⟨x, y, rfl, _⟩ := hu
    cases x with
    | nil => exact .inr ⟨[(.other, [y])], [], rfl, fun w hw => rfl⟩
    | cons z x => exact .inr ⟨[(.other, [z])], x ++ [y], rfl, fun w hw => rfl⟩
  have hall : ∀ a ∈ alternatives, (∀ w, Ends w → runAlt a (u ++ w) = none) ∨
      ∃ ts r, u = slices ts ++ r ∧ ∀ w, Ends w → runAlt a (u ++ w) = some (ts, r ++ w) := by
    intro a ha
    simp only [alternatives, List.mem_cons, List.not_mem_nil, or_false] at ha
    repeat' (rcases ha with rfl | ha)
    all_goals first
      | refine lone ?_ u; lit0
      | exact lone local_url u
      | exact lone local_identifier u
      | exact lone local_variable u
      | exact lone local_string u
      | exact lone local_heading u
      | exact lone (local_three (by decide) rfl) u
      | exact lone (local_seq (local_three (by decide) rfl) (local_lit (by decide))) u
      | (refine lone (local_plus ?_ rfl) u; lit0)
      | (refine lone (local_plus (local_alt ?_ ?_) rfl) u <;> lit0)
      | (refine lone (local_seq ?_ (local_notp ?_)) u <;> lit0)
      | (refine alt_local ?_ u; intro x hx; simp only [List.mem_cons, List.not_mem_nil, or_false] at hx; rcases hx with rfl | rfl <;> lit0)
      | exact one (local_seq local_newline (local_plus local_newline rfl))
      | exact one local_newline
      | exact anyone
      | exact mail
  rcases main alternatives hall with h | ⟨ts, r, e, h⟩
  · obtain ⟨c, s, hc⟩ : ∃ c s, u ++ '\n' :: [] = c :: s := by cases u <;> exact ⟨_, _, rfl⟩
    have := h ['\n'] (.inr ⟨[], rfl⟩)
    rw [hc] at this
    exact (fallback c s this).elim
  · refine ⟨ts, r, e, ?_, h⟩
    have := (runToken_progress alternatives_ok (h [] (.inl rfl))).2.1
    simp at this
    omega

/-! ### The tokens of a text in front of a line end -/

theorem text_lexed : ∀ (n : Nat) (u : Str), u.length ≤ n → Whole u → ∃ ts, slices ts = u ∧ ∀ w, Ends w → LexList ts w := by
  intro n
  induction n with
  | zero =>
    intro u hn hu
    obtain ⟨x, y, rfl, _⟩ := hu
    simp at hn
  | succ n ih =>
    intro u hn hu
    obtain ⟨ts, r, rfl, hlt, h⟩ := token_local hu
    have hts : slices ts ≠ [] := by
      intro e
      rw [e] at hlt
      simp at hlt
    by_cases hr : r = []
    · subst hr
      refine ⟨ts, by simp, fun w hw => ?_⟩
      have h1 := LexList.step (g := ts) (xs := []) (rest := w) (by simpa [slices] using h w hw) hts .nil
      simpa using h1
    · obtain ⟨ts', e, h'⟩ := ih r (by omega) (hu.tail hr)
      refine ⟨ts ++ ts', by rw [slices_append, e], fun w hw => ?_⟩
      exact .step (by rw [slices_append, e]; exact h w hw) hts (h' w hw)

open Classical in
/-- The tokens of a text in front of a line end. -/
noncomputable def textLex (u : Str) : List (Token × Str) :=
  if h : ∃ ts, slices ts = u ∧ ∀ w, Ends w → LexList ts w then choose h else []

theorem textLex_spec {u : Str} (h : Whole u) : slices (textLex u) = u ∧ ∀ w, Ends w → LexList (textLex u) w := by
  have := text_lexed _ u (Nat.le_refl _) h
  unfold textLex
  rw [dif_pos this]
  exact Classical.choose_spec this

end Ftml
