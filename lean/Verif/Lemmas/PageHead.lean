import Verif.Lemmas.PageRun
/-
Pages: headings and their names.
-/
namespace Ftml
open M Markup Lexer
variable {env : Env}

/-! ### Names -/

theorem style_text (s : Style) : s.container ≠ .hidden ∧ s.container ≠ .invisible ∧ s.container ≠ .rubyText ∧
    s.container.textNewlines = false := by
  cases s <;> exact ⟨by decide, by decide, by decide, rfl⟩

theorem textGo_append (w : World) (site : Str) (a b : List Elem) (c : TCtx) :
    textElem.go w site (a ++ b) c = (textElem.go w site a c).bind (textElem.go w site b) := by
  induction a generalizing c with
  | nil => rfl
  | cons e a ih =>
    simp only [List.cons_append, textElem.go]
    cases textElem w site e c with
    | none => rfl
    | some c => exact ih c

theorem unseen_append (a b : Str) : unseen (a ++ b) = unseen a ++ unseen b := by simp [unseen]
theorem unseen_idem (s : Str) : unseen (unseen s) = unseen s := by
  simp only [unseen, List.map_map]
  refine List.map_congr_left fun c _ => ?_
  by_cases h : c = '\n' <;> simp [h]
theorem unseen_plain {s : Str} (h : '\n' ∉ s) : unseen s = List.replicate s.length ' ' := by
  induction s with
  | nil => rfl
  | cons c s ih =>
    simp only [List.mem_cons, not_or] at h
    have := ih h.2
    simp only [unseen] at this
    simp [unseen, this, Ne.symm h.1, List.replicate_succ]

/-- What text becomes, perhaps inside something invisible. -/
def seenText (c : TCtx) (s : Str) : Str := if c.invisible = 0 then s else unseen s

theorem seenText_append (c : TCtx) (a b : Str) : seenText c (a ++ b) = seenText c a ++ seenText c b := by
  unfold seenText; split
  · rfl
  · exact unseen_append a b

theorem pushStr_seen {s : Str} (h : '\n' ∉ s) (c : TCtx) : c.pushStr s = { c with out := c.out ++ seenText c s } := by
  unfold TCtx.pushStr seenText
  rw [unseen_plain h]
  have : s.map (fun _ => ' ') = List.replicate s.length ' ' := List.map_const' ..
  by_cases hi : c.invisible = 0
  · simp [hi]
  · rw [if_pos (by omega), if_neg hi, this]

theorem plain_noNewline {p : Plain} (h : p.ok = true) : '\n' ∉ p.str := by
  cases p with
  | word s =>
    simp only [Plain.ok, Bool.and_eq_true, List.all_eq_true] at h
    intro hm
    exact absurd (h.2 _ hm) (by decide)
  | char c =>
    simp [Plain.ok] at h
    simp [Plain.str, Ne.symm h.2.2.2.1]
  | blanks n => simp [Plain.str]

theorem plains_noNewline {ps : List Plain} (h : ps.all Plain.ok = true) : '\n' ∉ plainText ps := by
  unfold plainText
  intro hm
  obtain ⟨s, hs, hc⟩ := List.mem_flatten.1 hm
  obtain ⟨p, hp, rfl⟩ := List.mem_map.1 hs
  exact plain_noNewline (List.all_eq_true.1 h p hp) hc

theorem containers_text : ∀ q ∈ containerNames, q.2 ≠ .rubyText ∧ q.2.textNewlines = false := by decide +kernel

theorem url_noNewline {u : Str} (h : urlOk u = true) : '\n' ∉ u := by
  simp only [urlOk, List.any_eq_true, Bool.and_eq_true, List.all_eq_true] at h
  obtain ⟨q, _, _, h⟩ := h
  intro hm
  have := h _ hm
  simp at this

theorem quote_noNewline {v : Str} (h : '\n' ∉ v) : '\n' ∉ quote v := by
  have key : ∀ v : Str, '\n' ∉ v → '\n' ∉ quoteBody v := by
    intro v
    induction v with
    | nil => simp [quoteBody]
    | cons c v ih =>
      intro hn
      simp only [List.mem_cons, not_or] at hn
      simp only [quoteBody]
      split
      · simp [ih hn.2]
      · split
        · simp [ih hn.2]
        · simp [ih hn.2, hn.1]
  simp [quote, key v h]

theorem signs_noNewline {ss : List Sign} (h : ss.all Sign.ok = true) : '\n' ∉ signText ss := by
  unfold signText
  intro hm
  obtain ⟨s, hs, hc⟩ := List.mem_flatten.1 hm
  obtain ⟨p, hp, rfl⟩ := List.mem_map.1 hs
  have h := List.all_eq_true.1 h p hp
  cases p with
  | plain p => exact plain_noNewline h hc
  | url u => exact url_noNewline h hc
  | var name =>
    have := plain_noNewline (p := .word name) h
    simp [Sign.str, Plain.str] at hc this
    exact this hc
  | quoted v =>
    simp only [Sign.ok, Bool.and_eq_true, Bool.not_eq_true'] at h
    exact quote_noNewline (by simpa using h.1) hc
  | mark s =>
    have all : ∀ m ∈ idleMarks, '\n' ∉ m := by decide
    exact all s (by simpa [Sign.ok] using h) hc

theorem address_noNewline {a : Address} (h : a.ok = true) : '\n' ∉ a.str := by
  cases a with
  | web url =>
    have e : (Address.web url).str = url := by simp [Address.str, Address.pieces]
    rw [e]; exact url_noNewline h
  | path more =>
    have e : (Address.path more).str = '/' :: plainText more := rfl
    rw [e]
    have := plains_noNewline (solid_ok h)
    simp [this]

theorem trim_noNewline {s : Str} (h : '\n' ∉ s) : '\n' ∉ trim s := fun hm => h (trim_sub s _ hm)

theorem dest_noNewline {d : Dest} (h : d.ok = true) :
    (∀ s, d.shown = some s → '\n' ∉ s) ∧ (d.shown = none → ∀ site, ∀ s, getLinkLabel site d.loc (.url none) = some s → '\n' ∉ s) := by
  cases d with
  | address a =>
    simp only [Dest.ok, Bool.and_eq_true] at h
    have ha := address_noNewline h.1
    refine ⟨?_, ?_⟩
    · intro s hs
      simp only [Dest.shown] at hs
      split at hs
      · cases hs
        intro hm
        have h1 := (List.dropWhile_sublist _).subset hm
        have h2 := (List.drop_sublist _ _).subset h1
        exact ha ((List.dropWhile_sublist _).subset h2)
      · cases hs
    · intro _ site s hs
      simp only [getLinkLabel, Dest.loc, Option.some.injEq] at hs
      rw [← hs]; exact ha
  | page site category name more =>
    simp only [Dest.ok, Bool.and_eq_true] at h
    obtain ⟨⟨⟨⟨⟨⟨⟨h1, h2⟩, h3⟩, h4⟩, _⟩, _⟩, _⟩, _⟩ := h
    have n3 := plains_noNewline (part_ok h3)
    have n4 := plains_noNewline (without_ok h4)
    have h5 : '\n' ∉ plainText name ++ plainText more := by simp [n3, n4]
    refine ⟨?_, ?_⟩
    · intro s hs
      cases site with
      | some q => simp only [Dest.shown, Option.some.injEq] at hs; rw [← hs]; exact h5
      | none =>
        cases category with
        | some q => simp only [Dest.shown, Option.some.injEq] at hs; rw [← hs]; exact h5
        | none => cases hs
    · intro hn st s hs
      cases site with
      | some q => cases hn
      | none =>
        cases category with
        | some q => cases hn
        | none =>
          simp only [getLinkLabel, Dest.loc, pageName, Option.some.injEq] at hs
          rw [← hs]; exact n3

theorem leaf_noNewline {l : Leaf} (h : l.ok = true) : '\n' ∉ l.text := by
  cases l with
  | user avatar block name =>
    simp only [Leaf.ok, Bool.and_eq_true] at h
    exact trim_noNewline (plains_noNewline (value_ok h.2))
  | link newTab dest label =>
    simp only [Leaf.ok, Bool.and_eq_true] at h
    cases label with
    | some lab =>
      have := h.2
      simp only [Option.all_some, Bool.and_eq_true] at this
      exact trim_noNewline (plains_noNewline this.1)
    | none =>
      obtain ⟨h1, h2⟩ := dest_noNewline h.1
      simp only [Leaf.text]
      cases hs : dest.shown with
      | some s => exact h1 s hs
      | none =>
        have := h2 hs []
        cases hl : dest.loc with
        | page r => exact this _ (by rw [hl]; rfl)
        | url u => exact this _ (by rw [hl]; rfl)
  | address newTab a gap label =>
    simp only [Leaf.ok, Bool.and_eq_true] at h
    exact trim_noNewline (plains_noNewline (without_ok h.1.2))
  | jump name gap label =>
    simp only [Leaf.ok, Bool.and_eq_true] at h
    exact trim_noNewline (plains_noNewline (without_ok h.1.2))
  | url u => exact url_noNewline h
  | var name =>
    have := plain_noNewline (p := .word name) h
    have h' : '\n' ∉ name := this
    simp [Leaf.text, h']
  | _ => simp [Leaf.text]

theorem leaf_text {cx : Ctx} {l : Leaf} (w : World) (site : Str) (c : TCtx) (h : l.ok = true) (hc : c.scopes = ⟨[]⟩) :
    textElem w site (.mk (l.kind cx) []) c = some { c with out := c.out ++ seenText c l.text } := by
  have hn := leaf_noNewline h
  rw [← pushStr_seen hn]
  have hnil : c.pushStr [] = c := by simp [TCtx.pushStr]
  cases l with
  | link newTab dest label =>
    cases label with
    | some lab => rfl
    | none =>
      simp only [Leaf.kind, textElem, Leaf.text]
      cases hs : dest.shown with
      | some s => rfl
      | none =>
        cases hl : dest.loc with
        | page r => rfl
        | url u => rfl
  | var name =>
    have : c.scopes.get name = none := by rw [hc]; rfl
    simp only [Leaf.kind, textElem, Leaf.text, this]
  | user avatar block name => rfl
  | address newTab a gap label => rfl
  | jump name gap label => rfl
  | url u => rfl
  | _ => simp only [Leaf.kind, textElem, Leaf.text, hnil]

mutual
/-- Inline markup renders to its text. -/
theorem inline_text {cx : Ctx} (w : World) (site : Str) : ∀ (i : Inline) (c : TCtx), i.ok = true → c.scopes = ⟨[]⟩ →
    textElem.go w site (i.elems cx) c = some { c with out := c.out ++ seenText c i.text }
  | .plain p, c, h, hc => by
    simp only [Inline.elems, Inline.text, textElem.go, textElem, Option.bind_some, pushStr_seen (plain_noNewline h)]
  | .newline, c, h, hc => by
    simp [Inline.elems, Inline.text, textElem.go, textElem, TCtx.addNewline, seenText, unseen]
  | .styled s body, c, h, hc => by
    simp only [Inline.ok, Bool.and_eq_true] at h
    obtain ⟨h1, h2, h3, h4⟩ := style_text s
    simp [Inline.elems, Inline.text, textElem.go, textElem, h1, h2, h3, h4, inlines_text w site body c h.1 hc]
  | .color n body, c, h, hc => by
    simp only [Inline.ok, Bool.and_eq_true] at h
    simp [Inline.elems, Inline.text, textElem.go, textElem, inlines_text w site body c h.1.2 hc]
  | .raw body, c, h, hc => by
    simp only [Inline.ok, Bool.and_eq_true] at h
    simp only [Inline.elems, Inline.text, textElem.go, textElem, Option.bind_some, pushStr_seen (signs_noNewline h.1)]
  | .comment body, c, h, hc => by
    simp [Inline.elems, Inline.text, textElem.go, seenText, unseen]
  | .wrap wr body, c, h, hc => by
    simp only [Inline.ok, Bool.and_eq_true] at h
    have ih := fun (c : TCtx) (hc : c.scopes = ⟨[]⟩) => inlines_text (cx := cx) w site body c h.1.1.2 hc
    cases wr with
    | anchor t name args close => simp [Inline.elems, Inline.text, Wrap.text, Wrap.kind, textElem.go, textElem, ih c hc]
    | size name value close => simp [Inline.elems, Inline.text, Wrap.text, Wrap.kind, textElem.go, textElem, ih c hc, CType.textNewlines]
    | box name args close =>
      have hs : (containerOf name).isSome = true := by
        simp only [Wrap.ok, Bool.and_eq_true] at h; exact h.1.1.1.1.2
      obtain ⟨ct, hct⟩ := Option.isSome_iff_exists.1 hs
      obtain ⟨h1, h2⟩ := containers_text _ (lookup_mem (l := containerNames) (k := lowerA name) hct)
      simp only at h1 h2
      simp only [Inline.elems, Inline.text, Wrap.text, Wrap.kind, textElem.go, textElem, hct, Option.getD_some, h1, h2,
        if_false, Bool.false_eq_true]
      by_cases hh : ct = .hidden
      · subst hh
        simp [seenText, unseen]
      · by_cases hi : ct = .invisible
        · subst hi
          simp only [hh, if_false, if_true, ih { c with invisible := c.invisible + 1 } hc, Option.map_some, Option.bind_some]
          simp only [seenText, Nat.add_one_sub_one, Nat.add_eq_zero_iff, Nat.succ_ne_self, and_false, if_false]
          split
          · rfl
          · rw [unseen_idem]
        · simp only [hh, hi, if_false, ih c hc, Option.map_some, Option.bind_some]
          cases ct <;> first | rfl | exact (hh rfl).elim | exact (hi rfl).elim
  | .leaf l, c, h, hc => by
    simp only [Inline.elems, Inline.text, textElem.go, leaf_text w site c h hc, Option.bind_some]
  | .note name body close, c, h, hc => by
    simp [Inline.elems, Inline.text, textElem.go, textElem, seenText, unseen]
theorem inlines_text {cx : Ctx} (w : World) (site : Str) : ∀ (is : List Inline) (c : TCtx), Inline.ok.go is = true → c.scopes = ⟨[]⟩ →
    textElem.go w site (Inline.elems.go cx is) c = some { c with out := c.out ++ seenText c (Inline.text.go is) }
  | [], c, h, hc => by simp [Inline.elems.go, Inline.text.go, textElem.go, seenText, unseen]
  | i :: is, c, h, hc => by
    simp only [Inline.ok.go, Bool.and_eq_true] at h
    rw [Inline.elems.go, textGo_append, inline_text w site i c h.1 hc]
    simp only [Option.bind_some]
    rw [inlines_text w site is _ h.2 (by exact hc)]
    simp only [Inline.text.go, seenText_append, List.append_assoc]
    rfl
end

mutual
theorem inline_noNewline : ∀ (i : Inline), i.ok = true → c!"\n" ∉ i.pieces → '\n' ∉ i.text
  | .plain p, h, _ => plain_noNewline h
  | .newline, _, hp => by simp [Inline.pieces] at hp
  | .styled s body, h, hp => by
    simp only [Inline.ok, Bool.and_eq_true] at h
    simp only [Inline.pieces, List.mem_cons, List.mem_append, not_or] at hp
    exact inlines_noNewline body h.1 hp.2.1
  | .color n body, h, hp => by
    simp only [Inline.ok, Bool.and_eq_true] at h
    simp only [Inline.pieces, List.mem_cons, List.mem_append, not_or] at hp
    exact inlines_noNewline body h.1.2 hp.2.2.2.1
  | .raw body, h, hp => by
    simp only [Inline.ok, Bool.and_eq_true] at h
    exact signs_noNewline h.1
  | .comment body, h, hp => by simp [Inline.text]
  | .wrap w body, h, hp => by
    simp only [Inline.ok, Bool.and_eq_true] at h
    simp only [Inline.pieces, List.mem_append, not_or] at hp
    have ih := inlines_noNewline body h.1.1.2 hp.2.1
    simp only [Inline.text, Wrap.text]
    split
    · split
      · simp
      · rw [unseen_plain ih]; simp
      · exact ih
    · exact ih
  | .leaf l, h, hp => leaf_noNewline h
  | .note name body close, h, hp => by simp [Inline.text]
theorem inlines_noNewline : ∀ (is : List Inline), Inline.ok.go is = true → c!"\n" ∉ Inline.pieces.go is → '\n' ∉ Inline.text.go is
  | [], _, _ => by simp [Inline.text.go]
  | i :: is, h, hp => by
    simp only [Inline.ok.go, Bool.and_eq_true] at h
    simp only [Inline.pieces.go, List.mem_append, not_or] at hp
    simp only [Inline.text.go, List.mem_append, not_or]
    exact ⟨inline_noNewline i h.1 hp.1, inlines_noNewline is h.2 hp.2⟩
end

theorem dropNl_none {s : Str} (h : '\n' ∉ s) : s.dropWhile (· == '\n') = s := by
  cases s with
  | nil => rfl
  | cons c s =>
    simp at h
    rw [List.dropWhile_cons_of_neg (by simp; exact fun e => h.1 e.symm)]

/-- The name of a heading is its text. -/
theorem heading_name (w : World) (info : PageInfo) {body : List Inline} (hok : Inline.ok.go body = true)
    (hline : (Inline.pieces.go body).all (· != c!"\n") = true) :
    textRenderPartial w info (Inline.elems.go env.cx body) = some (Inline.text.go body) := by
  have hn := inlines_noNewline body hok (by
    intro hm
    have := List.all_eq_true.1 hline _ hm
    simp at this)
  unfold textRenderPartial
  rw [inlines_text w info.site body _ hok rfl]
  simp only [seenText, if_true, List.nil_append, Option.map_some]
  rw [dropNl_none hn, dropNl_none (by simpa using hn), List.reverse_reverse]

/-! ### Headings -/

theorem heading_ofStr {level : Nat} {toc : Bool} (h1 : 1 ≤ level) (h6 : level ≤ 6) :
    Heading.ofStr (List.replicate level '+' ++ if toc then [] else ['*']) = some ⟨level, toc⟩ := by
  have hc : level = 1 ∨ level = 2 ∨ level = 3 ∨ level = 4 ∨ level = 5 ∨ level = 6 := by omega
  rcases hc with rfl | rfl | rfl | rfl | rfl | rfl <;> cases toc <;> rfl

/-- The shared lists with further entries in the table of contents. -/
def addToc (sh : Shared) (ts : List (Nat × Str)) : Shared := { sh with toc := sh.toc ++ ts }

theorem addToc_nil (sh : Shared) : addToc sh [] = sh := by simp [addToc]
theorem addToc_append (sh : Shared) (a b : List (Nat × Str)) : addToc (addToc sh a) b = addToc sh (a ++ b) := by simp [addToc]

theorem heading_step {level : Nat} {toc : Bool} {gap : Nat} {body : List Inline} {xs tail : List ETok} {fuel n : Nat}
    {p : PState} {sh : Shared} {sol : Bool}
    (hok : (Block.heading level toc gap body).ok = true) (hxs : xs.map ETok.pair = (Block.heading level toc gap body).lex)
    (ht : EndsLine tail) (hs : (xs ++ tail) <:+ (tokenize env.text).tokens) (hf : Inline.height.go body ≤ fuel)
    (hd : p.depth + Inline.height.go body ≤ 100) (hnf : p.inFootnote = false) :
    ∃ sol', headerFn (consume fuel) (n + 1) env ⟨p.at (xs ++ tail) sol, sh⟩ =
      (do match ← attempt (headerFn (consume fuel) n) with
          | .ok s => okP false ((Block.heading level toc gap body).elems env.cx ++ s.item) ([] ++ s.errors)
          | .error _ => okP false ((Block.heading level toc gap body).elems env.cx) [] : M (PS Elements)) env
        ⟨p.at (afterClose tail sol').1 (afterClose tail sol').2, addToc (putNotes sh (notesOf env.cx body)) (Block.heading level toc gap body).toc⟩ := by
  simp only [Block.ok, Bool.and_eq_true, decide_eq_true_eq] at hok
  simp only [Block.lex] at hxs
  obtain ⟨x, xs, rfl, hx0, hxs⟩ := List.map_eq_cons_iff.1 hxs
  obtain ⟨w, ys, rfl, hw, hys⟩ := List.map_eq_cons_iff.1 hxs
  have hx : x.token = .heading := congrArg (·.1) hx0
  have hxs : x.slice = List.replicate level '+' ++ if toc then [] else ['*'] := congrArg (·.2) hx0
  have hw : w.token = .whitespace := congrArg (·.1) hw
  have hs' : (ys ++ tail) <:+ (tokenize env.text).tokens :=
    List.IsSuffix.trans (List.suffix_cons w _) (List.IsSuffix.trans (List.suffix_cons x _) hs)
  have hmeets : ∀ x ys, x.token ≠ .lineBreak → x.token ≠ .paragraphBreak → x.token ≠ .inputEnd →
      Meets [.cur .inputEnd, .cur .lineBreak, .cur .paragraphBreak] (x :: ys) = false := by
    intro x ys h1 h2 h3; simp [Meets, h1, h2, h3]
  obtain ⟨sol', hch⟩ := line_chain (fuel := fuel) (p := p) (sh := sh) hok.1.2 hok.2 hys ht hs' hf hd hnf hmeets
  let shn := putNotes sh (notesOf env.cx body)
  obtain ⟨t, ts, rfl⟩ : ∃ t ts, tail = t :: ts := by cases tail with | nil => exact ht.elim | cons t ts => exact ⟨t, ts, rfl⟩
  refine ⟨sol', ?_⟩
  rw [headerFn]
  obtain ⟨z, zs, hz⟩ : ∃ z zs, ys ++ t :: ts = z :: zs := by cases ys <;> simp
  show (_ : M _) env ⟨p.at (x :: w :: (ys ++ t :: ts)) sol, sh⟩ = _
  rw [hz]
  rw [bind_ok (s' := ⟨p.at (x :: w :: z :: zs) sol, sh⟩) (a := x) rfl]
  rw [bind_ok (s' := ⟨p.at (x :: w :: z :: zs) sol, sh⟩) (a := ()) (by rw [hx]; rfl)]
  rw [bind_ok (step_at ..)]
  rw [hxs, heading_ofStr hok.1.1.1 hok.1.1.2]
  rw [bind_ok (s' := ⟨p.at (w :: z :: zs) (isLineStartTok x.token), sh⟩) (a := (⟨level, toc⟩ : Heading))
    (m := unwrap (.expect c!"header.rs" 51) (some (⟨level, toc⟩ : Heading))) rfl]
  rw [bind_ok (s' := ⟨p.at (w :: z :: zs) (isLineStartTok x.token), sh⟩) (a := w.token) rfl]
  rw [bind_ok (s' := ⟨p.at (w :: z :: zs) (isLineStartTok x.token), sh⟩) (a := ()) (by rw [hw]; rfl)]
  rw [bind_ok (step_at ..), hw, ← hz]
  have hcc := collectContainer_chain (ct := .header ⟨level, toc⟩) (ek := none) hch (by
      rcases ht with ⟨h, _⟩ | ⟨h, _⟩ | h <;> simp [Meets, h]) (by
    intro hn
    rcases ht with ⟨_, h⟩ | ⟨_, h⟩ | h
    · exact h
    · exact h
    · exact (hn h).elim)
  rw [outElems_inline] at hcc
  have hws : isLineStartTok .whitespace = false := rfl
  rw [hws, bind_ok hcc]
  dsimp only
  cases toc with
  | false =>
    simp only [Bool.false_eq_true, if_false]
    simp only [Block.toc, addToc_nil]
    rfl
  | true =>
    simp only [if_true]
    have hp : pushToc level (Inline.elems.go env.cx body) env ⟨p.at (afterClose (t :: ts) sol').1 (afterClose (t :: ts) sol').2, shn⟩ =
        .ok () ⟨p.at (afterClose (t :: ts) sol').1 (afterClose (t :: ts) sol').2, addToc shn (Block.heading level true gap body).toc⟩ := by
      unfold pushToc
      rw [bind_ok (m := M.env) (a := env) (s' := ⟨p.at (afterClose (t :: ts) sol').1 (afterClose (t :: ts) sol').2, shn⟩) rfl]
      rw [heading_name _ _ hok.1.2 hok.2]
      rfl
    simp only [eContainer]
    rw [bind_ok hp]
    rfl

end Ftml
