import Verif.Model.Wasm
import Verif.Props.Serde
import Verif.Props.Owned
import Verif.Props.Lexer
import Verif.Props.Markup
/-!
C92: the interface for JavaScript.
-/
namespace Ftml
namespace Wasm

/-! ### JavaScript strings -/

/-- A text as a JavaScript string: its UTF-16 code units (Unicode, D91). -/
def units : Str → List Nat
  | [] => []
  | c :: s =>
    if c.toNat < 0x10000 then c.toNat :: units s
    else (0xD800 + (c.toNat - 0x10000) / 0x400) :: (0xDC00 + (c.toNat - 0x10000) % 0x400) :: units s

/-- `s.slice(a, b)` in JavaScript, for positions in the string. -/
def slice (s : List Nat) (a b : Nat) : List Nat := (s.take b).drop a

example : units c!"a💣" = [97, 0xD83D, 0xDCA3] := by decide

theorem units_length (s : Str) : (units s).length = utf16Len s := by
  induction s with
  | nil => rfl
  | cons c s ih => simp only [units, utf16Len, utf16Size]; split <;> simp [ih] <;> omega

theorem units_append (a b : Str) : units (a ++ b) = units a ++ units b := by
  induction a with
  | nil => rfl
  | cons c s ih => simp only [List.cons_append, units, ih]; split <;> simp

theorem slice_units (a b c : Str) : slice (units (a ++ b ++ c)) (utf16Len a) (utf16Len (a ++ b)) = units b := by
  rw [slice, units_append, ← units_length (a ++ b), List.take_left, units_append, ← units_length a, List.drop_left]

theorem mapM_some {α β : Type} {f : α → Option β} : ∀ {l : List α}, (∀ x ∈ l, (f x).isSome = true) → ∃ r, l.mapM f = some r
  | [], _ => ⟨[], rfl⟩
  | x :: l, h => by
    obtain ⟨y, hy⟩ := Option.isSome_iff_exists.1 (h x (by simp))
    obtain ⟨r, hr⟩ := mapM_some (l := l) fun z hz => h z (by simp [hz])
    exact ⟨y :: r, by simp [List.mapM_cons, hy, hr]⟩

/-- What `mapM` yields comes from the elements, one by one. -/
theorem mapM_rel {α β : Type} {f : α → Option β} : ∀ {l : List α} {r : List β}, l.mapM f = some r →
    r.length = l.length ∧ ∀ (i : Nat) (x : α) (y : β), l[i]? = some x → r[i]? = some y → f x = some y
  | [], r, h => by
    cases (Option.some.inj h : [] = r)
    exact ⟨rfl, by simp⟩
  | x :: l, r, h => by
    rw [List.mapM_cons] at h
    cases hx : f x with
    | none => simp [hx] at h
    | some y =>
      cases hl : l.mapM f with
      | none => simp [hx, hl] at h
      | some r' =>
        simp [hx, hl] at h
        subst h
        obtain ⟨h1, h2⟩ := mapM_rel hl
        refine ⟨by simp [h1], fun i a b ha hb => ?_⟩
        cases i with
        | zero =>
          simp only [List.getElem?_cons_zero, Option.some.injEq] at ha hb
          rw [← ha, ← hb, hx]
        | succ i => exact h2 i a b (by simpa using ha) (by simpa using hb)

theorem ofName_back {α : Type} {all : List α} {name : α → Str} {v : α} (hv : v ∈ all)
    (hu : ∀ x ∈ all, ∀ y ∈ all, name x = name y → x = y) : Serde.ofName all name (name v) = some v := by
  unfold Serde.ofName
  cases h : all.find? fun x => name x == name v with
  | none => simp only [List.find?_eq_none] at h; exact absurd (by simp) (h v hv)
  | some x =>
    have h1 := List.find?_some h
    have h2 := List.mem_of_find?_eq_some h
    rw [hu x h2 v hv (by simpa using h1)]

/-- Where tokens lie. -/
theorem tokens_at (text : Str) (i : Nat) (t : ETok) (h : (tokenize text).tokens[i]? = some t) :
    t.start = byteLen (((tokenize text).tokens.take i).flatMap ETok.slice) ∧ t.stop = t.start + byteLen t.slice := by
  obtain ⟨mid, h1, h2, h3⟩ := C07_tokens_tile text
  rw [h1] at h ⊢
  cases i with
  | zero => simp at h; subst h; simp
  | succ i =>
    simp only [List.getElem?_cons_succ] at h
    by_cases hi : i < mid.length
    · rw [List.getElem?_append_left hi] at h
      have hs : mid = mid.take i ++ t :: mid.drop (i + 1) := by
        rw [List.getElem?_eq_getElem hi] at h
        cases h
        rw [List.getElem_cons_drop, List.take_append_drop]
      obtain ⟨_, _, _, e1, e2, _⟩ := h3 _ _ _ hs
      refine ⟨?_, e2⟩
      rw [e1, List.take_succ_cons, List.take_append_of_le_length (by omega)]
      simp
    · rw [List.getElem?_append_right (by omega)] at h
      have : i = mid.length := by
        have := (List.getElem?_eq_some_iff.1 h).1
        simp at this
        omega
      subst this
      simp at h
      subst h
      simp [h2]

end Wasm
open Wasm

/-- C92: of every text that is not empty JavaScript gets the tokens; each has the kind and the slice of the token, and its
span cuts this slice out of the JavaScript string. -/
theorem C92_tokens (text : Str) (h : text ≠ []) : ∃ ts, Wasm.tokens text = some ts ∧ ts.length = (tokenize text).tokens.length ∧
    ∀ (i : Nat) (t t' : ETok), (tokenize text).tokens[i]? = some t → ts[i]? = some t' →
      t'.token = t.token ∧ t'.slice = t.slice ∧ t'.start ≤ t'.stop ∧ t'.stop ≤ (units text).length ∧
      Wasm.slice (units text) t'.start t'.stop = units t.slice := by
  have hc := C11_tokens_to_utf16 text h
  obtain ⟨ts, hts⟩ := mapM_some (f := toUtf16 (utf16Map text)) (l := (tokenize text).tokens) fun t ht => by
    obtain ⟨a, b, _, _, _, e⟩ := hc t ht
    rw [e]; rfl
  refine ⟨ts, hts, (mapM_rel hts).1, fun i t t' hi hi' => ?_⟩
  obtain ⟨a, b, e, _, _, e'⟩ := hc t (List.mem_of_getElem? hi)
  have := (mapM_rel hts).2 i t t' hi hi'
  rw [e'] at this
  cases this
  refine ⟨rfl, rfl, ?_, ?_, ?_⟩
  · simp
  · rw [units_length, e]; simp
  · conv => lhs; rw [e]
    exact slice_units a t.slice b

/-- C92: the tokens JavaScript gets lie one after the other, from the start of the string to its end. -/
theorem C92_tokens_tile (text : Str) {ts : List ETok} (h : Wasm.tokens text = some ts) :
    (∃ t, ts.head? = some t ∧ t.start = 0) ∧ (∃ t, ts.getLast? = some t ∧ t.stop = (units text).length) ∧
    ∀ (i : Nat) (a b : ETok), ts[i]? = some a → ts[i + 1]? = some b → a.stop = b.start := by
  have hne : text ≠ [] := by
    rintro rfl
    rw [show Wasm.tokens [] = none by decide +kernel] at h
    cases h
  obtain ⟨hlen, hrel⟩ := mapM_rel (show (tokenize text).tokens.mapM (toUtf16 (utf16Map text)) = some ts from h)
  obtain ⟨mid, h1, h2, h3⟩ := C07_tokens_tile text
  have hpos := tokens_at text
  have conv : ∀ (i : Nat) (t t' : ETok), (tokenize text).tokens[i]? = some t → ts[i]? = some t' →
      getIndex (utf16Map text) t.start = some t'.start ∧ getIndex (utf16Map text) t.stop = some t'.stop := by
    intro i t t' hi hi'
    have := hrel i t t' hi hi'
    unfold toUtf16 at this
    split at this
    · rename_i e1 e2; cases this; exact ⟨e1, e2⟩
    · cases this
  refine ⟨?_, ?_, ?_⟩
  · have h0 : (tokenize text).tokens[0]? = some ⟨.inputStart, [], 0, 0⟩ := by rw [h1]; rfl
    have hl : 0 < ts.length := by rw [hlen, h1]; simp
    refine ⟨ts[0], by rw [List.head?_eq_getElem?]; exact List.getElem?_eq_getElem hl, ?_⟩
    have := (conv 0 _ _ h0 (List.getElem?_eq_getElem hl)).1
    have g := C10_utf16_exact [] text (by simpa using hne)
    simp only [List.nil_append, byteLen_nil, utf16Len_nil] at g
    exact Option.some.inj (this.symm.trans g)
  · have hl : ts.length - 1 < ts.length := by rw [hlen, h1]; simp
    have h0 : (tokenize text).tokens[ts.length - 1]? = some ⟨.inputEnd, [], byteLen text, byteLen text⟩ := by
      rw [hlen, ← List.getLast?_eq_getElem?, h1, ← List.cons_append, List.getLast?_concat]
    refine ⟨ts[ts.length - 1], by rw [List.getLast?_eq_getElem?]; exact List.getElem?_eq_getElem hl, ?_⟩
    have := (conv _ _ _ h0 (List.getElem?_eq_getElem hl)).2
    have g := C10_utf16_exact text [] (by simpa using hne)
    simp only [List.append_nil] at g
    rw [units_length]
    exact Option.some.inj (this.symm.trans g)
  · intro i a b ha hb
    have hi : i + 1 < ts.length := (List.getElem?_eq_some_iff.1 hb).1
    have ea := List.getElem?_eq_getElem (l := (tokenize text).tokens) (i := i) (by omega)
    have eb := List.getElem?_eq_getElem (l := (tokenize text).tokens) (i := i + 1) (by omega)
    have pa := hpos i _ ea
    have pb := hpos (i + 1) _ eb
    have : (tokenize text).tokens[i].stop = (tokenize text).tokens[i + 1].start := by
      rw [pa.2, pa.1, pb.1, List.take_succ_eq_append_getElem (by omega), List.flatMap_append, byteLen_append]
      simp only [List.flatMap_cons, List.flatMap_nil, List.append_nil]
    have ca := (conv _ _ _ ea ha).2
    rw [this, (conv _ _ _ eb hb).1] at ca
    exact (Option.some.inj ca).symm

/-- C92: of the empty text JavaScript gets no tokens, but a panic. -/
theorem C92_empty_text : Wasm.tokens [] = none := by decide +kernel

/-- C92: parsing from JavaScript fails only if parsing does, and yields the same tree and the same errors; the span of
each error cuts the text it is about out of the JavaScript string. -/
theorem C92_parse {w : World} {text : Str} {info : PageInfo} {settings : Settings} {o : Outcome}
    (h : parse w (tokenize text) info settings = some (.ok o)) :
    ∃ errs, Wasm.parse w text info settings = some (.ok ⟨o.tree, errs⟩) ∧ errs.length = o.errors.length ∧
      ∀ (i : Nat) (e e' : PErr), o.errors[i]? = some e → errs[i]? = some e' →
        e'.token = e.token ∧ e'.rule = e.rule ∧ e'.kind = e.kind ∧
        ∃ a b c, text = a ++ b ++ c ∧ e.start = byteLen a ∧ e.stop = byteLen (a ++ b) ∧
          e'.stop ≤ (units text).length ∧ Wasm.slice (units text) e'.start e'.stop = units b := by
  have conv : ∀ e ∈ o.errors, text ≠ [] → ∃ a b c, text = a ++ b ++ c ∧ e.start = byteLen a ∧ e.stop = byteLen (a ++ b) ∧
      errUtf16 (utf16Map text) e = some { e with start := utf16Len a, stop := utf16Len (a ++ b) } := by
    intro e he ht
    obtain ⟨_, a, b, c, e1, e2, e3⟩ := C31_error_spans h e he
    refine ⟨a, b, c, e1, e2, e3, ?_⟩
    have g1 := C10_utf16_exact a (b ++ c) (by rw [← List.append_assoc, ← e1]; exact ht)
    have g2 := C10_utf16_exact (a ++ b) c (by rw [← e1]; exact ht)
    rw [← List.append_assoc, ← e1] at g1
    rw [← e1] at g2
    simp only [errUtf16, e2, e3, g1, g2]
  by_cases he : o.errors = []
  · refine ⟨[], ?_, by simp [he], by simp⟩
    simp only [Wasm.parse, h, convertErrors, he, List.isEmpty_nil, if_true, C85_parsed_copy h]
  · have ht : text ≠ [] := by
      rintro rfl
      obtain ⟨o', h', e', _⟩ := C71_pages (d := []) (by decide +kernel) w info settings (by simp [Markup.Page.fits, Markup.Page.codes, Markup.distinct, Markup.Page.bibs])
      rw [show Markup.Page.write [] = [] from rfl, h] at h'
      cases h'
      exact he e'
    obtain ⟨errs, hr⟩ := mapM_some (f := errUtf16 (utf16Map text)) (l := o.errors) fun e he' => by
      obtain ⟨_, _, _, _, _, _, e⟩ := conv e he' ht
      rw [e]; rfl
    refine ⟨errs, ?_, (mapM_rel hr).1, fun i e e' hi hi' => ?_⟩
    · have : (tokenize text).fullText = text := rfl
      simp only [Wasm.parse, h, convertErrors, this, List.isEmpty_iff, he, if_false, hr, C85_parsed_copy h]
    · obtain ⟨a, b, c, e1, e2, e3, e4⟩ := conv e (List.mem_of_getElem? hi) ht
      have := (mapM_rel hr).2 i e e' hi hi'
      rw [e4] at this
      cases this
      refine ⟨rfl, rfl, rfl, a, b, c, e1, e2, e3, ?_, ?_⟩
      · rw [units_length, e1]; simp
      · conv => lhs; rw [e1]
        exact slice_units a b c

/-- A page with an error after a character of two code units: positions in JavaScript are those of the string there. -/
example : (match Wasm.parse plainWorld c!"💣[[x]]" somePage (Settings.fromMode .page .wikidot) with
    | some (.ok o) => o.errors.map fun e => (e.start, e.stop)
    | _ => []) = [(7, 7), (2, 4), (5, 7)] := by decide +kernel

/-- C92: asking for a position in JavaScript: the position of every boundary between characters (and of both ends) is
found; what is behind the end is an error, and what is inside a character a panic. -/
theorem C92_positions (text : Str) (i : Nat) (h : text ≠ []) :
    (∀ a b, text = a ++ b → byteLen a = i → Wasm.getIndex text i = .ok (units a).length) ∧
    (byteLen text < i → Wasm.getIndex text i = .error) ∧
    (i ≤ byteLen text → (∀ a b, text = a ++ b → byteLen a ≠ i) → Wasm.getIndex text i = .panic) := by
  refine ⟨?_, ?_, ?_⟩
  · rintro a b rfl rfl
    have : ¬byteLen (a ++ b) < byteLen a := by simp
    simp only [Wasm.getIndex, if_neg this, C10_utf16_exact a b h, units_length]
  · intro hi; simp only [Wasm.getIndex, if_pos hi]
  · intro hi hn
    simp only [Wasm.getIndex, if_neg (Nat.not_lt.2 hi), C10_utf16_panics text i hn]

/-- C92: settings are made from the names of modes and layouts in JSON, and from no other texts. -/
theorem C92_from_mode (mode layout : Str) :
    (∀ m l, mode = modeName m → layout = layoutName l → Wasm.fromMode mode layout = .ok (Settings.fromMode m l)) ∧
    ((∀ m, mode ≠ modeName m) ∨ (∀ l, layout ≠ layoutName l) → Wasm.fromMode mode layout = .error) := by
  constructor
  · rintro m l rfl rfl
    cases m <;> cases l <;> rfl
  · intro h
    have hm : (∀ m, mode ≠ modeName m) → mode ≠ c!"page" ∧ mode ≠ c!"draft" ∧ mode ≠ c!"forum-post" ∧ mode ≠ c!"direct-message" ∧ mode ≠ c!"list" :=
      fun h => ⟨h .page, h .draft, h .forumPost, h .directMessage, h .list⟩
    rcases h with h | h
    · obtain ⟨a, b, c, d, e⟩ := hm h
      simp only [Wasm.fromMode, beq_iff_eq, a, b, c, d, e, if_false]
    · have a : layout ≠ c!"wikidot" := h .wikidot
      have b : layout ≠ c!"wikijump" := h .wikijump
      simp only [Wasm.fromMode, beq_iff_eq, a, b, if_false]
      split
      · rename_i e; cases e
      · rfl

/-- C92: settings that are written as JSON and read back are the same settings (prefixes of other wikis are a map, so
none occurs twice). -/
theorem C92_settings_round_trip (s : Settings) (h : (s.interwiki.prefixes.map (·.1)).Nodup) : readSettings (writeSettings s) = some s := by
  obtain ⟨mode, layout, a, b, c, d, e, f, ⟨iw⟩⟩ := s
  have := Serde.vars_back h
  refine Eq.trans (b := (Serde.readVars (Serde.writeVars iw)).bind fun iw => some ⟨mode, layout, a, b, c, d, e, f, ⟨iw⟩⟩) ?_ ?_
  · cases mode <;> cases layout <;> rfl
  · rw [this]; rfl

example : ((Settings.fromMode .page .wikidot).interwiki.prefixes.map (·.1)).Nodup := by decide +kernel

/-- C92: an error that is written as JSON is read back with all it says. -/
theorem C92_error_round_trip (e : PErr) : readError (writeError e) = some ⟨e.token, e.rule.name, e.start, e.stop, e.kind⟩ := by
  obtain ⟨t, r, a, b, k⟩ := e
  have ht : Serde.ofName allTokens tokenName (tokenName t) = some t := by cases t <;> decide +kernel
  have hk : Serde.ofName allErrors errorName (errorName k) = some k := by cases k <;> decide +kernel
  refine Eq.trans (b := (Serde.ofName allTokens tokenName (tokenName t)).bind fun t =>
    (Serde.ofName allErrors errorName (errorName k)).bind fun k => some ⟨t, r.name, a, b, k⟩) rfl ?_
  rw [ht, hk]
  rfl

end Ftml
