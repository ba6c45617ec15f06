import Verif.Props.MarkupOut
import Verif.Props.Preproc
import Verif.Props.Includes
/-
C89: the stages of the library put together.
-/
namespace Ftml
open Markup Preproc Includes

/-! ### C89: from source text to output -/

/-- A text that does not need preprocessing: no backtick, CR, tab or NUL, no two commas or ellipsis, no line
ending in a backslash, no newline at either end, no three newlines in a row, and every line empty or with a
character that is no white space and not starting with one of the two odd spaces. -/
structure Clean (s : Str) : Prop where
  chars : ∀ c ∈ s, c ≠ '`' ∧ c ≠ '\r' ∧ c ≠ '\t' ∧ c ≠ '\x00'
  commas : ¬ c!",," <:+: s
  dots : ¬ c!"..." <:+: s
  spacedDots : ¬ c!". . ." <:+: s
  joins : ¬ c!"\\\n" <:+: s
  starts : s.head? ≠ some '\n'
  ends : s.getLast? ≠ some '\n'
  gaps : ¬ c!"\n\n\n" <:+: s
  lines : ∀ l ∈ splitOn '\n' s, l = [] ∨ (∃ c ∈ l, isWS c = false) ∧
    l.head? ≠ some '\u00a0' ∧ l.head? ≠ some '\u2007'

/-- The word in any combination of small and capital letters occurs in the text. -/
def Mentions (word s : Str) : Prop := ∃ w, w <:+: s ∧ w.map lowerC = word

private theorem unix_idem (s : Str) : unixNewlines (unixNewlines s) = unixNewlines s := by
  fun_induction unixNewlines s with
  | case1 s ih => rw [unixNewlines, ih] <;> simp
  | case2 s h ih => rw [unixNewlines, ih] <;> simp
  | case3 c s h1 h2 ih => rw [unixNewlines, ih] <;> simp_all
  | case4 => rfl

/-- C89: preprocessing does not depend on how the lines end: LF, CRLF, CR or a mixture. -/
theorem C89_line_endings (s : Str) : preprocess s = preprocess (unixNewlines s) := by
  unfold preprocess whitespaceSubst
  rw [C04_newline_pass, C04_newline_pass, unix_idem]

example : unixNewlines c!"a\r\nb\rc\n" = c!"a\nb\nc\n" ∧ preprocess c!"a\r\nb\rc\n" = some c!"a\nb\nc" := by
  decide +kernel

theorem stripCI_word {p s r : Str} (h : stripCI p s = some r) : ∃ w, s = w ++ r ∧ w.map lowerC = p := by
  induction p generalizing s with
  | nil => simp [stripCI] at h; subst h; exact ⟨[], rfl, rfl⟩
  | cons c p ih =>
    cases s with
    | nil => simp [stripCI] at h
    | cons x s =>
      simp only [stripCI] at h
      split at h
      · rename_i hc
        obtain ⟨w, rfl, e⟩ := ih h
        exact ⟨x :: w, rfl, by simp [hc, e]⟩
      · simp at h

theorem regexLen_word {s : Str} {n : Nat} (h : regexLen s = some n) : Mentions c!"include" s := by
  unfold regexLen at h
  split at h
  · simp at h
  · rename_i a ha
    split at h
    · simp at h
    · rename_i b hb
      obtain ⟨w, e, hw⟩ := stripCI_word hb
      refine ⟨w, ?_, hw⟩
      have h1 : a <:+ s := by
        exact ⟨_, (stripPfx_some.1 ha).symm⟩
      have h2 : w <:+: a.dropWhile isWS := e ▸ (List.prefix_append _ _).isInfix
      exact h2.trans ((List.dropWhile_suffix _).isInfix.trans h1.isInfix)

theorem findIter_none (s : Str) (h : ¬ Mentions c!"include" s) : ∀ bol skip off, findIter bol skip off s = [] := by
  induction s with
  | nil => intros; rfl
  | cons c s ih =>
    have hs : ¬ Mentions c!"include" s := fun ⟨w, hw, e⟩ => h ⟨w, hw.trans (List.suffix_cons _ _).isInfix, e⟩
    intro bol skip off
    cases skip with
    | succ k => exact ih hs ..
    | zero =>
      have : (if bol then regexLen (c :: s) else none) = none := by
        cases bol with
        | false => rfl
        | true =>
          cases hr : regexLen (c :: s) with
          | none => simp
          | some n => exact absurd (regexLen_word hr) h
      simp only [findIter, this]
      exact ih hs ..

/-- C89: a text without the word `include` asks for no page. -/
theorem C89_no_includes (s : Str) (h : ¬ Mentions c!"include" s) : requested s = [] := by
  unfold requested Includes.collect
  rw [findIter_none s h]
  rfl

example : requested c!"[[include x]]" ≠ [] := by decide +kernel

/-- C89: a text that asks for no page, or any text when page syntax is off, is not changed by inclusion, and no
page is reported as included. -/
theorem C89_nothing_included {σ E : Type} (on : Bool) (I : Includer σ E) (e : E) (st st' : σ) (input : Str)
    (h : on = true → requested input = [] ∧ I.includePages st [] = (.ok [], st')) :
    runInclude on I e st input = .ok input [] := by
  cases on with
  | false => rfl
  | true =>
    obtain ⟨h1, h2⟩ := h rfl
    unfold requested at h1
    have h3 : Includes.collect input = [] := by simpa using h1
    simp [runInclude, h3, h2, spliceLoop]

/-- The chain of calls an application makes (README.md:172-200): resolve the includes, preprocess, tokenize,
parse; the syntax tree, unless one of the stages fails. -/
def sourceTree {σ E : Type} (w : World) (info : PageInfo) (settings : Settings) (I : Includer σ E) (e : E) (st : σ)
    (source : Str) : Option Tree :=
  match runInclude settings.enablePageSyntax I e st source with
  | .ok text _ =>
    match preprocess text with
    | some clean =>
      match parse w (tokenize clean) info settings with
      | some (.ok o) => some o.tree
      | _ => none
    | none => none
  | _ => none

/-- C89: the whole way from a source text to the output. Take a page of the document language whose spelling
is clean, and any source text which becomes that spelling, up to how its lines end, when its includes are
resolved. Then the chain of calls gives a syntax tree, and rendering it gives the HTML, the links and the text
the page stands for. -/
theorem C89_source_to_output {σ E : Type} {d : Page} (hd : d.ok = true) (hclean : Clean d.write)
    (w : HWorld) (info : PageInfo) (settings : Settings) (hfits : d.fits ⟨settings, w.toWorld, info⟩ = true)
    (I : Includer σ E) (e : E) (st : σ) (source text : Str) (pages : List PageRef)
    (hinc : runInclude settings.enablePageSyntax I e st source = .ok text pages)
    (htext : unixNewlines text = d.write) :
    ∃ t, sourceTree w.toWorld info settings I e st source = some t ∧
      textRender w.toWorld info t = some d.text ∧
      ∀ n ≥ 3, ∃ out, htmlRender n w info settings t = .ok out ∧
        let cx : Markup.OutCtx := ⟨⟨settings, w.toWorld, info⟩, w.pageExists, w.mathml, dummyAvatar, d.toc, w.randomId⟩
        out.body = d.html cx ∧ out.links = ⟨(d.links cx).filterMap pageLinked, (d.links cx).filterMap siteLinked⟩ := by
  obtain ⟨o, o1, o2⟩ := C72_html hd w info settings hfits
  obtain ⟨o', o1', o4⟩ := C73_text hd w.toWorld info settings hfits
  rw [o1] at o1'
  cases o1'
  have hp : preprocess text = some d.write := by
    rw [C89_line_endings, htext]
    exact C06_preprocess_identity _ hclean.chars hclean.commas hclean.starts hclean.ends hclean.gaps hclean.joins
      hclean.dots hclean.spacedDots hclean.lines
  refine ⟨o.tree, ?_, o4, o2⟩
  simp only [sourceTree, hinc, hp, o1]

/-- The page of the examples: a heading, and a paragraph with a bold word. -/
def pipePage : Page :=
  [(.heading 1 true 0 [.plain (.word c!"Title")], true),
   (.para [.plain (.word c!"Some"), .plain (.blanks 0), .styled .bold [.plain (.word c!"text")], .newline,
     .plain (.char '&')], true)]

example : pipePage.ok = true ∧ pipePage.write = c!"+ Title\nSome **text**\n&" ∧
    pipePage.fits ⟨Settings.fromMode .page .wikidot, plainWorld, somePage⟩ = true := by decide +kernel
example : Clean pipePage.write :=
  ⟨by decide +kernel, by decide +kernel, by decide +kernel, by decide +kernel, by decide +kernel,
    by decide +kernel, by decide +kernel, by decide +kernel, by decide +kernel⟩
/-- With an include and CRLF line endings. -/
example : runInclude (Settings.fromMode .page .wikidot).enablePageSyntax (constIncluder c!"Some **text**") () ()
    c!"+ Title\r\n[[include body]]\r\n&" = .ok c!"+ Title\r\nSome **text**\r\n&" [⟨none, c!"body"⟩] ∧
    unixNewlines c!"+ Title\r\nSome **text**\r\n&" = pipePage.write := by decide +kernel
/-- Without an include. -/
example : ¬ Mentions c!"include" c!"in clude" ∧ Mentions c!"include" c!"[[InClude x]]" := by
  constructor
  · rintro ⟨w, ⟨a, b, e⟩, hw⟩
    have h1 := congrArg List.length e
    have h2 := congrArg List.length hw
    simp at h1 h2
    have h3 : a.length ≤ 1 := by omega
    have : w = (c!"in clude".drop a.length).take 7 := by
      rw [← e, List.append_assoc, List.drop_left, ← h2, List.take_left]
    subst this
    have h4 : a.length = 0 ∨ a.length = 1 := by omega
    rcases h4 with h4 | h4 <;> rw [h4] at hw <;> revert hw <;> decide +kernel
  · exact ⟨c!"InClude", ⟨c!"[[", c!" x]]", rfl⟩, by decide +kernel⟩

end Ftml
