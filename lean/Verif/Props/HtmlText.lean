import Verif.Props.HtmlRun
import Verif.Lemmas.HtmlShow
/-
Text in rendered pages: texts cannot influence the markup around them (C44), and are found in the output
(C70).
-/
namespace Ftml
open HtmlSpec

section
variable {n : Nat} {w : HWorld} {info : PageInfo} {settings : Settings} {t t' : Tree} {o : HtmlOutput}

private theorem forest_env {es : List Elem} (h : EnvForest (.of w info settings t) es) : t.Forest es := by
  cases h with
  | toc => exact .toc
  | footnote h => exact .footnote h
  | bibliography h h' => exact .bibliography h h'

/-! ### C44: texts are inert -/

private theorem blank_render (hw : WorldOk w) (hp : PlainTree t) (n : Nat) :
    SimR (tag c!"wj-body" [kv c!"class" c!"wj-body"] (renderLevel (.of w info settings t) n t.elements) HSt.init)
      (tag c!"wj-body" [kv c!"class" c!"wj-body"]
        (renderLevel (.of w info settings (blankTree t)) n (blankTree t).elements) HSt.init) :=
  Sim.tag [c!"class"] rfl (by decide +kernel)
    (sim_level (env := .of w info settings t) (A := Source.of info settings t) (H := NoHeadingIds t) hw
      (fun _ _ _ he ho => kindOk_of hp (forest_env he) ho) n t.elements
      (fun _ _ ho => kindOk_of hp .body ho)) HSt.init

/-- C44: whatever the texts of a page are (text, raw text, source code, link labels, titles), the rendered
page has the same elements and attributes in the same order, the same links, and rendering ends in the same
way. -/
theorem C44_texts_are_inert (hw : WorldOk w) (hp : PlainTree t) (hp' : PlainTree t') (hs : SameMarkup t t') :
    AlikeButText (htmlRender n w info settings t) (htmlRender n w info settings t') := by
  have h1 := blank_render (info := info) (settings := settings) hw hp n
  have h2 := (blank_render (info := info) (settings := settings) hw hp' n).symm
  obtain ⟨s1, s2, s3, s4⟩ := hs
  have e : HEnv.of w info settings (blankTree t) = HEnv.of w info settings (blankTree t') := by
    unfold HEnv.of
    rw [s2, s3, s4]
  rw [e, s1] at h1
  have h := h1.trans h2
  unfold htmlRender
  generalize tag c!"wj-body" [kv c!"class" c!"wj-body"] (renderLevel (.of w info settings t) n t.elements) HSt.init = r at h
  generalize tag c!"wj-body" [kv c!"class" c!"wj-body"] (renderLevel (.of w info settings t') n t'.elements) HSt.init = r' at h
  cases h with
  | hang => exact .hang
  | panic => exact .panic
  | ok f f' u => exact .ok f.readHtml f'.readHtml u rfl rfl

/-! ### C70: texts are shown -/

/-- C70: every text that rendering reaches, from the body of the page or through the lists of footnotes, the
bibliographies, citations and tables of contents in it, is found in the text of the rendered page, unchanged
but for NUL characters. -/
theorem C70_texts_are_shown (hw : WorldOk w) (hp : PlainTree t) (h : htmlRender n w info settings t = .ok o)
    {evs : List Ev} (hr : readHtml o.body = some evs) {es : List Elem} (hes : Reaches t t.elements es)
    {k : Kind} {ks : List Elem} (hk : Placed k ks es) {s : Str} (hs : shownText k = some s) :
    noNul s <:+: chars evs := by
  have hleaf : k.isLeaf = true := by
    cases k <;> first | rfl | cases hs
  have key : ∀ n es', Reaches t es' es → t.Forest es' → Shows (noNul s) (renderLevel (.of w info settings t) n es') := by
    intro n
    induction n with
    | zero => intro es' _ _ st x st' e; cases e
    | succ n ih =>
      intro es' hre hf
      have he : ∀ es, EnvForest (.of w info settings t) es →
          Wr (.of w info settings t) (Source.of info settings t) (NoHeadingIds t) (renderLevel (.of w info settings t) n es) :=
        fun es he => renderLevel_wr hw (fun _ _ _ he ho => kindOk_of hp (forest_env he) ho) n es
          (fun _ _ ho => kindOk_of hp (forest_env he) ho)
      have hko : ∀ k ks, Occurs k ks es' → KindOk (.of w info settings t) (Source.of info settings t) (NoHeadingIds t) k := fun _ _ ho => kindOk_of hp hf ho
      cases hre with
      | refl => exact shows_placed (env := .of w info settings t) hw he hk hleaf hko (shows_leaf hs)
      | @step _ b _ hin hre' =>
        refine shows_within hw he hin hko (ih b hre' ?_)
        cases hin with
        | @cite label _ _ _ _ hc =>
          obtain ⟨pre, b, post, p, q, e, e', _⟩ := hc
          exact .bibliography (b := b) (key := label) (by rw [e]; simp) (by rw [e']; simp)
        | bibliography _ hb hm => exact .bibliography (List.mem_of_getElem? hb) hm
        | footnoteBlock _ hf => exact .footnote hf
        | toc => exact .toc
  obtain ⟨evs', st, _, _, e⟩ := render_reads hw hp h
  have hsh := (key n t.elements hes .body).tag (t := c!"wj-body") (entries := [kv c!"class" c!"wj-body"]) [c!"class"] rfl (by decide +kernel)
  obtain ⟨evs2, f, i⟩ := hsh _ _ _ e
  have := f.readHtml
  rw [hr] at this
  cases this
  exact i

end

/-! ### Cases that meet the assumptions -/

/-- A page with a div, a link, a citation, a footnote, a bibliography. -/
def textPage (a b c d : Str) : Tree where
  elements := [.mk (.container .div [(c!"class", c!"x")]) [eText a, .mk (.link .direct (.url c!"https://e.x/") none (.text b) none) [],
    .mk .footnote [], .mk (.bibCite c!"k" true) []], .mk (.footnoteBlock none false) [], .mk (.bibBlock 0 none false) []]
  toc := []
  htmlBlocks := []
  codeBlocks := []
  footnotes := [[eText c]]
  bibliographies := [⟨[(c!"k", [eText d])]⟩]
  wikitextLen := 0

theorem textPage_plain (a b c d : Str) : PlainTree (textPage a b c d) := by
  intro es k ks hf ho
  refine plainAttrsB_iff ?_
  exact kinds_check (t := textPage a b c d) (fun k => plainAttrsB k.attrs) (by rfl) es k ks hf ho

/-- It is rendered. -/
theorem textPage_renders : ∃ o evs, htmlRender 3 plainHWorld somePage (Settings.fromMode .page .wikidot)
      (textPage c!"<b>" c!"</a><script>" c!"&amp;" c!"\"") = .ok o ∧ readHtml o.body = some evs ∧
    chars evs = c!"<b></a><script>1Footnote 1.&amp;[1]Reference 1.\"Footnotes1.&amp;Bibliography1.\"" := by
  have key : (match htmlRender 3 plainHWorld somePage (Settings.fromMode .page .wikidot)
      (textPage c!"<b>" c!"</a><script>" c!"&amp;" c!"\"") with
    | .ok o => (match readHtml o.body with
      | some evs => chars evs == c!"<b></a><script>1Footnote 1.&amp;[1]Reference 1.\"Footnotes1.&amp;Bibliography1.\""
      | none => false)
    | _ => false) = true := by decide +kernel
  split at key
  · next o ho =>
    split at key
    · next evs he => exact ⟨o, evs, ho, he, by simpa using key⟩
    · cases key
  · cases key

/-- C44: a case that meets the assumptions. -/
example : AlikeButText
    (htmlRender 3 plainHWorld somePage (Settings.fromMode .page .wikidot) (textPage c!"<b>" c!"</a><script>" c!"&amp;" c!"\""))
    (htmlRender 3 plainHWorld somePage (Settings.fromMode .page .wikidot) (textPage [] c!"x" c!"y" c!"z")) :=
  C44_texts_are_inert plainHWorld_ok (textPage_plain _ _ _ _) (textPage_plain _ _ _ _) ⟨rfl, rfl, rfl, rfl⟩

/-- C70: a case that meets the assumptions: the text of the bibliography entry, through the citation. -/
example : ∃ o evs, htmlRender 3 plainHWorld somePage (Settings.fromMode .page .wikidot)
      (textPage c!"<b>" c!"</a><script>" c!"&amp;" c!"\"") = .ok o ∧ readHtml o.body = some evs ∧
    noNul c!"\"" <:+: chars evs := by
  obtain ⟨o, evs, ho, he, _⟩ := textPage_renders
  refine ⟨o, evs, ho, he, C70_texts_are_shown plainHWorld_ok (textPage_plain _ _ _ _) ho he
    (es := [eText c!"\""]) (k := .text c!"\"") (ks := []) (.step ?_ .refl) (.here (List.mem_singleton.2 rfl)) rfl⟩
  refine .cite (label := c!"k") (br := true) (ks := []) (.inside (List.mem_cons_self ..) rfl ?_ (fun h => by cases h) (.here (List.mem_singleton.2 rfl))) ?_
  · simp
  · exact ⟨[], _, [], [], [], rfl, rfl, by simp, by simp⟩

end Ftml
