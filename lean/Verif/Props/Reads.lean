import Verif.Lemmas.ParserReads
import Verif.Lemmas.HtmlReads
import Verif.Props.Conditional
/-
C107: which of the page's information and of the settings the results depend on.
-/
namespace Ftml
open M

/-- What a page's tree may depend on: the page's site, category and tags, and three of the settings. -/
structure SameForParsing (i i' : PageInfo) (s s' : Settings) : Prop where
  site : i.site = i'.site
  category : i.category = i'.category
  tags : i.tags = i'.tags
  pageSyntax : s.enablePageSyntax = s'.enablePageSyntax
  isolate : s.isolateUserIds = s'.isolateUserIds
  interwiki : s.interwiki = s'.interwiki

/-- What the HTML of a tree may depend on: the page's site and name, and three other settings. -/
structure SameForHtml (i i' : PageInfo) (s s' : Settings) : Prop where
  site : i.site = i'.site
  page : i.page = i'.page
  localPaths : s.allowLocalPaths = s'.allowLocalPaths
  minify : s.minifyCss = s'.minifyCss
  trueIds : s.useTrueIds = s'.useTrueIds

/-- The result, but for the metadata. -/
def HtmlRes.shown : HtmlRes → Option (Except HPanic (Str × Links))
  | .hang => none
  | .panic p => some (.error p)
  | .ok o => some (.ok (o.body, o.links))

/-- C107: the outcome of parsing (the tree, the errors, everything) does not depend on the page's title, name or language, nor on the
mode, the layout or the settings for rendering. -/
theorem C107_parse (w : World) (t : Tokenization) {i i' : PageInfo} {s s' : Settings} (h : SameForParsing i i' s s') :
    parse w t i s = parse w t i' s' :=
  (parseEnv_alike ⟨t.fullText, t.tokens, i, s, w⟩ ⟨t.fullText, t.tokens, i', s', w⟩
    ⟨rfl, rfl, rfl, h.site.symm, h.category.symm, h.tags.symm, h.pageSyntax.symm, h.isolate.symm, h.interwiki.symm⟩).symm

/-- C107: the text of a tree depends on the page's site only. -/
theorem C107_text (w : World) (t : Tree) {i i' : PageInfo} (h : i.site = i'.site) : textRender w i t = textRender w i' t := by
  simp only [textRender, textRenderPartial, h]

/-- C107: the HTML of a tree and the links reported for it do not depend on the page's title, tags, category or language, nor on the mode, the
layout or the settings for parsing. -/
theorem C107_html (n : Nat) (w : HWorld) (t : Tree) {i i' : PageInfo} {s s' : Settings} (h : SameForHtml i i' s s') :
    (htmlRender n w i s t).shown = (htmlRender n w i' s' t).shown := by
  have e : renderLevel (.of w i s t) n = renderLevel (.of w i' s' t) n := funext fun es =>
    level_alike (env := .of w i' s' t) (env' := .of w i s t) ⟨rfl, rfl, rfl, rfl, h.site, h.page, h.localPaths, h.minify, h.trueIds⟩ n es
  simp only [htmlRender, e]
  split <;> rfl

/-- C107: of the tree, its text depends on the elements only, its HTML on those, the table of contents, the footnotes and the bibliographies: not on
the code and HTML blocks kept beside them, or the length of the source. -/
theorem C107_tree (n : Nat) (w : HWorld) (i : PageInfo) (s : Settings) (t t' : Tree) (he : t.elements = t'.elements) :
    textRender w.toWorld i t = textRender w.toWorld i t' ∧
    (t.toc = t'.toc → t.footnotes = t'.footnotes → t.bibliographies = t'.bibliographies →
      htmlRender n w i s t = htmlRender n w i s t') := by
  refine ⟨by simp only [textRender, he], fun h1 h2 h3 => ?_⟩
  simp only [htmlRender, HEnv.of, he, h1, h2, h3]

/-- C107: so the layout has no effect, and posts are treated like direct messages, and drafts like lists. -/
theorem C107_modes (w : HWorld) (t : Tokenization) (n : Nat) (tree : Tree) (i : PageInfo) {m m' : Mode} (l l' : Layout)
    (h : m = m' ∨ (m = .draft ∧ m' = .list) ∨ (m = .forumPost ∧ m' = .directMessage)) :
    parse w.toWorld t i (.fromMode m l) = parse w.toWorld t i (.fromMode m' l') ∧
    (htmlRender n w i (.fromMode m l) tree).shown = (htmlRender n w i (.fromMode m' l') tree).shown := by
  refine ⟨C107_parse _ _ ⟨rfl, rfl, rfl, ?_, ?_, ?_⟩, C107_html _ _ _ ⟨rfl, rfl, ?_, ?_, ?_⟩⟩ <;>
    (rcases h with rfl | ⟨rfl, rfl⟩ | ⟨rfl, rfl⟩ <;> first | rfl | (cases m <;> rfl))

/-! ### Each of them matters -/

private def pageOf (i : PageInfo) (s : Settings) (text : Str) : Str :=
  match parse plainHWorld.toWorld (tokenize text) i s with
  | some (.ok o) => match htmlRender 3 plainHWorld i s o.tree with
    | .ok out => out.body
    | _ => []
  | _ => []

private def page0 : Settings := .fromMode .page .wikidot

/-- Pages which show that none of these can be left out. -/
example :
    pageOf somePage page0 c!"[[iftags a]]x[[/iftags]]" ≠ pageOf { somePage with tags := [c!"a"] } page0 c!"[[iftags a]]x[[/iftags]]" ∧
    pageOf somePage page0 c!"[[ifcategory a]]x[[/ifcategory]]" ≠
      pageOf { somePage with category := some c!"a" } page0 c!"[[ifcategory a]]x[[/ifcategory]]" ∧
    pageOf somePage page0 c!"[[module Rate]]" ≠ pageOf somePage { page0 with enablePageSyntax := false } c!"[[module Rate]]" ∧
    pageOf somePage page0 c!"[[# a]]" ≠ pageOf somePage { page0 with isolateUserIds := true } c!"[[# a]]" ∧
    pageOf somePage page0 c!"[[[!wikipedia:a|b]]]" ≠ pageOf somePage { page0 with interwiki := ⟨[]⟩ } c!"[[[!wikipedia:a|b]]]" ∧
    pageOf somePage page0 c!"[[image a.png]]" ≠ pageOf { somePage with site := c!"b" } page0 c!"[[image a.png]]" ∧
    pageOf somePage page0 c!"[[image a.png]]" ≠ pageOf { somePage with page := c!"b" } page0 c!"[[image a.png]]" ∧
    pageOf somePage page0 c!"[[image a.png]]" ≠ pageOf somePage { page0 with allowLocalPaths := false } c!"[[image a.png]]" ∧
    pageOf somePage page0 c!"+ a" ≠ pageOf somePage { page0 with useTrueIds := false } c!"+ a" := by
  decide +kernel

end Ftml
