import Verif.Model.Html
/-
What the HTML renderer reads from its environment: a walk over all its functions.
-/
namespace Ftml

/-- The parts of a renderer's environment which it reads are the same. -/
structure AlikeH (env env' : HEnv) : Prop where
  w : env'.w = env.w
  toc : env'.toc = env.toc
  footnotes : env'.footnotes = env.footnotes
  bibliographies : env'.bibliographies = env.bibliographies
  site : env'.info.site = env.info.site
  page : env'.info.page = env.info.page
  localPaths : env'.settings.allowLocalPaths = env.settings.allowLocalPaths
  minify : env'.settings.minifyCss = env.settings.minifyCss
  ids : env'.settings.useTrueIds = env.settings.useTrueIds

section
variable {env env' : HEnv} (h : AlikeH env env')
include h

theorem imageLink_alike (src : ImageSource) : imageLink env'.info env'.settings src = imageLink env.info env.settings src := by
  cases src <;> simp only [imageLink, h.site, h.page, h.localPaths]

theorem renderLink_alike (loc : LinkLoc) (extra : Option Str) (label : LinkLabel) (target : Option AnchorTarget) (lt : LinkType) :
    renderLink env' loc extra label target lt = renderLink env loc extra label target lt := by
  unfold renderLink
  simp only [h.w, h.site]

theorem leaf_alike (ext : List Elem → Act) (k : Kind) : renderLeaf env' ext k = renderLeaf env ext k := by
  cases k
  case footnote =>
    simp only [renderLeaf]
    funext st
    unfold renderFootnote
    simp only [h.footnotes]
  all_goals simp only [renderLeaf, renderLink_alike h, renderImage, imageLink_alike h, renderToc, renderFootnoteBlock,
    renderBibCite, renderBibliography, renderDate, renderLatex, renderStyle, h.w, h.toc, h.footnotes, h.bibliographies, h.minify, h.ids]

theorem container_alike (c : CType) (attrs : AttrMap) (body : Act) :
    renderContainer env' c attrs body = renderContainer env c attrs body := by
  unfold renderContainer htmlId
  simp only [h.ids, h.w]

theorem tabButtons_alike (b t i : Nat) (es : List Elem) : tabButtons env' b t i es = tabButtons env b t i es := by
  induction es generalizing i with
  | nil => rfl
  | cons e es ih =>
    obtain ⟨k, ks⟩ := e
    cases k <;> simp only [tabButtons, ih, htmlId, h.w]

mutual
theorem elem_alike (ext : List Elem → Act) (e : Elem) : htmlElem env' ext e = htmlElem env ext e := by
  cases e with
  | mk k ks =>
    have hgo := go_alike ext ks
    have hpan := fun b t i => panels_alike ext b t i ks
    cases k <;> simp only [htmlElem, hgo, hpan, container_alike h, tabButtons_alike h, leaf_alike h]
theorem go_alike (ext : List Elem → Act) (es : List Elem) : htmlElem.go env' ext es = htmlElem.go env ext es := by
  cases es with
  | nil => rfl
  | cons e es => rw [htmlElem.go, htmlElem.go, elem_alike ext e, go_alike ext es]
theorem panels_alike (ext : List Elem → Act) (b t i : Nat) (es : List Elem) :
    htmlElem.panels env' ext b t i es = htmlElem.panels env ext b t i es := by
  cases es with
  | nil => rfl
  | cons e es =>
    have h1 := elem_alike ext e
    have h2 := fun i => panels_alike ext b t i es
    obtain ⟨k, ks⟩ := e
    cases k
    case tab => simp only [htmlElem.panels, Elem.kind, h1, h2, tabPanel, htmlId, h.w]
    all_goals exact h2 i
end

/-- Rendering only reads these parts of its environment. -/
theorem level_alike (n : Nat) (es : List Elem) : renderLevel env' n es = renderLevel env n es := by
  induction n generalizing es with
  | zero => rfl
  | succ n ih =>
    have : renderLevel env' n = renderLevel env n := funext ih
    rw [renderLevel, renderLevel, this, go_alike h]
end
end Ftml
