import Verif.Props.Html
/-
C90: the metadata of a rendered page, read back with the independent reader of HTML.
-/
namespace Ftml
open HtmlSpec

/-- What an entry of the metadata says: the kind of name, the name and the contents.  (A NUL character is shown as a blank.) -/
def HtmlMeta.says (m : HtmlMeta) : Ev := .start c!"meta" [(m.type.tagName, noNul m.name), (c!"content", noNul m.value)]

theorem frag_meta (m : HtmlMeta) : Frag m.render [m.says] := by
  obtain ⟨t, n, v⟩ := m
  have e2 := read_value c!"meta" [] t.tagName [] n
  have e4 := read_value c!"meta" [(t.tagName, noNul n)] c!"content" [] v
  have e5 : read (.value c!"meta" [(t.tagName, noNul n)] c!"content" (noNul v)) c!"\" />" =
    some (.data, [.start c!"meta" [(t.tagName, noNul n), (c!"content", noNul v)]]) := rfl
  have e1 : read .data (c!"<meta " ++ t.tagName ++ c!"=\"") = some (.value c!"meta" [] t.tagName [], []) := by
    cases t <;> rfl
  have e3 : read (.value c!"meta" [] t.tagName (noNul n)) c!"\" content=\"" =
    some (.value c!"meta" [(t.tagName, noNul n)] c!"content" [], []) := rfl
  have := read_app (read_app (read_app (read_app e1 e2) e3) e4) e5
  simpa [HtmlMeta.render, HtmlMeta.says, Frag, MetaType.tagName] using this

/-- C90: the text of every list of entries is read back as exactly these entries, whatever names and contents they have. -/
theorem C90_entries (ms : List HtmlMeta) : readHtml (ms.flatMap HtmlMeta.render) = some (ms.map HtmlMeta.says) := by
  refine Frag.readHtml ?_
  induction ms with
  | nil => exact Frag.nil
  | cons m ms ih => exact Frag.append (frag_meta m) ih

theorem joinWith_intercalate (sep : Str) (l : List Str) : joinWith sep l = sep.intercalate l := by
  induction l with
  | nil => rfl
  | cons a l ih =>
    cases l with
    | nil => simp [joinWith, List.intercalate, List.intersperse]
    | cons b l => rw [joinWith, ih]; simp [List.intercalate, List.intersperse]

/-- C90: the metadata of every rendered page are its content type, the generator with its version and the layout, the title with the
alternative title after it, and the tags, separated by commas; the body of the page is no part of them. -/
theorem C90_page (n : Nat) (w : HWorld) (info : PageInfo) (settings : Settings) (t : Tree) {o : HtmlOutput}
    (h : htmlRender n w info settings t = .ok o) :
    readHtml (o.metas.flatMap HtmlMeta.render) = some [
      .start c!"meta" [(c!"http-equiv", c!"Content-Type"), (c!"content", c!"text/html")],
      .start c!"meta" [(c!"name", c!"generator"),
        (c!"content", noNul (w.version ++ (if settings.layout = .wikidot then c!" Wikidot (legacy)" else c!" Wikijump")))],
      .start c!"meta" [(c!"name", c!"description"),
        (c!"content", noNul (if info.altTitle = none then info.title else info.title ++ c!" - " ++ info.altTitle.getD []))],
      .start c!"meta" [(c!"name", c!"keywords"), (c!"content", noNul (c!",".intercalate info.tags))]] := by
  have hm : o.metas = initialMeta w info settings.layout := by
    unfold htmlRender at h
    split at h
    · cases h
    · cases h
    · injection h with h; rw [← h]
  rw [C90_entries, hm]
  have e1 : w.version ++ (if settings.layout = .wikidot then c!" Wikidot (legacy)" else c!" Wikijump") =
      w.version ++ c!" " ++ settings.layout.description := by
    cases settings.layout <;> simp [Layout.description]
  have e2 : (if info.altTitle = none then info.title else info.title ++ c!" - " ++ info.altTitle.getD []) =
      info.title ++ (match info.altTitle with | some t => c!" - " ++ t | none => []) := by
    cases info.altTitle <;> simp
  rw [e1, e2, ← joinWith_intercalate]
  rfl

/-- A title and a tag that look like markup stay inside their entries. -/
example : readHtml ((initialMeta plainHWorld { somePage with
        title := c!"\"><script>"
        tags := [c!"a", c!"b&c"]
        altTitle := some c!"x" } .wikijump).flatMap HtmlMeta.render) =
    some [
      .start c!"meta" [(c!"http-equiv", c!"Content-Type"), (c!"content", c!"text/html")],
      .start c!"meta" [(c!"name", c!"generator"), (c!"content", plainHWorld.version ++ c!" Wikijump")],
      .start c!"meta" [(c!"name", c!"description"), (c!"content", c!"\"><script> - x")],
      .start c!"meta" [(c!"name", c!"keywords"), (c!"content", c!"a,b&c")]] := by decide +kernel

/-- Some page is rendered. -/
example : (match htmlRender 3 plainHWorld somePage (Settings.fromMode .page .wikidot) ⟨[], [], [], [], [], [], 0⟩ with | .ok _ => true | _ => false) = true := by
  decide +kernel

end Ftml
