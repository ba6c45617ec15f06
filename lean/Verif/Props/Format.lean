import Verif.Spec.Json
import Verif.Props.Wasm
/-!
C91 and C92: the names in the JSON.
-/
namespace Ftml

private theorem write_go (dates : Serde.DateCodec) (es : List Elem) : Serde.writeElem.go dates es = es.map (Serde.writeElem dates) := by
  induction es with
  | nil => rfl
  | cons e es ih => rw [Serde.writeElem.go, ih]; rfl

private theorem opt_text (o : Option Str) : Serde.writeOpt o = Format.optText o := by cases o <;> rfl

private theorem align_names (a : Alignment) : Serde.alignName a = Format.align a := by cases a <;> decide

private theorem opt_align (o : Option Alignment) : Serde.writeOption (fun a => .str (Serde.alignName a)) o = Format.optAlign o := by
  cases o with
  | none => rfl
  | some a => exact congrArg Serde.Json.str (align_names a)

private theorem opt_target (o : Option AnchorTarget) : Serde.writeOption (fun a => .str (Serde.targetName a)) o = Format.target o := by
  cases o with
  | none => rfl
  | some a => cases a <;> rfl

private theorem link_names (t : LinkType) : Serde.linkName t = Format.linkType t := by cases t <;> rfl

private theorem page_json (r : PageRef) : Serde.writePage r = Format.page r := by
  obtain ⟨site, page⟩ := r
  cases site <;> rfl

private theorem place_json (l : LinkLoc) : Serde.writeLoc l = Format.place l := by
  cases l with
  | page r => exact page_json r
  | url u => rfl

private theorem label_json (l : LinkLabel) : Serde.writeLabel l = Format.label l := by
  cases l with
  | url u => cases u <;> rfl
  | _ => rfl

private theorem container_json (c : CType) : Serde.writeCType c = Format.container c := by
  cases c with
  | align a => cases a <;> rfl
  | _ => rfl

private theorem module_json (m : Module) : Serde.writeModule m = Format.module_ m := by
  cases m with
  | backlinks p => cases p <;> rfl
  | join b a => cases b <;> rfl
  | pageTree r s d => cases r <;> cases d <;> rfl
  | _ => rfl

/-- C91: the JSON of an element is an object with the name of the element and its data, whose fields have fixed names:
see the table `Format.node`.  What is missing is null. -/
theorem C91_element_format (dates : Serde.DateCodec) (k : Kind) (ks : List Elem) :
    Serde.writeElem dates (.mk k ks) = Format.node dates.write (ks.map (Serde.writeElem dates)) k := by
  rw [Serde.writeElem.eq_def]
  simp only [write_go]
  cases k with
  | container c a =>
    dsimp only [Format.node]
    rw [container_json]
    rfl
  | module m => exact congrArg (Serde.tagged .module) (module_json m)
  | anchor t a =>
    dsimp only [Format.node]
    rw [opt_target]
    rfl
  | link t l e lb tg =>
    dsimp only [Format.node]
    rw [opt_target, link_names, place_json, label_json, opt_text]
    rfl
  | image s l al a =>
    dsimp only [Format.node]
    cases l with
    | none =>
      cases al with
      | none => cases s <;> rfl
      | some al =>
        obtain ⟨x, y⟩ := al
        simp only [Serde.writeOption, Serde.writeFloat, align_names]
        cases s <;> rfl
    | some l =>
      simp only [Serde.writeOption, place_json]
      cases al with
      | none => cases s <;> rfl
      | some al =>
        obtain ⟨x, y⟩ := al
        simp only [Serde.writeFloat, align_names]
        cases s <;> rfl
  | list t a => cases t <;> rfl
  | collapsible a so st ht tp bt =>
    dsimp only [Format.node]
    rw [opt_text, opt_text]
    rfl
  | toc a al =>
    dsimp only [Format.node]
    rw [opt_align]
    rfl
  | footnoteBlock t h => cases t <;> rfl
  | bibBlock i t h => cases t <;> rfl
  | date v f h => cases f <;> rfl
  | code c l => cases l <;> rfl
  | math n l => cases n <;> rfl
  | embed e => cases e <;> rfl
  | «include» p v l =>
    dsimp only [Format.node]
    rw [page_json]
    rfl
  | clearFloat c => cases c <;> rfl
  | part p =>
    dsimp only [Format.node]
    cases p <;> rfl
  | cell h n al a =>
    dsimp only [Format.node]
    rw [opt_align]
    rfl
  | _ => rfl

/-- C91: the fields of a tree. -/
theorem C91_tree_format (dates : Serde.DateCodec) (t : Tree) : Serde.writeTree dates t = Format.tree (Serde.writeElem dates) t := by
  unfold Serde.writeTree Format.tree Serde.writeCode Serde.writeEntry
  simp only [write_go, opt_text]
  rfl

/-- C92: the names of tokens and errors. -/
theorem C92_names : (∀ t, Wasm.tokenName t = Format.token t) ∧ ∀ k, Wasm.errorName k = Format.error k :=
  ⟨fun t => by cases t <;> decide +kernel, fun k => by cases k <;> decide +kernel⟩

/-- C92: the fields of tokens and errors. -/
theorem C92_token_format (t : ETok) (e : PErr) :
    Wasm.writeToken t = .obj [(c!"token", .str (Format.token t.token)), (c!"slice", .str t.slice), (c!"span", Format.span t.start t.stop)] ∧
    Wasm.writeError e = .obj [(c!"token", .str (Format.token e.token)), (c!"rule", .str e.rule.name), (c!"span", Format.span e.start e.stop),
      (c!"kind", .str (Format.error e.kind))] := by
  unfold Wasm.writeToken Wasm.writeError
  rw [C92_names.1, C92_names.1, C92_names.2]
  exact ⟨rfl, rfl⟩

/-- C92: the fields of settings. -/
theorem C92_settings_format (s : Settings) : Wasm.writeSettings s = Format.settings s := by
  obtain ⟨mode, layout, a, b, c, d, e, f, iw⟩ := s
  cases mode <;> cases layout <;> rfl

/-- A link with all its fields. -/
example : Serde.writeElem unaryDates (.mk (.link .toc (.page ⟨some c!"s", c!"p"⟩) none (.text c!"t") (some .newTab)) []) =
    .obj [(c!"element", .str c!"link"), (c!"data", .obj [(c!"type", .str c!"table-of-contents"),
      (c!"link", .obj [(c!"site", .str c!"s"), (c!"page", .str c!"p")]), (c!"extra", .null), (c!"label", .obj [(c!"text", .str c!"t")]),
      (c!"target", .str c!"new-tab")])] := by
  rw [C91_element_format]
  rfl

end Ftml
