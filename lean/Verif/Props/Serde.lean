import Verif.Model.Serde
import Verif.Model.Html
import Verif.Props.Parse
/-!
C91: the JSON form of syntax trees.
-/
namespace Ftml
namespace Serde

/-- The types elements are made of. -/
def shapeOf : Kind → Shape
  | .row _ => .row
  | .cell .. => .cell
  | .tab _ => .tab
  | .item _ | .subList => .item
  | .defItem _ => .defItem
  | .defKey => .defKey
  | .defValue => .defValue
  | .rubyText _ => .rubyText
  | _ => .elem

/-- What the types of the fields of a node guarantee in Rust: a table holds rows, and so on; maps have no key twice
and those of attributes are sorted; levels of headings, counts and spans are in their range. -/
structure Storable (k : Kind) (ks : List Elem) : Prop where
  kids : ∀ e ∈ ks, allowedKid k e.kind = true
  leaf : k.isLeaf = true → ks = []
  attrs : SortedKeys k.attrs
  level : ∀ h a, k = .container (.header h) a → 1 ≤ h.level ∧ h.level ≤ 6
  breaks : ∀ n, k = .lineBreaks n → n ≠ 0
  span : ∀ h n al a, k = .cell h n al a → n ≠ 0
  depth : ∀ r s d, k = .module (.pageTree r s d) → d ≠ some 0
  vars : ∀ p v l, k = .include p v l → (v.map (·.1)).Nodup
  defs : ∀ key, k = .defItem key → ∃ a b, ks = [.mk .defKey a, .mk .defValue b]
  one : (k = .subList ∨ ∃ p, k = .part p) → ks.length = 1

/-- How deep nodes are nested. -/
def nesting : Elem → Nat
  | .mk _ ks => go ks + 1
where
  /-- in a list -/
  go : List Elem → Nat
    | [] => 0
    | e :: es => max (nesting e) (go es)

/-- How deep the nodes of a tree are nested. -/
def treeNesting (t : Tree) : Nat :=
  max (max (nesting.go t.elements) (nesting.go t.toc))
    (max (nesting.go t.footnotes.flatten) (nesting.go (t.bibliographies.flatMap fun b => b.entries.flatMap (·.2))))

private theorem readAll_map {α β : Type} {f : β → Option α} {g : α → β} : ∀ {l : List α}, (∀ x ∈ l, f (g x) = some x) → readAll f (l.map g) = some l
  | [], _ => rfl
  | x :: l, h => by
    have := readAll_map (f := f) (g := g) (l := l) fun y hy => h y (by simp [hy])
    simp [readAll, h x (by simp), this]

private theorem pairs_back (m : List (Str × Str)) :
    readAll (fun (p : Str × Json) => (asStr p.2).map fun v => (p.1, v)) (m.map fun p => (p.1, Json.str p.2)) = some m :=
  readAll_map (g := fun (p : Str × Str) => (p.1, Json.str p.2)) fun _ _ => rfl

private theorem btInsert_last {k v : Str} {m : AttrMap} (h : ∀ p ∈ m, strLt p.1 k = true) : btInsert k v m = m ++ [(k, v)] := by
  induction m with
  | nil => rfl
  | cons p m ih =>
    obtain ⟨k', v'⟩ := p
    have hp : strLt k' k = true := h (k', v') (by simp)
    have h1 : k ≠ k' := by rintro rfl; rw [strLt_irrefl] at hp; cases hp
    have h2 : strLt k k' = false := by
      cases hc : strLt k k' with
      | false => rfl
      | true => have := strLt_trans hp hc; rw [strLt_irrefl] at this; cases this
    rw [btInsert, if_neg h1, h2]
    simp only [Bool.false_eq_true, if_false, List.cons_append]
    rw [ih fun q hq => h q (by simp [hq])]

private theorem attrs_back {m : AttrMap} (h : SortedKeys m) : readAttrs (writeAttrs m) = some m := by
  have : ∀ (m acc : AttrMap), SortedKeys (acc ++ m) → m.foldl (fun m' p => btInsert p.1 p.2 m') acc = acc ++ m := by
    intro m
    induction m with
    | nil => intro acc _; simp
    | cons p m ih =>
      intro acc ha
      have hc := List.pairwise_append.1 ha
      rw [List.foldl_cons, btInsert_last fun q hq => hc.2.2 q hq p (by simp)]
      rw [ih _ (by simpa using ha)]
      simp
  unfold readAttrs writeAttrs
  simp only [asObj, Option.bind_eq_bind, Option.bind_some, pairs_back]
  rw [this m [] h]
  rfl

private theorem hashInsert_last {k v : Str} : ∀ {m : List (Str × Str)}, k ∉ m.map (·.1) → hashInsert k v m = m ++ [(k, v)]
  | [], _ => rfl
  | (k', v') :: m, h => by
    simp only [List.map_cons, List.mem_cons, not_or] at h
    rw [hashInsert, if_neg (fun e => h.1 e.symm), hashInsert_last h.2]
    rfl

theorem vars_back {m : List (Str × Str)} (h : (m.map (·.1)).Nodup) : readVars (writeVars m) = some m := by
  have : ∀ (m acc : List (Str × Str)), ((acc ++ m).map (·.1)).Nodup → m.foldl (fun m' p => hashInsert p.1 p.2 m') acc = acc ++ m := by
    intro m
    induction m with
    | nil => intro acc _; simp
    | cons p m ih =>
      intro acc ha
      have hc : p.1 ∉ acc.map (·.1) := by
        rw [List.map_append, List.nodup_append] at ha
        intro hm
        exact ha.2.2 _ hm p.1 (by simp) rfl
      rw [List.foldl_cons, hashInsert_last hc, ih _ (by simpa using ha)]
      simp
  unfold readVars writeVars
  simp only [asObj, Option.bind_eq_bind, Option.bind_some, pairs_back]
  rw [this m [] h]
  rfl

private theorem opt_back (o : Option Str) : asOpt asStr (writeOpt o) = some o := by cases o <;> rfl
private theorem align_back (a : Alignment) : readAlign (.str (alignName a)) = some a := by cases a <;> rfl
private theorem alignOpt_back (o : Option Alignment) : asOpt readAlign (writeOption (fun a => .str (alignName a)) o) = some o := by
  cases o with
  | none => rfl
  | some a => cases a <;> rfl
private theorem target_back (o : Option AnchorTarget) : asOpt readTarget (writeOption (fun a => .str (targetName a)) o) = some o := by
  cases o with
  | none => rfl
  | some a => cases a <;> rfl
private theorem float_back (o : Option FloatAlign) : asOpt readFloat (writeOption writeFloat o) = some o := by
  cases o with
  | none => rfl
  | some f => obtain ⟨a, b⟩ := f; cases a <;> rfl
private theorem clear_back (a : ClearFloat) : readClear (.str (clearName a)) = some a := by cases a <;> rfl
private theorem listType_back (a : ListType) : readListType (.str (listName a)) = some a := by cases a <;> rfl
private theorem linkType_back (a : LinkType) : readLinkType (.str (linkName a)) = some a := by cases a <;> rfl
private theorem page_back (r : PageRef) : readPage (writePage r) = some r := by
  obtain ⟨s, p⟩ := r
  cases s <;> rfl
private theorem loc_back (l : LinkLoc) : readLoc (writeLoc l) = some l := by
  cases l with
  | page r => unfold readLoc writeLoc; rw [page_back]
  | url u => rfl
private theorem locOpt_back (o : Option LinkLoc) : asOpt readLoc (writeOption writeLoc o) = some o := by
  cases o with
  | none => rfl
  | some l =>
    have := loc_back l
    cases l with
    | page r => unfold writeOption writeLoc writePage asOpt at *; simp only [this]; rfl
    | url u => rfl
private theorem label_back (l : LinkLabel) : readLabel (writeLabel l) = some l := by
  cases l with
  | url u => cases u <;> rfl
  | _ => rfl
private theorem source_back (s : ImageSource) : readSource (writeSource s) = some s := by cases s <;> rfl
private theorem embed_back (s : Embed) : readEmbed (writeEmbed s) = some s := by cases s <;> rfl
private theorem pos_back {d : Option Nat} (h : d ≠ some 0) : asOpt asPos (writeOption .num d) = some d := by
  cases d with
  | none => rfl
  | some n => simp [writeOption, asOpt, asPos, show n ≠ 0 by rintro rfl; exact h rfl]
private theorem module_back (m : Module) (ha : ∀ b a, m = .join b a → SortedKeys a) (hd : ∀ r s d, m = .pageTree r s d → d ≠ some 0) :
    readModule (writeModule m) = some m := by
  cases m with
  | backlinks p => cases p <;> rfl
  | categories h => rfl
  | join b a =>
    refine Eq.trans (b := (asOpt asStr (writeOpt b)).bind fun b => (readAttrs (writeAttrs a)).bind fun a => some (.join b a)) rfl ?_
    rw [opt_back, attrs_back (ha _ _ rfl)]
    rfl
  | pageTree r s d =>
    refine Eq.trans (b := (asOpt asStr (writeOpt r)).bind fun r => (asOpt asPos (writeOption .num d)).bind fun d => some (.pageTree r s d)) rfl ?_
    rw [opt_back, pos_back (hd _ _ _ rfl)]
    rfl
  | rate => rfl
private theorem ctype_back (c : CType) (h : ∀ x, c = .header x → 1 ≤ x.level ∧ x.level ≤ 6) : readCType (writeCType c) = some c := by
  cases c with
  | align a => cases a <;> rfl
  | header x =>
    obtain ⟨l, t⟩ := x
    have hl := h _ rfl
    refine Eq.trans (b := (if 1 ≤ l ∧ l ≤ 6 then some (Heading.mk l t) else none).map .header) rfl ?_
    rw [if_pos hl]
    rfl
  | _ => rfl

private theorem elem_tagged {dates : DateCodec} {n : Nat} (v : Variant) (data : Json) :
    readElem dates (n + 1) .elem (tagged v data) =
      readData dates (fun sh j => do readAll (readElem dates n sh) (← asArr j)) (readElem dates n) v (some data) := by
  cases v <;> rfl
private theorem elem_unit {dates : DateCodec} {n : Nat} (v : Variant) :
    readElem dates (n + 1) .elem (unit v) =
      readData dates (fun sh j => do readAll (readElem dates n sh) (← asArr j)) (readElem dates n) v none := by
  cases v <;> rfl

/-- What the nodes below a node are read as. -/
private def kidShape : Kind → Shape
  | .table _ => .row
  | .row _ => .cell
  | .tabView => .tab
  | .list .. => .item
  | .definitionList => .defItem
  | _ => .elem

private theorem shape_elem {k : Kind} (h : k.isStruct = false) : shapeOf k = .elem := by
  cases k <;> first | rfl | cases h

private theorem kids_shape {k : Kind} {ks : List Elem} (h : Storable k ks) (hk : k ≠ .subList) (hd : ∀ key, k ≠ .defItem key)
    (hp : ∀ p, k ≠ .part p) : ∀ e ∈ ks, shapeOf e.kind = kidShape k := by
  intro e he
  have ha := h.kids e he
  generalize e.kind = k' at ha
  cases k with
  | subList => exact absurd rfl hk
  | defItem key => exact absurd rfl (hd key)
  | part p => exact absurd rfl (hp p)
  | table a => cases k' <;> first | rfl | cases ha
  | row a => cases k' <;> first | rfl | cases ha
  | tabView => cases k' <;> first | rfl | cases ha
  | list t a => cases k' <;> first | rfl | cases ha
  | definitionList => cases k' <;> first | rfl | cases ha
  | _ => exact shape_elem (by simpa [allowedKid] using ha)

private theorem occurs_head {e : Elem} {es : List Elem} {k : Kind} {ks : List Elem} (ho : Occurs k ks [e]) : Occurs k ks (e :: es) := by
  cases ho with
  | here hm => exact .here (List.mem_cons.2 (.inl (List.mem_singleton.1 hm)))
  | inside hm hi => exact .inside (List.mem_cons.2 (.inl (List.mem_singleton.1 hm))) hi
private theorem occurs_tail {e : Elem} {es : List Elem} {k : Kind} {ks : List Elem} (ho : Occurs k ks es) : Occurs k ks (e :: es) := by
  cases ho with
  | here hm => exact .here (List.mem_cons_of_mem _ hm)
  | inside hm hi => exact .inside (List.mem_cons_of_mem _ hm) hi

mutual
private theorem elem_back {dates : DateCodec} (hc : ∀ v, dates.read (dates.write v) = some v) : ∀ (e : Elem),
    (∀ k ks, Occurs k ks [e] → Storable k ks) → ∀ n, nesting e ≤ n → readElem dates n (shapeOf e.kind) (writeElem dates e) = some e
  | .mk k ks, h, 0, hn => by simp [nesting] at hn
  | .mk k ks, h, n + 1, hn => by
    have hs : Storable k ks := h k ks (.here (by simp))
    have hn' : nesting.go ks ≤ n := by simpa [nesting] using hn
    have hkids := fun sh hsh => list_back hc ks (fun k' ks' ho => h k' ks' (.inside (List.mem_singleton.2 rfl) ho)) n hn' sh hsh
    have hshape := kids_shape hs
    have ha := hs.attrs
    cases k with
    | container c a =>
      rw [writeElem]
      dsimp only [Elem.kind, shapeOf]
      rw [elem_tagged]
      refine Eq.trans (b := (readCType (writeCType c)).bind fun c => (readAttrs (writeAttrs a)).bind fun a =>
        (readAll (readElem dates n .elem) (writeElem.go dates ks)).bind fun es => some (.mk (.container c a) es)) rfl ?_
      rw [ctype_back c (fun x hx => hs.level x a (by rw [hx])), attrs_back (m := a) ha, hkids .elem (hshape (by simp) (by simp) (by simp))]
      rfl
    | module m =>
      obtain rfl := hs.leaf rfl
      rw [writeElem]
      dsimp only [Elem.kind, shapeOf]
      rw [elem_tagged]
      refine Eq.trans (b := (readModule (writeModule m)).map fun m => .mk (.module m) []) rfl ?_
      rw [module_back m (fun b a e => by subst e; exact ha) (fun r s d e => hs.depth r s d (by rw [e]))]
      rfl
    | text s => obtain rfl := hs.leaf rfl; exact elem_tagged ..
    | raw s => obtain rfl := hs.leaf rfl; exact elem_tagged ..
    | «variable» s => obtain rfl := hs.leaf rfl; exact elem_tagged ..
    | email s => obtain rfl := hs.leaf rfl; exact elem_tagged ..
    | anchorName s => obtain rfl := hs.leaf rfl; exact elem_tagged ..
    | equationRef s => obtain rfl := hs.leaf rfl; exact elem_tagged ..
    | style s => obtain rfl := hs.leaf rfl; exact elem_tagged ..
    | footnote => obtain rfl := hs.leaf rfl; exact elem_unit ..
    | lineBreak => obtain rfl := hs.leaf rfl; exact elem_unit ..
    | horizontalRule => obtain rfl := hs.leaf rfl; exact elem_unit ..
    | bibCite l b => obtain rfl := hs.leaf rfl; exact elem_tagged ..
    | user l b => obtain rfl := hs.leaf rfl; exact elem_tagged ..
    | mathInline l => obtain rfl := hs.leaf rfl; exact elem_tagged ..
    | html l => obtain rfl := hs.leaf rfl; exact elem_tagged ..
    | footnoteBlock t b => obtain rfl := hs.leaf rfl; cases t <;> exact elem_tagged ..
    | bibBlock i t b => obtain rfl := hs.leaf rfl; cases t <;> exact elem_tagged ..
    | code i t => obtain rfl := hs.leaf rfl; cases t <;> exact elem_tagged ..
    | math t i => obtain rfl := hs.leaf rfl; cases t <;> exact elem_tagged ..
    | embed e => obtain rfl := hs.leaf rfl; cases e <;> exact elem_tagged ..
    | clearFloat e => obtain rfl := hs.leaf rfl; cases e <;> exact elem_tagged ..
    | lineBreaks m =>
      obtain rfl := hs.leaf rfl
      rw [writeElem]
      dsimp only [Elem.kind, shapeOf]
      rw [elem_tagged]
      refine Eq.trans (b := (if m = 0 then none else some m).map fun m => .mk (.lineBreaks m) []) rfl ?_
      rw [if_neg (hs.breaks m rfl)]
      rfl
    | table a =>
      rw [writeElem]
      dsimp only [Elem.kind, shapeOf]
      rw [elem_tagged]
      refine Eq.trans (b := (readAttrs (writeAttrs a)).bind fun a =>
        (readAll (readElem dates n .row) (writeElem.go dates ks)).bind fun es => some (.mk (.table a) es)) rfl ?_
      rw [attrs_back (m := a) ha, hkids .row (hshape (by simp) (by simp) (by simp))]
      rfl
    | tabView =>
      rw [writeElem]
      dsimp only [Elem.kind, shapeOf]
      rw [elem_tagged]
      refine Eq.trans (b := (readAll (readElem dates n .tab) (writeElem.go dates ks)).map fun es => .mk .tabView es) rfl ?_
      rw [hkids .tab (hshape (by simp) (by simp) (by simp))]
      rfl
    | definitionList =>
      rw [writeElem]
      dsimp only [Elem.kind, shapeOf]
      rw [elem_tagged]
      refine Eq.trans (b := (readAll (readElem dates n .defItem) (writeElem.go dates ks)).map fun es => .mk .definitionList es) rfl ?_
      rw [hkids .defItem (hshape (by simp) (by simp) (by simp))]
      rfl
    | anchor t a =>
      rw [writeElem]
      dsimp only [Elem.kind, shapeOf]
      rw [elem_tagged]
      refine Eq.trans (b := (asOpt readTarget (writeOption (fun t => .str (targetName t)) t)).bind fun t => (readAttrs (writeAttrs a)).bind fun a =>
        (readAll (readElem dates n .elem) (writeElem.go dates ks)).bind fun es => some (.mk (.anchor t a) es)) rfl ?_
      rw [target_back, attrs_back (m := a) ha, hkids .elem (hshape (by simp) (by simp) (by simp))]
      rfl
    | link t l e lb tg =>
      obtain rfl := hs.leaf rfl
      rw [writeElem]
      dsimp only [Elem.kind, shapeOf]
      rw [elem_tagged]
      refine Eq.trans (b := (readLinkType (.str (linkName t))).bind fun t => (readLoc (writeLoc l)).bind fun l =>
        (asOpt asStr (writeOpt e)).bind fun e => (readLabel (writeLabel lb)).bind fun lb =>
        (asOpt readTarget (writeOption (fun t => .str (targetName t)) tg)).bind fun tg => some (.mk (.link t l e lb tg) [])) rfl ?_
      rw [linkType_back, loc_back, opt_back, label_back, target_back]
      rfl
    | image s l al a =>
      obtain rfl := hs.leaf rfl
      rw [writeElem]
      dsimp only [Elem.kind, shapeOf]
      rw [elem_tagged]
      refine Eq.trans (b := (readSource (writeSource s)).bind fun s => (asOpt readLoc (writeOption writeLoc l)).bind fun l =>
        (asOpt readFloat (writeOption writeFloat al)).bind fun al => (readAttrs (writeAttrs a)).bind fun a => some (.mk (.image s l al a) [])) rfl ?_
      rw [source_back, locOpt_back, float_back, attrs_back (m := a) ha]
      rfl
    | list t a =>
      rw [writeElem]
      dsimp only [Elem.kind, shapeOf]
      rw [elem_tagged]
      refine Eq.trans (b := (readListType (.str (listName t))).bind fun t => (readAttrs (writeAttrs a)).bind fun a =>
        (readAll (readElem dates n .item) (writeElem.go dates ks)).bind fun es => some (.mk (.list t a) es)) rfl ?_
      rw [listType_back, attrs_back (m := a) ha, hkids .item (hshape (by simp) (by simp) (by simp))]
      rfl
    | radioButton s b a =>
      obtain rfl := hs.leaf rfl
      rw [writeElem]
      dsimp only [Elem.kind, shapeOf]
      rw [elem_tagged]
      refine Eq.trans (b := (readAttrs (writeAttrs a)).bind fun a => some (.mk (.radioButton s b a) [])) rfl ?_
      rw [attrs_back (m := a) ha]
      rfl
    | checkBox b a =>
      obtain rfl := hs.leaf rfl
      rw [writeElem]
      dsimp only [Elem.kind, shapeOf]
      rw [elem_tagged]
      refine Eq.trans (b := (readAttrs (writeAttrs a)).bind fun a => some (.mk (.checkBox b a) [])) rfl ?_
      rw [attrs_back (m := a) ha]
      rfl
    | iframe a u =>
      obtain rfl := hs.leaf rfl
      rw [writeElem]
      dsimp only [Elem.kind, shapeOf]
      rw [elem_tagged]
      refine Eq.trans (b := (readAttrs (writeAttrs a)).bind fun a => some (.mk (.iframe a u) [])) rfl ?_
      rw [attrs_back (m := a) ha]
      rfl
    | toc a al =>
      obtain rfl := hs.leaf rfl
      rw [writeElem]
      dsimp only [Elem.kind, shapeOf]
      rw [elem_tagged]
      refine Eq.trans (b := (readAttrs (writeAttrs a)).bind fun a =>
        (asOpt readAlign (writeOption (fun a => .str (alignName a)) al)).bind fun al => some (.mk (.toc a al) [])) rfl ?_
      rw [attrs_back (m := a) ha, alignOpt_back]
      rfl
    | collapsible a so st ht tp bt =>
      rw [writeElem]
      dsimp only [Elem.kind, shapeOf]
      rw [elem_tagged]
      refine Eq.trans (b := (readAll (readElem dates n .elem) (writeElem.go dates ks)).bind fun es => (readAttrs (writeAttrs a)).bind fun a =>
        (asOpt asStr (writeOpt st)).bind fun st => (asOpt asStr (writeOpt ht)).bind fun ht =>
          some (.mk (.collapsible a so st ht tp bt) es)) rfl ?_
      rw [attrs_back (m := a) ha, opt_back, opt_back, hkids .elem (hshape (by simp) (by simp) (by simp))]
      rfl
    | date v f b =>
      obtain rfl := hs.leaf rfl
      rw [writeElem]
      dsimp only [Elem.kind, shapeOf]
      rw [elem_tagged]
      refine Eq.trans (b := (dates.read (dates.write v)).bind fun v => (asOpt asStr (writeOpt f)).bind fun f => some (.mk (.date v f b) [])) rfl ?_
      rw [hc, opt_back]
      rfl
    | color c =>
      rw [writeElem]
      dsimp only [Elem.kind, shapeOf]
      rw [elem_tagged]
      refine Eq.trans (b := (readAll (readElem dates n .elem) (writeElem.go dates ks)).bind fun es => some (.mk (.color c) es)) rfl ?_
      rw [hkids .elem (hshape (by simp) (by simp) (by simp))]
      rfl
    | «include» p v l =>
      rw [writeElem]
      dsimp only [Elem.kind, shapeOf]
      rw [elem_tagged]
      refine Eq.trans (b := (readVars (writeVars v)).bind fun v => (readPage (writePage l)).bind fun l =>
        (readAll (readElem dates n .elem) (writeElem.go dates ks)).bind fun es => some (.mk (Kind.include p v l) es)) rfl ?_
      rw [vars_back (hs.vars p v l rfl), page_back, hkids .elem (hshape (by simp) (by simp) (by simp))]
      rfl
    | row a =>
      rw [writeElem]
      refine Eq.trans (b := (readAttrs (writeAttrs a)).bind fun a =>
        (readAll (readElem dates n .cell) (writeElem.go dates ks)).bind fun es => some (.mk (.row a) es)) rfl ?_
      rw [attrs_back (m := a) ha, hkids .cell (hshape (by simp) (by simp) (by simp))]
      rfl
    | cell hd m al a =>
      rw [writeElem]
      refine Eq.trans (b := (if m = 0 then none else some m).bind fun m =>
        (asOpt readAlign (writeOption (fun a => .str (alignName a)) al)).bind fun al => (readAttrs (writeAttrs a)).bind fun a =>
        (readAll (readElem dates n .elem) (writeElem.go dates ks)).bind fun es => some (.mk (.cell hd m al a) es)) rfl ?_
      rw [if_neg (hs.span _ m _ _ rfl), alignOpt_back, attrs_back (m := a) ha, hkids .elem (hshape (by simp) (by simp) (by simp))]
      rfl
    | tab l =>
      rw [writeElem]
      refine Eq.trans (b := (readAll (readElem dates n .elem) (writeElem.go dates ks)).bind fun es => some (.mk (.tab l) es)) rfl ?_
      rw [hkids .elem (hshape (by simp) (by simp) (by simp))]
      rfl
    | item a =>
      rw [writeElem]
      refine Eq.trans (b := (readAttrs (writeAttrs a)).bind fun a =>
        (readAll (readElem dates n .elem) (writeElem.go dates ks)).bind fun es => some (.mk (.item a) es)) rfl ?_
      rw [attrs_back (m := a) ha, hkids .elem (hshape (by simp) (by simp) (by simp))]
      rfl
    | rubyText a =>
      rw [writeElem]
      refine Eq.trans (b := (readAttrs (writeAttrs a)).bind fun a =>
        (readAll (readElem dates n .elem) (writeElem.go dates ks)).bind fun es => some (.mk (.rubyText a) es)) rfl ?_
      rw [attrs_back (m := a) ha, hkids .elem (hshape (by simp) (by simp) (by simp))]
      rfl
    | defKey =>
      rw [writeElem]
      refine Eq.trans (b := (readAll (readElem dates n .elem) (writeElem.go dates ks)).map fun es => .mk .defKey es) rfl ?_
      rw [hkids .elem (hshape (by simp) (by simp) (by simp))]
      rfl
    | defValue =>
      rw [writeElem]
      refine Eq.trans (b := (readAll (readElem dates n .elem) (writeElem.go dates ks)).map fun es => .mk .defValue es) rfl ?_
      rw [hkids .elem (hshape (by simp) (by simp) (by simp))]
      rfl
    | defItem key =>
      obtain ⟨a, b, rfl⟩ := hs.defs key rfl
      have hin : ∀ e ∈ [Elem.mk .defKey a, .mk .defValue b], ∀ k' ks', Occurs k' ks' [e] → Storable k' ks' := fun e he k' ks' ho =>
        h k' ks' (.inside (List.mem_singleton.2 rfl) (by
          cases ho with
          | here hm => rw [← List.mem_singleton.1 hm] at he; exact .here he
          | inside hm hi => rw [← List.mem_singleton.1 hm] at he; exact .inside he hi))
      have h1 := elem_back hc (.mk .defKey a) (hin _ (by simp)) n (by simp only [nesting.go] at hn'; omega)
      have h2 := elem_back hc (.mk .defValue b) (hin _ (by simp)) n (by simp only [nesting.go] at hn'; omega)
      rw [writeElem]
      refine Eq.trans (b := (readElem dates n .defKey (writeElem dates (.mk .defKey a))).bind fun a =>
        (readElem dates n .defValue (writeElem dates (.mk .defValue b))).bind fun b => some (.mk (.defItem key) [a, b])) rfl ?_
      dsimp only [Elem.kind, shapeOf] at h1 h2
      rw [h1, h2]
      rfl
    | part p =>
      have h1 := hs.one (.inr ⟨p, rfl⟩)
      match ks, h1, h, hn', hs with
      | [e], _, h, hn', hs =>
        have he := elem_back hc e (fun k' ks' ho => h k' ks' (.inside (List.mem_singleton.2 rfl) ho)) n (by simpa [nesting.go] using hn')
        have hk := hs.kids e (by simp)
        rw [writeElem]
        dsimp only [Elem.kind, shapeOf]
        rw [elem_tagged]
        generalize hw : writeElem dates e = j at he
        have hgo : writeElem.go dates [e] = [j] := by rw [writeElem.go, hw, writeElem.go]
        rw [hgo]
        obtain ⟨k', ks'⟩ := e
        dsimp only [Elem.kind] at hk he
        cases p
        all_goals
          cases k' <;> first | cases hk; done | skip
          dsimp only [shapeOf] at he
        · exact (show readData dates _ (readElem dates n) .part (some (.obj [(partName .listItem, j)])) =
            (readElem dates n .item j).map fun e => .mk (.part .listItem) [e] from rfl).trans (by rw [he]; rfl)
        · exact (show readData dates _ (readElem dates n) .part (some (.obj [(partName .tableRow, j)])) =
            (readElem dates n .row j).map fun e => .mk (.part .tableRow) [e] from rfl).trans (by rw [he]; rfl)
        · exact (show readData dates _ (readElem dates n) .part (some (.obj [(partName .tableCell, j)])) =
            (readElem dates n .cell j).map fun e => .mk (.part .tableCell) [e] from rfl).trans (by rw [he]; rfl)
        · exact (show readData dates _ (readElem dates n) .part (some (.obj [(partName .tab, j)])) =
            (readElem dates n .tab j).map fun e => .mk (.part .tab) [e] from rfl).trans (by rw [he]; rfl)
        · exact (show readData dates _ (readElem dates n) .part (some (.obj [(partName .rubyText, j)])) =
            (readElem dates n .rubyText j).map fun e => .mk (.part .rubyText) [e] from rfl).trans (by rw [he]; rfl)
    | subList =>
      have h1 := hs.one (.inl rfl)
      match ks, h1, h, hn', hs with
      | [e], _, h, hn', hs =>
        have he := elem_back hc e (fun k' ks' ho => h k' ks' (.inside (List.mem_singleton.2 rfl) ho)) n (by simpa [nesting.go] using hn')
        have hk := hs.kids e (by simp)
        obtain ⟨k', ks'⟩ := e
        dsimp only [Elem.kind] at hk he
        cases k' <;> first | cases hk; done | skip
        dsimp only [shapeOf] at he
        refine Eq.trans (b := (readElem dates n .elem (writeElem dates (.mk (.list _ _) ks'))).bind fun e => some (.mk .subList [e])) rfl ?_
        rw [he]
        rfl
private theorem list_back {dates : DateCodec} (hc : ∀ v, dates.read (dates.write v) = some v) : ∀ (es : List Elem),
    (∀ k ks, Occurs k ks es → Storable k ks) → ∀ n, nesting.go es ≤ n → ∀ sh, (∀ e ∈ es, shapeOf e.kind = sh) →
      readAll (readElem dates n sh) (writeElem.go dates es) = some es
  | [], _, _, _, _, _ => rfl
  | e :: es, h, n, hn, sh, hsh => by
    simp only [nesting.go] at hn
    have h1 := elem_back hc e (fun k ks ho => h k ks (occurs_head ho)) n (by omega)
    have h2 := list_back hc es (fun k ks ho => h k ks (occurs_tail ho)) n (by omega) sh fun e he => hsh e (by simp [he])
    rw [hsh e (by simp)] at h1
    simp only [writeElem.go, readAll, h1, h2]
    rfl
end

private theorem nesting_mem {es : List Elem} {n : Nat} : nesting.go es ≤ n ↔ ∀ e ∈ es, nesting e ≤ n := by
  induction es with
  | nil => simp [nesting.go]
  | cons e es ih =>
    simp only [nesting.go, List.mem_cons, forall_eq_or_imp, ← ih]
    omega

/-- A tree whose nodes are as the types of its fields in Rust guarantee; at the top there are only elements. -/
def StorableTree (t : Tree) : Prop :=
  ∀ es, t.Forest es → (∀ e ∈ es, e.kind.isStruct = false) ∧ ∀ k ks, Occurs k ks es → Storable k ks

end Serde
open Serde

/-- C91: a syntax tree that is written as JSON and read back is the same tree, in every field of every element. -/
theorem C91_round_trip (dates : DateCodec) (hd : ∀ v, dates.read (dates.write v) = some v) (t : Tree) (h : StorableTree t)
    {n : Nat} (hn : treeNesting t ≤ n) : readTree dates n (writeTree dates t) = some t := by
  have go : ∀ {es}, t.Forest es → nesting.go es ≤ n → readAll (readElem dates n .elem) (writeElem.go dates es) = some es := fun hf hn =>
    list_back hd _ (h _ hf).2 n hn .elem fun e he => shape_elem ((h _ hf).1 e he)
  unfold treeNesting at hn
  have h1 := go .body (by omega)
  have h2 := go .toc (by omega)
  have h3 : readAll asStr (t.htmlBlocks.map .str) = some t.htmlBlocks := readAll_map fun _ _ => rfl
  have h4 : readAll readCode (t.codeBlocks.map writeCode) = some t.codeBlocks := readAll_map fun b _ => by
    obtain ⟨c, name⟩ := b
    cases name <;> rfl
  have h5 : readAll (fun j => (asArr j).bind fun l => readAll (readElem dates n .elem) l) (t.footnotes.map fun es => .arr (writeElem.go dates es)) =
      some t.footnotes := readAll_map fun es hm => go (.footnote hm) (nesting_mem.2 fun e he =>
        nesting_mem.1 (show nesting.go t.footnotes.flatten ≤ n by omega) e (List.mem_flatten.2 ⟨es, hm, he⟩))
  have h6 : readAll (fun j => (asArr j).bind fun l => (readAll (readEntry dates n) l).bind fun l => some (Bibl.mk l))
      (t.bibliographies.map fun b => .arr (b.entries.map (writeEntry dates))) = some t.bibliographies := readAll_map fun b hb => by
    have : readAll (readEntry dates n) (b.entries.map (writeEntry dates)) = some b.entries := readAll_map fun x hx => by
      obtain ⟨l, es⟩ := x
      have := go (.bibliography hb hx) (nesting_mem.2 fun e he =>
        nesting_mem.1 (show nesting.go (t.bibliographies.flatMap fun b => b.entries.flatMap (·.2)) ≤ n by omega) e
          (List.mem_flatMap.2 ⟨b, hb, List.mem_flatMap.2 ⟨_, hx, he⟩⟩))
      refine Eq.trans (b := (readAll (readElem dates n .elem) (writeElem.go dates es)).bind fun es => some (l, es)) rfl ?_
      rw [this]
      rfl
    refine Eq.trans (b := (readAll (readEntry dates n) (b.entries.map (writeEntry dates))).bind fun l => some (Bibl.mk l)) rfl ?_
    rw [this]
    rfl
  refine Eq.trans (b := (readAll (readElem dates n .elem) (writeElem.go dates t.elements)).bind fun a =>
    (readAll (readElem dates n .elem) (writeElem.go dates t.toc)).bind fun b => (readAll asStr (t.htmlBlocks.map .str)).bind fun c =>
    (readAll readCode (t.codeBlocks.map writeCode)).bind fun d =>
    (readAll (fun j => (asArr j).bind fun l => readAll (readElem dates n .elem) l) (t.footnotes.map fun es => .arr (writeElem.go dates es))).bind fun e =>
    (readAll (fun j => (asArr j).bind fun l => (readAll (readEntry dates n) l).bind fun l => some (Bibl.mk l))
      (t.bibliographies.map fun b => .arr (b.entries.map (writeEntry dates)))).bind fun f => some ⟨a, b, c, d, e, f, t.wikitextLen⟩) rfl ?_
  rw [h1, h2, h3, h4, h5, h6]
  rfl

variable {w : World} {text : Str} {info : PageInfo} {settings : Settings}

/-- C91: what parsing a page yields can be written as JSON and read back. -/
theorem C91_parsed_round_trip {o : Outcome} (h : parse w (tokenize text) info settings = some (.ok o)) (dates : DateCodec)
    (hd : ∀ v, dates.read (dates.write v) = some v) {n : Nat} (hn : treeNesting o.tree ≤ n) :
    readTree dates n (writeTree dates o.tree) = some o.tree := by
  refine C91_round_trip dates hd _ (fun es hf => ⟨C61_top_level h hf, fun k ks ho => ?_⟩) hn
  rcases parsed_node h hf ho with ⟨g, hk⟩ | ⟨rfl, rfl⟩
  · have hs := hk.special
    refine ⟨hk.kids, hk.leaf, hk.attrs.1, ?_, ?_, ?_, ?_, ?_, ?_, ?_⟩
    · rintro x a rfl; exact ⟨hs.1, hs.2.1⟩
    · rintro m rfl; have := hs.1; omega
    · rintro _ m _ _ rfl; have : 1 ≤ m := hs; omega
    · rintro _ _ d rfl; exact hs.2
    · rintro _ v _ rfl; exact hs.2
    · rintro key rfl; exact hs
    · rintro (rfl | ⟨p, rfl⟩) <;> exact hs
  · exact ⟨by simp, fun _ => rfl, by simp [Kind.attrs, SortedKeys], by simp, by simp, by simp, by simp, by simp, by simp, by simp⟩

/-- C91: two pages whose trees have the same JSON have the same tree, so nothing is lost in it. -/
theorem C91_json_tells_trees_apart {w' : World} {text' : Str} {info' : PageInfo} {settings' : Settings} {o o' : Outcome}
    (h : parse w (tokenize text) info settings = some (.ok o)) (h' : parse w' (tokenize text') info' settings' = some (.ok o'))
    (dates : DateCodec) (hd : ∀ v, dates.read (dates.write v) = some v) (he : writeTree dates o.tree = writeTree dates o'.tree) :
    o.tree = o'.tree := by
  have h1 := C91_parsed_round_trip h dates hd (n := max (treeNesting o.tree) (treeNesting o'.tree)) (by omega)
  have h2 := C91_parsed_round_trip h' dates hd (n := max (treeNesting o.tree) (treeNesting o'.tree)) (by omega)
  rw [he, h2] at h1
  exact (Option.some.inj h1).symm

private theorem mem_hashInsert {k v : Str} {m : List (Str × Str)} (h : (m.map (·.1)).Nodup) :
    ((hashInsert k v m).map (·.1)).Nodup ∧
      ∀ p, p ∈ hashInsert k v m ↔ p = (k, v) ∨ p.1 ≠ k ∧ p ∈ m := by
  induction m with
  | nil => simp [hashInsert]
  | cons q m ih =>
    obtain ⟨k', v'⟩ := q
    simp only [List.map_cons, List.nodup_cons] at h
    obtain ⟨i1, i2⟩ := ih h.2
    by_cases e : k' = k
    · subst e
      rw [hashInsert, if_pos rfl]
      refine ⟨by simpa using h, fun p => ?_⟩
      simp only [List.mem_cons]
      constructor
      · rintro (rfl | hp)
        · exact .inl rfl
        · exact .inr ⟨fun e => h.1 (by rw [← e]; exact List.mem_map.2 ⟨p, hp, rfl⟩), .inr hp⟩
      · rintro (rfl | ⟨h1, rfl | h2⟩)
        · exact .inl rfl
        · exact absurd rfl h1
        · exact .inr h2
    · rw [hashInsert, if_neg e]
      refine ⟨?_, fun p => ?_⟩
      · simp only [List.map_cons, List.nodup_cons]
        refine ⟨fun hm => ?_, i1⟩
        obtain ⟨p, hp, hk⟩ := List.mem_map.1 hm
        rcases (i2 p).1 hp with rfl | ⟨_, hp⟩
        · exact e hk.symm
        · exact h.1 (by rw [← hk]; exact List.mem_map.2 ⟨p, hp, rfl⟩)
      · simp only [List.mem_cons, i2]
        constructor
        · rintro (rfl | h | h)
          · exact .inr ⟨e, .inl rfl⟩
          · exact .inl h
          · exact .inr ⟨h.1, .inr h.2⟩
        · rintro (h | ⟨h1, h2 | h2⟩)
          · exact .inr (.inl h)
          · exact .inl h2
          · exact .inr (.inr ⟨h1, h2⟩)

/-- What a list of fields, read one after the other into a map, gives a key: the value of its last field. -/
private theorem fold_last {ins : Str → Str → List (Str × Str) → List (Str × Str)} {Good : List (Str × Str) → Prop}
    (hins : ∀ k v m, Good m → Good (ins k v m) ∧ ∀ p, p ∈ ins k v m ↔ p = (k, v) ∨ p.1 ≠ k ∧ p ∈ m) :
    ∀ (l acc : List (Str × Str)), Good acc → Good (l.foldl (fun m p => ins p.1 p.2 m) acc) ∧
      ∀ k v, (k, v) ∈ l.foldl (fun m p => ins p.1 p.2 m) acc ↔
        (∃ pre post, l = pre ++ (k, v) :: post ∧ k ∉ post.map (·.1)) ∨ k ∉ l.map (·.1) ∧ (k, v) ∈ acc := by
  intro l
  induction l with
  | nil => intro acc h; simpa using h
  | cons q l ih =>
    intro acc h
    obtain ⟨k0, v0⟩ := q
    obtain ⟨h1, h2⟩ := hins k0 v0 acc h
    obtain ⟨i1, i2⟩ := ih _ h1
    refine ⟨i1, fun k v => ?_⟩
    rw [List.foldl_cons, i2, h2]
    simp only [List.map_cons, List.mem_cons, not_or]
    constructor
    · rintro (⟨pre, post, rfl, hp⟩ | ⟨hk, e | ⟨e, hm⟩⟩)
      · exact .inl ⟨_ :: pre, post, rfl, hp⟩
      · cases e
        exact .inl ⟨[], l, rfl, hk⟩
      · exact .inr ⟨⟨e, hk⟩, hm⟩
    · rintro (⟨pre, post, e, hp⟩ | ⟨⟨e, hk⟩, hm⟩)
      · cases pre with
        | nil => cases e; exact .inr ⟨hp, .inl rfl⟩
        | cons x pre => cases e; exact .inl ⟨pre, post, rfl, hp⟩
      · exact .inr ⟨hk, .inr ⟨e, hm⟩⟩

private theorem mem_btInsert {k v : Str} {m : AttrMap} (h : SortedKeys m) :
    SortedKeys (btInsert k v m) ∧ ∀ p, p ∈ btInsert k v m ↔ p = (k, v) ∨ p.1 ≠ k ∧ p ∈ m := by
  refine ⟨btInsert_sorted h, ?_⟩
  induction m with
  | nil => simp [btInsert]
  | cons q m ih =>
    obtain ⟨k', v'⟩ := q
    have hlt : ∀ p ∈ m, strLt k' p.1 = true := (List.pairwise_cons.1 h).1
    have ih := ih (List.pairwise_cons.1 h).2
    have ne : ∀ {a b : Str}, strLt a b = true → b ≠ a := by
      rintro a b h rfl; rw [strLt_irrefl] at h; cases h
    intro p
    rw [btInsert]
    split
    · rename_i e; subst e
      simp only [List.mem_cons]
      constructor
      · rintro (rfl | hp)
        · exact .inl rfl
        · exact .inr ⟨ne (hlt p hp), .inr hp⟩
      · rintro (rfl | ⟨h1, rfl | h2⟩)
        · exact .inl rfl
        · exact absurd rfl h1
        · exact .inr h2
    · rename_i e
      split
      · rename_i hl
        simp only [List.mem_cons]
        constructor
        · rintro (rfl | rfl | hp)
          · exact .inl rfl
          · exact .inr ⟨ne hl, .inl rfl⟩
          · exact .inr ⟨ne (strLt_trans hl (hlt p hp)), .inr hp⟩
        · rintro (h | ⟨_, h⟩)
          · exact .inl h
          · exact .inr h
      · simp only [List.mem_cons, ih]
        constructor
        · rintro (rfl | h | h)
          · exact .inr ⟨fun e' => e e'.symm, .inl rfl⟩
          · exact .inl h
          · exact .inr ⟨h.1, .inr h.2⟩
        · rintro (h | ⟨h1, h2 | h2⟩)
          · exact .inr (.inl h)
          · exact .inl h2
          · exact .inr (.inr ⟨h1, h2⟩)

private theorem readAll_strs {fs : List (Str × Json)} {l : List (Str × Str)} :
    readAll (fun (p : Str × Json) => (asStr p.2).map fun v => (p.1, v)) fs = some l ↔ fs = l.map fun p => (p.1, Json.str p.2) := by
  constructor
  · intro h
    induction fs generalizing l with
    | nil => cases h; rfl
    | cons p fs ih =>
      obtain ⟨k, j⟩ := p
      rw [readAll] at h
      obtain ⟨a, h1, h⟩ := Option.bind_eq_some_iff.1 h
      obtain ⟨b, h2, h⟩ := Option.bind_eq_some_iff.1 h
      cases h
      obtain ⟨v, h3, rfl⟩ := Option.map_eq_some_iff.1 h1
      rw [ih h2]
      cases j <;> cases h3
      rfl
  · rintro rfl
    exact pairs_back l

/-- The value a list of fields gives a key: that of the last field with that key. -/
def LastField (fs : List (Str × Json)) (k v : Str) : Prop :=
  ∃ pre post, fs = pre ++ (k, .str v) :: post ∧ k ∉ post.map (·.1)

private theorem lastField_iff {l : List (Str × Str)} {k v : Str} :
    LastField (l.map fun p => (p.1, Json.str p.2)) k v ↔ ∃ pre post, l = pre ++ (k, v) :: post ∧ k ∉ post.map (·.1) := by
  constructor
  · rintro ⟨pre, post, e, h⟩
    obtain ⟨a, b, rfl, h1, h2⟩ := List.map_eq_append_iff.1 e
    obtain ⟨⟨k', v'⟩, c, rfl, h3, h4⟩ := List.map_eq_cons_iff.1 h2
    cases h3
    refine ⟨a, c, rfl, fun hm => h ?_⟩
    rw [← h4, List.map_map]
    exact hm
  · rintro ⟨pre, post, rfl, h⟩
    refine ⟨pre.map fun p => (p.1, Json.str p.2), post.map fun p => (p.1, Json.str p.2), by simp, ?_⟩
    rw [List.map_map]
    exact h

/-- Variables and attributes are read from any object whose values are texts, and from nothing else; a key given several
times has the value given last, and no key has two values. -/
theorem C91_repeated_keys (j : Json) :
    (∀ m, readVars j = some m → (m.map (·.1)).Nodup ∧ ∃ fs, j = .obj fs ∧ (∀ p ∈ fs, ∃ v, p.2 = .str v) ∧
      ∀ k v, (k, v) ∈ m ↔ LastField fs k v) ∧
    (∀ m, readAttrs j = some m → (m.map (·.1)).Nodup ∧ ∃ fs, j = .obj fs ∧ (∀ p ∈ fs, ∃ v, p.2 = .str v) ∧
      ∀ k v, (k, v) ∈ m ↔ LastField fs k v) ∧
    (((∃ m, readVars j = some m) ∨ ∃ m, readAttrs j = some m) ↔ ∃ fs, j = .obj fs ∧ ∀ p ∈ fs, ∃ v, p.2 = .str v) := by
  have nodup : ∀ {m : AttrMap}, SortedKeys m → (m.map (·.1)).Nodup := by
    intro m h
    rw [List.Nodup, List.pairwise_map]
    refine List.Pairwise.imp (fun {a b} h => ?_) h
    intro e
    have : strLt a.1 b.1 = true := h
    rw [e, strLt_irrefl] at this
    cases this
  have strs : ∀ {l : List (Str × Str)}, ∀ p ∈ (l.map fun p => (p.1, Json.str p.2)), ∃ v, p.2 = Json.str v := by
    intro l p hp
    obtain ⟨q, _, rfl⟩ := List.mem_map.1 hp
    exact ⟨_, rfl⟩
  have back : ∀ {fs : List (Str × Json)}, (∀ p ∈ fs, ∃ v, p.2 = Json.str v) → ∃ l : List (Str × Str), fs = l.map fun p => (p.1, Json.str p.2) := by
    intro fs
    induction fs with
    | nil => exact fun _ => ⟨[], rfl⟩
    | cons p fs ih =>
      intro h
      obtain ⟨k, x⟩ := p
      obtain ⟨v, hv⟩ := h _ List.mem_cons_self
      obtain ⟨l, rfl⟩ := ih fun p hp => h p (List.mem_cons_of_mem _ hp)
      dsimp only at hv
      subst hv
      exact ⟨(k, v) :: l, rfl⟩
  refine ⟨fun m h => ?_, fun m h => ?_, ?_, ?_⟩
  · unfold readVars at h
    obtain ⟨fs, h1, hb⟩ := Option.bind_eq_some_iff.1 h
    obtain ⟨l, h2, hm⟩ := Option.bind_eq_some_iff.1 hb
    cases j with
    | obj fs' =>
      cases h1
      obtain ⟨a, b⟩ := fold_last (ins := hashInsert) (Good := fun m => (m.map (·.1)).Nodup) (fun k v m h => mem_hashInsert h) l [] (by simp)
      obtain rfl := readAll_strs.1 h2
      obtain rfl := Option.some.inj hm
      refine ⟨a, _, rfl, strs, fun k v => ?_⟩
      rw [b, lastField_iff]
      simp
    | _ => cases h1
  · unfold readAttrs at h
    obtain ⟨fs, h1, hb⟩ := Option.bind_eq_some_iff.1 h
    obtain ⟨l, h2, hm⟩ := Option.bind_eq_some_iff.1 hb
    cases j with
    | obj fs' =>
      cases h1
      obtain ⟨a, b⟩ := fold_last (ins := btInsert) (Good := SortedKeys) (fun k v m h => mem_btInsert h) l [] (by simp [SortedKeys])
      obtain rfl := readAll_strs.1 h2
      obtain rfl := Option.some.inj hm
      refine ⟨nodup a, _, rfl, strs, fun k v => ?_⟩
      rw [b, lastField_iff]
      simp
    | _ => cases h1
  · rintro (⟨m, h⟩ | ⟨m, h⟩)
    all_goals
      first | unfold readVars at h | unfold readAttrs at h
      obtain ⟨fs, h1, h⟩ := Option.bind_eq_some_iff.1 h
      obtain ⟨l, h2, h⟩ := Option.bind_eq_some_iff.1 h
      cases j with
      | obj fs' =>
        cases h1
        obtain rfl := readAll_strs.1 h2
        exact ⟨_, rfl, strs⟩
      | _ => cases h1
  · rintro ⟨fs, rfl, h⟩
    obtain ⟨l, rfl⟩ := back h
    refine .inl ⟨l.foldl (fun m p => hashInsert p.1 p.2 m) [], ?_⟩
    unfold readVars
    rw [show asObj (Json.obj (l.map fun p => (p.1, Json.str p.2))) = some _ from rfl]
    simp only [Option.bind_eq_bind, Option.bind_some]
    rw [readAll_strs.2 rfl]
    rfl

example : readVars (.obj [(c!"a", .str c!"1"), (c!"b", .str c!"2"), (c!"a", .str c!"3")]) = some [(c!"a", c!"3"), (c!"b", c!"2")] ∧
    readAttrs (.obj [(c!"b", .str c!"2"), (c!"a", .str c!"1"), (c!"b", .str c!"3")]) = some [(c!"a", c!"1"), (c!"b", c!"3")] ∧
    readVars (.obj [(c!"a", .null)]) = none := by decide +kernel

/-- C91: the names of link types in the HTML are those in the JSON. -/
theorem C91_link_types (t : LinkType) : t.name = linkName t := by cases t <;> rfl

/-- A way to write dates, in unary. -/
def unaryDates : DateCodec where
  write v := List.replicate v.localSecs.toNat '+' ++ List.replicate (-v.localSecs).toNat '-' ++
    (match v.offset with
     | none => ['n']
     | some o => List.replicate o.toNat '>' ++ List.replicate (-o).toNat '<')
  read s := some ⟨(s.count '+' : Int) - (s.count '-' : Int),
    if s.count 'n' = 0 then some ((s.count '>' : Int) - (s.count '<' : Int)) else none⟩

/-- Dates can be written so that they can be read back, as `C91_round_trip` asks. -/
theorem unaryDates_back (v : DateVal) : unaryDates.read (unaryDates.write v) = some v := by
  obtain ⟨l, o⟩ := v
  cases o with
  | none =>
    simp [unaryDates, List.count_append, List.count_cons, List.count_replicate]
    omega
  | some o =>
    simp [unaryDates, List.count_append, List.count_cons, List.count_replicate]
    omega

/-- A page with an attribute, a date, a table, a footnote and a code block. -/
def jsonPage : Str := c!"[[div class=\"a\"]]\n||x||\n[[/div]]\n[[footnote]]n[[/footnote]] [[date 0]]\n[[code]]\nc\n[[/code]]"

/-- Its tree comes back from its JSON, and is not empty. -/
example : (match parse plainWorld (tokenize jsonPage) somePage (Settings.fromMode .page .wikidot) with
    | some (.ok o) => o.tree.elements.length == 4 && treeNesting o.tree == 5 && o.tree.footnotes.length == 1 &&
        (readTree unaryDates 5 (writeTree unaryDates o.tree)).isSome
    | _ => false) = true := by decide +kernel

/-- The brackets, names and texts of a JSON value. -/
def Serde.Json.written : Json → Str
  | .null => c!"null"
  | .bool b => if b then c!"true" else c!"false"
  | .num n => Nat.toDigits 10 n
  | .str s => '\'' :: s ++ ['\'']
  | .arr l => '[' :: texts l ++ [']']
  | .obj l => '{' :: fields l ++ ['}']
where
  /-- in an array -/
  texts : List Json → Str
    | [] => []
    | j :: l => written j ++ ',' :: texts l
  /-- in an object -/
  fields : List (Str × Json) → Str
    | [] => []
    | (k, j) :: l => k ++ ':' :: written j ++ ',' :: fields l

/-- What the JSON of a page looks like. -/
example : (match parse plainWorld (tokenize c!"**b**") somePage (Settings.fromMode .page .wikidot) with
    | some (.ok o) => (writeTree unaryDates o.tree).written
    | _ => []) = c!"{elements:[" ++
      c!"{element:'container',data:{type:'paragraph',attributes:{},elements:[" ++
        c!"{element:'container',data:{type:'bold',attributes:{},elements:[{element:'text',data:'b',},],},},],},}," ++
      c!"{element:'footnote-block',data:{title:null,hide:false,},},]," ++
      c!"table-of-contents:[],html-blocks:[],code-blocks:[],footnotes:[],bibliographies:[],wikitext-len:5,}" := by
  decide +kernel

end Ftml
