import Verif.Lemmas.HtmlWalk
/- Relations between rendering actions that are closed under the ways actions are put together. -/
namespace Ftml
open HtmlSpec

/-- A relation closed under the ways actions are put together, for changes of the state that touch neither the
footnote counter, nor the variable scopes, nor the links. -/
structure Cl (R : Act → Act → Prop) : Prop where
  emit : ∀ s, R (emit s) (emit s)
  seq : ∀ {a a' b b'}, R a a' → R b b' → R (a ;; b) (a' ;; b')
  read : ∀ (f f' : HSt → Act), (∀ st, R (f st) (f' st)) → R (fun st => f st st) (fun st => f' st st)
  upd : ∀ f : HSt → HSt, (∀ st, (f st).footnote = st.footnote ∧ (f st).scopes = st.scopes ∧ (f st).links = st.links) →
    R (modifySt f) (modifySt f)

/-- Occurrence in one element, split. -/
theorem occurs_head {k : Kind} {ks : List Elem} {e : Elem} {es : List Elem} (h : Occurs k ks [e]) : Occurs k ks (e :: es) := by
  cases h with
  | here h => simp only [List.mem_singleton] at h; exact .here (by simp [h])
  | inside h h' => simp only [List.mem_singleton] at h; exact .inside (by rw [h]; simp) h'
theorem occurs_tail {k : Kind} {ks : List Elem} {e : Elem} {es : List Elem} (h : Occurs k ks es) : Occurs k ks (e :: es) := by
  cases h with
  | here h => exact .here (by simp [h])
  | inside h h' => exact .inside (List.mem_cons_of_mem _ h) h'

section
variable {R : Act → Act → Prop} (cl : Cl R) {env : HEnv} {ext ext' : List Elem → Act}
include cl

theorem Cl.skip : R skip skip := cl.emit []
theorem Cl.esc (s : Str) : R (emitEsc s) (emitEsc s) := cl.emit _
theorem Cl.tagA (t : Str) (en : List AttrEntry) (m : AttrMap) {b b' : Act} (h : R b b') :
    R (tagA t en m b) (tagA t en m b') := cl.seq (cl.emit _) (cl.seq h (cl.emit _))
theorem Cl.tag (t : Str) (en : List AttrEntry) {b b' : Act} (h : R b b') :
    R (tag t en b) (tag t en b') := cl.tagA t en [] h
theorem Cl.repeat {a a' : Act} (h : R a a') (n : Nat) : R (repeatAct a n) (repeatAct a' n) := by
  induction n with
  | zero => exact cl.skip
  | succ n ih => exact cl.seq h ih
theorem Cl.forEach {α : Type} {f f' : Nat → α → Act} {l : List α} (h : ∀ i, ∀ x ∈ l, R (f i x) (f' i x)) (i : Nat) :
    R (forEach f i l) (forEach f' i l) := by
  induction l generalizing i with
  | nil => exact cl.skip
  | cons x l ih => exact cl.seq (h i x (by simp)) (ih (fun j y hy => h j y (by simp [hy])) (i + 1))

theorem Cl.sprite (id : Str) : R (sprite id) (sprite id) := cl.tag _ _ (cl.tag _ _ cl.skip)

theorem Cl.renderCode (s : Str) (l : Option Str) : R (renderCode s l) (renderCode s l) :=
  cl.seq (cl.upd _ fun _ => ⟨rfl, rfl, rfl⟩) (cl.tag _ _ (cl.seq (cl.tag _ _ (cl.seq (cl.tag _ _
    (cl.seq (cl.sprite _) (cl.sprite _))) (cl.tag _ _ (cl.esc _)))) (cl.tag _ _ (cl.tag _ _ (cl.esc _)))))

theorem Cl.renderLatex (name : Option Str) (index : Option Nat) (s : Str) (block : Bool) :
    R (renderLatex env name index s block) (renderLatex env name index s block) := by
  refine cl.tag _ _ (cl.seq ?_ (cl.seq (cl.tag _ _ (cl.esc _)) ?_))
  · cases index with
    | none => exact cl.skip
    | some i => exact cl.tag _ _ (cl.seq (cl.tag _ _ (cl.esc _)) (cl.seq (cl.emit _) (cl.tag _ _ (cl.esc _))))
  · split
    · exact cl.tag _ _ (cl.emit _)
    · exact cl.tag _ _ (cl.esc _)

theorem Cl.renderUser (name : Str) (avatar : Bool) : R (renderUser name avatar) (renderUser name avatar) := by
  refine cl.tag _ _ (cl.tag _ _ (cl.seq ?_ (cl.tag _ _ (cl.esc _))))
  split
  · exact cl.seq (cl.tag _ _ (cl.sprite _)) (cl.tag _ _ cl.skip)
  · exact cl.skip

theorem Cl.renderDate (d : DateVal) (hover : Bool) : R (renderDate env d hover) (renderDate env d hover) :=
  cl.tag _ _ (cl.esc _)

theorem Cl.renderEmbed (e : Embed) : R (renderEmbed e) (renderEmbed e) := by
  refine cl.tag _ _ ?_
  cases e <;> exact cl.tag _ _ cl.skip

theorem Cl.renderLink (loc : LinkLoc) (extra : Option Str) (label : LinkLabel) (target : Option AnchorTarget)
    (lt : LinkType)
    (hl : R (modifySt (fun st => { st with links := addLink loc st.links })) (modifySt (fun st => { st with links := addLink loc st.links })))
    (hd : getLinkLabel env.info.site loc label = none → R (die .pageLabel) (die .pageLabel)) :
    R (renderLink env loc extra label target lt) (renderLink env loc extra label target lt) := by
  unfold Ftml.renderLink
  dsimp only
  refine cl.seq hl (cl.tag _ _ ?_)
  split
  · exact cl.esc _
  · next h => exact hd h

theorem Cl.renderImage (src : ImageSource) (link : Option LinkLoc) (align : Option FloatAlign) (attrs : AttrMap) :
    R (renderImage env src link align attrs) (renderImage env src link align attrs) := by
  unfold Ftml.renderImage
  split
  · exact cl.tag _ _ (cl.esc _)
  · refine cl.tag _ _ ?_
    split
    · exact cl.tag _ _ (cl.tagA _ _ _ cl.skip)
    · exact cl.tagA _ _ _ cl.skip

theorem Cl.renderStyle (css : Str)
    (hd : env.w.css env.settings.minifyCss css = .panic → R (die .css) (die .css)) :
    R (renderStyle env css) (renderStyle env css) := by
  unfold Ftml.renderStyle
  split
  · next h => exact hd h
  · exact cl.skip
  · exact cl.tag _ _ (cl.emit _)

theorem Cl.renderEquationRef (name : Str) : R (renderEquationRef name) (renderEquationRef name) :=
  cl.tag _ _ (cl.seq (cl.tag _ _ (cl.esc _)) (cl.tag _ _ cl.skip))

theorem Cl.renderToc (he : R (ext env.toc) (ext' env.toc)) (attrs : AttrMap) (align : Option Alignment) :
    R (renderToc env ext attrs align) (renderToc env ext' attrs align) :=
  cl.tagA _ _ _ (cl.seq (cl.tag _ _ (cl.tag _ _ cl.skip)) (cl.seq (cl.tag _ _ (cl.esc _)) (cl.tag _ _ he)))

theorem Cl.renderFootnoteBlock (he : ∀ f ∈ env.footnotes, R (ext f) (ext' f)) (title : Option Str) (hide : Bool) :
    R (renderFootnoteBlock env ext title hide) (renderFootnoteBlock env ext' title hide) := by
  unfold Ftml.renderFootnoteBlock
  split
  · exact cl.skip
  · refine cl.tag _ _ (cl.seq (cl.tag _ _ (cl.esc _)) (cl.tag _ _ (cl.forEach (fun i x hx => ?_) _)))
    exact cl.tag _ _ (cl.seq (cl.tag _ _ (cl.seq (cl.emit _) (cl.tag _ _ (cl.esc _)))) (cl.tag _ _ (he x hx)))

theorem Cl.renderBibCite {label : Str}
    (he : ∀ i es, bibReference env.bibliographies label = some (i, es) → R (ext es) (ext' es)) (brackets : Bool) :
    R (renderBibCite env ext label brackets) (renderBibCite env ext' label brackets) := by
  unfold Ftml.renderBibCite
  split
  · exact cl.tag _ _ (cl.esc _)
  · next i es h =>
    refine cl.tag _ _ (cl.seq ?_ (cl.seq (cl.tag _ _ (cl.esc _)) (cl.seq ?_ (cl.tag _ _ (cl.seq (cl.tag _ _ (cl.esc _))
      (cl.tag _ _ (he i es h)))))))
    · split
      · exact cl.emit _
      · exact cl.skip
    · split
      · exact cl.emit _
      · exact cl.skip

theorem Cl.renderBibliography {index : Nat}
    (he : ∀ b, env.bibliographies[index]? = some b → ∀ p ∈ b.entries, R (ext p.2) (ext' p.2)) (title : Option Str) (hide : Bool)
    (hd : hide = false → env.bibliographies[index]? = none → R (die .bibliographyIndex) (die .bibliographyIndex)) :
    R (renderBibliography env ext index title hide) (renderBibliography env ext' index title hide) := by
  unfold Ftml.renderBibliography
  split
  · exact cl.skip
  · next hh =>
    split
    · next h => exact hd (by simpa using hh) h
    · next b h =>
      refine cl.tag _ _ (cl.seq (cl.tag _ _ (cl.esc _)) (cl.forEach (fun i x hx => ?_) _))
      exact cl.tag _ _ (cl.seq (cl.tag _ _ (cl.seq (cl.emit _) (cl.tag _ _ (cl.esc _)))) (he b h x hx))

/-- Kinds whose rendering needs more than the closure: they reach other forests, count, record links or may
panic. -/
def Kind.special : Kind → Bool
  | .link .. | .toc .. | .footnote | .footnoteBlock .. | .bibCite .. | .bibBlock .. | .style _ | .part _
  | .rubyText _ => true
  | _ => false

theorem Cl.renderLeaf (k : Kind) (hk : k.isLeaf = true) (hs : k.special = false) :
    R (renderLeaf env ext k) (renderLeaf env ext' k) := by
  cases k
  case module => exact cl.emit _
  case text => exact cl.esc _
  case raw => exact cl.tag _ _ (cl.esc _)
  case email => exact cl.tag _ _ (cl.esc _)
  case «variable» n =>
    exact cl.read (fun st => emitEsc (match st.scopes.get n with | some v => v | none => c!"{$" ++ n ++ c!"}"))
      (fun st => emitEsc (match st.scopes.get n with | some v => v | none => c!"{$" ++ n ++ c!"}")) fun st => cl.esc _
  case anchorName => exact cl.tag _ _ cl.skip
  case image => exact cl.renderImage _ _ _ _
  case radioButton => exact cl.tagA _ _ _ cl.skip
  case checkBox => exact cl.tagA _ _ _ cl.skip
  case user => exact cl.renderUser _ _
  case date => exact cl.renderDate _ _
  case code => exact cl.renderCode _ _
  case math name s =>
    exact cl.read (fun st => modifySt (fun st => { st with equation := st.equation + 1 }) ;; Ftml.renderLatex env name (some st.equation) s true)
        (fun st => modifySt (fun st => { st with equation := st.equation + 1 }) ;; Ftml.renderLatex env name (some st.equation) s true)
        fun st => cl.seq (cl.upd _ fun _ => ⟨rfl, rfl, rfl⟩) (cl.renderLatex _ _ _ _)
  case mathInline s => exact cl.renderLatex (env := env) none none s false
  case equationRef => exact cl.renderEquationRef _
  case embed => exact cl.renderEmbed _
  case html => exact cl.tag _ _ cl.skip
  case iframe => exact cl.tagA _ _ _ cl.skip
  case lineBreak => exact cl.tag _ _ cl.skip
  case lineBreaks => exact cl.repeat (cl.tag _ _ cl.skip) _
  case clearFloat => exact cl.tag _ _ cl.skip
  case horizontalRule => exact cl.tag _ _ cl.skip
  all_goals first | exact Bool.noConfusion hk | exact Bool.noConfusion hs

theorem Cl.renderContainer (c : CType) (attrs : AttrMap) {b b' : Act} (h : R b b') :
    R (renderContainer env c attrs b) (renderContainer env c attrs b') := by
  cases c with
  | header hd =>
    unfold Ftml.renderContainer
    dsimp only
    split
    · exact cl.read (fun st => modifySt (fun st => { st with toc := st.toc + 1, rand := if env.settings.useTrueIds then st.rand else st.rand + 1 }) ;;
         Ftml.tagA (headingTag hd.level)
          [kv c!"id" (if env.settings.useTrueIds then c!"toc" ++ natToStr st.toc else htmlId env st.rand)] attrs b)
        (fun st => modifySt (fun st => { st with toc := st.toc + 1, rand := if env.settings.useTrueIds then st.rand else st.rand + 1 }) ;;
         Ftml.tagA (headingTag hd.level)
          [kv c!"id" (if env.settings.useTrueIds then c!"toc" ++ natToStr st.toc else htmlId env st.rand)] attrs b')
        fun st => cl.seq (cl.upd _ fun _ => ⟨rfl, rfl, rfl⟩) (cl.tagA _ _ _ h)
    · exact cl.tagA _ _ _ h
  | rubyText =>
    exact cl.seq (cl.tag _ _ (cl.esc _)) (cl.seq (cl.tagA _ _ _ h) (cl.tag _ _ (cl.esc _)))
  | monospace | hidden | invisible | align a => exact cl.tagA _ _ _ h
  | bold | italics | underline | superscript | subscript | strikethrough | span | div | mark | blockquote
    | insertion | deletion | size | ruby | paragraph => exact cl.tagA _ _ _ h

theorem Cl.tabButtons (b t : Nat) (i : Nat) (es : List Elem) : R (tabButtons env b t i es) (tabButtons env b t i es) := by
  induction es generalizing i with
  | nil => exact cl.skip
  | cons e es ih =>
    obtain ⟨k, ks⟩ := e
    cases k
    case tab l => exact cl.seq (cl.tag _ _ (cl.esc _)) (ih _)
    all_goals exact ih _

theorem Cl.tabPanel (b t i : Nat) {x x' : Act} (h : R x x') : R (tabPanel env b t i x) (tabPanel env b t i x') :=
  cl.tag _ _ h

theorem Cl.renderCollapsible (attrs : AttrMap) (o : Bool) (s hd : Option Str) (t bt : Bool) {b b' : Act} (h : R b b') :
    R (renderCollapsible attrs o s hd t bt b) (renderCollapsible attrs o s hd t bt b') := by
  unfold Ftml.renderCollapsible
  dsimp only
  refine cl.tagA _ _ _ (cl.seq (cl.tag _ _ (cl.seq (cl.tag _ _ (cl.esc _)) (cl.tag _ _ (cl.esc _)))) (cl.seq (cl.tag _ _ h) ?_))
  split
  · exact cl.tag _ _ (cl.tag _ _ (cl.esc _))
  · exact cl.skip

set_option linter.unusedSectionVars false

section
variable (hinc : ∀ vars a a', R a a' → R (renderInclude vars a) (renderInclude vars a'))
include hinc

mutual
theorem Cl.htmlElem (e : Elem)
    (hs : ∀ k ks, Placed k ks [e] → k.special = true → R (Ftml.renderLeaf env ext k) (Ftml.renderLeaf env ext' k)) :
    R (htmlElem env ext e) (htmlElem env ext' e) := by
  cases e with
  | mk k ks =>
    have h0 : k.special = true → R (Ftml.renderLeaf env ext k) (Ftml.renderLeaf env ext' k) := hs k ks (.here (by simp))
    have hgo := fun (hl : k.isLeaf = false) (ht : k ≠ .tabView) => Cl.htmlGo ks (fun e he k' ks' h => hs k' ks'
      (.inside (k' := k) (ks' := ks) (List.mem_singleton.2 rfl) hl he (fun h => (ht h).elim) h))
    have hpan := fun (hl : k.isLeaf = false) b t i => Cl.htmlPanels b t i ks (fun e he ht k' ks' h => hs k' ks'
      (.inside (k' := k) (ks' := ks) (List.mem_singleton.2 rfl) hl he (fun _ => ht) h))
    unfold Ftml.htmlElem
    cases k
    case container c a => exact cl.renderContainer c a (hgo rfl (by simp))
    case table => exact cl.tagA _ _ _ (cl.tag _ _ (hgo rfl (by simp)))
    case row => exact cl.tagA _ _ _ (hgo rfl (by simp))
    case cell => exact cl.tagA _ _ _ (hgo rfl (by simp))
    case tabView =>
      exact cl.read (fun st => modifySt (fun st => { st with rand := st.rand + ks.length + ks.length }) ;;
       Ftml.tag c!"wj-tabs" [kv c!"class" c!"wj-tabs"] (
        Ftml.tag c!"div" [kv c!"class" c!"wj-tabs-button-list", kv c!"role" c!"tablist"]
          (Ftml.tabButtons env st.rand (st.rand + ks.length) 0 ks) ;;
        Ftml.tag c!"div" [kv c!"class" c!"wj-tabs-panel-list"]
          (htmlElem.panels env ext st.rand (st.rand + ks.length) 0 ks)))
        (fun st => modifySt (fun st => { st with rand := st.rand + ks.length + ks.length }) ;;
       Ftml.tag c!"wj-tabs" [kv c!"class" c!"wj-tabs"] (
        Ftml.tag c!"div" [kv c!"class" c!"wj-tabs-button-list", kv c!"role" c!"tablist"]
          (Ftml.tabButtons env st.rand (st.rand + ks.length) 0 ks) ;;
        Ftml.tag c!"div" [kv c!"class" c!"wj-tabs-panel-list"]
          (htmlElem.panels env ext' st.rand (st.rand + ks.length) 0 ks))) fun st =>
        cl.seq (cl.upd _ fun _ => ⟨rfl, rfl, rfl⟩) (cl.tag _ _ (cl.seq (cl.tag _ _ (cl.tabButtons _ _ _ _)) (cl.tag _ _ (hpan rfl _ _ _))))
    case tab => exact (hgo rfl (by simp))
    case anchor => exact cl.tagA _ _ _ (hgo rfl (by simp))
    case list => exact cl.tagA _ _ _ (hgo rfl (by simp))
    case item => exact cl.tagA _ _ _ (hgo rfl (by simp))
    case subList => exact (hgo rfl (by simp))
    case definitionList => exact cl.tag _ _ (hgo rfl (by simp))
    case defItem => exact (hgo rfl (by simp))
    case defKey => exact cl.tag _ _ (hgo rfl (by simp))
    case defValue => exact cl.tag _ _ (hgo rfl (by simp))
    case collapsible => exact cl.renderCollapsible _ _ _ _ _ _ (hgo rfl (by simp))
    case color => exact cl.tag _ _ (hgo rfl (by simp))
    case «include» => exact hinc _ _ _ (hgo rfl (by simp))
    all_goals first | exact h0 rfl | exact cl.renderLeaf _ rfl rfl
theorem Cl.htmlGo (es : List Elem)
    (hs : ∀ e ∈ es, ∀ k ks, Placed k ks [e] → k.special = true → R (Ftml.renderLeaf env ext k) (Ftml.renderLeaf env ext' k)) :
    R (htmlElem.go env ext es) (htmlElem.go env ext' es) := by
  cases es with
  | nil => exact cl.skip
  | cons e es =>
    exact cl.seq (Cl.htmlElem e (hs e (by simp))) (Cl.htmlGo es fun e he => hs e (by simp [he]))
theorem Cl.htmlPanels (b t i : Nat) (es : List Elem)
    (hs : ∀ e ∈ es, (∃ l xs, e = .mk (.tab l) xs) → ∀ k ks, Placed k ks [e] → k.special = true →
      R (Ftml.renderLeaf env ext k) (Ftml.renderLeaf env ext' k)) :
    R (htmlElem.panels env ext b t i es) (htmlElem.panels env ext' b t i es) := by
  cases es with
  | nil => exact cl.skip
  | cons e es =>
    have h1 := fun ht => Cl.htmlElem e (hs e (by simp) ht)
    have h2 := fun i => Cl.htmlPanels b t i es fun e he => hs e (by simp [he])
    unfold htmlElem.panels
    split
    · next l hk => exact cl.seq (cl.tabPanel _ _ _ (h1 ⟨l, e.kids, by cases e; simp only [Elem.kind] at hk; rw [hk]; rfl⟩)) (h2 _)
    · exact h2 _
end
end

end

theorem placed_head {k : Kind} {ks : List Elem} {e : Elem} {es : List Elem} (he : e ∈ es) (h : Placed k ks [e]) :
    Placed k ks es := by
  cases h with
  | here h => simp only [List.mem_singleton] at h; exact .here (h ▸ he)
  | inside h h' h1 h2 h3 => simp only [List.mem_singleton] at h; exact .inside (h ▸ he) h' h1 h2 h3

theorem placed_occurs {k : Kind} {ks es : List Elem} (h : Placed k ks es) : Occurs k ks es := by
  induction h with
  | here h => exact .here h
  | inside hm _ he _ _ ih =>
    refine .inside hm ?_
    cases ih with
    | here h => simp only [List.mem_singleton] at h; exact .here (h ▸ he)
    | inside h h' => simp only [List.mem_singleton] at h; exact .inside (h ▸ he) h'

/-- A list of elements, with what it needs of the nodes that rendering reaches. -/
theorem Cl.go {R : Act → Act → Prop} (cl : Cl R) {env : HEnv} {ext ext' : List Elem → Act}
    (hinc : ∀ vars a a', R a a' → R (renderInclude vars a) (renderInclude vars a')) {es : List Elem}
    (hs : ∀ k ks, Placed k ks es → k.special = true → R (Ftml.renderLeaf env ext k) (Ftml.renderLeaf env ext' k)) :
    R (htmlElem.go env ext es) (htmlElem.go env ext' es) :=
  cl.htmlGo hinc es fun _ he k ks h => hs k ks (placed_head he h)

end Ftml
