import Verif.Lemmas.ParseErr
/-
Properties of `parse` that hold of every text: termination, panics, error spans, and what the nodes of
the returned tree look like (C29–C38, C41, C59–C66).
-/
namespace Ftml

/-! ### From the invariants to the nodes of the returned tree -/

private theorem occurs_node {g : Gam} {A : List PartKind} {es : List Elem} {k : Kind} {ks : List Elem}
    (ho : Occurs k ks es) (h : ∀ e ∈ es, Good g A e) : NodeOk g k ks := by
  induction ho generalizing A with
  | here hm => cases h _ hm with | mk _ h2 _ => exact h2
  | inside hm _ ih => cases h _ hm with | mk _ _ h3 => exact ih h3

private theorem nodeOk_leaf {g : Gam} {k : Kind} (hl : k.attrs = []) (hp : k.pageOnly = false)
    (hb : k.blocks = none) (hs : Special g k []) : NodeOk g k [] :=
  ⟨by simp, fun _ => rfl, by rw [hl]; exact attrOk_nil _, by rw [hp]; simp, by rw [hb]; simp, hs⟩

mutual
private theorem tocItem_good {g : Gam} (x : DItem Unit Str) (h : niceItem x) (n : Nat) :
    Good g [] (buildTocItem x n).1 := by
  cases x with
  | item name =>
    refine .mk (by simp) ⟨by simp [tocLink, Elem.kind, allowedKid, Kind.isStruct], by simp [Kind.isLeaf], by simp [Kind.attrs, AttrOk, SortedKeys],
      by simp [Kind.pageOnly], by simp [Kind.blocks], trivial⟩ ?_
    intro e he
    simp only [List.mem_singleton] at he
    subst he
    exact .mk (by simp) (nodeOk_leaf rfl rfl rfl (by simp [Special, LinkFrom])) (by simp)
  | list l xs =>
    simp only [niceItem] at h
    have := tocItems_good (g := g) xs h.2.2 n
    refine .mk (by simp) ⟨by simp [Elem.kind, allowedKid], by simp [Kind.isLeaf], by simp [Kind.attrs, AttrOk, SortedKeys],
      by simp [Kind.pageOnly], by simp [Kind.blocks], by simp [Special]⟩ ?_
    intro e he
    simp only [List.mem_singleton] at he
    subst he
    refine .mk (by simp) ⟨this.2.1, by simp [Kind.isLeaf], by simp [Kind.attrs, AttrOk, SortedKeys],
      by simp [Kind.pageOnly], by simp [Kind.blocks], .inl (this.2.2 h.1)⟩ this.1
private theorem tocItems_good {g : Gam} (xs : List (DItem Unit Str)) (h : niceItems xs) (n : Nat) :
    (∀ e ∈ (buildTocItem.go xs n).1, Good g [] e) ∧
    (∀ e ∈ (buildTocItem.go xs n).1, allowedKid (.list .bullet []) e.kind = true) ∧
    (xs ≠ [] → (buildTocItem.go xs n).1 ≠ []) := by
  cases xs with
  | nil => simp [buildTocItem.go]
  | cons x xs =>
    simp only [niceItems] at h
    have h1 := tocItem_good (g := g) x h.1 n
    have h2 := tocItems_good (g := g) xs h.2 (buildTocItem x n).2
    refine ⟨?_, ?_, ?_⟩
    · simp only [buildTocItem.go, List.mem_cons]
      rintro e (rfl | he)
      · exact h1
      · exact h2.1 e he
    · simp only [buildTocItem.go, List.mem_cons]
      rintro e (rfl | he)
      · cases x <;> simp [buildTocItem, Elem.kind, allowedKid]
      · exact h2.2.1 e he
    · simp [buildTocItem.go]
end

private theorem buildToc_good {g : Gam} (ts : List (Unit × List (DItem Unit Str))) (h : niceTrees ts) (n : Nat) :
    ∀ e ∈ buildToc ts n, Good g [] e := by
  induction ts generalizing n with
  | nil => simp [buildToc]
  | cons t ts ih =>
    obtain ⟨u, xs⟩ := t
    have h1 : xs ≠ [] ∧ niceItems xs ∧ niceTrees ts := by
      cases ts with
      | nil => exact ⟨h.1, h.2.2, trivial⟩
      | cons t ts => exact ⟨h.1, h.2.2.1, h.2.2.2.2⟩
    have h2 := tocItems_good (g := g) xs h1.2.1 n
    simp only [buildToc, List.mem_cons]
    rintro e (rfl | he)
    · refine .mk (by simp) ⟨h2.2.1, by simp [Kind.isLeaf], by simp [Kind.attrs, AttrOk, SortedKeys],
        by simp [Kind.pageOnly], by simp [Kind.blocks], .inl (h2.2.2 h1.1)⟩ h2.1
    · exact ih h1.2.2 _ e he

/-- The facts about one node of a returned tree. -/
private def NodeFact (env : Env) (t : Tree) (k : Kind) (ks : List Elem) : Prop :=
  ∃ g : Gam, g.env = env ∧ g.sh.bibs = t.bibliographies ∧ g.sh.codeBlocks = t.codeBlocks ∧
    g.sh.htmlBlocks = t.htmlBlocks ∧ NodeOk g k ks

private theorem forest_node {env : Env} {o : Outcome} (h : ParseOk env o) {es : List Elem}
    (hf : o.tree.Forest es) {k : Kind} {ks : List Elem} (ho : Occurs k ks es) :
    NodeFact env o.tree k ks ∨
      (es = o.tree.elements ∧ k = .footnoteBlock none false ∧ ks = [] ∧ o.tree.elements.getLast? = some (.mk k ks)) := by
  cases h with
  | parsed es' ps fb s0 s lists hi hs he hfb hl ht =>
    cases hf with
    | body =>
      rw [ht] at ho ⊢
      dsimp only at ho ⊢
      have key : ∀ {es}, (∀ e ∈ es, e ∈ es') → Occurs k ks es → NodeOk ((topCtx env).gam s) k ks :=
        fun hs ho => occurs_node ho fun e he' => he.goods e (hs e he')
      split at ho
      · rename_i hfb'
        exact .inl ⟨_, rfl, rfl, rfl, rfl, key (fun _ h => h) ho⟩
      · rename_i hfb'
        cases ho with
        | here hm =>
          rcases List.mem_append.1 hm with hm | hm
          · exact .inl ⟨_, rfl, rfl, rfl, rfl, key (fun _ h => h) (.here hm)⟩
          · simp only [List.mem_singleton, Elem.mk.injEq] at hm
            right
            refine ⟨rfl, hm.1, hm.2, ?_⟩
            rw [if_neg hfb', hm.1, hm.2]; simp
        | inside hm ho =>
          rcases List.mem_append.1 hm with hm | hm
          · exact .inl ⟨_, rfl, rfl, rfl, rfl, key (fun _ h => h) (.inside hm ho)⟩
          · simp only [List.mem_singleton, Elem.mk.injEq] at hm
            rw [hm.2] at ho
            cases ho with
            | here h => simp at h
            | inside h => simp at h
    | toc =>
      rw [ht] at ho ⊢
      obtain ⟨trees, h1, _, h3⟩ := C15_process_depths () (s.sh.toc.map fun t => (t.1, (), t.2))
      rw [hl] at h1
      simp only [Option.some.injEq] at h1
      subst h1
      exact .inl ⟨(topCtx env).gam s, rfl, rfl, rfl, rfl, occurs_node ho (buildToc_good lists h3 0)⟩
    | footnote hm =>
      rw [ht] at hm ⊢
      exact .inl ⟨⟨env, s.sh, true, true⟩, rfl, rfl, rfl, rfl, occurs_node ho fun e he => (hi.sh.foot _ hm e he).1⟩
    | bibliography hm hm' =>
      rw [ht] at hm ⊢
      exact .inl ⟨⟨env, s.sh, true, false⟩, rfl, rfl, rfl, rfl,
        occurs_node ho fun e he => (hi.sh.bibs _ hm _ hm' e he).1⟩
  | fallback x s hi hx hk ht =>
    subst ht
    cases hf with
    | body =>
      left
      have : k = .text env.text ∧ ks = [] := by
        cases ho with
        | here hm => simpa using hm
        | inside hm ho =>
          simp only [List.mem_singleton, Elem.mk.injEq] at hm
          rw [hm.2] at ho
          cases ho with
          | here h => simp at h
          | inside h => simp at h
      rw [this.1, this.2]
      exact ⟨⟨env, { s.sh with bibs := [] }, false, false⟩, rfl, rfl, rfl, rfl,
        nodeOk_leaf rfl rfl rfl (.inl List.infix_rfl)⟩
    | toc =>
      cases ho with
      | here h => simp at h
      | inside h => simp at h
    | footnote hm => simp at hm
    | bibliography hm => simp at hm

private theorem parse_ok {w : World} {text : Str} {info : PageInfo} {settings : Settings} {o : Outcome}
    (h : parse w (tokenize text) info settings = some (.ok o)) :
    ParseOk ⟨text, (tokenize text).tokens, info, settings, w⟩ o := by
  have := parseEnv_ok (env := ⟨text, (tokenize text).tokens, info, settings, w⟩) rfl
  rw [show parseEnv ⟨text, (tokenize text).tokens, info, settings, w⟩ = some (.ok o) from h] at this
  exact this

section
variable {w : World} {text : Str} {info : PageInfo} {settings : Settings}

/-! ### Inputs for the examples -/

/-- A world in which the external functions do nothing of interest. -/
def plainWorld : World :=
  { normalize := id, isWordNonAscii := fun _ => false, parseDate := fun _ => none,
    formatDate := fun _ => none, entity := fun _ => none }
/-- Some page. -/
def somePage : PageInfo := ⟨c!"page", none, c!"site", c!"Title", none, [], c!"default"⟩
/-- Parse a text as a page with these inputs. -/
def parsePage (text : Str) : Option (Except Panic Outcome) :=
  parse plainWorld (tokenize text) somePage (Settings.fromMode .page .wikidot)
/-- The panic of a parse, if it panics. -/
def panicOf : Option (Except Panic Outcome) → Option Panic
  | some (.error p) => some p
  | _ => none
/-- The result of a parse, if there is one. -/
def resultOf : Option (Except Panic Outcome) → Option Outcome
  | some (.ok o) => some o
  | _ => none
/-- The elements of the result are these. -/
def elementsAre (r : Option (Except Panic Outcome)) (es : List Elem) : Bool :=
  match r with
  | some (.ok o) => Elem.beq.go o.tree.elements es
  | _ => false

/-! ### C29, C30: parsing returns -/

/-- C29: `parse` terminates on the tokens of every text, whatever the page, the settings and the external
functions do: neither the nesting of rules nor a loop exhausts the fuel the model gives it (100 nested
calls of `consume`, and for each loop one turn per remaining token). -/
theorem C29_parse_terminates : parse w (tokenize text) info settings ≠ none := by
  have := parseEnv_ok (env := ⟨text, (tokenize text).tokens, info, settings, w⟩) rfl
  intro h
  rw [show parseEnv ⟨text, (tokenize text).tokens, info, settings, w⟩ = none from h] at this
  exact this

/-- C30: `parse` panics on no text that avoids three things: the characters `))`, the opening of a block
for a part of a list, table, tab view or ruby annotation, and a triple link with a blank label. -/
theorem C30_parse_does_not_panic (h1 : ¬ ∃ a b, text = a ++ c!"))" ++ b)
    (h2 : ¬ OpensOne text [c!"li", c!"row", c!"cell", c!"hcell", c!"tab", c!"rt", c!"rubytext"])
    (h3 : ¬ HasBlankLabel text) : ∃ o, parse w (tokenize text) info settings = some (.ok o) := by
  have h := parseEnv_ok (env := ⟨text, (tokenize text).tokens, info, settings, w⟩) rfl
  show ∃ o, parseEnv ⟨text, (tokenize text).tokens, info, settings, w⟩ = some (.ok o)
  generalize parseEnv ⟨text, (tokenize text).tokens, info, settings, w⟩ = r at *
  match r with
  | none => exact h.elim
  | some (.ok o) => exact ⟨o, rfl⟩
  | some (.error p) =>
    rcases h with h | h | h
    · exact (h1 h.2).elim
    · exact (h2 h.2).elim
    · exact (h3 h.2).elim

/-- C30: the kinds of panic, each with its condition on the text. -/
theorem C30_panics {p : Panic} (h : parse w (tokenize text) info settings = some (.error p)) :
    (p = .checkStep ∧ ∃ a b, text = a ++ c!"))" ++ b) ∨
    ((p = .partialSafety ∨ p = .textRender) ∧
      OpensOne text [c!"li", c!"row", c!"cell", c!"hcell", c!"tab", c!"rt", c!"rubytext"]) ∨
    (p = .textRender ∧ HasBlankLabel text) := by
  have := parseEnv_ok (env := ⟨text, (tokenize text).tokens, info, settings, w⟩) rfl
  rw [show parseEnv ⟨text, (tokenize text).tokens, info, settings, w⟩ = some (.error p) from h] at this
  exact this

/-- C30: the conditions cannot be dropped.  (1) `))` panics. -/
theorem C30_double_parenthesis_panics : panicOf (parsePage c!"a))") = some .checkStep := by decide +kernel
/-- C30: (2) a list item block inside another block of a list panics. -/
theorem C30_item_in_div_panics :
    panicOf (parsePage c!"[[ul]][[div]][[li]]x[[/li]][[/div]][[/ul]]") = some .partialSafety := by decide +kernel
/-- C30: (3) a link with a blank label in a heading panics. -/
theorem C30_blank_label_in_heading_panics :
    panicOf (parsePage c!"+ [[[https://example.com|]]]") = some .textRender := by decide +kernel

private theorem opens_bracket {names : List Str} (h : OpensOne text names) : '[' ∈ text := by
  obtain ⟨n, _, pre, star, ws, nm, post, e, _⟩ := h
  rw [e]; simp

private theorem blank_bracket (h : HasBlankLabel text) : '[' ∈ text := by
  obtain ⟨pre, t, ws, post, e, _⟩ := h
  rw [e]; simp

/-- A text without brackets and closing parentheses meets the hypotheses. -/
example : ∃ o, parsePage c!"+ Title\n\n**bold** //it//\n\n* one\n* two\n||a||b||" = some (.ok o) := by
  refine C30_parse_does_not_panic ?_ (fun h => ?_) (fun h => ?_)
  · rintro ⟨a, b, e⟩
    have : ')' ∈ c!"+ Title\n\n**bold** //it//\n\n* one\n* two\n||a||b||" := by rw [e]; simp
    revert this; decide
  · have := opens_bracket h
    revert this; decide
  · have := blank_bracket h
    revert this; decide

/-! ### C31: errors point at tokens -/

/-- C31: every error carries the kind and the span of a token of the text; the span lies in the text, on
character boundaries. -/
theorem C31_error_spans {o : Outcome} (h : parse w (tokenize text) info settings = some (.ok o)) :
    ∀ x ∈ o.errors, (∃ t ∈ (tokenize text).tokens, x.token = t.token ∧ x.start = t.start ∧ x.stop = t.stop) ∧
      ∃ a b c, text = a ++ b ++ c ∧ x.start = byteLen a ∧ x.stop = byteLen (a ++ b) := by
  intro x hx
  have hx : ErrOk ⟨text, (tokenize text).tokens, info, settings, w⟩ x := by
    cases parse_ok h with
    | parsed es ps fb s0 s lists hi hs he hfb hl ht => exact he.errs x hx
    | fallback y s hi hy hk ht =>
      subst ht
      simp only [List.mem_singleton] at hx
      exact hx ▸ hy
  obtain ⟨t, ht, e1, e2, e3⟩ := hx
  refine ⟨⟨t, ht, e1, e2, e3⟩, ?_⟩
  rw [e2, e3]
  obtain ⟨mid, h1, h2, h3⟩ := C07_tokens_tile text
  dsimp only at ht
  rw [h1] at ht
  simp only [List.mem_cons, List.mem_append, List.not_mem_nil, or_false] at ht
  rcases ht with rfl | ht | rfl
  · exact ⟨[], [], text, by simp, by simp [byteLen], by simp⟩
  · obtain ⟨pre, post, e⟩ := List.append_of_mem ht
    obtain ⟨_, _, _, e4, e5, _⟩ := h3 pre t post e
    refine ⟨pre.flatMap ETok.slice, t.slice, post.flatMap ETok.slice, ?_, e4, ?_⟩
    · rw [← h2, e]; simp
    · rw [e5, e4, byteLen_append]
  · exact ⟨text, [], [], by simp, rfl, by simp⟩

/-- Errors occur. -/
example : (resultOf (parsePage c!"[[what]] **a")).map (fun o => o.errors.map fun x => (x.start, x.stop)) ≠ some [] := by
  decide +kernel

/-! ### C32–C37: the nodes of the tree -/

private theorem node {o : Outcome} (h : parse w (tokenize text) info settings = some (.ok o))
    {es : List Elem} (hf : o.tree.Forest es) {k : Kind} {ks : List Elem} (ho : Occurs k ks es)
    (hk : k ≠ .footnoteBlock none false) :
    ∃ g : Gam, g.env = ⟨text, (tokenize text).tokens, info, settings, w⟩ ∧ g.sh.bibs = o.tree.bibliographies ∧
      g.sh.codeBlocks = o.tree.codeBlocks ∧ g.sh.htmlBlocks = o.tree.htmlBlocks ∧ NodeOk g k ks :=
  (forest_node (parse_ok h) hf ho).resolve_right fun h => hk h.2.1

/-- Every node of a parsed tree is well-formed. -/
theorem parsed_node {o : Outcome} (h : parse w (tokenize text) info settings = some (.ok o))
    {es : List Elem} (hf : o.tree.Forest es) {k : Kind} {ks : List Elem} (ho : Occurs k ks es) :
    (∃ g : Gam, NodeOk g k ks) ∨ (k = .footnoteBlock none false ∧ ks = []) := by
  rcases forest_node (parse_ok h) hf ho with ⟨g, _, _, _, _, hn⟩ | ⟨_, rfl, rfl, _⟩
  · exact .inl ⟨g, hn⟩
  · exact .inr ⟨rfl, rfl⟩

/-- C32: the attribute maps anywhere in the tree, its footnotes and its bibliographies are safe: only
whitelisted names, no dangerous scheme in `href` or `src`, and isolated ids if the settings ask for it. -/
theorem C32_attributes_safe {o : Outcome} (h : parse w (tokenize text) info settings = some (.ok o))
    {es : List Elem} (hf : o.tree.Forest es) {k : Kind} {ks : List Elem} (ho : Occurs k ks es) :
    AttrOk settings text k.attrs := by
  rcases forest_node (parse_ok h) hf ho with ⟨g, e1, _, _, _, hn⟩ | ⟨_, rfl, _⟩
  · have := hn.attrs; rw [e1] at this; exact this
  · simp [Kind.attrs, AttrOk, SortedKeys]

example : elementsAre (parsePage c!"[[div onclick=\"x\" class=\"c\"]]a[[/div]]")
    [.mk (.container .div [(c!"class", c!"c")]) [.mk (.container .paragraph []) [eText c!"a"]],
     .mk (.footnoteBlock none false) []] = true := by decide +kernel

/-- C33: without page syntax the tree has no module, no style, no table of contents and no included
elements. -/
theorem C33_no_page_syntax {o : Outcome} (h : parse w (tokenize text) info settings = some (.ok o))
    (hp : settings.enablePageSyntax = false) {es : List Elem} (hf : o.tree.Forest es) {k : Kind}
    {ks : List Elem} (ho : Occurs k ks es) : k.pageOnly = false := by
  rcases forest_node (parse_ok h) hf ho with ⟨g, e1, _, _, _, hn⟩ | ⟨_, rfl, _⟩
  · cases hk : k.pageOnly with
    | false => rfl
    | true => have := hn.page hk; rw [e1, hp] at this; cases this
  · rfl

/-- The same text with and without page syntax. -/
example : elementsAre (parsePage c!"[[toc]]") [.mk (.toc [] none) [], .mk (.footnoteBlock none false) []] = true ∧
    elementsAre (parse plainWorld (tokenize c!"[[toc]]") somePage (Settings.fromMode .forumPost .wikidot))
      [.mk (.container .paragraph []) [eText c!"[[", eText c!"toc", eText c!"]]"],
       .mk (.footnoteBlock none false) []] = true := by decide +kernel

/-- C34: every bibliography block refers to a bibliography of the tree. -/
theorem C34_bibliography_index {o : Outcome} (h : parse w (tokenize text) info settings = some (.ok o))
    {es : List Elem} (hf : o.tree.Forest es) {i : Nat} {title : Option Str} {hide : Bool} {ks : List Elem}
    (ho : Occurs (.bibBlock i title hide) ks es) : i < o.tree.bibliographies.length := by
  obtain ⟨g, _, e2, _, _, hn⟩ := node h hf ho (by simp)
  have := hn.special
  rw [← e2]; exact this.1

/-- C35: no two code blocks of the tree have the same name. -/
theorem C35_code_names_unique {o : Outcome} (h : parse w (tokenize text) info settings = some (.ok o)) :
    o.tree.codeBlocks.Pairwise fun a b => a.name.isSome = true → a.name ≠ b.name := by
  cases parse_ok h with
  | parsed es ps fb s0 s lists hi hs he hfb hl ht => rw [ht]; exact hi.sh.code
  | fallback y s hi hy hk ht => rw [ht]; exact hi.sh.code

/-- C35: a code block in the tree, and an HTML block, is one of the tree's list of such blocks. -/
theorem C35_code_and_html_listed {o : Outcome} (h : parse w (tokenize text) info settings = some (.ok o))
    {es : List Elem} (hf : o.tree.Forest es) {ks : List Elem} :
    (∀ c l, Occurs (.code c l) ks es → ∃ b ∈ o.tree.codeBlocks, b.contents = c) ∧
    (∀ c, Occurs (.html c) ks es → c ∈ o.tree.htmlBlocks) := by
  refine ⟨fun c l ho => ?_, fun c ho => ?_⟩
  · obtain ⟨g, _, _, e3, _, hn⟩ := node h hf ho (by simp)
    have := hn.special
    rw [← e3]; exact this.1
  · obtain ⟨g, _, _, _, e4, hn⟩ := node h hf ho (by simp)
    have := hn.special
    rw [← e4]; exact this.1

/-- C36: no footnote refers to a footnote. -/
theorem C36_footnotes_do_not_nest {o : Outcome} (h : parse w (tokenize text) info settings = some (.ok o))
    {f ks : List Elem} (hf : f ∈ o.tree.footnotes) : ¬ Occurs .footnote ks f := by
  intro ho
  cases parse_ok h with
  | parsed es ps fb s0 s lists hi hs he hfb hl ht =>
    rw [ht] at hf
    have := (occurs_node ho fun e he => (hi.sh.foot _ hf e he).1).special
    cases this
  | fallback y s hi hy hk ht => rw [ht] at hf; simp at hf

example : (resultOf (parsePage c!"a[[footnote]]b[[footnote]]c[[/footnote]][[/footnote]]")).map
    (fun o => o.tree.footnotes.length) = some 1 := by decide +kernel

/-- C37: every paragraph has contents, all of which may stand in a paragraph. -/
theorem C37_paragraphs {o : Outcome} (h : parse w (tokenize text) info settings = some (.ok o))
    {es : List Elem} (hf : o.tree.Forest es) {a : AttrMap} {ks : List Elem}
    (ho : Occurs (.container .paragraph a) ks es) : ks ≠ [] ∧ ∀ e ∈ ks, e.inParagraph := by
  obtain ⟨g, _, _, _, _, hn⟩ := node h hf ho (by simp)
  exact hn.special

example : elementsAre (parsePage c!"a\n\n[[div]]\nb\n[[/div]]\nc")
    [.mk (.container .paragraph []) [eText c!"a"],
     .mk (.container .div []) [.mk (.container .paragraph []) [eText c!"b"]],
     .mk (.container .paragraph []) [eText c!"c"], .mk (.footnoteBlock none false) []] = true := by decide +kernel

/-! ### C38: the footnote block -/

/-- C38: if the text never opens a `[[footnoteblock]]`, then (unless the nesting limit turned the whole
text into one text element) the elements end with the default footnote block, and there is no other
footnote block in the tree. -/
theorem C38_footnote_block_appended {o : Outcome} (h : parse w (tokenize text) info settings = some (.ok o))
    (hn : ¬ OpensBlock text c!"footnoteblock") :
    (o.tree.elements = [eText text] ∧ ∃ x, o.errors = [x] ∧ x.kind = .recursionDepthExceeded) ∨
    (∃ es, o.tree.elements = es ++ [.mk (.footnoteBlock none false) []] ∧
      (∀ t h ks, ¬ Occurs (.footnoteBlock t h) ks es) ∧
      ∀ f ∈ o.tree.footnotes, ∀ t h ks, ¬ Occurs (.footnoteBlock t h) ks f) := by
  have hno : ¬ OpensOne text [c!"footnoteblock"] := by
    rintro ⟨n, hm, ho⟩
    simp only [List.mem_singleton] at hm
    exact hn (hm ▸ ho)
  cases parse_ok h with
  | parsed es ps fb s0 s lists hi hs he hfb hl ht =>
    right
    have : fb = false := by
      cases fb with
      | false => rfl
      | true => exact (hn (hi.fb hfb)).elim
    subst this
    rw [ht]
    refine ⟨es, by simp, ?_, ?_⟩
    · intro t h ks ho
      have := (occurs_node ho he.goods).block _ rfl
      exact hno this
    · intro f hf t h ks ho
      have := (occurs_node ho fun e he => (hi.sh.foot _ hf e he).1).block _ rfl
      exact hno this
  | fallback x s hi hx hk ht =>
    exact .inl ⟨by rw [ht], x, by rw [ht], hk⟩

example : elementsAre (parsePage c!"[[footnoteblock]]\n\na") [.mk (.footnoteBlock none false) [],
    .mk (.container .paragraph []) [eText c!"a"]] = true := by decide +kernel

/-- C41: when the nesting limit is exceeded anywhere that it cannot be recovered from, the result is the
whole text as one text element with the one error of that kind; every parse either ends like this or
has a footnote block. -/
theorem C41_depth_limit {o : Outcome} (h : parse w (tokenize text) info settings = some (.ok o)) :
    (∃ x, o.errors = [x] ∧ x.kind = .recursionDepthExceeded ∧ ∃ html code,
      o.tree = ⟨[eText text], [], html, code, [], [], byteLen text⟩) ∨
    (∃ es, o.tree.elements = es ++ [.mk (.footnoteBlock none false) []]) ∨
    OpensBlock text c!"footnoteblock" := by
  cases parse_ok h with
  | parsed es ps fb s0 s lists hi hs he hfb hl ht =>
    right
    cases fb with
    | false => exact .inl ⟨es, by rw [ht]; simp⟩
    | true => exact .inr (hi.fb hfb)
  | fallback x s hi hx hk ht =>
    exact .inl ⟨x, by rw [ht], hk, s.sh.htmlBlocks, s.sh.codeBlocks, by rw [ht]⟩

example : (resultOf (parsePage ((List.replicate 101 c!"[[div]]").flatten))).map
    (fun o => o.errors.map (·.kind)) = some [.recursionDepthExceeded] := by decide +kernel

/-! ### C59: left-over partial elements -/

private theorem host_of_adds {k : Kind} {q : PartKind} (h : q ∈ adds k) : q.host k = true := by
  unfold adds at h
  split at h <;> simp at h <;> subst h <;> rfl

private theorem good_path {g : Gam} {A : List PartKind} {es p : List Elem} {q : PartKind} {ks : List Elem}
    (h : ∀ e ∈ es, Good g A e) (hA : q ∉ A) (hp : Path es (p ++ [.mk (.part q) ks])) :
    ∃ a ∈ p, q.host a.kind = true := by
  induction p generalizing es A with
  | nil =>
    cases hp with
    | last hm =>
      cases h _ hm with | mk h1 _ _ => exact (hA (h1 q rfl)).elim
    | cons _ hp => cases hp
  | cons e p ih =>
    have h1 : e ∈ es ∧ Path e.kids (p ++ [.mk (.part q) ks]) := by
      generalize hl : e :: p ++ [Elem.mk (.part q) ks] = l at hp
      cases hp with
      | last => simp at hl
      | cons hm hp =>
        simp only [List.cons_append, List.cons.injEq] at hl
        rw [hl.1, hl.2]
        exact ⟨hm, hp⟩
    have hg := h e h1.1
    cases e with
    | mk k kids =>
      cases hg with
      | mk _ _ h3 =>
        by_cases hk : q.host k = true
        · exact ⟨_, List.mem_cons_self .., hk⟩
        · obtain ⟨a, ha, hb⟩ := ih h3 (by
            unfold below
            split
            · simp
            · intro hm
              rcases List.mem_append.1 hm with hm | hm
              · exact hk (host_of_adds hm)
              · exact hA hm) h1.2
          exact ⟨a, List.mem_cons_of_mem _ ha, hb⟩

/-- C59: a partial element left over in the body of the document always lies below a node that has a
place for such parts: a list item block inside a list item, a cell block inside a cell, a tab block
inside a tab, a ruby text block inside a ruby annotation.  A row block is never left over, and no partial
element is left over at the top. -/
theorem C59_partials_under_hosts {o : Outcome} (h : parse w (tokenize text) info settings = some (.ok o))
    {p ks : List Elem} {q : PartKind} (hp : Path o.tree.elements (p ++ [.mk (.part q) ks])) :
    (∃ a ∈ p, q.host a.kind = true) ∧ OpensOne text (partBlocks q) := by
  have hocc : ∀ {es p : List Elem}, Path es (p ++ [.mk (.part q) ks]) → Occurs (.part q) ks es := by
    intro es p hp
    induction p generalizing es with
    | nil =>
      cases hp with
      | last hm => exact .here hm
      | cons _ hp => cases hp
    | cons e p ih =>
      generalize hl : e :: p ++ [Elem.mk (.part q) ks] = l at hp
      cases hp with
      | last => simp at hl
      | cons hm hp =>
        rename_i e' p'
        simp only [List.cons_append, List.cons.injEq] at hl
        rw [← hl.2] at hp
        cases e' with | mk k' ks' => exact .inside hm (ih hp)
  have hb : OpensOne text (partBlocks q) := by
    obtain ⟨g, e1, _, _, _, hn⟩ := node h .body (hocc hp) (by simp)
    have := hn.block _ rfl
    rw [e1] at this
    exact this
  refine ⟨?_, hb⟩
  cases parse_ok h with
  | parsed es ps fb s0 s lists hi hs he hfb hl ht =>
    rw [ht] at hp
    have hA : q ∉ partsOf (topCtx ⟨text, (tokenize text).tokens, info, settings, w⟩).accepts := by
      simp [topCtx, partsOf]
    dsimp only at hp
    split at hp
    · exact good_path he.goods hA hp
    · refine good_path (es := es) (ks := ks) he.goods hA ?_
      generalize hl : p ++ [Elem.mk (.part q) ks] = l at hp
      cases hp with
      | last hm =>
        rcases List.mem_append.1 hm with hm | hm
        · exact .last hm
        · simp only [List.mem_singleton] at hm
          subst hm
          have := congrArg List.getLast? hl
          simp at this
      | cons hm hp =>
        rcases List.mem_append.1 hm with hm | hm
        · exact .cons hm hp
        · simp only [List.mem_singleton] at hm
          subst hm
          cases hp with
          | last h => simp [Elem.kids] at h
          | cons h => simp [Elem.kids] at h
  | fallback x s hi hx hk ht =>
    subst ht
    have := hocc hp
    cases this with
    | here h => simp at h
    | inside h ho =>
      simp only [List.mem_singleton, Elem.mk.injEq] at h
      rw [h.2] at ho
      cases ho with
      | here h => simp at h
      | inside h => simp at h

/-- Partial elements are left over. -/
theorem C59_left_over_item : elementsAre (parsePage c!"[[ul]][[li]][[li]]x[[/li]][[/li]][[/ul]]")
    [.mk (.list .bullet []) [.mk (.item []) [.mk (.part .listItem) [.mk (.item []) [eText c!"x"]]]],
     .mk (.footnoteBlock none false) []] = true := by decide +kernel

/-! ### C60: the table of contents -/

mutual
private theorem readToc_item (x : DItem Unit Str) (d n : Nat) :
    readToc d (buildTocItem x n).1 =
      some (((readItem d () x).mapIdx fun i y => (y.1, c!"#toc" ++ natToStr (n + i), y.2.2))) ∧
    (buildTocItem x n).2 = n + (readItem d () x).length := by
  cases x with
  | item name => simp [buildTocItem, tocLink, readToc, readItem]
  | list l xs =>
    have := readToc_items xs (d + 1) n
    cases l
    simp only [buildTocItem, readItem]
    refine ⟨?_, this.2⟩
    unfold readToc
    exact this.1
private theorem readToc_items (xs : List (DItem Unit Str)) (d n : Nat) :
    readToc.go d (buildTocItem.go xs n).1 =
      some (((readItems d () xs).mapIdx fun i y => (y.1, c!"#toc" ++ natToStr (n + i), y.2.2))) ∧
    (buildTocItem.go xs n).2 = n + (readItems d () xs).length := by
  cases xs with
  | nil => simp [buildTocItem.go, readToc.go, readItems]
  | cons x xs =>
    have h1 := readToc_item x d n
    have h2 := readToc_items xs d (buildTocItem x n).2
    simp only [buildTocItem.go, readToc.go, readItems]
    rw [h1.1, h2.1]
    refine ⟨?_, by rw [h2.2, h1.2]; simp; omega⟩
    dsimp only
    rw [List.mapIdx_append, h1.2]
    simp only [Nat.add_comm, Nat.add_left_comm]
end

theorem readToc_trees (ts : List (Unit × List (DItem Unit Str))) (n : Nat) :
    readToc.go 0 (buildToc ts n) =
      some ((readTrees ts).mapIdx fun i y => (y.1, c!"#toc" ++ natToStr (n + i), y.2.2)) := by
  induction ts generalizing n with
  | nil => simp [buildToc, readToc.go, readTrees]
  | cons t ts ih =>
    obtain ⟨⟨⟩, xs⟩ := t
    have h1 := readToc_items xs 0 n
    have h2 := ih (buildTocItem.go xs n).2
    simp only [buildToc, readToc.go]
    rw [h2, readToc]
    rw [h1.1, h1.2]
    simp only [readTrees, List.flatMap_cons, List.mapIdx_append]
    simp only [Nat.add_comm, Nat.add_left_comm]

/-- C60: the table of contents of a tree is a nest of bullet lists without attributes whose entries, in
order, link to `#toc0`, `#toc1`, …; it has at least as many entries as the document's body has headings
that count. -/
theorem C60_table_of_contents {o : Outcome} (h : parse w (tokenize text) info settings = some (.ok o)) :
    ∃ hs : List (Nat × Str), countIn .headings o.tree.elements ≤ hs.length ∧
      readToc.go 0 o.tree.toc = some (hs.mapIdx fun i x => (x.1, c!"#toc" ++ natToStr i, x.2)) := by
  cases parse_ok h with
  | parsed es ps fb s0 s lists hi hs he hfb hl ht =>
    obtain ⟨trees, h1, h2, _⟩ := C15_process_depths () (s.sh.toc.map fun t => (t.1, (), t.2))
    rw [hl] at h1
    simp only [Option.some.injEq] at h1
    subst h1
    refine ⟨s.sh.toc, ?_, ?_⟩
    · have h3 := he.cnt .headings
      rw [ht]
      simp only [Meas.size] at h3
      dsimp only
      split
      · omega
      · simp [Meas.ofKind]; omega
    · rw [ht]
      dsimp only
      rw [readToc_trees, h2]
      simp [List.mapIdx_eq_zipIdx_map, List.zipIdx_map]
  | fallback x s hi hx hk ht =>
    exact ⟨[], by rw [ht]; simp [eText, Meas.ofKind], by rw [ht]; rfl⟩

example : (resultOf (parsePage c!"+ A\n\n++ B\n\n+ C")).map (fun o => readToc.go 0 o.tree.toc) =
    some (some [(0, c!"#toc0", c!"A"), (1, c!"#toc1", c!"B"), (0, c!"#toc2", c!"C")]) := by decide +kernel

/-- C60: it may have more entries than there are headings: a heading inside markup that turns out not to
be closed is entered twice. -/
theorem C60_duplicate_entries :
    (resultOf (parsePage c!"**a\n+ H\n\nb")).map (fun o => countIn .headings o.tree.elements) = some 1 ∧
    (resultOf (parsePage c!"**a\n+ H\n\nb")).map (fun o => readToc.go 0 o.tree.toc) =
      some (some [(0, c!"#toc0", c!"H"), (0, c!"#toc1", c!"H")]) := by decide +kernel

/-! ### C61–C65: shape and origin of the nodes -/

/-- C61: the tree is well-formed: a table holds rows, a row cells, a list items and sub-lists, and so on;
the parts of such elements occur nowhere else; elements without contents have none. -/
theorem C61_structure {o : Outcome} (h : parse w (tokenize text) info settings = some (.ok o))
    {es : List Elem} (hf : o.tree.Forest es) {k : Kind} {ks : List Elem} (ho : Occurs k ks es) :
    (∀ e ∈ ks, allowedKid k e.kind = true) ∧ (k.isLeaf = true → ks = []) := by
  rcases forest_node (parse_ok h) hf ho with ⟨g, _, _, _, _, hn⟩ | ⟨_, rfl, rfl, _⟩
  · exact ⟨hn.kids, hn.leaf⟩
  · exact ⟨by simp, fun _ => rfl⟩

/-- C61: at the top of the body, of a footnote and of a bibliography entry there are only elements. -/
theorem C61_top_level {o : Outcome} (h : parse w (tokenize text) info settings = some (.ok o))
    {es : List Elem} (hf : o.tree.Forest es) : ∀ e ∈ es, e.kind.isStruct = false := by
  cases parse_ok h with
  | parsed es' ps fb s0 s lists hi hs he hfb hl ht =>
    cases hf with
    | body =>
      rw [ht]
      dsimp only
      split
      · exact he.elem
      · intro e hm
        rcases List.mem_append.1 hm with hm | hm
        · exact he.elem e hm
        · simp only [List.mem_singleton] at hm
          subst hm; rfl
    | toc =>
      rw [ht]
      dsimp only
      intro e hm
      have : ∀ (l : List (Unit × List (DItem Unit Str))) n, e ∈ buildToc l n → e.kind.isStruct = false := by
        intro l
        induction l with
        | nil => simp [buildToc]
        | cons x l ih =>
          intro n hm
          simp only [buildToc, List.mem_cons] at hm
          rcases hm with rfl | hm
          · rfl
          · exact ih _ hm
      exact this _ _ hm
    | footnote hm => rw [ht] at hm; exact fun e he => (hi.sh.foot _ hm e he).2
    | bibliography hm hm' => rw [ht] at hm; exact fun e he => (hi.sh.bibs _ hm _ hm' e he).2
  | fallback x s hi hx hk ht =>
    subst ht
    cases hf with
    | body => intro e he; simp only [List.mem_singleton] at he; subst he; rfl
    | toc => intro e he; simp at he
    | footnote hm => simp at hm
    | bibliography hm => simp at hm

/-- C61: cells of tables, items of lists: numbers and emptiness. -/
theorem C61_counts {o : Outcome} (h : parse w (tokenize text) info settings = some (.ok o))
    {es : List Elem} (hf : o.tree.Forest es) {ks : List Elem} :
    (∀ b n a m, Occurs (.cell b n a m) ks es → 1 ≤ n) ∧
    (Occurs .tabView ks es → ks ≠ []) ∧ (Occurs .definitionList ks es → ks ≠ []) ∧
    (∀ t a, Occurs (.list t a) ks es → ks ≠ [] ∨ OpensOne text [c!"ul", c!"ol"]) ∧
    (∀ x, Occurs (.defItem x) ks es → ∃ a b, ks = [.mk .defKey a, .mk .defValue b]) ∧
    (Occurs .subList ks es → ks.length = 1) := by
  refine ⟨fun b n a m ho => ?_, fun ho => ?_, fun ho => ?_, fun t a ho => ?_, fun x ho => ?_, fun ho => ?_⟩
  all_goals
    obtain ⟨g, e1, _, _, _, hn⟩ := node h hf ho (by simp)
    have := hn.special
    first
      | exact this
      | (simp only [Special, e1] at this; exact this)

example : elementsAre (parsePage c!"* a\n * b") [.mk (.list .bullet [])
      [.mk (.item []) [eText c!"a"], .mk .subList [.mk (.list .bullet []) [.mk (.item []) [eText c!"b"]]]],
     .mk (.footnoteBlock none false) []] = true := by decide +kernel

/-- C61: an empty list is possible, with a body of line breaks only. -/
theorem C61_empty_list : elementsAre (parsePage c!"[[ul]]\n\n[[/ul]]")
    [.mk (.list .bullet []) [], .mk (.footnoteBlock none false) []] = true := by decide +kernel

/-- C62: an element that only a block can make is in the tree only if the text opens that block; the one
exception is the default footnote block at the end of the body. -/
theorem C62_origin_of_elements {o : Outcome} (h : parse w (tokenize text) info settings = some (.ok o))
    {es : List Elem} (hf : o.tree.Forest es) {k : Kind} {ks : List Elem} (ho : Occurs k ks es)
    {names : List Str} (hb : k.blocks = some names) :
    OpensOne text names ∨
    (es = o.tree.elements ∧ k = .footnoteBlock none false ∧ o.tree.elements.getLast? = some (.mk k ks)) := by
  rcases forest_node (parse_ok h) hf ho with ⟨g, e1, _, _, _, hn⟩ | ⟨h1, h2, _, h3⟩
  · have := hn.block _ hb
    rw [e1] at this
    exact .inl this
  · exact .inr ⟨h1, h2, h3⟩

example : (Kind.html c!"x").blocks = some [c!"html"] := rfl

/-- C62: the same for what is collected outside the elements: footnotes, bibliographies, code blocks and HTML
blocks are there only if the text opens such a block; the code and the HTML stand in the text. -/
theorem C62_origin_of_collections {o : Outcome} (h : parse w (tokenize text) info settings = some (.ok o)) :
    (o.tree.footnotes ≠ [] → OpensBlock text c!"footnote") ∧
    (o.tree.bibliographies ≠ [] → OpensBlock text c!"bibliography") ∧
    (∀ x ∈ o.tree.codeBlocks, x.contents <:+: text ∧ OpensBlock text c!"code") ∧
    (∀ x ∈ o.tree.htmlBlocks, x <:+: text ∧ OpensBlock text c!"html") := by
  cases parse_ok h with
  | parsed es ps fb s0 s lists hi hs he hfb hl ht =>
    rw [ht]; exact ⟨hi.sh.footB, hi.sh.bibsB, hi.sh.codeB, hi.sh.htmlB⟩
  | fallback y s hi hy hk ht =>
    rw [ht]; exact ⟨fun h => (h rfl).elim, fun h => (h rfl).elim, hi.sh.codeB, hi.sh.htmlB⟩

example : (resultOf (parsePage c!"a[[footnote]]n[[/footnote]] [[code]]\nx\n[[/code]]")).map
    (fun o => (o.tree.footnotes.length, o.tree.codeBlocks.map (·.contents))) = some (1, [c!"x"]) := by decide +kernel

/-- C63: code, HTML, style sheets and formulas are copied from the text unchanged. -/
theorem C63_verbatim {o : Outcome} (h : parse w (tokenize text) info settings = some (.ok o))
    {es : List Elem} (hf : o.tree.Forest es) {ks : List Elem} :
    (∀ c l, Occurs (.code c l) ks es → c <:+: text) ∧ (∀ c, Occurs (.html c) ks es → c <:+: text) ∧
    (∀ c, Occurs (.style c) ks es → c <:+: text) ∧ (∀ n c, Occurs (.math n c) ks es → c ≠ [] ∧ c <:+: text) := by
  refine ⟨fun c l ho => ?_, fun c ho => ?_, fun c ho => ?_, fun n c ho => ?_⟩
  all_goals
    obtain ⟨g, e1, _, _, _, hn⟩ := node h hf ho (by simp)
    have := hn.special
    simp only [Special, e1] at this
    first
      | exact this
      | exact this.2
      | exact this.2.1

example : elementsAre (parsePage c!"[[code]]\n **x** @< [[div]]\n[[/code]]")
    [.mk (.code c!" **x** @< [[div]]" none) [], .mk (.footnoteBlock none false) []] = true := by decide +kernel

/-- C64: there are at least as many footnotes as references to footnotes in the body. -/
theorem C64_footnote_references {o : Outcome} (h : parse w (tokenize text) info settings = some (.ok o)) :
    countIn .footnotes o.tree.elements ≤ o.tree.footnotes.length := by
  cases parse_ok h with
  | parsed es ps fb s0 s lists hi hs he hfb hl ht =>
    have h3 := he.cnt .footnotes
    rw [ht]
    simp only [Meas.size] at h3
    dsimp only
    split
    · omega
    · simp [Meas.ofKind]; omega
  | fallback x s hi hx hk ht => rw [ht]; simp [eText, Meas.ofKind]

/-- C64: there can be more footnotes than references: the footnote of a construct that turns out not to be
closed is entered twice. -/
theorem C64_duplicate_footnotes :
    (resultOf (parsePage c!"**a[[footnote]]n[[/footnote]]\n\nb")).map (fun o => countIn .footnotes o.tree.elements) =
      some 1 ∧
    (resultOf (parsePage c!"**a[[footnote]]n[[/footnote]]\n\nb")).map (fun o => o.tree.footnotes.length) =
      some 2 := by decide +kernel

/-- C65: ranges of the values stored in the tree: heading levels 1 to 6, 1 to 100 line breaks, names of
variables made of ASCII letters and digits, frames of absolute URLs only, only known embeds, isolated
names of anchors if the settings ask for it, and no e-mail address, for the lexer never finds one. -/
theorem C65_values {o : Outcome} (h : parse w (tokenize text) info settings = some (.ok o))
    {es : List Elem} (hf : o.tree.Forest es) {ks : List Elem} :
    (∀ hd a, Occurs (.container (.header hd) a) ks es → 1 ≤ hd.level ∧ hd.level ≤ 6 ∧ a = []) ∧
    (∀ n, Occurs (.lineBreaks n) ks es → 1 ≤ n ∧ n ≤ 100) ∧
    (∀ n, Occurs (.variable n) ks es → n ≠ [] ∧ ∀ c ∈ n, isAlnumA c = true) ∧
    (∀ a u, Occurs (.iframe a u) ks es → isUrl u = true) ∧
    (∀ e, Occurs (.embed e) ks es → (∃ v, e = .youtube v) ∨ ∃ v, e = .vimeo v) ∧
    (∀ n, Occurs (.anchorName n) ks es → settings.isolateUserIds = true → IdsIsolated n) ∧
    (∀ e, ¬ Occurs (.email e) ks es) := by
  refine ⟨fun b n ho => ?_, fun n ho => ?_, fun n ho => ?_, fun t a ho => ?_, fun x ho => ?_, fun n ho => ?_,
    fun e ho => ?_⟩
  case refine_7 =>
    obtain ⟨g, _, _, _, _, hn⟩ := node h hf ho (by simp)
    exact hn.special
  all_goals
    obtain ⟨g, e1, _, _, _, hn⟩ := node h hf ho (by simp)
    have := hn.special
    simp only [Special, e1] at this
    first
      | exact this
      | exact this.1
      | (obtain ⟨v, _, hv⟩ := this
         exact hv.imp (fun h => ⟨v, h⟩) fun h => ⟨v, h⟩)
      | (intro hs
         obtain ⟨x, _, rfl⟩ := this
         rw [if_pos hs]
         exact (C13_all_prefixed x).2)

/-- C65: a link to a URL is to be labelled with a page title only if the text has a blank link label. -/
theorem C65_page_label {o : Outcome} (h : parse w (tokenize text) info settings = some (.ok o))
    {es : List Elem} (hf : o.tree.Forest es) {ks : List Elem} {lt : LinkType} {u : Str} {x : Option Str}
    {t : Option AnchorTarget} (ho : Occurs (.link lt (.url u) x .page t) ks es) : HasBlankLabel text := by
  obtain ⟨g, e1, _, _, _, hn⟩ := node h hf ho (by simp)
  have := hn.special
  rw [Special, e1] at this
  exact this.2 u rfl rfl

/-! ### C80, C81: where things come from -/

/-- C80: every attribute of a parsed tree is written in the text: a name, an equals sign and a quoted value
stand there, the name up to case, and the value is the quoted one, up to the changes made to flags, addresses and
ids.  The exceptions are the styles for sizes and the class of tables. -/
theorem C80_attributes_written {o : Outcome} (h : parse w (tokenize text) info settings = some (.ok o))
    {es : List Elem} (hf : o.tree.Forest es) {k : Kind} {ks : List Elem} (ho : Occurs k ks es) {a v : Str}
    (hm : (a, v) ∈ k.attrs) : AttrFrom settings text a v :=
  ((C32_attributes_safe h hf ho).2 a v hm).2.2.2.2

/-- C80: so there are no attributes without quotes and equals signs, but for the class of tables and the styles for
sizes. -/
theorem C80_no_attributes {o : Outcome} (h : parse w (tokenize text) info settings = some (.ok o))
    (hq : '"' ∉ text ∨ '=' ∉ text) {es : List Elem} (hf : o.tree.Forest es) {k : Kind} {ks : List Elem}
    (ho : Occurs k ks es) {a v : Str} (hm : (a, v) ∈ k.attrs) : a = c!"style" ∨ (a = c!"class" ∧ v = c!"wj-table") := by
  rcases C80_attributes_written h hf ho hm with h | h | ⟨x, body, ⟨_, s1, s2, _, hw, _⟩, _⟩
  · exact .inl h.1
  · exact .inr h
  · exfalso
    rcases hq with hq | hq
    · exact hq (hw.subset (by simp))
    · exact hq (hw.subset (by simp))

example : elementsAre (parsePage c!"[[span data-X = \"1\\\"\"]]a[[/span]]") [.mk (.container .paragraph [])
      [.mk (.container .span [(c!"data-x", c!"1\"")]) [eText c!"a"]],
     .mk (.footnoteBlock none false) []] = true := by decide +kernel

/-- C81: no text is invented: the text elements of a parsed tree are pieces of the text, up to dashes, angle quotes,
named characters and the texts of `[[later]]` and of included pages. -/
theorem C81_text_elements {o : Outcome} (h : parse w (tokenize text) info settings = some (.ok o))
    {es : List Elem} (hf : o.tree.Forest es) {ks : List Elem} {t : Str} (ho : Occurs (.text t) ks es) :
    TextFrom w text t := by
  obtain ⟨g, e1, _, _, _, hn⟩ := node h hf ho (by simp)
  have := hn.special
  simp only [Special, e1] at this
  exact this

/-- C81: the same for raw text, names of users, labels of citations and of tabs, references to equations, inline
formulas, names of radio buttons, colours, variables, frames and link targets. -/
theorem C81_other_strings {o : Outcome} (h : parse w (tokenize text) info settings = some (.ok o))
    {es : List Elem} (hf : o.tree.Forest es) {ks : List Elem} :
    (∀ t, Occurs (.raw t) ks es → OnLine text t) ∧
    (∀ t av, Occurs (.user t av) ks es → OnLine text t) ∧
    (∀ t b, Occurs (.bibCite t b) ks es → OnLine text t) ∧
    (∀ t, Occurs (.tab t) ks es → OnLine text t) ∧
    (∀ t, Occurs (.equationRef t) ks es → OnLine text t) ∧
    (∀ t, Occurs (.mathInline t) ks es → OnLine text t) ∧
    (∀ t c a, Occurs (.radioButton t c a) ks es → OnLine text t) ∧
    (∀ t, Occurs (.color t) ks es → ∃ x, OnLine text x ∧ (t = x ∨ t = '#' :: x)) ∧
    (∀ t, Occurs (.variable t) ks es → c!"{$" ++ t ++ c!"}" <:+: text) ∧
    (∀ a t, Occurs (.iframe a t) ks es → OnLine text t) ∧
    (∀ t, Occurs (.anchorName t) ks es →
      ∃ x, OnLine text x ∧ t = if settings.isolateUserIds then isolateIds x else x) := by
  refine ⟨fun t ho => ?_, fun t _ ho => ?_, fun t _ ho => ?_, fun t ho => ?_, fun t ho => ?_, fun t ho => ?_,
    fun t _ _ ho => ?_, fun t ho => ?_, fun t ho => ?_, fun _ t ho => ?_, fun t ho => ?_⟩
  all_goals
    obtain ⟨g, e1, _, _, _, hn⟩ := node h hf ho (by simp)
    have := hn.special
    simp only [Special, e1] at this
    first
      | exact this
      | exact this.2

/-- C99: every link but the entries of the table of contents comes from one line of the text: its label and an address
stand there, and the address says where it leads. -/
theorem C99_links {o : Outcome} (h : parse w (tokenize text) info settings = some (.ok o))
    {es : List Elem} (hf : o.tree.Forest es) {ks : List Elem} {ty : LinkType} {loc : LinkLoc} {extra : Option Str}
    {label : LinkLabel} {target : Option AnchorTarget} (ho : Occurs (.link ty loc extra label target) ks es) :
    LinkFrom w settings text ty loc extra label := by
  obtain ⟨g, e1, _, _, _, hn⟩ := node h hf ho (by simp)
  have := hn.special
  simp only [Special, e1] at this
  exact this.1

/-- C99: links that name no place on the page, no wiki and no table of contents lead where their address says. -/
theorem C99_addresses {o : Outcome} (h : parse w (tokenize text) info settings = some (.ok o))
    {es : List Elem} (hf : o.tree.Forest es) {ks : List Elem} {ty : LinkType} {loc : LinkLoc} {extra : Option Str}
    {label : LinkLabel} {target : Option AnchorTarget} (ho : Occurs (.link ty loc extra label target) ks es)
    (h1 : ty ≠ .toc) (h2 : ty ≠ .anchor) (h3 : ty ≠ .interwiki) :
    ∃ a, OnLine text a ∧ (loc = .url a ∨ loc = LinkLoc.parse a) := by
  rcases C99_links h hf ho with e | ⟨_, a, ha, hc⟩
  · exact (h1 e).elim
  · refine ⟨a, ha, ?_⟩
    rcases hc with ⟨e, _⟩ | ⟨_, e, _⟩ | ⟨e, _⟩
    · exact (h2 e).elim
    · exact .inl e
    · right
      unfold LinkLoc.parseInterwiki at e
      split at e
      · simp only [Option.some.injEq, Prod.mk.injEq] at e
        exact e.1.symm
      · simp only [Option.map_eq_some_iff] at e
        obtain ⟨r, _, e⟩ := e
        obtain ⟨u, _, e⟩ := e
        simp only [Prod.mk.injEq] at e
        exact (h3 e.2.symm).elim

/-- A link and its address on one line, and the same on two, which is no link. -/
example : elementsAre (parsePage c!"[/a b] [/a\nb]") [.mk (.container .paragraph [])
      [.mk (.link .direct (.url c!"/a") none (.text c!"b") none) [], eText c!" ", eText c!"[", eText c!"/",
       eText c!"a", .mk .lineBreak [], eText c!"b", eText c!"]"],
     .mk (.footnoteBlock none false) []] = true := by decide +kernel

/-- C81: strings that are given as arguments: titles, labels, languages, formats, videos and the links of images are
values of the right arguments, in quotes; the source of an image stands in the text. -/
theorem C81_arguments {o : Outcome} (h : parse w (tokenize text) info settings = some (.ok o))
    {es : List Elem} (hf : o.tree.Forest es) {ks : List Elem} :
    (∀ v hd, Occurs (.footnoteBlock (some v) hd) ks es → ArgGiven text c!"title" v) ∧
    (∀ i v hd, Occurs (.bibBlock i (some v) hd) ks es → ArgGiven text c!"title" v) ∧
    (∀ a op v x t bt, Occurs (.collapsible a op (some v) x t bt) ks es → ArgGiven text c!"show" v) ∧
    (∀ a op v x t bt, Occurs (.collapsible a op x (some v) t bt) ks es → ArgGiven text c!"hide" v) ∧
    (∀ c v, Occurs (.code c (some v)) ks es → ∃ x, ArgGiven text c!"type" x ∧ v = lowerA x) ∧
    (∀ d v hv, Occurs (.date d (some v) hv) ks es → ArgGiven text c!"format" v) ∧
    (∀ e, Occurs (.embed e) ks es → ∃ v, ArgGiven text c!"video" v ∧ (e = .youtube v ∨ e = .vimeo v)) ∧
    (∀ src l al a, Occurs (.image src l al a) ks es → ImageFrom text src) ∧
    (∀ src d al a, Occurs (.image src (some d) al a) ks es → ∃ x, ArgGiven text c!"link" x ∧ d = LinkLoc.parse x) ∧
    (∀ v, Occurs (.module (.backlinks (some v))) ks es → ArgGiven text c!"page" v) ∧
    (∀ v a, Occurs (.module (.join (some v) a)) ks es → ArgGiven text c!"button" v) ∧
    (∀ v sr d, Occurs (.module (.pageTree (some v) sr d)) ks es → ArgGiven text c!"root" v) := by
  refine ⟨fun v _ ho => ?_, fun _ v _ ho => ?_, fun _ _ v _ _ _ ho => ?_, fun _ _ v _ _ _ ho => ?_, fun _ v ho => ?_,
    fun _ v _ ho => ?_, fun _ ho => ?_, fun _ _ _ _ ho => ?_, fun _ v _ _ ho => ?_, fun v ho => ?_, fun v _ ho => ?_,
    fun v _ _ ho => ?_⟩
  all_goals
    obtain ⟨g, e1, _, _, _, hn⟩ := node h hf ho (by simp)
    have := hn.special
    simp only [Special, e1] at this
    first
      | exact this
      | exact this v rfl
      | exact this.1 v rfl
      | exact this.1
      | exact this.1 v rfl
      | exact this.2 v rfl
      | exact this.2.2 v rfl

example : elementsAre (parsePage c!"[[image a/b link=\"c\"]]\n[[code type=\"X\"]]d[[/code]]") [.mk (.container .paragraph [])
      [.mk (.image (.file2 c!"a" c!"b") (some (LinkLoc.parse c!"c")) none []) []],
     .mk (.code c!"d" (some c!"x")) [],
     .mk (.footnoteBlock none false) []] = true := by decide +kernel

/-- Some of these. -/
example : elementsAre (parsePage c!"a--b @@c@@ [[user d]] <<e ##f00|g##") [.mk (.container .paragraph [])
      [eText c!"a", eText ['\u2014'], eText c!"b", eText c!" ", .mk (.raw c!"c") [], eText c!" ",
       .mk (.user c!"d" false) [], eText c!" ", eText ['\u00ab'], eText c!"e", eText c!" ",
       .mk (.color c!"#f00") [eText c!"g"]],
     .mk (.footnoteBlock none false) []] = true := by decide +kernel

example : elementsAre (parsePage c!"[[lines 3]]{$x1}") [.mk (.container .paragraph [])
      [.mk (.lineBreaks 3) [], .mk (.variable c!"x1") []],
     .mk (.footnoteBlock none false) []] = true := by decide +kernel

end

end Ftml
