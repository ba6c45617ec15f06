import Verif.Props.HtmlRun
/-
C75: pages rendered from a text are safe, stated for the text alone.

The theorems about HTML rendering (C43, C44, C45, C46, C48, C70, C74) are about trees with plain attribute
names.  Here: every tree parsed from a text in which neither `aria-` nor `data-` occurs is one.
-/
namespace Ftml
open HtmlSpec

/-- A text that cannot name attributes of its own: neither `aria-` nor `data-` stands in it. -/
def NoCustomNames (text : Str) : Prop := ¬ c!"aria-" <:+: text ∧ ¬ c!"data-" <:+: text

section
variable {text : Str} {w' : World} {info' : PageInfo} {settings' : Settings} {pr : Outcome}
  {n : Nat} {w : HWorld} {info : PageInfo} {settings : Settings} {o : HtmlOutput}

private theorem safeAttributes_plain : ∀ k ∈ safeAttributes, k ≠ [] ∧ ∀ c ∈ k, c.isAlphanum = true := by
  decide +kernel

/-- Attributes of a tree parsed from such a text are on the list of safe ones. -/
theorem parsed_attr_listed (hc : NoCustomNames text) (h : parse w' (tokenize text) info' settings' = some (.ok pr))
    {es : List Elem} (hf : pr.tree.Forest es) {k : Kind} {ks : List Elem} (ho : Occurs k ks es) {a v : Str}
    (hm : (a, v) ∈ k.attrs) : a ∈ safeAttributes := by
  have := (C32_attributes_safe h hf ho).2 a v hm
  rcases this.2.1 with h1 | ⟨x, h1, _, h3⟩
  · exact h1
  · rcases h3 with h3 | h3
    · exact (hc.1 (h3.isInfix.trans h1)).elim
    · exact (hc.2 (h3.isInfix.trans h1)).elim

/-- C75: the tree parsed from a text without `aria-` and `data-` has plain attribute names, and its headings
have no ids: all theorems about rendering to HTML apply. -/
theorem C75_parsed_trees_are_plain (hc : NoCustomNames text)
    (h : parse w' (tokenize text) info' settings' = some (.ok pr)) : PlainTree pr.tree ∧ NoHeadingIds pr.tree := by
  refine ⟨fun es k ks hf ho => ⟨fun p hp => ?_, (C32_attributes_safe h hf ho).1.nodup⟩, ?_⟩
  · have := safeAttributes_plain _ (parsed_attr_listed hc h hf ho hp)
    exact ⟨this.1, fun c hc => .inl (this.2 c hc)⟩
  · intro es hd a ks v hf ho hv
    have := ((C65_values h hf).1 hd a ho).2.2
    subst this
    cases hv

/-- A tag of a page that holds no content of its author's that is active: a known element; attributes only of
the renderer's and of the list of safe ones, none twice; the only event handler is the one that folds the
table of contents; links lead to addresses with a known scheme, to paths, or to places of the page, or are
empty links (whose further text a browser would run: `C45_javascript_extra`); scripts come from the two
snippet services, frames from the two video services, from the placeholder for user HTML, or are of absolute
URLs. -/
structure SafeTag (t : Str) (as : List (Str × Str)) : Prop where
  tag : t ∈ outputTags
  once : (as.map (·.1)).Nodup
  names : ∀ k v, (k, v) ∈ as → k ∈ outputAttrs ∨ k ∈ safeAttributes
  handlers : ∀ k v, (k, v) ∈ as → c!"on" <+: k → k = c!"onclick" ∧ v = c!"WIKIJUMP.page.listeners.foldToc(event)"
  links : ∀ v, (c!"href", v) ∈ as → SafeHref v ∨ c!"javascript:;" <+: v
  scripts : t = c!"script" → ∀ v, (c!"src", v) ∈ as →
    c!"https://gist.github.com/" <+: v ∨ c!"https://gitlab.com/-/snippets/" <+: v
  frames : t = c!"iframe" → ∀ v, (c!"src", v) ∈ as →
    c!"https://www.youtube.com/embed/" <+: v ∨ c!"https://player.vimeo.com/video/" <+: v ∨
    v = c!"https://example.com/" ∨ ∃ u, isUrl u = true ∧ noNul u <+: v

private theorem listed_no_handler : ∀ k ∈ safeAttributes, startsWith k c!"on" = false := by decide +kernel
private theorem output_handlers : ∀ k ∈ outputAttrs, startsWith k c!"on" = true → k = c!"onclick" := by decide +kernel

/-- C75: every page rendered from a text without `aria-` and `data-` is properly nested HTML, and each of its
elements is MathML, from the external converter, or has a safe tag. -/
theorem C75_rendered_text_is_safe (hw : WorldOk w) (hc : NoCustomNames text)
    (h : parse w' (tokenize text) info' settings' = some (.ok pr)) (hr : htmlRender n w info settings pr.tree = .ok o) :
    ∃ evs, readHtml o.body = some evs ∧ Nested evs ∧
      ∀ t as, Ev.start t as ∈ evs → t ∈ mathTags ∨ SafeTag t as := by
  obtain ⟨hp, _⟩ := C75_parsed_trees_are_plain hc h
  obtain ⟨evs, h1, h2⟩ := C43_rendered_is_nested hw hp hr
  refine ⟨evs, h1, h2, fun t as hm => ?_⟩
  refine (C44_tags_and_attributes hw hp hr h1 hm).imp id fun ok => ?_
  have listed : ∀ k v', (Source.of info settings pr.tree).attr k v' → k ∈ safeAttributes := by
    rintro k v' ⟨es, kd, ks, hf, ho, hv⟩
    exact parsed_attr_listed hc h hf ho hv
  refine ⟨ok.tag, ok.once, ?_, ?_, ?_, ok.script, ?_⟩
  · intro k v hv
    exact (ok.attr k v hv).imp id fun ⟨v', h3, _⟩ => listed _ _ h3
  · intro k v hv hon
    have no : ∀ v', (Source.of info settings pr.tree).attr k v' → False := fun v' h3 => by
      have := listed_no_handler k (listed k v' h3)
      rw [startsWith_iff.2 hon] at this
      cases this
    rcases ok.attr k v hv with h3 | ⟨v', h3, _⟩
    · have hk := output_handlers k h3 (startsWith_iff.2 hon)
      subst hk
      rcases ok.onclick v hv with h4 | ⟨v', h4, _⟩
      · exact ⟨rfl, h4⟩
      · exact (no _ h4).elim
    · exact (no _ h3).elim
  · intro v hv
    rcases ok.href v hv with h3 | ⟨x, _, h4⟩ | ⟨v', ⟨es, kd, ks, hf, ho, h4⟩, rfl⟩
    · exact .inl h3
    · exact .inr ⟨_, h4.symm⟩
    · have := ((C32_attributes_safe h hf ho).2 _ v' h4).2.2.1 (.inl rfl)
      rcases safe_append this [] with h5 | h5
      · rw [List.append_nil] at h5; exact .inl h5
      · subst h5; exact .inr (by decide)
  · intro ht v hv
    rcases ok.frame ht v hv with h3 | h3 | h3 | ⟨u, ⟨es, a, ks, hf, ho⟩, h4⟩
    · exact .inl h3
    · exact .inr (.inl h3)
    · exact .inr (.inr (.inl h3))
    · exact .inr (.inr (.inr ⟨u, ((C65_values h hf).2.2.2.1 a u ho), h4⟩))

/-- C75: every text that avoids the known defects becomes a safe page.  If a text does not contain `))`, `aria-`
or `data-`, opens no block for a part of a list, table, tab view or ruby annotation, no footnote block and no
bibliography, has no link with a blank label, and the CSS parser does not fail on parts of it, then parsing
returns, rendering returns, and the page is properly nested HTML with safe tags only, whose footnote references
and headings are numbered in order. -/
theorem C75_every_text (hw : WorldOk w) (hc : NoCustomNames text) (h1 : ¬ ∃ a b, text = a ++ c!"))" ++ b)
    (h2 : ¬ OpensOne text allPartBlocks) (h3 : ¬ HasBlankLabel text) (h4 : ¬ OpensBlock text c!"footnoteblock")
    (h5 : ¬ OpensBlock text c!"bibliography")
    (h6 : ∀ s, s <:+: text → w.css settings.minifyCss s ≠ .panic) :
    ∃ pr o evs, parse w' (tokenize text) info' settings' = some (.ok pr) ∧
      htmlRender 4 w info settings pr.tree = .ok o ∧ readHtml o.body = some evs ∧ Nested evs ∧
      (∀ t as, Ev.start t as ∈ evs → t ∈ mathTags ∨ SafeTag t as) ∧
      (∃ k, k ≤ pr.tree.footnotes.length ∧ footnoteRefs evs = (List.range' 1 k).map natToStr) ∧
      (settings.useTrueIds = true → ∃ k, headingIds evs = (List.range k).map fun i => c!"toc" ++ natToStr i) := by
  obtain ⟨pr, h⟩ := C30_parse_does_not_panic (w := w') (info := info') (settings := settings') h1 h2 h3
  obtain ⟨hp, hi⟩ := C75_parsed_trees_are_plain hc h
  have hb : pr.tree.bibliographies = [] := by
    cases e : pr.tree.bibliographies with
    | nil => rfl
    | cons => exact (h5 ((C62_origin_of_collections h).2.1 (by simp [e]))).elim
  obtain ⟨o, hr⟩ := C69_parsed_page_renders (w := w) (info := info) (settings := settings) h h2 h3 h4
    (by intro b hm; rw [hb] at hm; cases hm)
    (by intro es s ks hf ho; exact h6 s ((C63_verbatim h hf).2.2.1 s ho))
  obtain ⟨evs, g1, g2, g3⟩ := C75_rendered_text_is_safe hw hc h hr
  exact ⟨pr, o, evs, h, hr, g1, g2, g3, C46_references_numbered hw hp hr g1,
    fun hs => C48_heading_ids hw hp hi hs hr g1⟩

end

/-! ### A page that meets the hypotheses -/

/-- Some suffix has the property. -/
private def anySuffix (p : Str → Bool) : Str → Bool
  | [] => p []
  | c :: s => p (c :: s) || anySuffix p s

private theorem anySuffix_of {p : Str → Bool} {pre s : Str} (h : p s = true) : anySuffix p (pre ++ s) = true := by
  induction pre with
  | nil =>
    cases s with
    | nil => exact h
    | cons => rw [List.nil_append, anySuffix, h]; rfl
  | cons c pre ih => rw [List.cons_append, anySuffix, ih, Bool.or_true]

private def nameAt (name s : Str) : Bool := lowerA ((s.dropWhile isWS).take name.length) == lowerA name

private def opensB (name text : Str) : Bool := anySuffix (fun s => match s with
  | '[' :: '[' :: r => nameAt name r || nameAt name (r.drop 1)
  | _ => false) text

private theorem opensB_of {text name : Str} (hn : (lowerA name).head?.any (fun c => !isWS c && !isUpperA c) = true)
    (h : OpensBlock text name) : opensB name text = true := by
  obtain ⟨pre, star, ws, nm, post, rfl, h1, h2, h3⟩ := h
  have hlen : nm.length = name.length := by
    have := congrArg List.length h3
    simpa [lowerA] using this
  have key : nameAt name (ws ++ nm ++ post) = true := by
    have hd : (ws ++ nm ++ post).dropWhile isWS = nm ++ post := by
      rw [List.append_assoc, List.dropWhile_append_of_pos h2]
      cases nm with
      | nil => rw [← h3] at hn; simp [lowerA] at hn
      | cons c nm =>
        rw [← h3] at hn
        simp only [lowerA, List.map_cons, List.head?_cons, Option.any_some, Bool.and_eq_true, Bool.not_eq_true'] at hn
        have : isWS c = false := by
          by_cases hu : isUpperA c = true
          · simp only [isUpperA, Bool.and_eq_true, decide_eq_true_eq] at hu
            simp only [isWS, Bool.or_eq_false_iff, Bool.and_eq_false_iff, decide_eq_false_iff_not, beq_eq_false_iff_ne]
            omega
          · have : lowerC c = c := by unfold lowerC; rw [if_neg hu]
            rw [this] at hn
            exact hn.1
        rw [List.cons_append, List.dropWhile_cons, this]
        rfl
    unfold nameAt
    rw [hd, ← hlen, List.take_left, h3, beq_self_eq_true]
  unfold opensB
  rw [show pre ++ c!"[[" ++ star ++ ws ++ nm ++ post = pre ++ ('[' :: '[' :: (star ++ (ws ++ nm ++ post))) by simp]
  refine anySuffix_of ?_
  rcases h1 with rfl | rfl
  · simp only [List.nil_append, key, Bool.true_or]
  · show (nameAt name _ || nameAt name (ws ++ nm ++ post)) = true
    rw [key, Bool.or_true]

private theorem blank_of {text : Str} (h : HasBlankLabel text) : anySuffix (fun s => match s with
    | '|' :: r => startsWith (r.dropWhile isWS) c!"]]]"
    | _ => false) text = true := by
  obtain ⟨pre, t, ws, post, rfl, h1⟩ := h
  rw [show pre ++ c!"[[[" ++ t ++ c!"|" ++ ws ++ c!"]]]" ++ post =
    (pre ++ c!"[[[" ++ t) ++ ('|' :: (ws ++ c!"]]]" ++ post)) by simp]
  refine anySuffix_of ?_
  show startsWith ((ws ++ c!"]]]" ++ post).dropWhile isWS) c!"]]]" = true
  rw [List.append_assoc, List.dropWhile_append_of_pos h1, startsWith_iff]
  exact ⟨post, rfl⟩

/-- A text with a heading, a block with attributes, a link, a footnote, code and a style. -/
def busyText : Str :=
  c!"+ A <b>\n\n[[div class=\"x\" onclick=\"y\" href=\"javascript:z\"]]\na[[footnote]]n[[/footnote]] [https://e.x/ l] //i//\n[[/div]]\n\n[[code]]\nq\n[[/code]]"

example : NoCustomNames busyText ∧ (¬ ∃ a b, busyText = a ++ c!"))" ++ b) ∧ ¬ OpensOne busyText allPartBlocks ∧
    ¬ HasBlankLabel busyText ∧ ¬ OpensBlock busyText c!"footnoteblock" ∧ ¬ OpensBlock busyText c!"bibliography" ∧
    WorldOk plainHWorld ∧ ∀ s, s <:+: busyText → plainHWorld.css false s ≠ .panic := by
  refine ⟨by unfold NoCustomNames; decide +kernel, ?_, ?_, ?_, ?_, ?_, plainHWorld_ok, ?_⟩
  · have : ¬ c!"))" <:+: busyText := by decide +kernel
    rintro ⟨a, b, h⟩
    exact this ⟨a, b, h.symm⟩
  · rintro ⟨n, hn, h⟩
    have key : ∀ n ∈ allPartBlocks, opensB n busyText = false ∧
        (lowerA n).head?.any (fun c => !isWS c && !isUpperA c) = true := by decide +kernel
    have := opensB_of (key n hn).2 h
    rw [(key n hn).1] at this
    cases this
  · intro h
    have := blank_of h
    revert this
    decide +kernel
  · intro h
    have := opensB_of (by decide +kernel) h
    revert this
    decide +kernel
  · intro h
    have := opensB_of (by decide +kernel) h
    revert this
    decide +kernel
  · intro s _
    show (if (lowerA s).contains '<' then CssOut.error else .code s) ≠ .panic
    split <;> simp

end Ftml
