import Verif.Props.Parse
import Verif.Lemmas.HtmlWalk
/-
Properties of the HTML renderer: escaping (C42), well-formedness of the output (C43), what tags and
attributes it can contain (C44, C45), numbering of footnote references and headings (C46, C48).
-/
namespace Ftml
open HtmlSpec

/-! ### C42: escaping -/

private theorem escape_mem {s : Str} {c : Char} (h : c ∈ escapeHtml s) :
    c ≠ '<' ∧ c ≠ '>' ∧ c ≠ '"' ∧ c ≠ '\'' ∧ c.toNat ≠ 0 := by
  induction s with
  | nil => cases h
  | cons a s ih =>
    simp only [escapeHtml, List.mem_append] at h
    rcases h with h | h
    · unfold escapeHtmlChar at h
      have key : ∀ l : Str, (l.all fun c => c != '<' && c != '>' && c != '"' && c != '\'' && c.toNat != 0) = true →
          c ∈ l → c ≠ '<' ∧ c ≠ '>' ∧ c ≠ '"' ∧ c ≠ '\'' ∧ c.toNat ≠ 0 := by
        intro l hl hc
        have := List.all_eq_true.1 hl c hc
        simpa [and_assoc] using this
      split at h
      · next e he =>
        refine key e ?_ h
        repeat (split at he; · cases he; decide)
        cases he
      · next he =>
        simp only [List.mem_singleton] at h
        subst h
        repeat (split at he; · cases he)
        refine ⟨?_, ?_, ?_, ?_, ?_⟩ <;> assumption
    · exact ih h

/-- C42: escaped text contains no `<`, `>`, quote, apostrophe or NUL. -/
theorem C42_escaped_has_no_markup (s : Str) :
    ∀ c ∈ escapeHtml s, c ≠ '<' ∧ c ≠ '>' ∧ c ≠ '"' ∧ c ≠ '\'' ∧ c.toNat ≠ 0 := fun _ h => escape_mem h

/-- The five entities, without the ampersand. -/
def fiveEntities : List Str := [c!"amp;", c!"lt;", c!"gt;", c!"quot;", c!"#39;"]

/-- C42: every ampersand in escaped text begins one of the five entities. -/
theorem C42_escaped_ampersands (s pre post : Str) (h : escapeHtml s = pre ++ '&' :: post) :
    ∃ e ∈ fiveEntities, e <+: post := by
  induction s generalizing pre with
  | nil => simp [escapeHtml] at h
  | cons a s ih =>
    have key : ∀ (x : Str), x ++ escapeHtml s = pre ++ '&' :: post →
        (∀ u v, x = u ++ '&' :: v → ∃ e ∈ fiveEntities, e <+: v) → ∃ e ∈ fiveEntities, e <+: post := by
      intro x hx hxe
      rcases List.append_eq_append_iff.1 hx with ⟨q, h1, h2⟩ | ⟨q, h1, h2⟩
      · exact ih q h2
      · cases q with
        | nil => exact ih [] (by simpa using h2.symm)
        | cons y q =>
          rw [List.cons_append] at h2
          obtain ⟨rfl, rfl⟩ := List.cons.inj h2
          obtain ⟨e, he, hp⟩ := hxe _ _ h1
          exact ⟨e, he, hp.trans (List.prefix_append _ _)⟩
    simp only [escapeHtml] at h
    refine key _ h ?_
    intro u v huv
    unfold escapeHtmlChar at huv
    have lit : ∀ e : Str, e ∈ fiveEntities → '&' ∉ e → ∀ u v, '&' :: e = u ++ '&' :: v → ∃ e ∈ fiveEntities, e <+: v := by
      intro e he hn u v h
      cases u with
      | nil =>
        rw [List.nil_append] at h
        obtain ⟨_, rfl⟩ := List.cons.inj h
        exact ⟨e, he, List.prefix_rfl⟩
      | cons x u =>
        obtain ⟨_, h2⟩ := List.cons.inj h
        exact (hn (by rw [h2]; simp)).elim
    have single : ∀ x : Char, x ≠ '&' → [x] = u ++ '&' :: v → False := by
      intro x hx h
      cases u with
      | nil => exact hx (List.cons.inj h).1
      | cons y u => simpa using (List.cons.inj h).2
    split at huv
    · next e he =>
      repeat (split at he; · cases he; first | exact lit _ (by decide) (by decide) _ _ huv | exact (single _ (by decide) huv).elim)
      cases he
    · next he =>
      refine (single a ?_ huv).elim
      rintro rfl
      revert he
      decide

/-- C42: reading escaped text gives the text back, with NULs as spaces. -/
theorem C42_escaped_reads_back (s : Str) : readHtml (escapeHtml s) = some ((noNul s).map .char) :=
  (frag_escape s).readHtml

/-- C42: two texts without NUL are escaped to the same text only if they are equal. -/
theorem C42_escape_injective {s s' : Str} (h0 : ∀ c ∈ s ++ s', c.toNat ≠ 0) (h : escapeHtml s = escapeHtml s') :
    s = s' := by
  have h1 := C42_escaped_reads_back s
  rw [h, C42_escaped_reads_back s', Option.some.injEq, noNul_of fun c hc => h0 c (by simp [hc]),
    noNul_of fun c hc => h0 c (by simp [hc])] at h1
  exact ((List.map_inj_right fun a b h => by injection h).1 h1).symm

example : escapeHtml c!"<a href=\"x\">'&amp;" = c!"&lt;a href=&quot;x&quot;&gt;&#39;&amp;amp;" := by decide

/-! ### Examples -/

/-- A world in which the external functions do nothing of interest. -/
def plainHWorld : HWorld :=
  { plainWorld with
    randomId := fun n => natToStr n, pageExists := fun _ _ => true,
    css := fun _ s => if (lowerA s).contains '<' then .error else .code s,
    mathml := fun _ _ => .ok c!"<math></math>", now := 0, version := c!"ftml" }

/-- It meets the assumptions of the theorems. -/
theorem plainHWorld_ok : WorldOk plainHWorld where
  random n c h := by
    have := Nat.isDigit_of_mem_toDigits (by decide) (by decide) h
    simp [Char.isAlphanum, this]
  css minify s c h := by
    simp only [plainHWorld] at h
    split at h
    · cases h
    · next hn =>
      cases h
      intro hc
      have : '<' ∈ lowerA s := hc.subset (by decide)
      exact hn (by simpa using this)
  math block s m h := by
    simp only [plainHWorld, Except.ok.injEq] at h
    subst h
    refine ⟨[.start c!"math" [], .stop c!"math"], by decide +kernel, ?_, ?_⟩
    · exact .elem (inner := []) (rest := []) (by decide) .nil .nil
    · intro t as h
      simp only [List.mem_cons, Ev.start.injEq, reduceCtorEq, List.not_mem_nil, or_false] at h
      rw [h.1]
      decide

/-- The kinds of all nodes of a forest. -/
def Elem.allKinds : Elem → List Kind
  | .mk k ks => k :: go ks
where
  /-- those of a forest -/
  go : List Elem → List Kind
    | [] => []
    | e :: es => Elem.allKinds e ++ go es

mutual
theorem mem_allKinds (e : Elem) : ∀ k ks, Occurs k ks [e] → k ∈ e.allKinds := by
  cases e with
  | mk k0 ks0 =>
    intro k ks h
    cases h with
    | here h => simp at h; simp [Elem.allKinds, h.1]
    | inside h h' =>
      simp only [List.mem_singleton, Elem.mk.injEq] at h
      rw [h.2] at h'
      exact List.mem_cons_of_mem _ (mem_allKinds_go ks0 k ks h')
theorem mem_allKinds_go (es : List Elem) : ∀ k ks, Occurs k ks es → k ∈ Elem.allKinds.go es := by
  intro k ks h
  cases es with
  | nil => cases h with | here h => cases h | inside h => cases h
  | cons e es =>
    simp only [Elem.allKinds.go, List.mem_append]
    cases h with
    | here h =>
      rcases List.mem_cons.1 h with rfl | h
      · exact .inl (mem_allKinds _ _ _ (.here (List.mem_singleton.2 rfl)))
      · exact .inr (mem_allKinds_go es _ _ (.here h))
    | inside h h' =>
      rcases List.mem_cons.1 h with rfl | h
      · exact .inl (mem_allKinds _ _ _ (.inside (List.mem_singleton.2 rfl) h'))
      · exact .inr (mem_allKinds_go es _ _ (.inside h h'))
end

/-- The forests of a tree. -/
def Tree.forests (t : Tree) : List (List Elem) :=
  t.elements :: t.toc :: t.footnotes ++ t.bibliographies.flatMap fun b => b.entries.map (·.2)

theorem mem_forests {t : Tree} {es : List Elem} (h : t.Forest es) : es ∈ t.forests := by
  unfold Tree.forests
  cases h with
  | body => simp
  | toc => simp
  | footnote h => simp [h]
  | bibliography h h' =>
    simp only [List.cons_append, List.mem_cons, List.mem_append, List.mem_flatMap, List.mem_map]
    exact .inr (.inr (.inr ⟨_, h, _, h', rfl⟩))

/-- A condition on the kinds of all nodes of a tree, checked by computation. -/
theorem kinds_check {t : Tree} (p : Kind → Bool)
    (h : (t.forests.all fun es => (Elem.allKinds.go es).all p) = true) :
    ∀ es k ks, t.Forest es → Occurs k ks es → p k = true := by
  intro es k ks hf ho
  exact List.all_eq_true.1 (List.all_eq_true.1 h es (mem_forests hf)) k (mem_allKinds_go es k ks ho)

/-- `PlainAttrs` as a computation. -/
def plainAttrsB (m : AttrMap) : Bool :=
  m.all (fun p => !p.1.isEmpty && p.1.all fun c => c.isAlphanum || c == '-' || c == '_' || c == ':' || c == '.') &&
    decide ((m.map (·.1)).Nodup)

theorem plainAttrsB_iff {m : AttrMap} (h : plainAttrsB m = true) : PlainAttrs m := by
  simp only [plainAttrsB, Bool.and_eq_true, decide_eq_true_eq, List.all_eq_true] at h
  refine ⟨fun p hp => ⟨?_, fun c hc => ?_⟩, h.2⟩
  · have := (h.1 p hp).1
    intro e
    rw [e] at this
    cases this
  · have := (h.1 p hp).2 c hc
    simpa [or_assoc] using this

/-! ### C43, C44, C45: what is written -/

section
variable {n : Nat} {w : HWorld} {info : PageInfo} {settings : Settings} {t : Tree} {o : HtmlOutput}

/-- Headings carry no id of their own. -/
def NoHeadingIds (t : Tree) : Prop :=
  ∀ es h a ks v, t.Forest es → Occurs (.container (.header h) a) ks es → (c!"id", v) ∉ a

theorem kindOk_of (hp : PlainTree t) {es : List Elem} {k : Kind} {ks : List Elem} (hf : t.Forest es)
    (ho : Occurs k ks es) : KindOk (.of w info settings t) (Source.of info settings t) (NoHeadingIds t) k where
  map := ⟨hp es k ks hf ho, fun a v h => ⟨es, k, ks, hf, ho, h⟩⟩
  noId hH h a hk v hv := by subst hk; exact hH es h a ks v hf ho hv
  extra lt loc x label target hk hl := by subst hk; exact ⟨es, lt, loc, label, target, ks, hf, ho, hl⟩
  frame a u hk := by subst hk; exact ⟨es, a, ks, hf, ho⟩
  link lt loc x label target hk := by subst hk; exact ⟨es, lt, label, target, ks, hf, ho⟩
  name g hk := by subst hk; exact ⟨es, ks, hf, ho⟩
  picture src link align a hk u hu := by
    subst hk
    refine ⟨es, src, link, align, a, ks, hf, ho, ?_⟩
    cases src with
    | url u' => cases hu; exact .web
    | file1 f =>
      simp only [imageLink] at hu
      split at hu
      · next h => cases hu; exact .here h
      · cases hu
    | file2 p f =>
      simp only [imageLink] at hu
      split at hu
      · next h => cases hu; exact .page h
      · cases hu
    | file3 s p f =>
      simp only [imageLink] at hu
      split at hu
      · next h => cases hu; exact .site h
      · cases hu

theorem render_reads (hw : WorldOk w) (hp : PlainTree t) (h : htmlRender n w info settings t = .ok o) :
    ∃ evs st, readHtml o.body = some evs ∧
      HOk (.of w info settings t) (Source.of info settings t) (NoHeadingIds t) HSt.init evs st ∧
      tag c!"wj-body" [kv c!"class" c!"wj-body"] (renderLevel (.of w info settings t) n t.elements) HSt.init = .ok o.body st := by
  unfold htmlRender at h
  have hwr : Wr (.of w info settings t) (Source.of info settings t) (NoHeadingIds t)
      (tag c!"wj-body" [kv c!"class" c!"wj-body"] (renderLevel (.of w info settings t) n t.elements)) := by
    refine tag_simple [c!"class"] rfl (by decide +kernel) (renderLevel_wr hw ?_ n _ ?_)
    · intro es k ks he ho
      refine kindOk_of hp ?_ ho
      cases he with
      | toc => exact .toc
      | footnote h => exact .footnote h
      | bibliography h h' => exact .bibliography h h'
    · intro k ks ho
      exact kindOk_of hp .body ho
  split at h
  · cases h
  · cases h
  · next s st e =>
    cases h
    obtain ⟨evs, f, ok⟩ := hwr _ _ _ e
    exact ⟨evs, st, f.readHtml, ok, e⟩

/-- C43: the rendered body is HTML that a strict reader accepts, made of properly nested elements. -/
theorem C43_rendered_is_nested (hw : WorldOk w) (hp : PlainTree t) (h : htmlRender n w info settings t = .ok o) :
    ∃ evs, readHtml o.body = some evs ∧ Nested evs := by
  obtain ⟨evs, st, h1, h2, _⟩ := render_reads hw hp h
  exact ⟨evs, h1, h2.nested⟩

/-- C44: every element of the rendered body is one the renderer uses (or one of MathML, from the external
converter), has no attribute twice, and its attributes are the renderer's or come from the tree; event
handlers, scripts and frames are limited as `TagOk` says. -/
theorem C44_tags_and_attributes (hw : WorldOk w) (hp : PlainTree t) (h : htmlRender n w info settings t = .ok o)
    {evs : List Ev} (hr : readHtml o.body = some evs) {tg : Str} {as : List (Str × Str)}
    (hm : Ev.start tg as ∈ evs) : tg ∈ mathTags ∨ TagOk (Source.of info settings t) settings.useTrueIds tg as := by
  obtain ⟨evs', st, h1, h2, _⟩ := render_reads hw hp h
  rw [hr] at h1
  cases h1
  exact h2.tags _ _ hm

/-- C45: the address of every link of the rendered body is safe, unless the tree supplies an `href`
attribute or an extra part for a `javascript:;` link. -/
theorem C45_link_addresses (hw : WorldOk w) (hp : PlainTree t) (h : htmlRender n w info settings t = .ok o)
    {evs : List Ev} (hr : readHtml o.body = some evs) {tg : Str} {as : List (Str × Str)} {v : Str}
    (hm : Ev.start tg as ∈ evs) (hv : (c!"href", v) ∈ as) :
    tg ∈ mathTags ∨ SafeHref v ∨ (∃ x, (Source.of info settings t).extra x ∧ v = c!"javascript:;" ++ noNul x) ∨
      ∃ v', (Source.of info settings t).attr c!"href" v' ∧ v = noNul v' := by
  rcases C44_tags_and_attributes hw hp h hr hm with h | h
  · exact .inl h
  · exact .inr (h.href v hv)

/-- C45: the extra part of a `javascript:;` link makes its address an active script. -/
theorem C45_javascript_extra : ((resultOf (parsePage c!"[[[javascript:;#%0aalert(1)|x]]]")).map fun o =>
    match htmlRender 2 plainHWorld somePage (Settings.fromMode .page .wikidot) o.tree with
    | .ok o => (readHtml o.body).map fun evs => evs.any fun e => match e with
      | .start t as => t == c!"a" && as.lookup c!"href" == some c!"javascript:;#%0aalert(1)"
      | _ => false
    | _ => none) = some (some true) := by decide +kernel

/-- C44: attribute names are not checked enough: a name beginning with `data-` may contain spaces, and what
follows them becomes attributes of their own, here an event handler (so `PlainTree` cannot be dropped). -/
theorem C44_attribute_name_injection :
    (resultOf (parsePage c!"[[div data-x\" onmouseover=alert(1) \"=\"v\"]]\na\n[[/div]]")).map (fun o =>
    match htmlRender 2 plainHWorld somePage (Settings.fromMode .page .wikidot) o.tree with
    | .ok o => o.body
    | _ => []) = some c!"<wj-body class=\"wj-body\"><div data-x&quot; onmouseover=alert(1) &quot;=\"v\"><p>a</p></div></wj-body>" := by
  decide +kernel

/-! ### C74: the links of a page -/

private theorem addLink_spec (l : LinkLoc) (b : Links) :
    addLink l b = ⟨b.internal ++ (wikiTarget l).toList, b.external ++ (webTarget l).toList⟩ := by
  cases l with
  | page r => simp [addLink, wikiTarget, webTarget]
  | url u =>
    by_cases hu : u = c!"javascript:;"
    · subst hu
      have : webTarget (.url c!"javascript:;") = none := by decide +kernel
      simp [addLink, wikiTarget, this]
    · unfold addLink
      simp only [hu, if_false, wikiTarget, webTarget, ne_eq, not_false_eq_true, true_and]
      match u, hu with
      | [], _ => cases h : isUrl [] <;> simp [unslashed, h]
      | c :: r, _ =>
        by_cases hc : c = '/'
        · subst hc
          cases h : isUrl r <;> simp [unslashed, h]
        · have e1 : unslashed (c :: r) = c :: r := by
            unfold unslashed
            split
            · next h => cases h; exact absurd rfl hc
            · rfl
          rw [e1]
          split
          · next h => cases h; exact absurd rfl hc
          · cases h : isUrl (c :: r) <;> simp [h]

private theorem addLinks_spec (ls : List (LinkLoc × Option Str)) (b : Links) :
    ls.foldl (fun b x => addLink x.1 b) b =
      ⟨b.internal ++ ls.filterMap (fun x => wikiTarget x.1), b.external ++ ls.filterMap (fun x => webTarget x.1)⟩ := by
  induction ls generalizing b with
  | nil => simp
  | cons x ls ih =>
    rw [List.foldl_cons, ih, addLink_spec]
    cases h1 : wikiTarget x.1 <;> cases h2 : webTarget x.1 <;> simp [h1, h2]

/-- C74: the links reported for a page are those of the link elements shown, in order: the page shows link
elements of the tree, the `n`-th `wj-link` of the page has the address of the `n`-th of them, and the reported
links to pages and to web addresses are the targets of these elements that are of that kind, in order, with
repetitions. -/
theorem C74_links_reported (hw : WorldOk w) (hp : PlainTree t) (h : htmlRender n w info settings t = .ok o)
    {evs : List Ev} (hr : readHtml o.body = some evs) :
    ∃ ls : List (LinkLoc × Option Str), (∀ x ∈ ls, (Source.of info settings t).link x.1 x.2) ∧
      linkHrefs evs = ls.map (fun x => noNul (normalizeLink w.toExt x.1 ++ x.2.getD [])) ∧
      o.links.internal = ls.filterMap (fun x => wikiTarget x.1) ∧
      o.links.external = ls.filterMap (fun x => webTarget x.1) := by
  obtain ⟨evs', st, h1, h2, h3⟩ := render_reads hw hp h
  rw [hr] at h1
  cases h1
  obtain ⟨ls, g1, g2, g3⟩ := h2.links
  refine ⟨ls, g1, g3, ?_⟩
  have e : o.links = st.links := by
    unfold htmlRender at h
    rw [h3] at h
    exact (congrArg HtmlOutput.links (HtmlRes.ok.inj h)).symm
  rw [e, g2, addLinks_spec]
  exact ⟨rfl, rfl⟩

/-- A page with four links and a linked image. -/
def linkedPage : Option HtmlOutput :=
  (resultOf (parsePage c!"[[[Other page|x]]] [https://a.b/ y] [/start z] [#top w] [[image https://i.j/ link=\"https://k.l/\"]]")).bind
    fun o => match htmlRender 2 plainHWorld somePage (Settings.fromMode .page .wikidot) o.tree with
      | .ok o => some o
      | _ => none

example : (linkedPage.bind fun o => (readHtml o.body).map linkHrefs) =
    some [c!"/Other page", c!"https://a.b/", c!"/start", c!"#top"] := by decide +kernel

example : linkedPage.map (fun o => (o.links.internal.map (·.page), o.links.external)) =
    some ([c!"Other page", c!"start", c!"#top"], [c!"https://a.b/"]) := by decide +kernel

/-- C74: a link to a place of the page itself is reported as a link to a page, and the link of an image is
not reported at all. -/
theorem C74_fragments_and_images : linkedPage.map (fun o =>
    (o.links.internal.any fun r => r.page == c!"#top", o.links.external.contains c!"https://k.l/")) =
    some (true, false) := by decide +kernel

/-! ### C46, C48: numbering -/

/-- C46: the footnote references of the rendered body are numbered 1, 2, 3, … in order, and there are at most
as many as there are footnotes. -/
theorem C46_references_numbered (hw : WorldOk w) (hp : PlainTree t) (h : htmlRender n w info settings t = .ok o)
    {evs : List Ev} (hr : readHtml o.body = some evs) :
    ∃ k, k ≤ t.footnotes.length ∧ footnoteRefs evs = (List.range' 1 k).map natToStr := by
  obtain ⟨evs', st, h1, h2, _⟩ := render_reads hw hp h
  rw [hr] at h1
  cases h1
  refine ⟨st.footnote - 1, ?_, ?_⟩
  · have := h2.footMax
    have h3 : (HEnv.of w info settings t).footnotes = t.footnotes := rfl
    have h4 : HSt.init.footnote = 1 := rfl
    rw [h3, h4] at this
    omega
  · rw [h2.foot]; rfl

/-- C48: with true ids, the headings with an id have the ids `toc0`, `toc1`, … in order, if the tree gives
headings no other ids. -/
theorem C48_heading_ids (hw : WorldOk w) (hp : PlainTree t) (hi : NoHeadingIds t) (hs : settings.useTrueIds = true)
    (h : htmlRender n w info settings t = .ok o) {evs : List Ev} (hr : readHtml o.body = some evs) :
    ∃ k, headingIds evs = (List.range k).map fun i => c!"toc" ++ natToStr i := by
  obtain ⟨evs', st, h1, h2, _⟩ := render_reads hw hp h
  rw [hr] at h1
  cases h1
  refine ⟨st.toc, ?_⟩
  rw [h2.head hi hs, List.range_eq_range']
  rfl

private theorem natToStr_inj {a b : Nat} (h : natToStr a = natToStr b) : a = b := by
  have := congrArg (Nat.ofDigitChars 10 · 0) h
  simpa [natToStr, Nat.ofDigitChars_toDigits] using this

/-- C48: so no two headings share an id. -/
theorem C48_heading_ids_distinct (hw : WorldOk w) (hp : PlainTree t) (hi : NoHeadingIds t)
    (hs : settings.useTrueIds = true) (h : htmlRender n w info settings t = .ok o) {evs : List Ev}
    (hr : readHtml o.body = some evs) : (headingIds evs).Nodup := by
  obtain ⟨k, hk⟩ := C48_heading_ids hw hp hi hs h hr
  rw [hk]
  refine List.pairwise_map.2 (List.nodup_range.imp ?_)
  intro a b hab h
  exact hab (natToStr_inj (List.append_cancel_left h))

end

/-! ### A case that meets the assumptions -/

/-- A text with a heading, attributes, a link, a footnote and markup characters. -/
def sampleText : Str :=
  c!"+ A <b>\n\n[[div class=\"x\" data-y=\"1 > 2\"]]\na[[footnote]]n[[/footnote]] [https://e.x/ l] //i//\n[[/div]]\n\n+ B"

/-- The node kind needs no assumption. -/
def sampleKind (k : Kind) : Bool :=
  plainAttrsB k.attrs && match k with
    | .container (.header _) a => (assocGet a c!"id").isNone
    | _ => true

/-- The sample is rendered. -/
theorem sample_renders : ∃ t o evs, (resultOf (parsePage sampleText)).map (·.tree) = some t ∧ PlainTree t ∧
    NoHeadingIds t ∧ htmlRender 2 plainHWorld somePage (Settings.fromMode .page .wikidot) t = .ok o ∧
    readHtml o.body = some evs ∧ footnoteRefs evs = [c!"1"] ∧ headingIds evs = [c!"toc0", c!"toc1"] ∧
    chars evs = c!"A <b>a1Footnote 1.n l iBFootnotes1.n" ∧
    Ev.start c!"div" [(c!"class", c!"x"), (c!"data-y", c!"1 > 2")] ∈ evs := by
  have key : (match (resultOf (parsePage sampleText)).map (·.tree) with
    | some t => t.forests.all (fun es => (Elem.allKinds.go es).all sampleKind) &&
      (match htmlRender 2 plainHWorld somePage (Settings.fromMode .page .wikidot) t with
       | .ok o => (match readHtml o.body with
         | some evs => decide (footnoteRefs evs = [c!"1"] ∧ headingIds evs = [c!"toc0", c!"toc1"] ∧
            chars evs = c!"A <b>a1Footnote 1.n l iBFootnotes1.n" ∧
            Ev.start c!"div" [(c!"class", c!"x"), (c!"data-y", c!"1 > 2")] ∈ evs)
         | none => false)
       | _ => false)
    | none => false) = true := by decide +kernel
  split at key
  · next t ht =>
    simp only [Bool.and_eq_true] at key
    obtain ⟨k1, k2⟩ := key
    have hk := kinds_check (t := t) sampleKind k1
    split at k2
    · next o ho =>
      split at k2
      · next evs he =>
        refine ⟨t, o, evs, ht, ?_, ?_, ho, he, of_decide_eq_true k2⟩
        · intro es k ks hf ho
          have := hk es k ks hf ho
          simp only [sampleKind, Bool.and_eq_true] at this
          exact plainAttrsB_iff this.1
        · intro es h a ks v hf ho hv
          have := hk es _ ks hf ho
          simp only [sampleKind, Bool.and_eq_true] at this
          exact assocGet_isNone this.2 v hv
      · cases k2
    · cases k2
  · cases key

end Ftml
