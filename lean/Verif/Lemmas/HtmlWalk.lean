import Verif.Lemmas.HtmlSpec
/- What the renderer writes for a tree. -/
namespace Ftml
open HtmlSpec

section
variable {env : HEnv} {A : Source} {H : Prop}

/-- An attribute the renderer writes itself. -/
theorem mem_attrList_live {entries : List AttrEntry} {map : AttrMap} {k v v0 : Str}
    (h : (k, v) ∈ attrList entries map) (h0 : (k, v0) ∈ liveEntries entries)
    (hu : ∀ v1, (k, v1) ∈ liveEntries entries → v1 = v0) :
    v = v0 ∨ ∃ mv, (k, mv) ∈ map ∧ v = v0 ++ c!" " ++ mv := by
  have e1 : attrList entries map =
    ((liveEntries entries).filterMap fun (k, v) => (assocGet map k).map fun mv => (k, v ++ c!" " ++ mv)) ++
    ((liveEntries entries).filter fun (k, _) => (assocGet map k).isNone) ++
    (map.filter fun (k, _) => !(((liveEntries entries).filterMap fun (k, v) => (assocGet map k).map fun mv => (k, v ++ c!" " ++ mv)).any fun (k', _) => k' == k)) := rfl
  rw [e1] at h
  generalize liveEntries entries = es at h h0 hu
  rcases List.mem_append.1 h with h | h
  · rcases List.mem_append.1 h with h | h
    · obtain ⟨⟨a, b⟩, h1, h2⟩ := List.mem_filterMap.1 h
      simp only [Option.map_eq_some_iff, Prod.mk.injEq] at h2
      obtain ⟨mv, h3, rfl, rfl⟩ := h2
      rw [hu b h1]
      exact .inr ⟨mv, assocGet_mem h3, rfl⟩
    · exact .inl (hu v (List.mem_filter.1 h).1)
  · obtain ⟨h1, h2⟩ := List.mem_filter.1 h
    exfalso
    simp only [Bool.not_eq_true', List.any_eq_false, List.mem_filterMap, Option.map_eq_some_iff] at h2
    cases hg : assocGet map k with
    | none => exact assocGet_isNone (by rw [hg]; rfl) v h1
    | some mv => exact h2 (k, v0 ++ c!" " ++ mv) ⟨(k, v0), h0, mv, hg, rfl⟩ (by simp)

/-! ### Raw text elements -/

theorem tagA_raw {t : Str} {entries : List AttrEntry} {map : AttrMap} {x : Str} (ks : List Str)
    (hk : entries.map (·.1) = ks)
    (hc : (decide (t ∈ outputTags) && decide (t ∈ rawTags) && decide (TagName t) && decide (lowerA t = t) &&
      ks.all (fun k => decide (k ∈ freeKeys)) && decide ks.Nodup && decide (t ∉ voidTags) && decide (t ∉ headTags)) = true)
    (hm : MapOk A map) (hx : NoStop t x)
    (hs : t = c!"script" → ∀ v, (c!"src", v) ∈ asRead (attrList entries map) →
      c!"https://gist.github.com/" <+: v ∨ c!"https://gitlab.com/-/snippets/" <+: v)
    (hf : t = c!"iframe" → ∀ v, (c!"src", v) ∈ asRead (attrList entries map) →
      c!"https://www.youtube.com/embed/" <+: v ∨ c!"https://player.vimeo.com/video/" <+: v ∨
      v = c!"https://example.com/" ∨ ∃ u, A.frame u ∧ noNul u <+: v) :
    Wr env A H (tagA t entries map (emit x)) := by
  subst hk
  simp only [Bool.and_eq_true, decide_eq_true_eq, List.all_eq_true] at hc
  obtain ⟨⟨⟨⟨⟨⟨⟨c1, c2⟩, c3⟩, cl⟩, c4⟩, c5⟩, c6⟩, c7⟩ := hc
  have live : ∀ {k v}, (k, v) ∈ liveEntries entries → k ∈ freeKeys := fun h =>
    c4 _ ((liveEntries_sub entries).subset (List.mem_map.2 ⟨_, h, rfl⟩))
  have hp : ∀ p ∈ attrList entries map, PlainName p.1 :=
    attrList_plain (fun k hk => outputAttrs_plain k (freeKeys_sub (c4 k hk)).1) hm
  have ht : TagOk A env.settings.useTrueIds t (asRead (attrList entries map)) := by
    refine ⟨c1, ?_, ?_, ?_, ?_, hs, hf, ?_, ImageOk.other (by rintro rfl; revert c2; decide)⟩
    · rw [asRead_keys]; exact attrList_nodup c5 hm.plain.2
    · intro k v h
      obtain ⟨v', h1, rfl⟩ := mem_asRead h
      rcases mem_attrList h1 with ⟨v0, h2, _⟩ | h2
      · exact .inl (freeKeys_sub (live h2)).1
      · exact .inr ⟨v', hm.attr _ _ h2, rfl⟩
    · intro v h
      obtain ⟨v', h1, rfl⟩ := mem_asRead h
      rcases mem_attrList h1 with ⟨v0, h2, _⟩ | h2
      · exact ((freeKeys_sub (live h2)).2.1 rfl).elim
      · exact .inr (.inr ⟨v', hm.attr _ _ h2, rfl⟩)
    · intro v h
      obtain ⟨v', h1, rfl⟩ := mem_asRead h
      rcases mem_attrList h1 with ⟨v0, h2, _⟩ | h2
      · exact ((freeKeys_sub (live h2)).2.2 rfl).elim
      · exact .inr ⟨v', hm.attr _ _ h2, rfl⟩
    · exact IdOk.tag (fun v hv => ((freeKeys_sub' (live hv)).2.2.2 rfl).elim) hm
  intro st s st' h
  unfold tagA at h
  obtain ⟨s1, st1, s2, e1, e2, rfl⟩ := andThen_ok h
  obtain ⟨s3, st3, s4, e3, e4, rfl⟩ := andThen_ok e2
  simp only [Ftml.emit, HR.ok.injEq] at e1 e3 e4
  obtain ⟨rfl, rfl⟩ := e1
  obtain ⟨rfl, rfl⟩ := e3
  obtain ⟨rfl, rfl⟩ := e4
  have hs : soloTags.contains t = false := by rw [soloTags_eq]; simpa using c6
  rw [hs]
  refine ⟨_, frag_raw c3 c2 cl hx hp, ?_⟩
  refine (HOk.chars _ x).elem c6 ht ?_ (.inl c7) (notLink ?_ _)
  · rintro rfl
    revert c2
    decide
  · rintro rfl
    revert c2
    decide

theorem noStop_nil (t : Str) : NoStop t [] := by
  intro h
  have := h.length_le
  simp [lowerA] at this

/-! ### Links -/

theorem noNul_append (a b : Str) : noNul (a ++ b) = noNul a ++ noNul b := by simp [noNul]
theorem noNul_of {s : Str} (h : ∀ c ∈ s, c.toNat ≠ 0) : noNul s = s := by
  induction s with
  | nil => rfl
  | cons c s ih =>
    have := ih fun c hc => h c (by simp [hc])
    unfold noNul at this ⊢
    simp only [List.map_cons, if_neg (h c (by simp)), this]
theorem noNul_prefix {p s : Str} (hp : ∀ c ∈ p, c.toNat ≠ 0) (h : p <+: s) : p <+: noNul s := by
  obtain ⟨r, rfl⟩ := h
  rw [noNul_append, noNul_of hp]
  exact List.prefix_append _ _
theorem noNul_head {s : Str} {c : Char} (hc : c.toNat ≠ 0) (h : s.head? = some c) : (noNul s).head? = some c := by
  cases s with
  | nil => cases h
  | cons d s =>
    simp only [List.head?_cons, Option.some.injEq] at h
    subst h
    simp [noNul, hc]

theorem urlSchemes_noNul : ∀ p ∈ urlSchemes, ∀ c ∈ p, c.toNat ≠ 0 := by decide +kernel

theorem safe_append {u : Str} (h : SafeHref u) (x : Str) :
    SafeHref (noNul (u ++ x)) ∨ u = c!"javascript:;" := by
  rcases h with ⟨p, hp, h⟩ | h | h | h
  · exact .inl (.inl ⟨p, hp, noNul_prefix (urlSchemes_noNul p hp) (h.trans (List.prefix_append _ _))⟩)
  · refine .inl (.inr (.inl (noNul_head (by decide) ?_)))
    cases u with
    | nil => cases h
    | cons => exact h
  · exact .inr h
  · refine .inl (.inr (.inr (.inr (noNul_head (by decide) ?_))))
    cases u with
    | nil => cases h
    | cons => exact h

theorem normalizeLink_safe (e : Ext) (l : LinkLoc) : SafeHref (normalizeLink e l) := by
  unfold normalizeLink
  split
  · exact C12_normalized_href_safe e _
  · split
    · refine .inl ⟨c!"https://", by decide +kernel, ?_⟩
      unfold buildUrl
      simp only [List.append_assoc]
      exact List.prefix_append _ _
    · exact C12_normalized_href_safe e _

theorem normalizeLink_js {e : Ext} {l : LinkLoc} (h : normalizeLink e l = c!"javascript:;") :
    l = .url c!"javascript:;" ∨ l = .page ⟨none, c!"javascript:;"⟩ := by
  have key : ∀ u, normalizeHref e u = c!"javascript:;" → u = c!"javascript:;" := by
    intro u hu
    by_cases h1 : (isUrl u || startsWith u c!"#" || u == c!"javascript:;") = true
    · unfold normalizeHref at hu
      rwa [if_pos h1] at hu
    · by_cases h2 : dangerousScheme e u = true
      · unfold normalizeHref at hu
        rw [if_neg h1, if_pos h2] at hu
        cases hu
      · have := normalizeHref_path e u h1 h2
        rw [hu] at this
        cases this
  unfold normalizeLink at h
  split at h
  · exact .inl (by rw [key _ h])
  · next r =>
    split at h
    · exact absurd (congrArg List.head? h) (by simp [buildUrl])
    · next hs =>
      right
      obtain ⟨s, p⟩ := r
      simp only at hs h
      rw [hs, key _ h]

/-! ### Leaves -/

theorem natDigit_plain (n : Nat) : PlainText (natToStr n) := by
  intro c hc
  have : c.isDigit = true := by
    revert hc
    simp only [natToStr]
    intro hc
    exact Nat.isDigit_of_mem_toDigits (by decide) (by decide) hc
  exact (plain_cases (.inl (by simp [Char.isAlphanum, this]))).2

theorem sprite_wr (id : Str) : Wr env A H (sprite id) := by
  refine tag_simple [c!"class", c!"viewBox"] rfl (by decide +kernel) ?_
  refine tag_href [] rfl (by decide +kernel) ?_ .skip _ (.refl _) (notLink (by decide) _)
  exact .inl ((safe_append (u := c!"/files--static/media/ui.svg#") (.inr (.inr (.inr rfl))) id).resolve_right (by decide))

theorem renderCode_wr (s : Str) (l : Option Str) : Wr env A H (renderCode s l) := by
  refine .andThen (.modify (fun _ => rfl) (fun _ => rfl) (fun _ => rfl)) ?_
  refine tag_simple [c!"class"] rfl (by decide +kernel) (.andThen ?_ ?_)
  · refine tag_simple [c!"class"] rfl (by decide +kernel) (.andThen ?_ ?_)
    · exact tag_simple [c!"type", c!"class", c!"title"] rfl (by decide +kernel) (.andThen (sprite_wr _) (sprite_wr _))
    · exact tag_simple [c!"class"] rfl (by decide +kernel) (.esc _)
  · exact tag_simple [] rfl (by decide +kernel) (tag_simple [] rfl (by decide +kernel) (.esc _))

theorem mathml_wr {m : Str} (h : ∃ evs, readHtml m = some evs ∧ Nested evs ∧
    ∀ t as, Ev.start t as ∈ evs → t ∈ mathTags) : Wr env A H (emit m) := by
  intro st s st' e
  simp only [Ftml.emit, HR.ok.injEq] at e
  obtain ⟨rfl, rfl⟩ := e
  obtain ⟨evs, h1, h2, h3⟩ := h
  have foot : ∀ evs : List Ev, (∀ t as, Ev.start t as ∈ evs → t ∈ mathTags) →
      footnoteRefs evs = [] ∧ headingIds evs = [] ∧ linkHrefs evs = [] := by
    intro evs h
    induction evs with
    | nil => exact ⟨rfl, rfl, rfl⟩
    | cons e evs ih =>
      have ih := ih fun t as hm => h t as (by simp [hm])
      cases e with
      | start t as =>
        have ht := h t as (by simp)
        have : ∀ t ∈ mathTags, t ≠ c!"wj-footnote-ref-marker" ∧ t ∉ headTags ∧ t ≠ c!"a" := by decide +kernel
        obtain ⟨g1, g2, g3⟩ := this t ht
        simp only [footnoteRefs, headingIds, linkHrefs, if_neg g1, if_neg g2, notLink g3, Bool.false_eq_true, if_false, ih, and_self]
      | stop t => exact ih
      | char c => exact ih
  refine ⟨evs, .of_readHtml h1, h2, fun t as hm => .inl (h3 t as hm), Nat.le_refl _, ?_, Nat.le_refl _, ?_, rfl, Nat.le_max_left .., .none (foot evs h3).2.2⟩
  · rw [(foot evs h3).1, upTo_self]; rfl
  · intro _ _; rw [(foot evs h3).2.1, upTo_self]; rfl

theorem renderLatex_wr (hw : WorldOk env.w) (name : Option Str) (index : Option Nat) (s : Str) (block : Bool) :
    Wr env A H (renderLatex env name index s block) := by
  have body : Wr env A H ((match index with
     | some i => tag c!"span" [kv c!"class" c!"wj-equation-number"] (
         tag c!"span" [kv c!"class" c!"wj-equation-paren wj-equation-paren-open"] (emitEsc c!"(") ;;
         emit (natToStr i) ;;
         tag c!"span" [kv c!"class" c!"wj-equation-paren wj-equation-paren-close"] (emitEsc c!")"))
     | none => skip) ;;
    tag c!"code" [kv c!"class" c!"wj-math-source wj-hidden", kv c!"aria-hidden" c!"true"] (emitEsc s) ;;
    (match env.w.mathml block s with
     | .ok m => tag c!"wj-math-ml" [kv c!"class" c!"wj-math-ml"] (emit m)
     | .error e => tag c!"span" [kv c!"class" (if block then c!"wj-error-block" else c!"wj-error-inline")]
         (emitEsc e))) := by
    refine .andThen ?_ (.andThen ?_ ?_)
    · cases index with
      | none => exact .skip
      | some i =>
        refine tag_simple [c!"class"] rfl (by decide +kernel) (.andThen ?_ (.andThen (.emit (natDigit_plain i)) ?_))
        · exact tag_simple [c!"class"] rfl (by decide +kernel) (.esc _)
        · exact tag_simple [c!"class"] rfl (by decide +kernel) (.esc _)
    · exact tag_simple [c!"class", c!"aria-hidden"] rfl (by decide +kernel) (.esc _)
    · cases hm : env.w.mathml block s with
      | ok m => exact tag_simple [c!"class"] rfl (by decide +kernel) (mathml_wr (hw.math _ _ _ hm))
      | error e => exact tag_simple [c!"class"] rfl (by decide +kernel) (.esc _)
  unfold renderLatex
  cases block with
  | true => exact tag_simple [c!"class", c!"data-name"] rfl (by decide +kernel) body
  | false => exact tag_simple [c!"class", c!"data-name"] rfl (by decide +kernel) body

theorem avatar_ok : ImageOk A c!"img" (asRead (attrList [kv c!"class" c!"wj-user-info-avatar", kv c!"src" dummyAvatar] [])) := by
  intro _ v hv
  have : (c!"src", v) ∈ [(c!"class", c!"wj-user-info-avatar"), (c!"src", dummyAvatar)] := hv
  simp at this
  exact .inl this

theorem renderUser_wr (name : Str) (avatar : Bool) : Wr env A H (renderUser name avatar) := by
  refine tag_simple [c!"class"] rfl (by decide +kernel) ?_
  refine tag_href (href := c!"/user:info/" ++ name) [c!"class"] (entries := [kv c!"class" c!"wj-user-info-link"]) rfl
    (by decide +kernel) ?_ (.andThen ?_ ?_) _ (.swap _ _ _) rfl
  · exact .inl ((safe_append (u := c!"/user:info/") (.inr (.inr (.inr rfl))) name).resolve_right (by decide))
  · cases avatar with
    | false => exact .skip
    | true =>
      simp only [if_true]
      refine .andThen (tag_simple [c!"class", c!"data-karma"] rfl (by decide +kernel) (sprite_wr _)) ?_
      exact tagA_void (ks := [c!"class", c!"src"]) rfl (by decide +kernel) (by decide) .nil avatar_ok
  · exact tag_simple [c!"class"] rfl (by decide +kernel) (.esc _)

theorem renderDate_wr (d : DateVal) (hover : Bool) : Wr env A H (renderDate env d hover) :=
  tag_simple [c!"class", c!"data-timestamp", c!"data-delta"] rfl (by decide +kernel) (.esc _)

theorem mem_attrList_nil {entries : List AttrEntry} {k v : Str} (h : (k, v) ∈ asRead (attrList entries [])) :
    ∃ v', (k, v') ∈ liveEntries entries ∧ v = noNul v' := by
  obtain ⟨v', h1, rfl⟩ := mem_asRead h
  rcases mem_attrList h1 with ⟨v0, h2, ⟨rfl, _⟩ | ⟨mv, h3, _⟩⟩ | h2
  · exact ⟨_, h2, rfl⟩
  · cases h3
  · cases h2

theorem renderEmbed_wr (e : Embed) : Wr env A H (renderEmbed e) := by
  refine tag_simple [c!"class"] rfl (by decide +kernel) ?_
  cases e with
  | youtube v =>
    refine tagA_raw [c!"src", c!"frameborder", c!"allow", c!"allowfullscreen"] rfl (by decide +kernel) .nil (noStop_nil _)
      (fun h => absurd h (by decide)) fun _ v hv => ?_
    obtain ⟨v', h1, rfl⟩ := mem_attrList_nil hv
    simp [liveEntries, kv, flag] at h1
    subst h1
    left
    exact noNul_prefix (by decide) (List.prefix_append _ _)
  | vimeo v =>
    refine tagA_raw [c!"src", c!"frameborder", c!"allow", c!"allowfullscreen"] rfl (by decide +kernel) .nil (noStop_nil _)
      (fun h => absurd h (by decide)) fun _ v hv => ?_
    obtain ⟨v', h1, rfl⟩ := mem_attrList_nil hv
    simp [liveEntries, kv, flag] at h1
    subst h1
    right; left
    exact noNul_prefix (by decide) (List.prefix_append _ _)
  | githubGist u h =>
    refine tagA_raw [c!"src"] rfl (by decide +kernel) .nil (noStop_nil _) (fun _ v hv => ?_) (fun h => absurd h (by decide))
    obtain ⟨v', h1, rfl⟩ := mem_attrList_nil hv
    simp only [liveEntries, kv, List.filterMap_cons, if_true, List.filterMap_nil, List.mem_cons, Prod.mk.injEq,
      true_and, List.not_mem_nil, or_false] at h1
    subst h1
    left
    refine noNul_prefix (by decide) ?_
    simp only [List.append_assoc]
    exact List.prefix_append _ _
  | gitlabSnippet i =>
    refine tagA_raw [c!"src"] rfl (by decide +kernel) .nil (noStop_nil _) (fun _ v hv => ?_) (fun h => absurd h (by decide))
    obtain ⟨v', h1, rfl⟩ := mem_attrList_nil hv
    simp only [liveEntries, kv, List.filterMap_cons, if_true, List.filterMap_nil, List.mem_cons, Prod.mk.injEq,
      true_and, List.not_mem_nil, or_false] at h1
    subst h1
    right
    refine noNul_prefix (by decide) ?_
    simp only [List.append_assoc]
    exact List.prefix_append _ _

theorem anchor_notLink (target : Option AnchorTarget) (attrs : AttrMap) :
    isLinkTag c!"a" (asRead (attrList [kv c!"class" c!"wj-anchor",
      kvIf c!"target" ((target.map AnchorTarget.htmlAttr).getD []) target.isSome] attrs)) = false := by
  cases h1 : assocGet attrs c!"class" with
  | none =>
    cases target with
    | none => simp [isLinkTag, attrList, kv, kvIf, asRead, h1]; rfl
    | some t =>
      cases h2 : assocGet attrs c!"target" <;> simp [isLinkTag, attrList, kv, kvIf, asRead, h1, h2, List.lookup] <;> rfl
  | some v =>
    simp [isLinkTag, attrList, kv, asRead, h1]; rfl

theorem link_isLink (h tv : Str) (tb : Bool) (x y d : Str) :
    isLinkTag c!"a" (asRead (attrList [kv c!"href" h, kvIf c!"target" tv tb,
      kv c!"class" (c!"wj-link " ++ x ++ y), kv c!"data-link-type" d] [])) = true := by
  cases tb <;> rfl

theorem renderLink_wr (loc : LinkLoc) (extra : Option Str) (label : LinkLabel) (target : Option AnchorTarget)
    (lt : LinkType) (hx : ∀ x, extra = some x → (loc = .url c!"javascript:;" ∨ loc = .page ⟨none, c!"javascript:;"⟩) → A.extra x)
    (hA : A.link loc extra) :
    Wr env A H (renderLink env loc extra label target lt) := by
  unfold renderLink
  dsimp only
  refine tag_hrefL (addLink loc) [c!"target", c!"class", c!"data-link-type"] rfl (by decide +kernel)
    ?_ ?_ _ (.refl _) ?_
  · rcases safe_append (normalizeLink_safe env.w.toExt loc) (extra.getD []) with h | h
    · exact .inl h
    · cases extra with
      | none => left; rw [h]; exact .inr (.inr (.inl (by decide)))
      | some x =>
        right
        refine ⟨x, hx x rfl (normalizeLink_js h), ?_⟩
        rw [h, Option.getD_some, noNul_append]
        congr 1
  · split
    · exact .esc _
    · exact .die _
  · rintro l e l' ⟨ls, g1, g2, g3⟩
    refine ⟨(loc, extra) :: ls, ?_, g2, ?_⟩
    · intro x hx'
      rcases List.mem_cons.1 hx' with rfl | hx'
      · exact hA
      · exact g1 x hx'
    · rw [linkHrefs, if_pos (link_isLink ..), linkHrefs_append, g3, List.map_cons]
      cases target <;> simp [attrList, kv, kvIf, assocGet, asRead, linkHrefs]

theorem renderImage_wr (src : ImageSource) (link : Option LinkLoc) (align : Option FloatAlign) {attrs : AttrMap}
    (hm : MapOk A attrs) (hA : ∀ u, imageLink env.info env.settings src = some u → A.picture u) :
    Wr env A H (renderImage env src link align attrs) := by
  unfold renderImage
  split
  · exact tag_simple [c!"class"] rfl (by decide +kernel) (.esc _)
  · next url hu =>
    have img : Wr env A H (tagA c!"img" [kv c!"class" c!"wj-image", kv c!"src" url, flag c!"crossorigin"] attrs skip) :=
      tagA_void (ks := [c!"class", c!"src", c!"crossorigin"]) rfl (by decide +kernel) (by decide) hm (by
        intro _ v hv
        obtain ⟨v', h1, rfl⟩ := mem_asRead hv
        refine .inr ⟨url, hA url hu, ?_⟩
        rcases mem_attrList_live (v0 := url) h1 (by simp [liveEntries, kv, flag]) (by simp [liveEntries, kv, flag]) with rfl | ⟨mv, h2, rfl⟩
        · exact .inl rfl
        · exact .inr ⟨mv, hm.attr _ _ h2, rfl⟩)
    refine tag_simple [c!"class"] rfl (by decide +kernel) ?_
    cases link with
    | none => exact img
    | some l =>
      refine tag_href [] rfl (by decide +kernel) ?_ img _ (.refl _) rfl
      left
      rcases safe_append (normalizeLink_safe env.w.toExt l) [] with h | h
      · simpa using h
      · rw [h]; exact .inr (.inr (.inl (by decide)))

theorem renderStyle_wr (hw : WorldOk env.w) (css : Str) : Wr env A H (renderStyle env css) := by
  unfold renderStyle
  split
  · exact .die _
  · exact .skip
  · next s e =>
    exact tagA_raw [] rfl (by decide +kernel) .nil (hw.css _ _ _ e) (fun h => absurd h (by decide))
      (fun h => absurd h (by decide))

theorem renderEquationRef_wr (name : Str) : Wr env A H (renderEquationRef name) := by
  refine tag_simple [c!"class"] rfl (by decide +kernel) (.andThen ?_ ?_)
  · exact tag_simple [c!"class", c!"type", c!"data-name"] rfl (by decide +kernel) (.esc _)
  · exact tag_simple [c!"class", c!"aria-hidden"] rfl (by decide +kernel) .skip

theorem renderVariable_wr (name : Str) : Wr env A H (renderVariable name) :=
  fun st s st' h => Wr.esc _ st s st' h

theorem foldToc_wr : Wr env A H (tag c!"a" [kv c!"href" c!"javascript:;",
        kv c!"onclick" c!"WIKIJUMP.page.listeners.foldToc(event)"] skip) := by
  refine tagA_wr ⟨by decide +kernel, by decide +kernel, ?_, ?_, ?_, fun h => absurd h (by decide), fun h => absurd h (by decide), ?_, ImageOk.other (by decide)⟩ ?_ (by decide +kernel)
    (by decide +kernel) (by decide +kernel) (by decide +kernel) (.inl (by decide +kernel)) rfl .skip
  · intro k v h
    obtain ⟨v', h1, rfl⟩ := mem_attrList_nil h
    simp [liveEntries, kv] at h1
    rcases h1 with ⟨rfl, _⟩ | ⟨rfl, _⟩
    · exact .inl (by decide +kernel)
    · exact .inl (by decide +kernel)
  · intro v h
    obtain ⟨v', h1, rfl⟩ := mem_attrList_nil h
    simp [liveEntries, kv] at h1
    subst h1
    exact .inl (.inr (.inr (.inl (by decide))))
  · intro v h
    obtain ⟨v', h1, rfl⟩ := mem_attrList_nil h
    simp [liveEntries, kv] at h1
    subst h1
    exact .inl (by decide)
  · exact IdOk.tag (.none (by decide)) .nil
  · refine attrList_plain (A := A) (fun k hk => outputAttrs_plain k ?_) .nil
    simp [kv] at hk
    rcases hk with rfl | rfl
    · decide +kernel
    · decide +kernel

/-- The only id is one of the renderer. -/
theorem ownId {entries : List AttrEntry} {g : Str} (hg : OwnId env.settings.useTrueIds g)
    (h : ∀ v b, (c!"id", v, b) ∈ entries → v = g) : IdOk env A entries := by
  intro v hv
  simp only [liveEntries, List.mem_filterMap] at hv
  obtain ⟨⟨k0, v0, b0⟩, h1, h2⟩ := hv
  simp only [Option.ite_none_right_eq_some, Option.some.injEq, Prod.mk.injEq] at h2
  obtain ⟨_, rfl, rfl⟩ := h2
  rw [h _ _ h1]
  exact .inl hg

/-- The only id is one of the renderer, if ids are to be true ones. -/
theorem ownIdIf {entries : List AttrEntry} {g : Str} (hg : g ∈ [c!"wj-toc", c!"wj-toc-action-bar", c!"wj-toc-list"])
    (h : ∀ v b, (c!"id", v, b) ∈ entries → v = g ∧ b = env.settings.useTrueIds) : IdOk env A entries := by
  intro v hv
  simp only [liveEntries, List.mem_filterMap] at hv
  obtain ⟨⟨k0, v0, b0⟩, h1, h2⟩ := hv
  simp only [Option.ite_none_right_eq_some, Option.some.injEq, Prod.mk.injEq] at h2
  obtain ⟨hb, rfl, rfl⟩ := h2
  obtain ⟨e1, e2⟩ := h _ _ h1
  subst e1
  exact .inl (.inr (.inr (.inl ⟨e2 ▸ hb, hg⟩)))

theorem renderToc_wr {ext : List Elem → Act} (he : Wr env A H (ext env.toc)) {attrs : AttrMap} (hm : MapOk A attrs)
    (align : Option Alignment) : Wr env A H (renderToc env ext attrs align) := by
  refine tagA_id [c!"id", c!"class"] rfl (by decide +kernel) hm (ownIdIf (g := c!"wj-toc") (by decide) (by rintro v b h; simpa [kvIf] using h)) (notLink (by decide) _)
    (.andThen ?_ (.andThen ?_ ?_))
  · exact tagA_id [c!"id"] rfl (by decide +kernel) .nil (ownIdIf (g := c!"wj-toc-action-bar") (by decide) (by rintro v b h; simpa [kvIf] using h)) (notLink (by decide) _) foldToc_wr
  · exact tag_simple [c!"class"] rfl (by decide +kernel) (.esc _)
  · exact tagA_id [c!"id"] rfl (by decide +kernel) .nil (ownIdIf (g := c!"wj-toc-list") (by decide) (by rintro v b h; simpa [kvIf] using h)) (notLink (by decide) _) he

/-! ### Footnotes and bibliographies -/

theorem marker_wr (n : Nat) (label id : Str) {st : HSt} {s : Str} {st' : HSt}
    (hid : id = natToStr n)
    (h : tag c!"wj-footnote-ref-marker" [kv c!"class" c!"wj-footnote-ref-marker", kv c!"role" c!"link",
         kv c!"aria-label" label, kv c!"data-id" id] (emitEsc id) st = .ok s st') :
    st' = st ∧ ∃ evs, Frag s evs ∧ Nested evs ∧ (∀ t as, Ev.start t as ∈ evs → TagOk A env.settings.useTrueIds t as) ∧
      footnoteRefs evs = [natToStr n] ∧ headingIds evs = [] ∧ linkHrefs evs = [] := by
  obtain ⟨ht, hp, hr, hn⟩ := tagOk_check (A := A) (t := c!"wj-footnote-ref-marker") (map := [])
    (entries := [kv c!"class" c!"wj-footnote-ref-marker", kv c!"role" c!"link",
         kv c!"aria-label" label, kv c!"data-id" id]) (ks := [c!"class", c!"role", c!"aria-label", c!"data-id"]) rfl
         (by decide +kernel) .nil (.other (by decide))
  unfold tag tagA at h
  obtain ⟨s1, st1, s2, e1, e2, rfl⟩ := andThen_ok h
  obtain ⟨s3, st3, s4, e3, e4, rfl⟩ := andThen_ok e2
  simp only [Ftml.emit, emitEsc, HR.ok.injEq] at e1 e3 e4
  obtain ⟨rfl, rfl⟩ := e1
  obtain ⟨rfl, rfl⟩ := e3
  obtain ⟨rfl, rfl⟩ := e4
  refine ⟨rfl, _, (frag_start hn hr hp).append ((frag_escape id).append (frag_stop hn)), ?_, ?_, ?_, ?_, ?_⟩
  · exact Nested.wrap (by decide +kernel) (.chars _)
  · intro t as hm
    simp at hm
    obtain ⟨rfl, rfl⟩ := hm
    exact ht
  · simp only [List.cons_append, List.nil_append, footnoteRefs, if_true, footnoteRefs_append, footnoteRefs_chars]
    have : noNul id = natToStr n := by
      subst hid
      refine noNul_of fun c hc h0 => ?_
      have := natDigit_plain n c hc
      unfold escapeHtmlChar at this
      simp only [h0, if_true] at this
      repeat (split at this <;> try cases this)
    simp only [attrList, kv, List.filterMap_cons, if_true, List.filterMap_nil]
    simp [assocGet, List.lookup, this]
  · have : ¬ c!"wj-footnote-ref-marker" ∈ headTags := by decide +kernel
    simp only [List.cons_append, List.nil_append, headingIds, if_neg this, headingIds_append, headingIds_chars]
  · simp only [List.cons_append, List.nil_append, linkHrefs, notLink (t := c!"wj-footnote-ref-marker") (by decide),
      Bool.false_eq_true, if_false, linkHrefs_append, linkHrefs_chars]

theorem renderFootnote_wr {ext : List Elem → Act} (he : ∀ f ∈ env.footnotes, Wr env A H (ext f)) :
    Wr env A H (renderFootnote env ext) := by
  intro st s st' h
  unfold renderFootnote at h
  dsimp only at h
  obtain ⟨s1, st1, s2, e1, e2, rfl⟩ := andThen_ok h
  simp only [modifySt, HR.ok.injEq] at e1
  obtain ⟨rfl, rfl⟩ := e1
  cases hf : env.footnotes[st.footnote - 1]? with
  | none => simp only [hf] at e2; cases e2
  | some contents =>
    simp only [hf] at e2
    have hmem : contents ∈ env.footnotes := List.mem_of_getElem? hf
    -- the outer span
    obtain ⟨ht, hp, hr, hn⟩ := tagOk_check (A := A) (t := c!"span") (map := [])
      (entries := [kv c!"class" c!"wj-footnote-ref"]) (ks := [c!"class"]) rfl (by decide +kernel) .nil (.other (by decide))
    unfold tag at e2
    unfold tagA at e2
    obtain ⟨a1, b1, a2, f1, f2, rfl⟩ := andThen_ok e2
    obtain ⟨a3, b3, a4, f3, f4, rfl⟩ := andThen_ok f2
    obtain ⟨m1, c1, m2, g1, g2, rfl⟩ := andThen_ok f3
    simp only [Ftml.emit, HR.ok.injEq] at f1 f4
    obtain ⟨rfl, rfl⟩ := f1
    obtain ⟨rfl, rfl⟩ := f4
    obtain ⟨rfl, evm, fm, nm, tm, rm, hmk, hml⟩ := marker_wr (A := A) st.footnote _ _ rfl g1
    have tip : Wr env A H (tag c!"span" [kv c!"class" c!"wj-footnote-ref-tooltip", kv c!"aria-hidden" c!"true"] (
         tag c!"span" [kv c!"class" c!"wj-footnote-ref-tooltip-label"]
           (emitEsc (c!"Footnote " ++ natToStr st.footnote ++ c!".")) ;;
         tag c!"span" [kv c!"class" c!"wj-footnote-ref-contents"] (ext contents))) := by
      refine tag_simple [c!"class", c!"aria-hidden"] rfl (by decide +kernel) (.andThen ?_ ?_)
      · exact tag_simple [c!"class"] rfl (by decide +kernel) (.esc _)
      · exact tag_simple [c!"class"] rfl (by decide +kernel) (he _ hmem)
    obtain ⟨evt, ft, ot⟩ := tip _ _ _ g2
    have mk : HOk env A H st evm { st with footnote := st.footnote + 1 } :=
      ⟨nm, fun t as h => .inr (tm t as h), Nat.le_succ _, by rw [rm, upTo_one]; rfl, Nat.le_refl _,
        fun _ _ => by rw [hmk, upTo_self]; rfl, rfl, (by
          have := (List.getElem?_eq_some_iff.1 hf).1
          show st.footnote + 1 ≤ _
          omega), .none hml⟩
    refine ⟨_, ((Frag.nil).append ((frag_start hn hr hp).append ((fm.append ft).append (frag_stop hn)))), ?_⟩
    exact (mk.app ot).elem (by decide +kernel) ht (by decide +kernel) (.inl (by decide +kernel)) (notLink (by decide) _)

theorem renderFootnoteBlock_wr {ext : List Elem → Act} (he : ∀ f ∈ env.footnotes, Wr env A H (ext f))
    (title : Option Str) (hide : Bool) : Wr env A H (renderFootnoteBlock env ext title hide) := by
  unfold renderFootnoteBlock
  split
  · exact .skip
  · refine tag_simple [c!"class"] rfl (by decide +kernel) (.andThen ?_ ?_)
    · exact tag_simple [c!"class"] rfl (by decide +kernel) (.esc _)
    · refine tag_simple [] rfl (by decide +kernel) (.forEach (fun i x hx => ?_) 0)
      refine tag_simple [c!"class", c!"data-id"] rfl (by decide +kernel) (.andThen ?_ ?_)
      · refine tag_simple [c!"class", c!"type", c!"role"] rfl (by decide +kernel) (.andThen (.emit (natDigit_plain _)) ?_)
        exact tag_simple [c!"class"] rfl (by decide +kernel) (.esc _)
      · exact tag_simple [c!"class"] rfl (by decide +kernel) (he x hx)

theorem getFrom_mem {E : Type} {label : Str} {i : Nat} {l : List (Str × List E)} {r : Nat × List E}
    (h : Bibl.getFrom label i l = some r) : (label, r.2) ∈ l := by
  induction l generalizing i with
  | nil => cases h
  | cons p l ih =>
    obtain ⟨k, es⟩ := p
    simp only [Bibl.getFrom] at h
    split at h
    · next e =>
      simp only [Option.some.injEq] at h
      subst e; subst h
      simp
    · exact List.mem_cons_of_mem _ (ih h)

theorem bibReference_mem {bs : List (Bibl Elem)} {label : Str} {n : Nat} {es : List Elem}
    (h : bibReference bs label = some (n, es)) : ∃ b ∈ bs, (label, es) ∈ b.entries := by
  obtain ⟨b, hb, h1⟩ := List.exists_of_findSome?_eq_some h
  exact ⟨b, hb, getFrom_mem h1⟩

theorem renderBibCite_wr {ext : List Elem → Act}
    (he : ∀ b ∈ env.bibliographies, ∀ p ∈ b.entries, Wr env A H (ext p.2)) (label : Str) (br : Bool) :
    Wr env A H (renderBibCite env ext label br) := by
  unfold renderBibCite
  split
  · exact tag_simple [c!"class"] rfl (by decide +kernel) (.esc _)
  · next index contents hr =>
    obtain ⟨b, hb, hm⟩ := bibReference_mem hr
    refine tag_simple [c!"class"] rfl (by decide +kernel) (.andThen ?_ (.andThen ?_ (.andThen ?_ ?_)))
    · split
      · exact .emit (by simp [PlainText]; decide)
      · exact .skip
    · exact tag_simple [c!"class", c!"role", c!"aria-label", c!"data-id"] rfl (by decide +kernel) (.esc _)
    · split
      · exact .emit (by simp [PlainText]; decide)
      · exact .skip
    · refine tag_simple [c!"class", c!"aria-hidden"] rfl (by decide +kernel) (.andThen ?_ ?_)
      · exact tag_simple [c!"class"] rfl (by decide +kernel) (.esc _)
      · exact tag_simple [c!"class"] rfl (by decide +kernel) (he b hb _ hm)

theorem renderBibliography_wr {ext : List Elem → Act}
    (he : ∀ b ∈ env.bibliographies, ∀ p ∈ b.entries, Wr env A H (ext p.2)) (i : Nat) (title : Option Str)
    (hide : Bool) : Wr env A H (renderBibliography env ext i title hide) := by
  unfold renderBibliography
  split
  · exact .skip
  · split
    · exact .die _
    · next b hb =>
      have hb : b ∈ env.bibliographies := List.mem_of_getElem? hb
      refine tag_simple [c!"class"] rfl (by decide +kernel) (.andThen ?_ ?_)
      · exact tag_simple [c!"class"] rfl (by decide +kernel) (.esc _)
      · refine .forEach (fun j x hx => ?_) 0
        refine tagA_id [c!"class", c!"id"] rfl (by decide +kernel) .nil
          (ownId (g := c!"wj-bibliography-item-" ++ (natToStr (i + 1) ++ '-' :: natToStr (j + 1)) ++
            c!" bibitem-" ++ (natToStr (i + 1) ++ '-' :: natToStr (j + 1))) ?_ ?_)
          (notLink (by decide) _) (.andThen ?_ (he b hb x hx))
        · exact .inr (.inr (.inr ⟨i + 1, j + 1, rfl⟩))
        · simp [kv]
        refine tag_simple [c!"class", c!"type", c!"role"] rfl (by decide +kernel) (.andThen (.emit (natDigit_plain _)) ?_)
        exact tag_simple [c!"class"] rfl (by decide +kernel) (.esc _)

/-! ### Containers -/

/-- A node the traversal accepts. -/
structure KindOk (env : HEnv) (A : Source) (H : Prop) (k : Kind) : Prop where
  map : MapOk A k.attrs
  noId : H → ∀ h a, k = .container (.header h) a → ∀ v, (c!"id", v) ∉ a
  extra : ∀ lt loc x label target, k = .link lt loc (some x) label target →
    (loc = .url c!"javascript:;" ∨ loc = .page ⟨none, c!"javascript:;"⟩) → A.extra x
  frame : ∀ a u, k = .iframe a u → A.frame u
  link : ∀ lt loc x label target, k = .link lt loc x label target → A.link loc x
  name : ∀ g, k = .anchorName g → A.name g
  picture : ∀ src link align a, k = .image src link align a → ∀ u, imageLink env.info env.settings src = some u → A.picture u

theorem lookup_none {l : List (Str × Str)} {k : Str} (h : ∀ v, (k, v) ∉ l) : l.lookup k = none := by
  induction l with
  | nil => rfl
  | cons p l ih =>
    obtain ⟨a, b⟩ := p
    have : (k == a) = false := by
      simp only [beq_eq_false_iff_ne]
      rintro rfl
      exact h b (by simp)
    simp only [List.lookup, this]
    exact ih fun v hv => h v (by simp [hv])

theorem headingTag_mem (n : Nat) : headingTag n ∈ headTags := by
  unfold headingTag
  repeat (split; · decide)
  decide

theorem headTags_check : ∀ t ∈ headTags, tagCheck t [] = true ∧ idCheck t [c!"id"] = true ∧
    t ≠ c!"wj-footnote-ref-marker" ∧ t ∉ voidTags ∧ t ≠ c!"a" ∧ t ≠ c!"img" := by decide +kernel

theorem htmlId_own (hw : WorldOk env.w) (n : Nat) : OwnId env.settings.useTrueIds (htmlId env n) := .inr (.inl ⟨_, hw.random n, rfl⟩)

theorem header_wr (hw : WorldOk env.w) (h : Heading) {attrs : AttrMap} {body : Act}
    (hk : KindOk env A H (.container (.header h) attrs)) (hb : Wr env A H body) :
    Wr env A H (renderContainer env (.header h) attrs body) := by
  obtain ⟨hc0, hc1, hc2, hc3, hc4, hc5⟩ := headTags_check _ (headingTag_mem h.level)
  unfold renderContainer
  dsimp only
  split
  · -- with a table of contents entry
    intro st s st' e
    obtain ⟨s1, st1, s2, e1, e2, rfl⟩ := andThen_ok e
    simp only [modifySt, HR.ok.injEq] at e1
    obtain ⟨rfl, rfl⟩ := e1
    generalize hid : (if env.settings.useTrueIds then c!"toc" ++ natToStr st.toc else htmlId env st.rand) = id at e2
    obtain ⟨ht, hp, hr, hn⟩ := tagOk_id (env := env) (A := A) (t := headingTag h.level) (map := attrs)
      (entries := [kv c!"id" id]) (ks := [c!"id"]) rfl hc1 hk.map (by
        intro v hv
        have hv : v = id := by simpa [liveEntries, kv] using hv
        subst hv
        rw [← hid]
        left
        split
        · next ht => exact .inl ⟨ht, _, rfl⟩
        · exact htmlId_own hw _) (.other hc5)
    unfold tagA at e2
    obtain ⟨a1, b1, a2, f1, f2, rfl⟩ := andThen_ok e2
    obtain ⟨a3, b3, a4, f3, f4, rfl⟩ := andThen_ok f2
    simp only [Ftml.emit, HR.ok.injEq] at f1 f4
    obtain ⟨rfl, rfl⟩ := f1
    obtain ⟨rfl, rfl⟩ := f4
    obtain ⟨evb, fb, ob⟩ := hb _ _ _ f3
    have hs : soloTags.contains (headingTag h.level) = false := by rw [soloTags_eq]; simpa using hc3
    rw [hs]
    refine ⟨_, Frag.nil.append ((frag_start hn hr hp).append (fb.append (frag_stop hn))), ?_⟩
    refine ⟨ob.nested.wrap hc3, ?_, ob.footLe, ?_, ?_, ?_, ob.scopes, ob.footMax, ob.links.wrap (notLink hc4 _)⟩
    · intro t' as' hm
      simp only [List.nil_append, List.cons_append, List.mem_cons, List.mem_append, List.not_mem_nil, or_false,
        reduceCtorEq, Ev.start.injEq] at hm
      rcases hm with ⟨rfl, rfl⟩ | hm
      · exact .inr ht
      · exact ob.tags _ _ hm
    · simp only [List.nil_append, List.cons_append, footnoteRefs, if_neg hc2, footnoteRefs_append, ob.foot,
        List.append_nil]
    · exact Nat.le_trans (Nat.le_succ _) ob.headLe
    · intro x y
      have hno := hk.noId x h attrs rfl
      have hal : attrList [kv c!"id" id] attrs = (c!"id", id) :: attrs := by
        have hg : assocGet attrs c!"id" = none := by
          cases hg : assocGet attrs c!"id" with
          | none => rfl
          | some v => exact (hno v (assocGet_mem hg)).elim
        unfold attrList
        simp [kv, hg]
      rw [hal]
      have hn : noNul id = c!"toc" ++ natToStr st.toc := by
        rw [if_pos y] at hid
        rw [← hid, noNul_append]
        congr 1
        refine noNul_of fun c hc h0 => ?_
        have := natDigit_plain st.toc c hc
        unfold escapeHtmlChar at this
        simp only [h0, if_true] at this
        repeat (split at this <;> try cases this)
      simp only [List.nil_append, List.cons_append, headingIds, if_pos (headingTag_mem h.level), List.map_cons]
      have e1 : List.lookup c!"id" ((c!"id", noNul id) :: attrs.map fun p => (p.1, noNul p.2)) = some (noNul id) := by
        simp [List.lookup]
      rw [e1]
      simp only [headingIds_append, ob.head x y]
      simp only [headingIds, List.append_nil, hn]
      have := upTo_append (a := st.toc) (b := st.toc + 1) (c := b3.toc) (Nat.le_succ _) ob.headLe
      rw [← this, upTo_one]
      rfl
  · obtain ⟨ht, hp, hr, hn⟩ := tagOk_check (env := env) (A := A) (t := headingTag h.level) (map := attrs)
      (entries := []) (ks := []) rfl hc0 hk.map (.other hc5)
    refine tagA_wr ht hp hr hn hc2 hc3 ?_ (notLink hc4 _) hb
    by_cases hH : H
    · right; left
      refine lookup_none fun v hv => ?_
      obtain ⟨v', h1, rfl⟩ := mem_asRead hv
      rcases mem_attrList h1 with ⟨v0, h2, _⟩ | h2
      · cases h2
      · exact hk.noId hH h attrs rfl _ h2
    · exact .inr (.inr hH)

theorem renderContainer_wr (hw : WorldOk env.w) (c : CType) {attrs : AttrMap} {body : Act}
    (hk : KindOk env A H (.container c attrs)) (hb : Wr env A H body) :
    Wr env A H (renderContainer env c attrs body) := by
  have hm : MapOk A attrs := hk.map
  cases c with
  | header h => exact header_wr hw h hk hb
  | rubyText =>
    unfold renderContainer
    refine .andThen ?_ (.andThen ?_ ?_)
    · exact tag_simple [] rfl (by decide +kernel) (.esc _)
    · exact tagA_simple [] rfl (by decide +kernel) hm hb
    · exact tag_simple [] rfl (by decide +kernel) (.esc _)
  | monospace | hidden | invisible | align a => exact tagA_simple [c!"class"] rfl (by decide +kernel) hm hb
  | bold | italics | underline | superscript | subscript | strikethrough | span | div | mark | blockquote
    | insertion | deletion | size | ruby | paragraph => exact tagA_simple [] rfl (by decide +kernel) hm hb

theorem renderCell_wr (h : Bool) (n : Nat) (a : Option Alignment) {attrs : AttrMap} {body : Act}
    (hm : MapOk A attrs) (hb : Wr env A H body) : Wr env A H (renderCell h n a attrs body) := by
  cases h
  · exact tagA_simple [c!"colspan", c!"class"] rfl (by decide +kernel) hm hb
  · exact tagA_simple [c!"colspan", c!"class"] rfl (by decide +kernel) hm hb

theorem tabButtons_wr (hw : WorldOk env.w) (b t : Nat) (i : Nat) (es : List Elem) : Wr env A H (tabButtons env b t i es) := by
  induction es generalizing i with
  | nil => exact .skip
  | cons e es ih =>
    unfold tabButtons
    split
    · exact .skip
    · next rest heq =>
      simp only [List.cons.injEq] at heq
      obtain ⟨rfl, rfl⟩ := heq
      rename_i i _ _ _ _
      exact (tagA_id [c!"class", c!"id", c!"role", c!"aria-label", c!"aria-selected", c!"aria-controls", c!"tabindex"]
        rfl (by decide +kernel) .nil (ownId (htmlId_own (env := env) hw (b + i)) (by simp [kv])) (notLink (by decide) _) (.esc _)).andThen (ih _)
    · next rest _ heq =>
      simp only [List.cons.injEq] at heq
      obtain ⟨rfl, rfl⟩ := heq
      exact ih _

theorem tabPanel_wr (hw : WorldOk env.w) (b t i : Nat) {body : Act} (hb : Wr env A H body) : Wr env A H (tabPanel env b t i body) :=
  tagA_id [c!"class", c!"id", c!"role", c!"aria-labelledby", c!"tabindex", c!"hidden"] rfl (by decide +kernel) .nil
    (ownId (htmlId_own (env := env) hw (t + i)) (by simp [kv, flag])) (notLink (by decide) _) hb

theorem renderInclude_wr (vars : List (Str × Str)) {body : Act} (hb : Wr env A H body) :
    Wr env A H (renderInclude vars body) := by
  intro st s st' h
  unfold renderInclude at h
  obtain ⟨s1, st1, s2, e1, e2, rfl⟩ := andThen_ok h
  obtain ⟨s3, st3, s4, e3, e4, rfl⟩ := andThen_ok e2
  simp only [modifySt, HR.ok.injEq] at e1
  obtain ⟨rfl, rfl⟩ := e1
  obtain ⟨evs, f, o⟩ := hb _ _ _ e3
  have hs := o.scopes
  simp only at hs
  rw [hs, (C19_push_pop st.scopes vars).1] at e4
  simp only [HR.ok.injEq] at e4
  obtain ⟨rfl, rfl⟩ := e4
  refine ⟨evs, by simpa using f, o.nested, o.tags, o.footLe, o.foot, o.headLe, o.head, rfl, o.footMax, o.links⟩

theorem renderCollapsible_wr {attrs : AttrMap} (hm : MapOk A attrs) (o : Bool) (s h : Option Str) (t b : Bool)
    {body : Act} (hb : Wr env A H body) : Wr env A H (renderCollapsible attrs o s h t b body) := by
  refine tagA_simple [c!"class", c!"open", c!"data-show-top", c!"data-show-bottom"] rfl (by decide +kernel) hm
    (.andThen ?_ (.andThen ?_ ?_))
  · refine tag_simple [c!"class"] rfl (by decide +kernel) (.andThen ?_ ?_)
    · exact tag_simple [c!"class"] rfl (by decide +kernel) (.esc _)
    · exact tag_simple [c!"class"] rfl (by decide +kernel) (.esc _)
  · exact tag_simple [c!"class"] rfl (by decide +kernel) hb
  · split
    · exact tag_simple [c!"class"] rfl (by decide +kernel) (tag_simple [c!"class"] rfl (by decide +kernel) (.esc _))
    · exact .skip

/-! ### The whole tree -/

/-- The forests reached through the environment. -/
inductive EnvForest (env : HEnv) : List Elem → Prop where
  | toc : EnvForest env env.toc
  | footnote {f} : f ∈ env.footnotes → EnvForest env f
  | bibliography {b p} : b ∈ env.bibliographies → p ∈ b.entries → EnvForest env p.2

theorem module_wr (m : Module) : Wr env A H (emit (c!"<p>TODO: module " ++ m.name ++ c!"</p>")) := by
  have h : emit (c!"<p>TODO: module " ++ m.name ++ c!"</p>") = fun st =>
      tag c!"p" [] (emitEsc (c!"TODO: module " ++ m.name)) st := by
    funext st
    cases m <;> rfl
  rw [h]
  exact tag_simple [] rfl (by decide +kernel) (.esc _)

theorem renderLeaf_wr (hw : WorldOk env.w) {ext : List Elem → Act}
    (he : ∀ es, EnvForest env es → Wr env A H (ext es)) {k : Kind} (hk : KindOk env A H k) :
    Wr env A H (renderLeaf env ext k) := by
  have hm := hk.map
  cases k
  case module m => exact module_wr m
  case text s => exact .esc _
  case raw s => exact tag_simple [c!"class"] rfl (by decide +kernel) (.esc _)
  case email s => exact tag_simple [c!"class"] rfl (by decide +kernel) (.esc _)
  case «variable» n => exact renderVariable_wr n
  case anchorName id =>
    exact tagA_id [c!"id"] rfl (by decide +kernel) .nil (fun v hv => .inr (by
      have hv : v = id := by simpa [liveEntries, kv] using hv
      rw [hv]
      exact hk.name id rfl)) rfl .skip
  case link lt loc ex label target =>
    exact renderLink_wr _ _ _ _ _ (fun x hx => by subst hx; exact hk.extra lt loc x label target rfl)
      (hk.link lt loc ex label target rfl)
  case image src link align a => exact renderImage_wr _ _ _ hm (hk.picture src link align a rfl)
  case radioButton => exact tagA_void (ks := [c!"name", c!"type", c!"checked"]) rfl (by decide +kernel) (by decide) hm (.other (by decide))
  case checkBox => exact tagA_void (ks := [c!"type", c!"checked"]) rfl (by decide +kernel) (by decide) hm (.other (by decide))
  case toc => exact renderToc_wr (he _ .toc) hm _
  case footnote => exact renderFootnote_wr fun f hf => he _ (.footnote hf)
  case footnoteBlock => exact renderFootnoteBlock_wr (fun f hf => he _ (.footnote hf)) _ _
  case bibCite => exact renderBibCite_wr (fun b hb p hp => he _ (.bibliography hb hp)) _ _
  case bibBlock => exact renderBibliography_wr (fun b hb p hp => he _ (.bibliography hb hp)) _ _ _
  case user => exact renderUser_wr _ _
  case date => exact renderDate_wr _ _
  case code => exact renderCode_wr _ _
  case math name s =>
    exact .read (fun st => modifySt (fun st => { st with equation := st.equation + 1 }) ;;
      renderLatex env name (some st.equation) s true) fun st =>
      .andThen (.modify (fun _ => rfl) (fun _ => rfl) (fun _ => rfl)) (renderLatex_wr hw _ _ _ _)
  case mathInline s => exact renderLatex_wr hw none none s false
  case equationRef => exact renderEquationRef_wr _
  case embed => exact renderEmbed_wr _
  case html =>
    refine tagA_raw [c!"src", c!"crossorigin"] rfl (by decide +kernel) .nil (noStop_nil _) (fun h => absurd h (by decide))
      fun _ v hv => ?_
    obtain ⟨v', h1, rfl⟩ := mem_attrList_nil hv
    simp [liveEntries, kv, flag] at h1
    subst h1
    exact .inr (.inr (.inl (by decide)))
  case iframe a u =>
    refine tagA_raw [c!"src", c!"crossorigin"] rfl (by decide +kernel) hm (noStop_nil _) (fun h => absurd h (by decide))
      fun _ v hv => .inr (.inr (.inr ⟨u, hk.frame a u rfl, ?_⟩))
    obtain ⟨v', h1, rfl⟩ := mem_asRead hv
    have : u <+: v' := by
      rcases mem_attrList_live (v0 := u) h1 (by simp [liveEntries, kv, flag]) (by simp [liveEntries, kv, flag]) with rfl | ⟨mv, _, rfl⟩
      · exact List.prefix_rfl
      · rw [List.append_assoc]; exact List.prefix_append _ _
    obtain ⟨r, rfl⟩ := this
    rw [noNul_append]
    exact List.prefix_append _ _
  case style => exact renderStyle_wr hw _
  case lineBreak => exact tagA_void (ks := []) rfl (by decide +kernel) (by decide) .nil (.other (by decide))
  case lineBreaks n => exact .repeat (tagA_void (ks := []) rfl (by decide +kernel) (by decide) .nil (.other (by decide))) n
  case clearFloat => exact tag_simple [c!"class"] rfl (by decide +kernel) .skip
  case horizontalRule => exact tagA_void (ks := []) rfl (by decide +kernel) (by decide) .nil (.other (by decide))
  all_goals exact .die _

set_option linter.unusedSectionVars false
section
variable (hw : WorldOk env.w) {ext : List Elem → Act} (he : ∀ es, EnvForest env es → Wr env A H (ext es))
include hw he

mutual
theorem htmlElem_wr (e : Elem) (hk : ∀ k ks, Occurs k ks [e] → KindOk env A H k) : Wr env A H (htmlElem env ext e) := by
  cases e with
  | mk k ks =>
    have h0 : KindOk env A H k := hk k ks (.here (by simp))
    have hsub : ∀ k' ks', Occurs k' ks' ks → KindOk env A H k' := fun k' ks' h => hk k' ks' (.inside (k' := k) (ks' := ks) (List.mem_singleton.2 rfl) h)
    have hgo := htmlGo_wr ks hsub
    have hpan := fun b t i => htmlPanels_wr b t i ks hsub
    have hm := h0.map
    unfold htmlElem
    cases k
    case container c a => exact renderContainer_wr hw c h0 hgo
    case table => exact tagA_simple [] rfl (by decide +kernel) hm (tag_simple [] rfl (by decide +kernel) hgo)
    case row => exact tagA_simple [] rfl (by decide +kernel) hm hgo
    case cell => exact renderCell_wr _ _ _ hm hgo
    case tabView =>
      refine Wr.read (fun st => modifySt (fun st => { st with rand := st.rand + ks.length + ks.length }) ;;
       tag c!"wj-tabs" [kv c!"class" c!"wj-tabs"] (
        tag c!"div" [kv c!"class" c!"wj-tabs-button-list", kv c!"role" c!"tablist"]
          (tabButtons env st.rand (st.rand + ks.length) 0 ks) ;;
        tag c!"div" [kv c!"class" c!"wj-tabs-panel-list"]
          (htmlElem.panels env ext st.rand (st.rand + ks.length) 0 ks))) fun st => ?_
      refine .andThen (.modify (fun _ => rfl) (fun _ => rfl) (fun _ => rfl)) ?_
      refine tag_simple [c!"class"] rfl (by decide +kernel) (.andThen ?_ ?_)
      · exact tag_simple [c!"class", c!"role"] rfl (by decide +kernel) (tabButtons_wr hw _ _ _ _)
      · exact tag_simple [c!"class"] rfl (by decide +kernel) (hpan _ _ _)
    case tab => exact hgo
    case anchor target attrs =>
      refine tagA_plain [c!"class", c!"target"] rfl (by decide +kernel) hm ?_ hgo
      exact anchor_notLink target attrs
    case list t a =>
      cases t <;> exact tagA_simple [] rfl (by decide +kernel) hm hgo
    case item => exact tagA_simple [] rfl (by decide +kernel) hm hgo
    case subList => exact hgo
    case definitionList => exact tag_simple [] rfl (by decide +kernel) hgo
    case defItem => exact hgo
    case defKey => exact tag_simple [] rfl (by decide +kernel) hgo
    case defValue => exact tag_simple [] rfl (by decide +kernel) hgo
    case collapsible => exact renderCollapsible_wr hm _ _ _ _ _ hgo
    case color => exact tag_simple [c!"style"] rfl (by decide +kernel) hgo
    case «include» => exact renderInclude_wr _ hgo
    all_goals exact renderLeaf_wr hw he h0
theorem htmlGo_wr (es : List Elem) (hk : ∀ k ks, Occurs k ks es → KindOk env A H k) :
    Wr env A H (htmlElem.go env ext es) := by
  cases es with
  | nil => exact .skip
  | cons e es =>
    refine .andThen (htmlElem_wr e fun k ks h => hk k ks ?_) (htmlGo_wr es fun k ks h => hk k ks ?_)
    · cases h with
      | here h => simp only [List.mem_singleton] at h; exact .here (by simp [h])
      | inside h h' => simp only [List.mem_singleton] at h; exact .inside (by rw [h]; simp) h'
    · cases h with
      | here h => exact .here (by simp [h])
      | inside h h' => exact .inside (List.mem_cons_of_mem _ h) h'
theorem htmlPanels_wr (b t i : Nat) (es : List Elem) (hk : ∀ k ks, Occurs k ks es → KindOk env A H k) :
    Wr env A H (htmlElem.panels env ext b t i es) := by
  cases es with
  | nil => exact .skip
  | cons e es =>
    have h1 := htmlElem_wr e fun k ks h => hk k ks (by
      cases h with
      | here h => simp only [List.mem_singleton] at h; exact .here (by simp [h])
      | inside h h' => simp only [List.mem_singleton] at h; exact .inside (by rw [h]; simp) h')
    have h2 := fun i => htmlPanels_wr b t i es fun k ks h => hk k ks (by
      cases h with
      | here h => exact .here (by simp [h])
      | inside h h' => exact .inside (List.mem_cons_of_mem _ h) h')
    unfold htmlElem.panels
    split
    · exact (tabPanel_wr hw _ _ _ h1).andThen (h2 _)
    · exact h2 _
end
end

theorem renderLevel_wr (hw : WorldOk env.w)
    (hk : ∀ es k ks, EnvForest env es → Occurs k ks es → KindOk env A H k) (n : Nat) (es : List Elem)
    (hes : ∀ k ks, Occurs k ks es → KindOk env A H k) : Wr env A H (renderLevel env n es) := by
  induction n generalizing es with
  | zero => intro st s st' h; cases h
  | succ n ih => exact htmlGo_wr hw (fun es' he => ih es' fun k ks h => hk es' k ks he h) es hes

end
end Ftml
