import Verif.Lemmas.PageAll
import Verif.Props.Parse
import Verif.Props.Depth
/-
Pages written in the markup parse to their meaning (C71), and plain text to itself (C39).
-/
namespace Ftml
open M Markup Lexer

/-! ### C71: pages -/

private theorem page_tokens {d : Page} (h : d.ok = true) : ∃ xs e, (tokenize d.write).tokens =
    ⟨.inputStart, [], 0, 0⟩ :: (xs ++ [e]) ∧ xs.map ETok.pair = d.lex ∧ e.token = .inputEnd := by
  simp only [Page.ok, Bool.and_eq_true] at h
  obtain ⟨⟨⟨h1, h2⟩, _⟩, _⟩ := h
  obtain ⟨hl, hs⟩ := lexList_of (page_groups d h1) h2
  rw [Page.write, ← hs, tokenize_list hl]
  exact ⟨_, _, rfl, addSpans_map _ _, rfl⟩

/-- The tree of a page, with the nesting of its table of contents. -/
theorem page_parses {d : Page} (hd : d.ok = true) (w : World) (info : PageInfo) (settings : Settings)
    (hname : d.fits ⟨settings, w, info⟩ = true) :
    ∃ trees, niceTrees trees ∧ readTrees trees = d.toc.map (fun t => (t.1, (), t.2)) ∧
      parse w (tokenize d.write) info settings = some (.ok ⟨⟨d.elems ⟨settings, w, info⟩ ++ [.mk (.footnoteBlock none false) []],
        buildToc trees 0, d.htmls, d.codes ⟨settings, w, info⟩, d.notes.map (noteElems ⟨settings, w, info⟩),
        d.bibs.map (Biblio.bibl ⟨settings, w, info⟩), byteLen d.write⟩, []⟩) := by
  obtain ⟨xs, e, ht, hx, he⟩ := page_tokens hd
  simp only [Page.ok, Bool.and_eq_true] at hd
  obtain ⟨⟨⟨h1, h2⟩, h3⟩, h4⟩ := hd
  let env : Env := ⟨d.write, (tokenize d.write).tokens, info, settings, w⟩
  let p0 : PState := ⟨⟨.inputStart, [], 0, 0⟩, xs ++ [e], .page, 0, .none, false, false, true⟩
  have hlaid : Laid env false [e] d (xs ++ [e]) := ⟨xs, rfl, hx, ⟨e, rfl, he⟩, by
    show _ <:+ (tokenize d.write).tokens
    rw [ht]; exact List.suffix_cons ..⟩
  obtain ⟨e', sol', s', g1, g2, g3, g4⟩ := page_gathers (env := env) maxRecursionDepth d.length d (Nat.le_refl _) (p := p0) (sol := true) (sh := ⟨[], [], [], [], []⟩) (s := PStack.new)
    ⟨fun b hb => List.all_eq_true.1 h1 b hb, h3.1, h3.2⟩ (by
      intro b hb
      have := List.all_eq_true.1 h4 b hb
      simp only [decide_eq_true_eq] at this
      exact ⟨this, by simpa [p0] using this⟩) hlaid (.inr rfl) (.inl rfl) (by
      simp only [Page.fits, Bool.and_eq_true, beq_iff_eq] at hname
      have := distinct_nodup hname.1.1
      have : (([] ++ (Page.codes env.cx d)).filterMap (fun (x : CodeBlock) => x.name)).Nodup := this
      refine ⟨by simpa using this, fun ha => ?_, by rw [hname.2, List.range_eq_range']; rfl⟩
      have h := hname.1.2
      rw [ha] at h
      have h : settings.enablePageSyntax = true := by simpa using h
      exact h) rfl
  obtain rfl : e' = [e] := by
    rcases g1 with h | ⟨h, _⟩
    · exact h
    · cases h
  have hstart : consume maxRecursionDepth env ⟨p0.at (⟨.inputStart, [], 0, 0⟩ :: (xs ++ [e])) true, ⟨[], [], [], [], []⟩⟩ =
      .ok ⟨[], [], true⟩ ⟨p0.at (xs ++ [e]) true, ⟨[], [], [], [], []⟩⟩ :=
    eats_tok (env := env) (x := ⟨.inputStart, [], 0, 0⟩) (rest := xs ++ [e]) (sol := true) (r := .null) (rs1 := [])
      (rs2 := []) (es := []) (safe := true) (by simp) rfl (by simp) (by simp) noParts_nil (fun _ _ _ => rfl)
      maxRecursionDepth p0 _ (by decide) (by simp [p0]) (fun _ => rfl)
  have hg : Gathers env (consume maxRecursionDepth) p0 (⟨.inputStart, [], 0, 0⟩ :: (xs ++ [e])) true ⟨[], [], [], [], []⟩
      PStack.new [e] sol' (addNotes env.cx ⟨[], [], [], [], []⟩ d) s' :=
    .cons ⟨by simp, by simp, ⟨by simp, by simp⟩, by simp⟩ hstart (by simp) g2
  obtain ⟨safe, hsafe⟩ := page_top env.cx d h3.2
  have hs' : s'.intoElements = d.elems env.cx := by rw [g4]; rfl
  have hrun := gatherParagraphs_gathers (r := .page) (close := none) (p := p0) (toks2 := [e]) (sol2 := sol') hg (by simp) (by simp) ⟨he, rfl, rfl⟩
    (.inl ⟨he, rfl, rfl⟩) (by rw [g3]; rfl) (safe := safe) (by
    rw [← hsafe, ← hs']; rfl)
  have hint : parseInternal env = .ok ⟨d.elems env.cx, [], safe⟩ ⟨p0.at [e] sol', addNotes env.cx ⟨[], [], [], [], []⟩ d⟩ := by
    unfold parseInternal
    show (match (tokenize d.write).tokens with
      | [] => _
      | c :: r => _) = _
    rw [ht]
    rw [← hs']
    exact hrun
  obtain ⟨trees, t1, t2, t3⟩ := C15_process_depths () ((Page.toc d).map fun t => (t.1, (), t.2))
  refine ⟨trees, t3, t2, ?_⟩
  show parseEnv env = _
  unfold parseEnv
  rw [hint]
  dsimp only [addNotes]
  rw [List.nil_append, List.nil_append, List.nil_append, List.nil_append, List.nil_append, t1]
  rfl

/-- C71: a page written in the markup parses, without errors, to the elements it means, followed by the
block of footnotes; the table of contents has its headings, the HTML and code blocks (with their names, which have
to differ), the footnotes and the bibliographies (with the first entry of every label) are those of the page in their
order. -/
theorem C71_pages {d : Page} (hd : d.ok = true) (w : World) (info : PageInfo) (settings : Settings)
    (hname : d.fits ⟨settings, w, info⟩ = true) :
    ∃ o, parse w (tokenize d.write) info settings = some (.ok o) ∧ o.errors = [] ∧
      o.tree.elements = d.elems ⟨settings, w, info⟩ ++ [.mk (.footnoteBlock none false) []] ∧
      readToc.go 0 o.tree.toc = some (d.toc.mapIdx fun i x => (x.1, c!"#toc" ++ natToStr i, x.2)) ∧
      o.tree.htmlBlocks = d.htmls ∧ o.tree.codeBlocks = d.codes ⟨settings, w, info⟩ ∧ 
      o.tree.footnotes = d.notes.map (noteElems ⟨settings, w, info⟩) ∧
      o.tree.bibliographies = d.bibs.map (Biblio.bibl ⟨settings, w, info⟩) ∧
      o.tree.wikitextLen = byteLen d.write := by
  obtain ⟨trees, _, t2, h⟩ := page_parses hd w info settings hname
  refine ⟨_, h, rfl, rfl, ?_, rfl, rfl, rfl, rfl, rfl⟩
  dsimp only
  rw [readToc_trees, t2]
  simp [List.mapIdx_eq_zipIdx_map, List.zipIdx_map]

/-- A page with every kind of block. -/
def samplePage : Page :=
  [(.heading 1 true 0 [.plain (.word c!"Title")], true),
   (.heading 3 false 1 [.plain (.word c!"Part"), .plain (.blanks 0), .styled .italics [.plain (.word c!"one"),
     .note c!"footnote" [.styled .bold [.plain (.word c!"n")]] c!"FOOTNOTE"]], false),
   (.para [.plain (.word c!"Some"), .plain (.blanks 0),
     .styled .bold [.plain (.word c!"bold"), .plain (.blanks 1), .color [.word c!"fff"] [.plain (.char 'é')]], .plain (.char '.'),
     .newline, .raw [.mark c!"**", .plain (.blanks 0), .mark c!"[[", .plain (.word c!"b"), .mark c!"]]"],
     .comment [.plain (.word c!"no"), .mark c!"//", .mark c!"[!--", .quoted c!"--]", .plain (.blanks 0)], .plain (.char '!'),
     .note c!"Footnote" [.newline, .plain (.word c!"o"), .newline, .plain (.char '!')] c!"footnote"], true),
   (.rule 2, false), (.center 0 [.styled .monospace [.plain (.word c!"x"), .plain (.char '='), .plain (.word c!"1")]], true),
   (.clear 0 .left, true), (.heading 2 true 0 [.styled .underline [.plain (.word c!"End")]], true),
   (.list .bullet [.line [.plain (.word c!"a")], .nested .numbered [.line [.styled .bold [.plain (.word c!"b")]],
       .nested .bullet [.line []]], .nested .bullet [.line [.plain (.word c!"c")]], .line [.plain (.word c!"d")]], false),
   (.quote [.nested () [.line [.plain (.word c!"q")], .line [.plain (.word c!"r")]], .line [], .line [.plain (.word c!"s")]], false),
   (.para [.wrap (.box c!"SPAN" [⟨0, [.word c!"class"], c!"a \"b\" ]]"⟩, ⟨1, [.word c!"id"], []⟩] c!"span")
       [.plain (.blanks 0), .styled .bold [.wrap (.box c!"b" [] c!"strong") [.plain (.word c!"x")]], .newline],
     .wrap (.anchor true c!"a" [⟨0, [.word c!"href"], c!"/page"⟩] c!"Anchor") [.plain (.word c!"y")],
     .wrap (.size c!"size" [.word c!"80", .char '%'] c!"size") [.wrap (.box c!"hidden" [] c!"hidden") []]], false),
   (.para [.plain (.word c!"By"), .plain (.blanks 0), .leaf (.user true c!"user" [.word c!"some", .blanks 0, .word c!"one"]), .plain (.char ','),
     .leaf (.link true (.page (some [.word c!"wiki"]) (some [.word c!"c"]) [.word c!"p"] [.char '#', .word c!"part"]) (some [.word c!"L"])),
     .leaf (.link false (.page none none [.word c!"q"] []) none), .leaf (.address false (.web c!"https://example.com/?a=b") 0 [.word c!"x"]),
     .leaf (.jump [.word c!"t"] 0 [.word c!"y"]), .leaf (.target [.word c!"t"]), .leaf (.math [.word c!"x", .char '=', .word c!"1"]),
     .leaf (.cite c!"bibcite" [.word c!"k"]), .leaf (.citeBlock c!"bibcite" [.word c!"k"]), .leaf (.var c!"v"), .plain (.blanks 0),
     .leaf (.url c!"http://a.b")], true),
   (.within (.align .right) [(.within (.box c!"div" [] c!"DIV") [(.heading 2 true 0 [.plain (.word c!"x")], true)], false),
     (.foreign (.code c!"CODE" [⟨0, [.word c!"type"], c!"Rust"⟩, ⟨0, [.word c!"name"], c!"main.rs"⟩] c!"code") c!"fn f(x: **T) {\n\n  [[b]] @<&amp;>@ }", false),
     (.rule 0, true)], true),
   (.foreign (.html c!"html" c!"HTML") c!"<b>\n** x </b>", false), (.foreign (.math c!"math" (some [.word c!"eq"]) c!"math") c!"x^2", true),
   (.table [[⟨1, .title, 1, [.styled .bold [.plain (.word c!"h")]], 0⟩, ⟨0, .plain, 0, [.note c!"footnote" [] c!"footnote"], 1⟩],
     [⟨0, .right, 0, [.leaf (.link false (.page none none [.word c!"q"] []) none)], 1⟩]], true),
   (.definitions [([.plain (.word c!"k"), .plain (.char ':')], [.styled .bold [.plain (.word c!"v")]]), ([.raw [.plain (.char ':')]], [])], false),
   (.gadget (.contents (some ⟨.left, true⟩) c!"TOC" []), true), (.gadget (.contents none c!"toc" [⟨0, [.word c!"class"], c!"c"⟩]), false),
   (.within (.align .left) [(.para [.plain (.word c!"t")], true), (.gadget (.frame c!"iframe" c!"https://x.y" [⟨0, [.word c!"id"], c!"f"⟩]), true),
     (.gadget (.video c!"Embed" c!"youtube" [⟨0, [.word c!"video"], c!"v"⟩]), true)], true),
   (.gadget (.module c!"module" c!"Rate" []), true), (.para [.plain (.word c!"t")], true),
   (.gadget (.module c!"module654" c!"pagetree" [⟨0, [.word c!"showRoot"], c!"yes"⟩, ⟨0, [.word c!"root"], c!"r"⟩]), true)]

example : samplePage.ok = true := by decide +kernel
example : samplePage.write =
    c!"+ Title\n+++*  Part //one[[footnote]]**n**[[/FOOTNOTE]]//\n\nSome **bold  ##fff|é##**.\n@@** [[b]]@@[!--no//[!--\"--]\" --]![[Footnote]]\no\n![[/footnote]]\n-----\n\n= {{x=1}}\n~~~<\n++ __End__\n* a\n # **b**\n  * \n * c\n* d\n\n>> q\n>> r\n> \n> s\n\n[[SPAN class=\"a \\\"b\\\" ]]\"  id=\"\"]] **[[b]]x[[/strong]]**\n[[/span]][[*a href=\"/page\"]]y[[/Anchor]][[size 80%]][[hidden]][[/hidden]][[/size]]\n\nBy [[*user some one]],[[[*:wiki:c:p#part|L]]][[[q]]][https://example.com/?a=b x][#t y][[# t]][[$x=1$]]((bibcite k))[[bibcite k]]{$v} http://a.b\n[[>]]\n[[div]]\n++ x\n[[/DIV]]\n\n[[CODE type=\"Rust\" name=\"main.rs\"]]\nfn f(x: **T) {\n\n  [[b]] @<&amp;>@ }\n[[/code]]\n\n---\n[[/>]]\n[[html]]\n<b>\n** x </b>\n[[/HTML]]\n\n[[math eq]]\nx^2\n[[/math]]\n||||~ **h**||[[footnote]][[/footnote]] ||\n||>[[[q]]] ||\n: k: : **v**\n: @@:@@ : \n\n[[f<TOC]]\n[[toc class=\"c\"]]\n\n[[<]]\nt\n[[iframe https://x.y id=\"f\"]]\n[[Embed youtube video=\"v\"]]\n[[/<]]\n[[module Rate]]\nt\n[[module654 pagetree showRoot=\"yes\" root=\"r\"]]" := by
  decide +kernel
example : samplePage.toc = [(0, c!"Title"), (1, c!"End"), (1, c!"x")] := by decide +kernel
example : samplePage.notes = [[.styled .bold [.plain (.word c!"n")]], [.newline, .plain (.word c!"o"), .newline, .plain (.char '!')], []] := by
  rfl
example : samplePage.htmls = [c!"<b>\n** x </b>"] := by decide +kernel
example (cx : Markup.Ctx) (h : cx.settings.enablePageSyntax = true) : samplePage.fits cx = true := by
  rw [Page.fits, h]
  rfl

/-- A page with tab views; one is in a tab of the other. -/
def tabPage : Page :=
  [(.within (.tabs c!"TabView" c!"tabs")
     [(.within (.tab c!"tab" [.word c!"One", .blanks 0, .char '!'] c!"Tab")
        [(.heading 1 true 0 [.plain (.word c!"H")], false), (.within (.tabs c!"tabs" c!"tabview") [(.within (.tab c!"tab" [.word c!"x"] c!"tab") [], true)], true)], true),
      (.within (.tab c!"tab" [.word c!"Two"] c!"tab")
        [(.para [.plain (.word c!"b"), .note c!"footnote" [.plain (.word c!"n")] c!"footnote"], false)], true)], true),
   (.heading 2 true 0 [.plain (.word c!"I")], false)]

example : tabPage.ok = true := by decide +kernel
example : tabPage.write =
    c!"[[TabView]]\n[[tab One !]]\n+ H\n\n[[tabs]]\n[[tab x]]\n[[/tab]]\n[[/tabview]]\n[[/Tab]]\n[[tab Two]]\nb[[footnote]]n[[/footnote]]\n\n[[/tab]]\n[[/tabs]]\n++ I" := by
  decide +kernel

/-- Why a blank may not follow a start without arguments: it gets lost
(`src/parsing/rule/impls/block/rule.rs` takes an optional blank after `]]`), while it is kept after a start
with arguments. -/
theorem blank_after_start_lost :
    ((parsePage c!"a[[b]] x[[/b]]").map fun r => r.toOption.map fun o => textRender plainWorld somePage o.tree) =
      some (some (some c!"ax")) ∧
    ((parsePage c!"a[[b id=\"i\"]] x[[/b]]").map fun r => r.toOption.map fun o => textRender plainWorld somePage o.tree) =
      some (some (some c!"a x")) := by
  constructor <;> decide +kernel

/-- Why a link to an address in three brackets shows only a part of it: the scheme is taken for a category
(`strip_category`, src/parsing/rule/impls/link_triple.rs:200-225). -/
theorem address_loses_scheme :
    ((parsePage c!"a [[[https://example.com]]]").map fun r => r.toOption.map fun o => textRender plainWorld somePage o.tree) =
      some (some (some c!"a //example.com")) := by
  decide +kernel

/-- The part of the page is shown by a link without a label if the page has a category, but not otherwise
(same place). -/
theorem part_shown_with_category :
    ((parsePage c!"a [[[p#x]]] [[[c:p#x]]]").map fun r => r.toOption.map fun o => textRender plainWorld somePage o.tree) =
      some (some (some c!"a p p#x")) := by
  decide +kernel

/-! ### C39: plain text -/

/-- The pieces of a text without markup. -/
private structure Cut (t : Str) (ps : List Plain) : Prop where
  text : plainText ps = t
  ok : ∀ p ∈ ps, p.ok = true
  apart : separate (ps.map Plain.str) = true
  lines : ∀ b, linesOk b (ps.map Plain.str) = true

private theorem harmless_ne {c : Char} (h : harmless c = true) : c ≠ ':' ∧ c ≠ '\t' ∧ c ≠ '\n' ∧ isLineChar [c] = false := by
  simp only [harmless, isLineChar, lineChars] at h ⊢
  refine ⟨?_, ?_, ?_, ?_⟩ <;> first
    | (rintro rfl; revert h; decide)
    | (cases hc : List.contains c!":=+>*#" c with
        | false => rfl
        | true => simp at hc; rcases hc with rfl | rfl | rfl | rfl | rfl | rfl <;> (revert h; decide))

private theorem harmless_apart {c d : Char} (h : harmless c = true) (ha : isAlnumA c = false) (hb : c ≠ ' ') :
    Markup.apart [c] d = true := by
  simp [harmless, ha, hb] at h
  simp [Markup.apart, ha, doubling, h, hb]

theorem plain_ne {p : Plain} (h : p.ok = true) : p.str ≠ [] := by
  cases p with
  | word s => simp [Plain.ok] at h; simpa [Plain.str] using h.1
  | char c => simp [Plain.str]
  | blanks n => simp [Plain.str]

private theorem Cut.cons {p : Plain} {rest : Str} {ps : List Plain} (hp : p.ok = true)
    (hs : ∀ d r, rest = d :: r → Markup.apart p.str d = true) (hl : isLineChar p.str = false) (hn : p.str ≠ c!"\n")
    (h : Cut rest ps) : Cut (p.str ++ rest) (p :: ps) := by
  obtain ⟨h1, h2, h3, h4⟩ := h
  refine ⟨by simp [plainText, ← h1], by simpa [hp] using h2, ?_, ?_⟩
  · simp only [List.map_cons, separate, h3, Bool.and_true]
    cases ps with
    | nil => rfl
    | cons q qs =>
      have hq := plain_ne (h2 q (by simp))
      simp only [List.map_cons]
      cases hqs : q.str with
      | nil => exact absurd hqs hq
      | cons d r =>
        refine hs d (r ++ plainText qs) ?_
        rw [← h1]; simp [plainText, hqs]
  · intro b
    simp only [List.map_cons, linesOk, hn, if_false, hl, h4, Bool.not_false, Bool.or_true, Bool.and_self]
    split <;> rfl

private theorem takeWhile_all {q : Char → Bool} (s : Str) : ∀ c ∈ s.takeWhile q, q c = true := by
  induction s with
  | nil => simp
  | cons a s ih =>
    rw [List.takeWhile_cons]
    split
    · rename_i h; simpa [h] using ih
    · simp

private theorem dropWhile_head {q : Char → Bool} {s : Str} {d : Char} {r : Str} (h : s.dropWhile q = d :: r) : q d = false := by
  induction s with
  | nil => simp at h
  | cons a s ih =>
    rw [List.dropWhile_cons] at h
    split at h
    · exact ih h
    · rename_i ha; simp only [List.cons.injEq] at h; rw [← h.1]; simpa using ha

private theorem cut : ∀ (n : Nat) (t : Str), t.length ≤ n → (∀ c ∈ t, harmless c = true) → ∃ ps, Cut t ps
  | n, [], _, _ => ⟨[], rfl, by simp, rfl, fun _ => rfl⟩
  | 0, _ :: _, hl, _ => by simp at hl
  | n + 1, c :: cs, hl, h => by
    have hc := h c (by simp)
    obtain ⟨n1, n2, n3, n4⟩ := harmless_ne hc
    by_cases ha : isAlnumA c = true
    · have hsplit : c :: cs = (c :: cs.takeWhile isAlnumA) ++ cs.dropWhile isAlnumA := by simp
      have hrest : ∀ x ∈ cs.dropWhile isAlnumA, harmless x = true := fun x hx =>
        h x (by rw [hsplit]; exact List.mem_append_right _ hx)
      obtain ⟨ps, hps⟩ := cut n (cs.dropWhile isAlnumA) (by
        have := (List.dropWhile_suffix isAlnumA (l := cs)).length_le; simp at hl; omega) hrest
      refine ⟨.word (c :: cs.takeWhile isAlnumA) :: ps, ?_⟩
      rw [hsplit]
      refine Cut.cons (p := .word (c :: cs.takeWhile isAlnumA)) ?_ ?_ ?_ ?_ hps
      · simp only [Plain.ok, List.isEmpty_cons, Bool.not_false, Bool.true_and, List.all_cons, ha, List.all_eq_true]
        exact takeWhile_all cs
      · intro d r hd
        have hd1 := dropWhile_head hd
        have hd2 := (harmless_ne (hrest d (by rw [hd]; simp))).1
        simp only [Plain.str]
        have hall := takeWhile_all (q := isAlnumA) cs
        cases hw : cs.takeWhile isAlnumA with
        | nil => simp [Markup.apart, ha, hd1]
        | cons a w =>
          rw [hw] at hall
          have hall : (c :: a :: w).all isAlnumA = true := by
            simp only [List.all_cons, ha, Bool.true_and]
            exact List.all_eq_true.2 hall
          have hlast := last_ne (p := c :: a :: w) (fun hm => absurd (List.all_eq_true.1 hall _ hm) (by decide))
          simp only [Markup.apart, hlast, if_false]
          simp [ha, hd1, hd2]
          intro h1
          simp only [List.all_cons, ha, Bool.true_and, Bool.and_eq_true, List.all_eq_true] at hall
          obtain ⟨x, hx, hx'⟩ := h1 hall.1
          rw [hall.2 x hx] at hx'
          cases hx'
      · simp only [Plain.str]
        cases cs.takeWhile isAlnumA with
        | nil => exact n4
        | cons a w => rfl
      · intro e; simp [Plain.str] at e; exact n3 e.1
    · by_cases hb : c = ' '
      · subst hb
        have hw : ∀ s : Str, ∃ k, s.takeWhile (· == ' ') = List.replicate k ' ' := by
          intro s
          refine ⟨_, List.eq_replicate_iff.2 ⟨rfl, ?_⟩⟩
          intro b hb
          simpa using takeWhile_all s b hb
        obtain ⟨k, hk⟩ := hw cs
        have hsplit : ' ' :: cs = Plain.str (.blanks k) ++ cs.dropWhile (· == ' ') := by
          simp only [Plain.str, List.replicate_succ, List.cons_append, ← hk, List.takeWhile_append_dropWhile]
        have hrest : ∀ x ∈ cs.dropWhile (· == ' '), harmless x = true := fun x hx =>
          h x (by rw [hsplit]; exact List.mem_append_right _ hx)
        obtain ⟨ps, hps⟩ := cut n (cs.dropWhile (· == ' ')) (by
          have := (List.dropWhile_suffix (· == ' ') (l := cs)).length_le; simp at hl; omega) hrest
        refine ⟨.blanks k :: ps, ?_⟩
        rw [hsplit]
        refine Cut.cons (p := .blanks k) rfl ?_ ?_ ?_ hps
        · intro d r hd
          have hd1 := dropWhile_head hd
          have hd2 := (harmless_ne (hrest d (by rw [hd]; simp))).2.1
          simp at hd1
          cases k with
          | zero => simp [Plain.str, Markup.apart, isAlnumA, isAlphaA, isLowerA, isUpperA, isDigitA, hd1, hd2]
          | succ k =>
            have hlast := last_ne (p := ' ' :: ' ' :: List.replicate k ' ') (by simp)
            simp only [Plain.str, List.replicate_succ, Markup.apart, hlast, if_false]
            simp [ isAlnumA, isAlphaA, isLowerA, isUpperA, isDigitA, hd1, hd2]
        · cases k with
          | zero => rfl
          | succ k => rfl
        · intro e; simp [Plain.str, List.replicate_succ] at e
      · have ha' : isAlnumA c = false := by simpa using ha
        obtain ⟨ps, hps⟩ := cut n cs (by simp at hl; omega) (fun x hx => h x (by simp [hx]))
        refine ⟨.char c :: ps, ?_⟩
        refine Cut.cons (p := .char c) ?_ (fun d r _ => harmless_apart hc ha' hb) n4 (by simpa [Plain.str] using n3) hps
        simp [harmless, ha', hb] at hc
        simp [Plain.ok, ha', hc, hb]

private theorem pieces_plain (ps : List Plain) : Inline.pieces.go (ps.map Inline.plain) = ps.map Plain.str := by
  induction ps with
  | nil => rfl
  | cons p ps ih => simp [Inline.pieces.go, Inline.pieces, ih]

private theorem elems_plain {cx : Markup.Ctx} (ps : List Plain) :
    Inline.elems.go cx (ps.map Inline.plain) = ps.map fun p => .mk (.text p.str) [] := by
  induction ps with
  | nil => rfl
  | cons p ps ih => simp [Inline.elems.go, Inline.elems, ih]

private theorem texts_plain (ps : List Plain) : textsOf (ps.map fun p => .mk (.text p.str) []) = some (plainText ps) := by
  induction ps with
  | nil => rfl
  | cons p ps ih => simp [textsOf, ih, plainText]

/-- C39: plain text parses, without errors, to one paragraph of text elements that spell it. -/
theorem C39_plain_text {text : Str} (ht : text ≠ []) (h : ∀ c ∈ text, harmless c = true) (w : World) (info : PageInfo)
    (settings : Settings) : ∃ o es, parse w (tokenize text) info settings = some (.ok o) ∧ o.errors = [] ∧
      o.tree.elements = [.mk (.container .paragraph []) es, .mk (.footnoteBlock none false) []] ∧
      textsOf es = some text := by
  obtain ⟨ps, h1, h2, h3, h4⟩ := cut text.length text (Nat.le_refl _) h
  have hne : ps ≠ [] := by rintro rfl; exact ht h1.symm
  have hw : Page.write [(.para (ps.map .plain), false)] = text := by
    simp only [Page.write, Page.pieces, Block.pieces, pieces_plain]
    exact h1
  have hok : Page.ok [(.para (ps.map .plain), false)] = true := by
    have hi : ∀ qs : List Plain, (∀ p ∈ qs, p.ok = true) → Inline.ok.go (qs.map .plain) = true := by
      intro qs
      induction qs with
      | nil => intro _; rfl
      | cons q qs ih => intro h; simp [Inline.ok.go, Inline.ok, h]; exact ih (fun p hp => h p (by simp [hp]))
    have hh : ∀ qs : List Plain, Inline.height.go (qs.map .plain) ≤ 1 := by
      intro qs
      induction qs with
      | nil => simp [Inline.height.go]
      | cons q qs ih => simp [Inline.height.go, Inline.height]; omega
    have h5 := hh ps
    have h6 : Inline.height.go (ps.map .plain) ≤ 100 := by omega
    have h7 : (ps.map Inline.plain).isEmpty = false := by cases ps <;> simp_all
    simp only [Page.ok, Page.pieces, Block.pieces, pieces_plain, Block.ok, Page.gapsOk, h3, h4, hi ps h2, h7,
      Block.height, Page.noTabs, Block.isTab, List.all_cons, List.all_nil, h6, decide_true, Bool.not_false, Bool.and_self]
  obtain ⟨o, o1, o2, o3, _⟩ := C71_pages hok w info settings (by simp [Page.bibs, Block.bibs, Page.fits, Page.codes, Block.codes, distinct, Block.isPage])
  rw [hw] at o1
  obtain ⟨p, ps, rfl⟩ := List.exists_cons_of_ne_nil hne
  refine ⟨o, ((p :: ps).map fun p => .mk (.text p.str) []), o1, o2, ?_, by rw [texts_plain, h1]⟩
  rw [o3]
  simp only [Page.elems, List.flatMap_cons, List.flatMap_nil, List.append_nil, para_elems, elems_plain]
  rfl

example : (c!"Grüße, at 10.30... 100%; it's \\ \u00a0 100!").all harmless = false := by decide +kernel
example : (c!"Grüße at 10.30... 100%; it's  `100`!").all harmless = true := by decide +kernel

end Ftml
