import Verif.Model.TextRender
/-
Model of the HTML renderer: `src/render/html/**`, `src/render/handle.rs`, and the HTML parts of
`src/tree/{container,heading,align,clear_float,anchor,list,link,module}.rs`, with the default features
(`html`, `mathml`), release build (debug assertions are not modelled).

The body is only ever appended to, so an action returns the text it appends (`HR.ok s st`) instead of
changing a buffer.  Recursion into the footnotes, bibliographies and the table of contents, which the Rust
code reaches through the context, goes through the parameter `ext`; `renderLevel n` allows `n` nested steps
of that kind and `hang` means that they did not suffice.
-/
namespace Ftml

/-! ### src/render/html/escape.rs -/

/-- `escape_char`, src/render/html/escape.rs:21-31. -/
def escapeHtmlChar (c : Char) : Option Str :=
  if c = '>' then some c!"&gt;"
  else if c = '<' then some c!"&lt;"
  else if c = '&' then some c!"&amp;"
  else if c = '\'' then some c!"&#39;"
  else if c = '"' then some c!"&quot;"
  else if c.toNat = 0 then some c!" "
  else none

/-- `escape`, src/render/html/escape.rs:33-40. -/
def escapeHtml : Str → Str
  | [] => []
  | c :: s => (match escapeHtmlChar c with | some e => e | none => [c]) ++ escapeHtml s

/-! ### External behaviour -/

/-- Result of parsing and printing a style sheet with `parcel_css` (src/render/html/element/style.rs:38-50):
the `expect` fails, printing fails, or there is a style sheet. -/
inductive CssOut where
  | panic | error
  | code (s : Str)

/-- Behaviour of the external code called by the HTML renderer; theorems quantify over it. -/
structure HWorld extends World where
  /-- the 16 characters of the `n`-th id drawn from the random generator, src/render/html/random.rs:58-73 -/
  randomId : Nat → Str
  /-- `Handle::get_page_exists`, src/render/handle.rs:46-57 (constantly true outside tests) -/
  pageExists : Str → Str → Bool
  /-- `StyleSheet::parse(css).to_css(minify)` -/
  css : Bool → Str → CssOut
  /-- `latex_to_mathml(source, display)`, src/render/html/element/math.rs:115 (`true` = block) -/
  mathml : Bool → Str → Except Str Str
  /-- the current time, src/tree/date.rs:103-122 -/
  now : Int
  /-- `info::VERSION`, src/info.rs:46 -/
  version : Str

/-! ### Context and actions -/

/-- `Backlinks`, src/data/backlinks.rs (`included_pages` is never filled). -/
structure Links where
  internal : List PageRef
  external : List Str

/-- The changing part of `HtmlContext`, src/render/html/context.rs:43-79.  Left out: `meta` (constant),
`pages_exists`, a cache of the pure `get_page_exists`. -/
structure HSt where
  scopes : Scopes
  rand : Nat
  code : Nat
  toc : Nat
  equation : Nat
  footnote : Nat
  links : Links

/-- The panics of the renderer. -/
inductive HPanic where
  | partialElement   -- element/mod.rs:221
  | pageLabel        -- handle.rs:113
  | footnoteIndex    -- element/footnotes.rs:33-35
  | bibliographyIndex -- tree/bibliography.rs `&self.0[index]`
  | css              -- element/style.rs:38-39
  | popScope         -- tree/variables.rs, `pop_scope`
deriving DecidableEq, Repr

/-- Outcome of a rendering action: out of nested steps, panic, or the text it appends with the new
state. -/
inductive HR where
  | hang
  | panic (p : HPanic)
  | ok (s : Str) (st : HSt)

/-- A rendering action. -/
abbrev Act := HSt → HR

/-- Append a raw string: `push_raw_str`, `push_raw`, `str_write!`, context.rs:316-324, 355-360. -/
def emit (s : Str) : Act := fun st => .ok s st
/-- `push_escaped`, context.rs:326-329. -/
def emitEsc (s : Str) : Act := emit (escapeHtml s)
/-- Nothing. -/
def skip : Act := emit []
/-- One action after the other. -/
def Act.andThen (a b : Act) : Act := fun st =>
  match a st with
  | .hang => .hang
  | .panic p => .panic p
  | .ok s st' =>
    match b st' with
    | .hang => .hang
    | .panic p => .panic p
    | .ok s' st'' => .ok (s ++ s') st''
@[inherit_doc] infixr:60 " ;; " => Act.andThen
/-- A panic. -/
def die (p : HPanic) : Act := fun _ => .panic p
/-- Change the state. -/
def modifySt (f : HSt → HSt) : Act := fun st => .ok [] (f st)
/-- Repeat an action. -/
def repeatAct (a : Act) : Nat → Act
  | 0 => skip
  | n+1 => a ;; repeatAct a n
/-- An action for each member of a list, with its index. -/
def forEach {α : Type} (f : Nat → α → Act) : Nat → List α → Act
  | _, [] => skip
  | i, x :: xs => f i x ;; forEach f (i + 1) xs

/-! ### src/render/html/builder.rs -/

/-- `SOLO_HTML_TAGS`, builder.rs:35-38. -/
def soloTags : List Str :=
  [c!"area", c!"base", c!"br", c!"col", c!"embed", c!"hr", c!"img", c!"input", c!"link", c!"meta",
   c!"param", c!"source", c!"track", c!"wbr"]

/-- An entry of `attr!`, attributes.rs:23-93: key, value parts joined, condition. -/
abbrev AttrEntry := Str × Str × Bool

/-- `key => value`. -/
def kv (k v : Str) : AttrEntry := (k, v, true)
/-- `key => value; if cond`. -/
def kvIf (k v : Str) (b : Bool) : AttrEntry := (k, v, b)
/-- `key; if cond`. -/
def flag (k : Str) (b : Bool := true) : AttrEntry := (k, [], b)

/-- `attr`, builder.rs:209-264: the attributes written, in order. -/
def attrList (entries : List AttrEntry) (map : AttrMap) : List (Str × Str) :=
  let es := entries.filterMap fun (k, v, b) => if b then some (k, v) else none
  let merged := es.filterMap fun (k, v) => (assocGet map k).map fun mv => (k, v ++ c!" " ++ mv)
  let rest := es.filter fun (k, _) => (assocGet map k).isNone
  let own := map.filter fun (k, _) => !(merged.any fun (k', _) => k' == k)
  merged ++ rest ++ own

/-- `attr_single`, `attr_key`, `attr_value`, builder.rs:164-207.  `has_value` is false when all parts are
empty, that is when the joined value is. -/
def attrStr (k v : Str) : Str :=
  c!" " ++ escapeHtml k ++ if v.isEmpty then [] else c!"=\"" ++ escapeHtml v ++ c!"\""

/-- All attributes. -/
def attrsStr : List (Str × Str) → Str
  | [] => []
  | (k, v) :: rest => attrStr k v ++ attrsStr rest

/-- `HtmlBuilderTag`, builder.rs:151-307: a tag with its attributes and contents; the closing tag is
written when the builder is dropped. -/
def tagA (tag : Str) (entries : List AttrEntry) (map : AttrMap) (body : Act) : Act :=
  emit (c!"<" ++ tag ++ attrsStr (attrList entries map) ++ c!">") ;; body ;;
  emit (if soloTags.contains tag then [] else c!"</" ++ tag ++ c!">")

/-- A tag without attribute map. -/
def tag (name : Str) (entries : List AttrEntry) (body : Act) : Act := tagA name entries [] body

/-- `sprite`, builder.rs:86-103. -/
def sprite (id : Str) : Act :=
  tag c!"svg" [kv c!"class" (c!"wj-sprite sprite-" ++ id),
    kv c!"viewBox" (if id = c!"wj-karma" then c!"0 0 64 114" else c!"0 0 24 24")]
    (tag c!"use" [kv c!"href" (c!"/files--static/media/ui.svg#" ++ id)] skip)

/-! ### src/tree: HTML names -/

/-- `ListType::html_tag`, src/tree/list.rs:98-103. -/
def ListType.htmlTag : ListType → Str
  | .bullet | .generic => c!"ul"
  | .numbered => c!"ol"

/-- `LinkType::name`, src/tree/link.rs. -/
def LinkType.name : LinkType → Str
  | .direct => c!"direct"
  | .page => c!"page"
  | .interwiki => c!"interwiki"
  | .anchor => c!"anchor"
  | .toc => c!"table-of-contents"

/-- `Module::name` (strum `IntoStaticStr`), src/tree/module.rs:65-67. -/
def Module.name : Module → Str
  | .backlinks _ => c!"Backlinks"
  | .categories _ => c!"Categories"
  | .join .. => c!"Join"
  | .pageTree .. => c!"PageTree"
  | .rate => c!"Rate"

/-- `HeadingLevel::html_tag`, src/tree/heading.rs.  The Rust type has six values; other numbers are mapped
to `h6`. -/
def headingTag (level : Nat) : Str :=
  if level = 1 then c!"h1" else if level = 2 then c!"h2" else if level = 3 then c!"h3"
  else if level = 4 then c!"h4" else if level = 5 then c!"h5" else c!"h6"

/-- Tag and class of the containers other than headings: `ContainerType::html_tag`,
src/tree/container.rs:124-150. -/
def CType.htmlTag : CType → Str × Option Str
  | .bold => (c!"strong", none)
  | .italics => (c!"em", none)
  | .underline => (c!"u", none)
  | .superscript => (c!"sup", none)
  | .subscript => (c!"sub", none)
  | .strikethrough => (c!"s", none)
  | .monospace => (c!"code", some c!"wj-monospace")
  | .span => (c!"span", none)
  | .div => (c!"div", none)
  | .mark => (c!"mark", none)
  | .blockquote => (c!"blockquote", none)
  | .insertion => (c!"ins", none)
  | .deletion => (c!"del", none)
  | .hidden => (c!"span", some c!"wj-hidden")
  | .invisible => (c!"span", some c!"wj-invisible")
  | .size => (c!"span", none)
  | .ruby => (c!"ruby", none)
  | .rubyText => (c!"rt", none)
  | .paragraph => (c!"p", none)
  | .align a => (c!"div", some a.htmlClass)
  | .header h => (headingTag h.level, none)

/-! ### src/render/handle.rs, src/url.rs -/

/-- `Handle::build_url`, src/render/handle.rs:188-204. -/
def buildUrl (e : Ext) (site path : Str) : Str :=
  c!"https://" ++ site ++ c!".wikijump.com/" ++ e.normalize path

/-- `normalize_link`, src/url.rs:86-102. -/
def normalizeLink (e : Ext) : LinkLoc → Str
  | .url u => normalizeHref e u
  | .page r => match r.site with
    | some s => buildUrl e s r.page
    | none => normalizeHref e r.page

/-- `Handle::get_image_link`, src/render/handle.rs:67-97. -/
def imageLink (info : PageInfo) (settings : Settings) : ImageSource → Option Str
  | .url u => some u
  | .file1 f => if settings.allowLocalPaths then some (fileUrl info.site info.page f) else none
  | .file2 p f => if settings.allowLocalPaths then some (fileUrl info.site p f) else none
  | .file3 s p f => if settings.allowLocalPaths then some (fileUrl s p f) else none
where
  /-- lines 93-96 -/
  fileUrl (site page file : Str) : Str :=
    c!"https://" ++ site ++ c!".wjfiles.com/local--files/" ++ page ++ c!"/" ++ file

/-- Decimal form of an integer (`str!(i64)`). -/
def intToStr : Int → Str
  | .ofNat n => natToStr n
  | .negSucc n => '-' :: natToStr (n + 1)

/-- `DateItem::timestamp`, src/tree/date.rs:45-51. -/
def DateVal.timestamp (d : DateVal) : Int := d.localSecs - d.offset.getD 0

/-- The avatar of `UserInfo::dummy`, src/data/user_info.rs:56-66, abbreviated: a `data:` URI of base64
characters.  Its exact characters play no role. -/
def dummyAvatar : Str := c!"data:image/png;base64,..."

/-! ### The renderer -/

/-- `HtmlContext::add_link`, src/render/html/context.rs:256-287. -/
def addLink (l : LinkLoc) (b : Links) : Links :=
  match l with
  | .page r => { b with internal := b.internal ++ [r] }
  | .url u =>
    if u = c!"javascript:;" then b
    else
      let u := match u with
        | '/' :: rest => rest
        | _ => u
      if isUrl u then { b with external := b.external ++ [u] }
      else { b with internal := b.internal ++ [⟨none, u⟩] }

/-- What does not change during rendering. -/
structure HEnv where
  w : HWorld
  info : PageInfo
  settings : Settings
  toc : List Elem
  footnotes : List (List Elem)
  bibliographies : List (Bibl Elem)

/-- `render_code`, src/render/html/element/text.rs:46-103. -/
def renderCode (contents : Str) (language : Option Str) : Act :=
  modifySt (fun st => { st with code := st.code + 1 }) ;;
  tag c!"wj-code" [kv c!"class" (lowerA (c!"wj-code wj-language-" ++ language.getD c!"none"))] (
    tag c!"div" [kv c!"class" c!"wj-code-panel"] (
      tag c!"wj-code-copy" [kv c!"type" c!"button", kv c!"class" c!"wj-code-copy",
          kv c!"title" c!"Copy to Clipboard"]
        (sprite c!"wj-clipboard" ;; sprite c!"wj-clipboard-success") ;;
      tag c!"span" [kv c!"class" c!"wj-code-language"] (emitEsc (language.getD []))) ;;
    tag c!"pre" [] (tag c!"code" [] (emitEsc contents)))

/-- `render_latex`, src/render/html/element/math.rs:55-138. -/
def renderLatex (env : HEnv) (name : Option Str) (index : Option Nat) (latex : Str) (block : Bool) : Act :=
  tag (if block then c!"div" else c!"span")
    [kv c!"class" (c!"wj-math " ++ if block then c!"wj-math-block" else c!"wj-math-inline"),
     kvIf c!"data-name" (name.getD []) name.isSome] (
    (match index with
     | some i => tag c!"span" [kv c!"class" c!"wj-equation-number"] (
         tag c!"span" [kv c!"class" c!"wj-equation-paren wj-equation-paren-open"] (emitEsc c!"(") ;;
         emit (natToStr i) ;;
         tag c!"span" [kv c!"class" c!"wj-equation-paren wj-equation-paren-close"] (emitEsc c!")"))
     | none => skip) ;;
    tag c!"code" [kv c!"class" c!"wj-math-source wj-hidden", kv c!"aria-hidden" c!"true"] (emitEsc latex) ;;
    (match env.w.mathml block latex with
     | .ok m => tag c!"wj-math-ml" [kv c!"class" c!"wj-math-ml"] (emit m)
     | .error e => tag c!"span" [kv c!"class" (if block then c!"wj-error-block" else c!"wj-error-inline")]
         (emitEsc e)))

/-- `render_user`, src/render/html/element/user.rs:23-99, with `Handle::get_user_info`
(src/render/handle.rs:59-65), which always returns `Some`. -/
def renderUser (name : Str) (avatar : Bool) : Act :=
  tag c!"span" [kv c!"class" c!"wj-user-info"] (
    tag c!"a" [kv c!"class" c!"wj-user-info-link", kv c!"href" (c!"/user:info/" ++ name)] (
      (if avatar then
        tag c!"span" [kv c!"class" c!"wj-karma", kv c!"data-karma" c!"5"] (sprite c!"wj-karma") ;;
        tag c!"img" [kv c!"class" c!"wj-user-info-avatar", kv c!"src" dummyAvatar] skip
       else skip) ;;
      tag c!"span" [kv c!"class" c!"wj-user-info-name"] (emitEsc name)))

/-- `render_date`, src/render/html/element/date.rs:24-63. -/
def renderDate (env : HEnv) (d : DateVal) (hover : Bool) : Act :=
  tag c!"span" [kv c!"class" (c!"wj-date" ++ if hover then c!" wj-date-hover" else []),
      kv c!"data-timestamp" (intToStr d.timestamp), kv c!"data-delta" (intToStr (d.timestamp - env.w.now))]
    (emitEsc ((env.w.formatDate d).getD c!"<ERROR>"))

/-- `render_embed`, src/render/html/element/embed.rs:24-73. -/
def renderEmbed (e : Embed) : Act :=
  tag c!"div" [kv c!"class" c!"wj-embed"] (
    match e with
    | .youtube v => tag c!"iframe" [kv c!"src" (c!"https://www.youtube.com/embed/" ++ v),
        kv c!"frameborder" c!"0",
        kv c!"allow" c!"accelerometer; autoplay; clipboard-write; encrypted-media; gyroscope; picture-in-picture",
        flag c!"allowfullscreen"] skip
    | .vimeo v => tag c!"iframe" [kv c!"src" (c!"https://player.vimeo.com/video/" ++ v),
        kv c!"frameborder" c!"0", kv c!"allow" c!"autoplay; fullscreen; picture-inpicture",
        flag c!"allowfullscreen"] skip
    | .githubGist u h => tag c!"script" [kv c!"src" (c!"https://gist.github.com/" ++ u ++ c!"/" ++ h ++ c!".js")] skip
    | .gitlabSnippet i => tag c!"script" [kv c!"src" (c!"https://gitlab.com/-/snippets/" ++ i ++ c!".js")] skip)

/-- `render_link`, src/render/html/element/link.rs:50-104. -/
def renderLink (env : HEnv) (loc : LinkLoc) (extra : Option Str) (label : LinkLabel)
    (target : Option AnchorTarget) (ltype : LinkType) : Act :=
  let cls := match loc with
    | .url u =>
      if u = c!"javascript:;" then c!"wj-link-anchor"
      else if startsWith u c!"#" then c!"wj-link-anchor"
      else if startsWith u c!"/" then c!"wj-link-internal"
      else c!"wj-link-external"
    | .page r =>
      let (site, page) := r.fieldsOr env.info.site
      if env.w.pageExists site page then c!"wj-link-internal" else c!"wj-link-internal wj-link-missing"
  modifySt (fun st => { st with links := addLink loc st.links }) ;;
  tag c!"a" [kv c!"href" (normalizeLink env.w.toExt loc ++ extra.getD []),
      kvIf c!"target" ((target.map AnchorTarget.htmlAttr).getD []) target.isSome,
      kv c!"class" (c!"wj-link " ++ cls ++ if ltype = .interwiki then c!" wj-link-interwiki" else []),
      kv c!"data-link-type" ltype.name]
    (match getLinkLabel env.info.site loc label with
     | some t => emitEsc t
     | none => die .pageLabel)

/-- `render_image`, src/render/html/element/image.rs:25-115. -/
def renderImage (env : HEnv) (src : ImageSource) (link : Option LinkLoc) (align : Option FloatAlign)
    (attrs : AttrMap) : Act :=
  match imageLink env.info env.settings src with
  | none => tag c!"div" [kv c!"class" c!"wj-error-block"] (emitEsc c!"No images in this context")
  | some url =>
    let img := tagA c!"img" [kv c!"class" c!"wj-image", kv c!"src" url, flag c!"crossorigin"] attrs skip
    tag c!"div" [kv c!"class" (c!"wj-image-container" ++
        (match align with | some a => c!" " ++ a.htmlClass | none => []))]
      (match link with
       | some l => tag c!"a" [kv c!"href" (normalizeLink env.w.toExt l)] img
       | none => img)

/-- `render_style`, src/render/html/element/style.rs:24-58. -/
def renderStyle (env : HEnv) (css : Str) : Act :=
  match env.w.css env.settings.minifyCss css with
  | .panic => die .css
  | .error => skip
  | .code s => tag c!"style" [] (emit s)

/-- `render_equation_reference`, src/render/html/element/math.rs:140-164. -/
def renderEquationRef (name : Str) : Act :=
  tag c!"span" [kv c!"class" c!"wj-equation-ref"] (
    tag c!"wj-equation-ref-marker" [kv c!"class" c!"wj-equation-ref-marker", kv c!"type" c!"button",
      kv c!"data-name" name] (emitEsc name) ;;
    tag c!"span" [kv c!"class" c!"wj-equation-ref-tooltip", kv c!"aria-hidden" c!"true"] skip)

/-- `render_table_of_contents`, src/render/html/element/toc.rs:24-78. -/
def renderToc (env : HEnv) (ext : List Elem → Act) (attrs : AttrMap) (align : Option Alignment) : Act :=
  let ids := env.settings.useTrueIds
  tagA c!"div" [kvIf c!"id" c!"wj-toc" ids,
      kvIf c!"class" ((align.map fun a => FloatAlign.htmlClass ⟨a, true⟩).getD []) align.isSome] attrs (
    tag c!"div" [kvIf c!"id" c!"wj-toc-action-bar" ids]
      (tag c!"a" [kv c!"href" c!"javascript:;",
        kv c!"onclick" c!"WIKIJUMP.page.listeners.foldToc(event)"] skip) ;;
    tag c!"div" [kv c!"class" c!"title"] (emitEsc c!"Table of Contents") ;;
    tag c!"div" [kvIf c!"id" c!"wj-toc-list" ids] (ext env.toc))

/-- `render_footnote`, src/render/html/element/footnotes.rs:23-76. -/
def renderFootnote (env : HEnv) (ext : List Elem → Act) : Act := fun st =>
  let index := st.footnote
  let id := natToStr index
  let label := c!"Footnote " ++ id ++ c!"."
  (modifySt (fun st => { st with footnote := index + 1 }) ;;
   match env.footnotes[index - 1]? with
   | none => die .footnoteIndex
   | some contents =>
     tag c!"span" [kv c!"class" c!"wj-footnote-ref"] (
       tag c!"wj-footnote-ref-marker" [kv c!"class" c!"wj-footnote-ref-marker", kv c!"role" c!"link",
         kv c!"aria-label" label, kv c!"data-id" id] (emitEsc id) ;;
       tag c!"span" [kv c!"class" c!"wj-footnote-ref-tooltip", kv c!"aria-hidden" c!"true"] (
         tag c!"span" [kv c!"class" c!"wj-footnote-ref-tooltip-label"] (emitEsc label) ;;
         tag c!"span" [kv c!"class" c!"wj-footnote-ref-contents"] (ext contents)))) st

/-- `render_footnote_block`, src/render/html/element/footnotes.rs:78-146, under the condition of
element/mod.rs:163-167. -/
def renderFootnoteBlock (env : HEnv) (ext : List Elem → Act) (title : Option Str) (hide : Bool) : Act :=
  if hide || env.footnotes.isEmpty then skip
  else
    tag c!"div" [kv c!"class" c!"wj-footnote-list"] (
      tag c!"div" [kv c!"class" c!"wj-title"] (emitEsc (title.getD c!"Footnotes")) ;;
      tag c!"ol" [] (forEach (fun i contents =>
        let id := natToStr (i + 1)
        tag c!"li" [kv c!"class" c!"wj-footnote-list-item", kv c!"data-id" id] (
          tag c!"wj-footnote-list-item-marker" [kv c!"class" c!"wj-footnote-list-item-marker",
              kv c!"type" c!"button", kv c!"role" c!"link"]
            (emit id ;; tag c!"span" [kv c!"class" c!"wj-footnote-sep"] (emitEsc c!".")) ;;
          tag c!"span" [kv c!"class" c!"wj-footnote-list-item-contents"] (ext contents))) 0 env.footnotes))

/-- `BibliographyList::get_reference`, src/tree/bibliography.rs:108-118. -/
def bibReference (bs : List (Bibl Elem)) (label : Str) : Option (Nat × List Elem) :=
  bs.findSome? fun b => b.get label

/-- `render_bibcite`, src/render/html/element/bibliography.rs:24-101. -/
def renderBibCite (env : HEnv) (ext : List Elem → Act) (label : Str) (brackets : Bool) : Act :=
  match bibReference env.bibliographies label with
  | none => tag c!"span" [kv c!"class" c!"wj-error-inline"] (emitEsc c!"Bibliography item not found")
  | some (index, contents) =>
    let id := natToStr index
    let text := c!"Reference " ++ id ++ c!"."
    tag c!"span" [kv c!"class" c!"wj-bibliography-ref"] (
      (if brackets then emit c!"[" else skip) ;;
      tag c!"wj-bibliography-ref-marker" [kv c!"class" c!"wj-bibliography-ref-marker", kv c!"role" c!"link",
        kv c!"aria-label" text, kv c!"data-id" id] (emitEsc id) ;;
      (if brackets then emit c!"]" else skip) ;;
      tag c!"span" [kv c!"class" c!"wj-bibliography-ref-tooltip", kv c!"aria-hidden" c!"true"] (
        tag c!"span" [kv c!"class" c!"wj-bibliography-ref-tooltip-label"] (emitEsc text) ;;
        tag c!"span" [kv c!"class" c!"wj-bibliography-ref-contents"] (ext contents)))

/-- `render_bibliography`, src/render/html/element/bibliography.rs:103-180, under the condition of
element/mod.rs:171-177; an index out of range panics. -/
def renderBibliography (env : HEnv) (ext : List Elem → Act) (index : Nat) (title : Option Str) (hide : Bool) :
    Act :=
  if hide then skip
  else match env.bibliographies[index]? with
    | none => die .bibliographyIndex
    | some b =>
      tag c!"div" [kv c!"class" c!"wj-bibliography bibitems"] (
        tag c!"div" [kv c!"class" c!"wj-bibliography-title title"] (emitEsc (title.getD c!"Bibliography")) ;;
        forEach (fun i (e : Str × List Elem) =>
          let n := natToStr (index + 1) ++ c!"-" ++ natToStr (i + 1)
          tag c!"div" [kv c!"class" c!"wj-bibliography-item bibitem",
              kv c!"id" (c!"wj-bibliography-item-" ++ n ++ c!" bibitem-" ++ n)] (
            tag c!"wj-bibliography-item-marker" [kv c!"class" c!"wj-bibliography-item-marker",
                kv c!"type" c!"button", kv c!"role" c!"link"]
              (emit (natToStr (i + 1)) ;; tag c!"span" [kv c!"class" c!"wj-bibliography-sep"] (emitEsc c!".")) ;;
            ext e.2)) 0 b.entries)

/-- `n` ids starting with number `from`: `generate_ids`, src/render/html/element/tabs.rs:95-99, and
`generate_html_id`, src/render/html/random.rs:75-79. -/
def htmlId (env : HEnv) (n : Nat) : Str := c!"wj-id-" ++ env.w.randomId n

/-- `render_container`, src/render/html/element/container.rs:24-70 and 83-90. -/
def renderContainer (env : HEnv) (c : CType) (attrs : AttrMap) (body : Act) : Act :=
  match c with
  | .rubyText =>
    tag c!"rp" [] (emitEsc c!"(") ;; tagA c!"rt" [] attrs body ;; tag c!"rp" [] (emitEsc c!")")
  | .header h =>
    if h.hasToc then fun st =>
      (modifySt (fun st => { st with toc := st.toc + 1, rand := if env.settings.useTrueIds then st.rand else st.rand + 1 }) ;;
       tagA (headingTag h.level)
        [kv c!"id" (if env.settings.useTrueIds then c!"toc" ++ natToStr st.toc else htmlId env st.rand)] attrs body) st
    else tagA (headingTag h.level) [] attrs body
  | c => match c.htmlTag with
    | (t, none) => tagA t [] attrs body
    | (t, some cls) => tagA t [kv c!"class" cls] attrs body

/-- `render_table` for one cell, src/render/html/element/table.rs:44-70. -/
def renderCell (header : Bool) (span : Nat) (align : Option Alignment) (attrs : AttrMap) (body : Act) : Act :=
  tagA (if header then c!"th" else c!"td")
    [kvIf c!"colspan" (natToStr span) (span > 1),
     kvIf c!"class" ((align.map Alignment.htmlClass).getD []) align.isSome] attrs body

/-- The buttons of a tab view, src/render/html/element/tabs.rs:40-68 (`b`, `t`: numbers of the first
button and panel id). -/
def tabButtons (env : HEnv) (b t : Nat) : Nat → List Elem → Act
  | _, [] => skip
  | i, .mk (.tab label) _ :: rest =>
    tag c!"wj-tabs-button" [kv c!"class" c!"wj-tabs-button", kv c!"id" (htmlId env (b + i)),
      kv c!"role" c!"tab", kv c!"aria-label" label,
      kv c!"aria-selected" (if i = 0 then c!"true" else c!"false"),
      kv c!"aria-controls" (htmlId env (t + i)),
      kv c!"tabindex" (if i = 0 then c!"0" else c!"-1")] (emitEsc label) ;;
    tabButtons env b t (i + 1) rest
  | i, _ :: rest => tabButtons env b t i rest

/-- One panel of a tab view, src/render/html/element/tabs.rs:76-90. -/
def tabPanel (env : HEnv) (b t i : Nat) (body : Act) : Act :=
  tag c!"div" [kv c!"class" c!"wj-tabs-panel", kv c!"id" (htmlId env (t + i)), kv c!"role" c!"tabpanel",
    kv c!"aria-labelledby" (htmlId env (b + i)), kv c!"tabindex" c!"0", flag c!"hidden" (i > 0)] body

/-- `render_include`, src/render/html/element/include.rs:25-35. -/
def renderInclude (vars : List (Str × Str)) (body : Act) : Act :=
  modifySt (fun st => { st with scopes := st.scopes.push vars }) ;; body ;;
  fun st => match st.scopes.pop with
    | some s => .ok [] { st with scopes := s }
    | none => .panic .popScope

/-- `render_variable`, src/render/html/element/include.rs:37-57. -/
def renderVariable (name : Str) : Act := fun st =>
  emitEsc (match st.scopes.get name with | some v => v | none => c!"{$" ++ name ++ c!"}") st

/-- `render_collapsible`, src/render/html/element/collapsible.rs:58-137. -/
def renderCollapsible (attrs : AttrMap) (startOpen : Bool) (showText hideText : Option Str)
    (showTop showBottom : Bool) (body : Act) : Act :=
  let show' := showText.getD c!"+ open block"
  let hide := hideText.getD c!"- hide block"
  tagA c!"details" [kv c!"class" c!"wj-collapsible", flag c!"open" startOpen, flag c!"data-show-top" showTop,
      flag c!"data-show-bottom" showBottom] attrs (
    tag c!"summary" [kv c!"class" c!"wj-collapsible-button wj-collapsible-button-top"] (
      tag c!"span" [kv c!"class" c!"wj-collapsible-show-text"] (emitEsc show') ;;
      tag c!"span" [kv c!"class" c!"wj-collapsible-hide-text"] (emitEsc hide)) ;;
    tag c!"div" [kv c!"class" c!"wj-collapsible-content"] body ;;
    (if showBottom then
      tag c!"wj-collapsible-button-bottom" [kv c!"class" c!"wj-collapsible-button wj-collapsible-button-bottom"]
        (tag c!"span" [kv c!"class" c!"wj-collapsible-hide-text"] (emitEsc hide))
     else skip))

/-- Elements without contents of their own, src/render/html/element/mod.rs:94-222. -/
def renderLeaf (env : HEnv) (ext : List Elem → Act) : Kind → Act
  | .module m => emit (c!"<p>TODO: module " ++ m.name ++ c!"</p>")
  | .text s => emitEsc s
  | .raw s => tag c!"span" [kv c!"class" c!"wj-raw"] (emitEsc s)
  | .email s => tag c!"span" [kv c!"class" c!"wj-email"] (emitEsc s)
  | .variable n => renderVariable n
  | .anchorName id => tag c!"a" [kv c!"id" id] skip
  | .link lt loc ex label target => renderLink env loc ex label target lt
  | .image src link align attrs => renderImage env src link align attrs
  | .radioButton name checked attrs =>
    tagA c!"input" [kv c!"name" name, kv c!"type" c!"radio", flag c!"checked" checked] attrs skip
  | .checkBox checked attrs => tagA c!"input" [kv c!"type" c!"checkbox", flag c!"checked" checked] attrs skip
  | .toc attrs align => renderToc env ext attrs align
  | .footnote => renderFootnote env ext
  | .footnoteBlock title hide => renderFootnoteBlock env ext title hide
  | .bibCite label br => renderBibCite env ext label br
  | .bibBlock i title hide => renderBibliography env ext i title hide
  | .user name avatar => renderUser name avatar
  | .date v _ hover => renderDate env v hover
  | .code s l => renderCode s l
  | .math name s => fun st =>
    (modifySt (fun st => { st with equation := st.equation + 1 }) ;; renderLatex env name (some st.equation) s true) st
  | .mathInline s => renderLatex env none none s false
  | .equationRef n => renderEquationRef n
  | .embed e => renderEmbed e
  | .html _ => tag c!"iframe" [kv c!"src" c!"https://example.com/", flag c!"crossorigin"] skip
  | .iframe attrs url => tagA c!"iframe" [kv c!"src" url, flag c!"crossorigin"] attrs skip
  | .style css => renderStyle env css
  | .lineBreak => tag c!"br" [] skip
  | .lineBreaks n => repeatAct (tag c!"br" [] skip) n
  | .clearFloat c => tag c!"div" [kv c!"class" (c!"wj-clear-float " ++ c.htmlClass)] skip
  | .horizontalRule => tag c!"hr" [] skip
  | _ => die .partialElement

/-- `render_element`, src/render/html/element/mod.rs:85-223.  The structural kinds are the bodies of the
loops over rows, cells, items. -/
def htmlElem (env : HEnv) (ext : List Elem → Act) : Elem → Act
  | .mk k ks =>
    match k with
    | .container c attrs => renderContainer env c attrs (go ks)
    | .table attrs => tagA c!"table" [] attrs (tag c!"tbody" [] (go ks))
    | .row attrs => tagA c!"tr" [] attrs (go ks)
    | .cell h n a attrs => renderCell h n a attrs (go ks)
    | .tabView => fun st =>
      let n := ks.length
      (modifySt (fun st => { st with rand := st.rand + n + n }) ;;
       tag c!"wj-tabs" [kv c!"class" c!"wj-tabs"] (
        tag c!"div" [kv c!"class" c!"wj-tabs-button-list", kv c!"role" c!"tablist"]
          (tabButtons env st.rand (st.rand + n) 0 ks) ;;
        tag c!"div" [kv c!"class" c!"wj-tabs-panel-list"] (panels st.rand (st.rand + n) 0 ks))) st
    | .tab _ => go ks
    | .anchor target attrs =>
      tagA c!"a" [kv c!"class" c!"wj-anchor",
        kvIf c!"target" ((target.map AnchorTarget.htmlAttr).getD []) target.isSome] attrs (go ks)
    | .list t attrs => tagA t.htmlTag [] attrs (go ks)
    | .item attrs => tagA c!"li" [] attrs (go ks)
    | .subList => go ks
    | .definitionList => tag c!"dl" [] (go ks)
    | .defItem _ => go ks
    | .defKey => tag c!"dt" [] (go ks)
    | .defValue => tag c!"dd" [] (go ks)
    | .collapsible attrs o s h t b => renderCollapsible attrs o s h t b (go ks)
    | .color c => tag c!"span" [kv c!"style" (c!"color: " ++ c ++ c!";")] (go ks)
    | .include _ vars _ => renderInclude vars (go ks)
    | k => renderLeaf env ext k
where
  /-- `render_elements`, src/render/html/element/mod.rs:77-83. -/
  go : List Elem → Act
    | [] => skip
    | e :: es => htmlElem env ext e ;; go es
  /-- The panels of a tab view, src/render/html/element/tabs.rs:71-91. -/
  panels (b t : Nat) : Nat → List Elem → Act
    | _, [] => skip
    | i, e :: rest =>
      match e.kind with
      | .tab _ => tabPanel env b t i (htmlElem env ext e) ;; panels b t (i + 1) rest
      | _ => panels b t i rest

/-- Rendering with at most `n` nested steps into footnotes, bibliographies or the table of contents. -/
def renderLevel (env : HEnv) : Nat → List Elem → Act
  | 0, _ => fun _ => .hang
  | n+1, es => htmlElem.go env (renderLevel env n) es

/-! ### src/render/html/mod.rs, src/render/html/meta.rs -/

/-- `HtmlMetaType`, src/render/html/meta.rs:25-29. -/
inductive MetaType where
  | name | httpEquiv | property
deriving DecidableEq, Repr

/-- `HtmlMeta`, src/render/html/meta.rs:44-48. -/
structure HtmlMeta where
  type : MetaType
  name : Str
  value : Str
deriving DecidableEq, Repr

/-- `HtmlMetaType::tag_name`, src/render/html/meta.rs:32-40. -/
def MetaType.tagName : MetaType → Str
  | .name => c!"name"
  | .httpEquiv => c!"http-equiv"
  | .property => c!"property"

/-- `HtmlMeta::render`, src/render/html/meta.rs:51-57. -/
def HtmlMeta.render (m : HtmlMeta) : Str :=
  c!"<meta " ++ m.type.tagName ++ c!"=\"" ++ escapeHtml m.name ++ c!"\" content=\"" ++ escapeHtml m.value ++ c!"\" />"

/-- `Layout::description`, src/layout.rs:52-57. -/
def Layout.description : Layout → Str
  | .wikidot => c!"Wikidot (legacy)"
  | .wikijump => c!"Wikijump"

/-- `HtmlContext::initial_metadata`, src/render/html/context.rs:131-164. -/
def initialMeta (w : HWorld) (info : PageInfo) (layout : Layout) : List HtmlMeta :=
  [⟨.httpEquiv, c!"Content-Type", c!"text/html"⟩,
   ⟨.name, c!"generator", w.version ++ c!" " ++ layout.description⟩,
   ⟨.name, c!"description", info.title ++ (match info.altTitle with | some t => c!" - " ++ t | none => [])⟩,
   ⟨.name, c!"keywords", joinWith c!"," info.tags⟩]

/-- `HtmlOutput`, src/render/html/output.rs:24-29. -/
structure HtmlOutput where
  body : Str
  metas : List HtmlMeta
  links : Links

/-- Outcome of `HtmlRender::render`. -/
inductive HtmlRes where
  | hang
  | panic (p : HPanic)
  | ok (o : HtmlOutput)

/-- The initial context, src/render/html/context.rs:111-128. -/
def HSt.init : HSt := ⟨⟨[]⟩, 0, 1, 0, 1, 1, ⟨[], []⟩⟩

/-- The environment of a tree. -/
def HEnv.of (w : HWorld) (info : PageInfo) (settings : Settings) (t : Tree) : HEnv :=
  ⟨w, info, settings, t.toc, t.footnotes, t.bibliographies⟩

/-- `HtmlRender::render`, src/render/html/mod.rs:51-88, with at most `n` nested steps (see above). -/
def htmlRender (n : Nat) (w : HWorld) (info : PageInfo) (settings : Settings) (t : Tree) : HtmlRes :=
  match tag c!"wj-body" [kv c!"class" c!"wj-body"] (renderLevel (.of w info settings t) n t.elements) HSt.init with
  | .hang => .hang
  | .panic p => .panic p
  | .ok s st => .ok ⟨s, initialMeta w info settings.layout, st.links⟩

end Ftml
