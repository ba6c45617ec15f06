import Verif.Spec.Markup
/-
What pages of the document language look like: as HTML and as text.  Written from the documentation of the
output, without reference to elements.
-/
namespace Ftml.Markup

/-! ### HTML -/

/-- A character in HTML. -/
def charHtml (c : Char) : Str :=
  if c = '<' then c!"&lt;" else if c = '>' then c!"&gt;" else if c = '&' then c!"&amp;"
  else if c = '"' then c!"&quot;" else if c = '\'' then c!"&#39;" else if c = Char.ofNat 0 then c!" " else [c]

/-- Text in HTML. -/
def strHtml (s : Str) : Str := s.flatMap charHtml

/-- `<name>body</name>`. -/
def wrap (name body : Str) : Str := c!"<" ++ name ++ c!">" ++ body ++ c!"</" ++ name ++ c!">"

/-- `<name attr="value">body</name>`. -/
def wrapWith (name attr value body : Str) : Str :=
  c!"<" ++ name ++ c!" " ++ attr ++ c!"=\"" ++ strHtml value ++ c!"\">" ++ body ++ c!"</" ++ name ++ c!">"

/-- The HTML of styled text. -/
def Style.html : Style → Str → Str
  | .bold => wrap c!"strong"
  | .italics => wrap c!"em"
  | .underline => wrap c!"u"
  | .superscript => wrap c!"sup"
  | .subscript => wrap c!"sub"
  | .monospace => wrapWith c!"code" c!"class" c!"wj-monospace"
  | .strikethrough | .struck => wrap c!"s"

/-- An attribute; an empty value is left out. -/
def attrHtml (a : Str × Str) : Str := c!" " ++ strHtml a.1 ++ if a.2 = [] then [] else c!"=\"" ++ strHtml a.2 ++ c!"\""

/-- Attributes the output needs, with those the writer has given: values of the same attribute are joined and
come first. -/
def withAttrs (own given : List (Str × Str)) : List (Str × Str) :=
  own.filterMap (fun a => (given.lookup a.1).map fun v => (a.1, a.2 ++ c!" " ++ v)) ++
  own.filter (fun a => (given.lookup a.1).isNone) ++
  given.filter (fun a => (own.lookup a.1).isNone)

/-- `<name attributes>body</name>`. -/
def wrapAttrs (name : Str) (attrs : List (Str × Str)) (body : Str) : Str :=
  c!"<" ++ name ++ attrs.flatMap attrHtml ++ c!">" ++ body ++ c!"</" ++ name ++ c!">"

/-- The tag of a block in a line, and the attributes the output needs. -/
def containerTag : CType → Str × List (Str × Str)
  | .bold => (c!"strong", [])
  | .italics => (c!"em", [])
  | .underline => (c!"u", [])
  | .superscript => (c!"sup", [])
  | .subscript => (c!"sub", [])
  | .monospace => (c!"code", [(c!"class", c!"wj-monospace")])
  | .strikethrough => (c!"s", [])
  | .deletion => (c!"del", [])
  | .insertion => (c!"ins", [])
  | .mark => (c!"mark", [])
  | .hidden => (c!"span", [(c!"class", c!"wj-hidden")])
  | .invisible => (c!"span", [(c!"class", c!"wj-invisible")])
  | _ => (c!"span", [])

/-- The HTML of a block in a line. -/
def Wrap.html (cx : Ctx) : Wrap → Str → Str
  | .box name args _ =>
    let (tag, own) := containerTag ((containerOf name).getD .span)
    wrapAttrs tag (withAttrs own (attrsOf cx args))
  | .anchor newTab _ args _ => wrapAttrs c!"a" (withAttrs
      ((c!"class", c!"wj-anchor") :: if newTab then [(c!"target", c!"_blank")] else []) (attrsOf cx args))
  | .size _ value _ => wrapWith c!"span" c!"style" (c!"font-size: " ++ plainText value ++ c!";")

/-- What the HTML depends on besides. -/
structure OutCtx extends Ctx where
  /-- whether a page of a site exists -/
  pageExists : Str → Str → Bool
  /-- a formula, on its own or in a line, in MathML, or an error message -/
  mathml : Bool → Str → Except Str Str
  /-- the address of the picture of a user -/
  avatar : Str
  /-- the entries of the table of contents -/
  entries : List (Nat × Str)
  /-- the ids that are generated, without what they start with -/
  randomId : Nat → Str

/-- With what is known about citations besides: for every label the number, the HTML and the links of its entry in
the bibliographies, if there is one. -/
structure ShowCtx extends OutCtx where
  refs : Str → Option (Nat × Str × List LinkLoc)

/-- `<name attributes>`. -/
def single (name : Str) (attrs : List (Str × Str)) : Str := c!"<" ++ name ++ attrs.flatMap attrHtml ++ c!">"

/-- The address of a link: normalised (C12), or that of another site. -/
def linkHref (cx : ShowCtx) : LinkLoc → Str
  | .page ⟨some site, page⟩ => c!"https://" ++ site ++ c!".wikijump.com/" ++ cx.world.normalize page
  | .page ⟨none, page⟩ => normalizeHref cx.world.toExt page
  | .url u => normalizeHref cx.world.toExt u

/-- The class of a link: links to places on the page, to pages of the site, to missing pages, and to
elsewhere. -/
def linkClass (cx : ShowCtx) : LinkLoc → Str
  | .page ⟨site, page⟩ =>
    if cx.pageExists (site.getD cx.info.site) page then c!"wj-link wj-link-internal" else c!"wj-link wj-link-internal wj-link-missing"
  | .url u =>
    if u = c!"javascript:;" ∨ u.head? = some '#' then c!"wj-link wj-link-anchor"
    else if u.head? = some '/' then c!"wj-link wj-link-internal" else c!"wj-link wj-link-external"

/-- A link. -/
def linkHtml (cx : ShowCtx) (loc : LinkLoc) (extra : Str) (newTab : Bool) (type text : Str) : Str :=
  wrapAttrs c!"a" ((c!"href", linkHref cx loc ++ extra) :: ((if newTab then [(c!"target", c!"_blank")] else []) ++
    [(c!"class", linkClass cx loc), (c!"data-link-type", type)])) (strHtml text)

/-- The links in an entry of a bibliography. -/
def refLinks (cx : ShowCtx) (label : Str) : List LinkLoc := ((cx.refs label).map (·.2.2)).getD []

/-- Where a mark leads, if it is a link; citations show the entry. -/
def Leaf.links (cx : ShowCtx) : Leaf → List LinkLoc
  | .cite _ label => refLinks cx (plainText label)
  | .citeBlock _ label => refLinks cx (trim (plainText label))
  | .link _ dest _ => [dest.loc]
  | .address _ a _ _ => [.url a.str]
  | .jump name _ _ => [.url (if name.isEmpty then c!"javascript:;" else '#' :: cx.world.normalize (plainText name))]
  | .url s => [.url s]
  | _ => []

/-- The karma and the picture of a user. -/
def avatarHtml (cx : ShowCtx) : Str :=
  wrapAttrs c!"span" [(c!"class", c!"wj-karma"), (c!"data-karma", c!"5")]
    (wrapAttrs c!"svg" [(c!"class", c!"wj-sprite sprite-wj-karma"), (c!"viewBox", c!"0 0 64 114")]
      (wrapAttrs c!"use" [(c!"href", c!"/files--static/media/ui.svg#wj-karma")] [])) ++
  single c!"img" [(c!"class", c!"wj-user-info-avatar"), (c!"src", cx.avatar)]

/-- The address of a file. -/
def fileAddress (cx : Ctx) (site page file : Str) : Option Str :=
  if cx.settings.allowLocalPaths then some (c!"https://" ++ site ++ c!".wjfiles.com/local--files/" ++ page ++ c!"/" ++ file)
  else none

/-- The address of a picture, if it may be shown. -/
def Picture.address (cx : Ctx) : Picture → Option Str
  | .web url => some url
  | .own file => fileAddress cx cx.info.site cx.info.page (plainText file)
  | .ofPage name file => fileAddress cx cx.info.site (plainText name) (plainText file)
  | .ofSite host name file => fileAddress cx (plainText host) (plainText name) (plainText file)

/-- The class of an image. -/
def imageClass : Option FloatAlign → Str
  | none => []
  | some ⟨side, float⟩ => (if float then c!" wj-float-" else c!" wj-align-") ++
      match side with | .left => c!"left" | .right => c!"right" | .center => c!"center" | .justify => c!"justify"

/-- The HTML of a citation: the number of the entry, in brackets or not, and the entry. -/
def citeHtml (cx : ShowCtx) (brackets : Bool) (label : Str) : Str := match cx.refs label with
  | none => wrapAttrs c!"span" [(c!"class", c!"wj-error-inline")] c!"Bibliography item not found"
  | some (k, contents, _) =>
    wrapAttrs c!"span" [(c!"class", c!"wj-bibliography-ref")]
      ((if brackets then c!"[" else []) ++
       (wrapAttrs c!"wj-bibliography-ref-marker" [(c!"class", c!"wj-bibliography-ref-marker"), (c!"role", c!"link"),
         (c!"aria-label", c!"Reference " ++ natToStr k ++ c!"."), (c!"data-id", natToStr k)] (natToStr k) ++
       ((if brackets then c!"]" else []) ++
       wrapAttrs c!"span" [(c!"class", c!"wj-bibliography-ref-tooltip"), (c!"aria-hidden", c!"true")]
         (wrapAttrs c!"span" [(c!"class", c!"wj-bibliography-ref-tooltip-label")] (c!"Reference " ++ natToStr k ++ c!".") ++
          wrapAttrs c!"span" [(c!"class", c!"wj-bibliography-ref-contents")] contents))))

/-- The HTML of a mark. -/
def Leaf.html (cx : ShowCtx) : Leaf → Str
  | .user avatar _ name =>
    wrapAttrs c!"span" [(c!"class", c!"wj-user-info")]
      (wrapAttrs c!"a" [(c!"class", c!"wj-user-info-link"), (c!"href", c!"/user:info/" ++ trim (plainText name))]
        ((if avatar then avatarHtml cx else []) ++
          wrapAttrs c!"span" [(c!"class", c!"wj-user-info-name")] (strHtml (trim (plainText name)))))
  | .cite _ label => citeHtml cx false (plainText label)
  | .citeBlock _ label => citeHtml cx true (trim (plainText label))
  | .target name => wrapAttrs c!"a"
      [(c!"id", if cx.settings.isolateUserIds then isolateIds (plainText name) else plainText name)] []
  | .math source =>
    wrapAttrs c!"span" [(c!"class", c!"wj-math wj-math-inline")]
      (wrapAttrs c!"code" [(c!"class", c!"wj-math-source wj-hidden"), (c!"aria-hidden", c!"true")]
        (strHtml (trim (plainText source))) ++
      match cx.mathml false (trim (plainText source)) with
      | .ok m => wrapAttrs c!"wj-math-ml" [(c!"class", c!"wj-math-ml")] m
      | .error e => wrapAttrs c!"span" [(c!"class", c!"wj-error-inline")] (strHtml e))
  | .link newTab dest label => linkHtml cx dest.loc (dest.extra.getD []) newTab
      (match dest with | .page .. => c!"page" | .address _ => c!"direct") (Leaf.link newTab dest label).text
  | .address newTab a gap label => linkHtml cx (.url a.str) [] newTab c!"direct" (Leaf.address newTab a gap label).text
  | .jump name gap label => linkHtml cx
      (.url (if name.isEmpty then c!"javascript:;" else '#' :: cx.world.normalize (plainText name))) [] false c!"anchor"
      (Leaf.jump name gap label).text
  | .url s => linkHtml cx (.url s) [] false c!"direct" s
  | .var name => strHtml (Leaf.var name).text
  | .image side _ picture args => match picture.address cx.toCtx with
    | none => wrapAttrs c!"div" [(c!"class", c!"wj-error-block")] c!"No images in this context"
    | some src =>
      let img := single c!"img" (withAttrs [(c!"class", c!"wj-image"), (c!"src", src), (c!"crossorigin", [])]
        (attrsOf cx.toCtx (args.filter fun a => !a.isLink)))
      wrapAttrs c!"div" [(c!"class", c!"wj-image-container" ++ imageClass side)]
        (match optionOf args c!"link" with
         | some v => wrapAttrs c!"a" [(c!"href", linkHref cx (.url v))] img
         | none => img)
  | .checkbox checked _ args _ => single c!"input"
      (withAttrs ((c!"type", c!"checkbox") :: if checked then [(c!"checked", [])] else []) (attrsOf cx.toCtx args))
  | .radio checked _ group args _ => single c!"input"
      (withAttrs ((c!"name", group) :: (c!"type", c!"radio") :: if checked then [(c!"checked", [])] else []) (attrsOf cx.toCtx args))

/-- Line breaks and comments: they do not count at the start of a paragraph or a footnote. -/
def Inline.isGap : Inline → Bool
  | .newline | .comment _ => true
  | _ => false

/-- What stands for a footnote: its number, and its contents. -/
def refHtml (k : Nat) (contents : Str) : Str :=
  wrapAttrs c!"span" [(c!"class", c!"wj-footnote-ref")]
    (wrapAttrs c!"wj-footnote-ref-marker" [(c!"class", c!"wj-footnote-ref-marker"), (c!"role", c!"link"),
        (c!"aria-label", c!"Footnote " ++ natToStr k ++ c!"."), (c!"data-id", natToStr k)] (natToStr k) ++
     wrapAttrs c!"span" [(c!"class", c!"wj-footnote-ref-tooltip"), (c!"aria-hidden", c!"true")]
      (wrapAttrs c!"span" [(c!"class", c!"wj-footnote-ref-tooltip-label")] (c!"Footnote " ++ natToStr k ++ c!".") ++
       wrapAttrs c!"span" [(c!"class", c!"wj-footnote-ref-contents")] contents))

/-- The HTML of inline markup after `n` footnotes. -/
def Inline.html (cx : ShowCtx) (n : Nat) : Inline → Str
  | .plain p => strHtml p.str
  | .newline => c!"<br>"
  | .styled s body => s.html (go n body)
  | .color name body => wrapWith c!"span" c!"style" (c!"color: " ++ colorValue (plainText name) ++ c!";") (go n body)
  | .raw body => wrapWith c!"span" c!"class" c!"wj-raw" (strHtml (signText body))
  | .comment _ => []
  | .wrap w body => w.html cx.toCtx (go n body)
  | .leaf l => l.html cx
  | .note _ body _ => refHtml (n + 1) (trimmed (n + 1) body)
where
  /-- of a sequence -/
  go (n : Nat) : List Inline → Str
    | [] => []
    | i :: is => i.html cx n ++ go (n + i.notes.length) is
  /-- of a sequence without gaps at the start -/
  trimmed (n : Nat) : List Inline → Str
    | [] => []
    | i :: is => if i.isGap then trimmed n is else i.html cx n ++ go (n + i.notes.length) is

/-- The links of inline markup, in order. -/
def Inline.links (cx : ShowCtx) : Inline → List LinkLoc
  | .styled _ body | .color _ body | .wrap _ body | .note _ body _ => go body
  | .leaf l => l.links cx
  | _ => []
where
  /-- of a sequence -/
  go : List Inline → List LinkLoc
    | [] => []
    | i :: is => i.links cx ++ go is

/-- The links of some lines. -/
def linesLinks {K : Type} (cx : ShowCtx) (lines : List (Nat × K × List Inline)) : List LinkLoc :=
  lines.flatMap fun l => Inline.links.go cx l.2.2

/-- The links of a table of contents, from the `k`-th entry on. -/
def entryLinks (k : Nat) : List (Nat × Str) → List LinkLoc
  | [] => []
  | _ :: more => .url (c!"#toc" ++ natToStr k) :: entryLinks (k + 1) more

/-- The HTML of an entry of a bibliography.  There are no citations in it. -/
def sourceHtml (cx : OutCtx) (text : List Inline) : Str := Inline.html.go ⟨cx, fun _ => none⟩ 0 text

/-- The links of an entry of a bibliography. -/
def sourceLinks (cx : OutCtx) (text : List Inline) : List LinkLoc := Inline.links.go ⟨cx, fun _ => none⟩ text

/-- The links of a bibliography. -/
def Biblio.links (cx : OutCtx) (b : Biblio) : List LinkLoc :=
  if switchedOn b.tag.args c!"hide" then [] else b.entries.flatMap fun e => sourceLinks cx e.2

/-- The links of a block of a page with these entries in its table of contents. -/
def Block.links (cx : ShowCtx) (entries : List (Nat × Str)) : Block → List LinkLoc
  | .para body | .heading _ _ _ body | .center _ body => Inline.links.go cx body
  | .table rows => rows.flatMap fun cells => cells.flatMap fun c => Inline.links.go cx c.body
  | .definitions items => items.flatMap fun (key, value) => Inline.links.go cx key ++ Inline.links.go cx value
  | .gadget (.contents ..) => entryLinks 0 entries
  | .rule _ | .clear .. | .foreign .. | .gadget _ => []
  | .grid g => g.items.flatMap fun i => Inline.links.go cx i.body
  | .biblio b => b.links cx.toOutCtx
  | .list kind items => linesLinks cx (Outline.lines.go 0 kind items)
  | .quote items => linesLinks cx (Outline.lines.go 0 () items)
  | .within _ body => go body
where
  /-- of a sequence -/
  go : List (Block × Bool) → List LinkLoc
    | [] => []
    | (b, _) :: bs => b.links cx entries ++ go bs

/-- The entry with a label in a bibliography, with its number, from one on. -/
def Biblio.find (label : Str) (b : Biblio) : Option (Nat × List Inline) :=
  (b.entries.zipIdx.find? fun e => e.1.1 == label).map fun e => (e.2 + 1, e.1.2)

/-- The entry with a label: that of the first bibliography with such an entry. -/
def Page.cited (d : Page) (label : Str) : Option (Nat × List Inline) := d.bibs.findSome? (Biblio.find label)

/-- What is known about citations. -/
def Page.show (cx : OutCtx) (d : Page) : ShowCtx :=
  ⟨cx, fun label => (d.cited label).map fun e => (e.1, sourceHtml cx e.2, sourceLinks cx e.2)⟩

/-- The links of a page: those in footnotes count where the footnote is referred to, and in the list of
footnotes; those in bibliographies where the entry is cited, and in the bibliography. -/
def Page.links (cx : OutCtx) (d : Page) : List LinkLoc :=
  Block.links.go (d.show cx) d.toc d ++ d.notes.flatMap (Inline.links.go (d.show cx))

/-- Links to pages of this site or others of the same kind.  (Addresses with a leading `/` are, and so, by
mistake, are those of places on the page, see C74.) -/
def pageLinked : LinkLoc → Option PageRef
  | .page r => some r
  | .url u =>
    if u = c!"javascript:;" then none
    else
      let path := if u.head? = some '/' then u.drop 1 else u
      if isUrl path then none else some ⟨none, path⟩

/-- Links to other addresses. -/
def siteLinked : LinkLoc → Option Str
  | .page _ => none
  | .url u =>
    let path := if u.head? = some '/' then u.drop 1 else u
    if isUrl path then some path else none

/-- A paragraph, unless it is empty. -/
def paraHtml (s : Str) : Str := if s = [] then [] else wrap c!"p" s

/-- The tag of a list. -/
def ListKind.tag : ListKind → Str
  | .bullet => c!"ul"
  | .numbered => c!"ol"

/-- The footnotes of a list or quote. -/
def Outline.notes {K : Type} : Outline K → List (List Inline)
  | .line body => Inline.notes.go body
  | .nested _ items => go items
where
  /-- of a sequence -/
  go : List (Outline K) → List (List Inline)
    | [] => []
    | i :: is => i.notes ++ go is

/-- The items of a list; nested lists stand between them. -/
def itemHtml (cx : ShowCtx) (n : Nat) : Outline ListKind → Str
  | .line body => wrap c!"li" (Inline.html.go cx n body)
  | .nested kind items => wrap kind.tag (go n items)
where
  /-- of a sequence -/
  go (n : Nat) : List (Outline ListKind) → Str
    | [] => []
    | i :: is => itemHtml cx n i ++ go (n + i.notes.length) is

/-- The contents of a quote, with the paragraph so far, if it has begun. -/
def quoteHtml (cx : ShowCtx) (n : Nat) : List (Outline Unit) → Option Str → Str
  | [], cur => paraHtml (cur.getD [])
  | .line body :: is, none => quoteHtml cx (n + (Inline.notes.go body).length) is (some (Inline.html.go cx n body))
  | .line body :: is, some cur =>
    quoteHtml cx (n + (Inline.notes.go body).length) is (some (cur ++ c!"<br>" ++ Inline.html.go cx n body))
  | .nested _ items :: is, cur => paraHtml (cur.getD []) ++ wrap c!"blockquote" (quoteHtml cx n items none) ++
    quoteHtml cx (n + (Outline.notes.go items).length) is none

/-- The class of a float clearing. -/
def sideClass : ClearFloat → Str
  | .both => c!"wj-clear-float wj-clear-float-both"
  | .left => c!"wj-clear-float wj-clear-float-left"
  | .right => c!"wj-clear-float wj-clear-float-right"

/-- The class of an aligned box. -/
def alignClass : Alignment → Str
  | .left => c!"wj-align-left"
  | .right => c!"wj-align-right"
  | .center => c!"wj-align-center"
  | .justify => c!"wj-align-justify"

/-- The HTML of a box.  That of a tab view is below; a tab adds nothing to its contents. -/
def Section.html (cx : Ctx) : Section → Str → Str
  | .tabs .., body | .tab .., body => body
  | .box name args _, body =>
    wrapAttrs (if boxOf name = some .blockquote then c!"blockquote" else c!"div") (withAttrs [] (attrsOf cx args)) body
  | .align side, body => wrapAttrs c!"div" [(c!"class", alignClass side)] body
  | .collapsible _ args _, body =>
    let hide := wrapAttrs c!"span" [(c!"class", c!"wj-collapsible-hide-text")]
      (strHtml ((optionOf args c!"hide").getD c!"- hide block"))
    wrapAttrs c!"details" (withAttrs ((c!"class", c!"wj-collapsible") :: ((if startsOpen args then [(c!"open", [])] else []) ++
        (if (hidePlace args).1 then [(c!"data-show-top", [])] else []) ++
        if (hidePlace args).2 then [(c!"data-show-bottom", [])] else []))
        (attrsOf cx (args.filter fun a => !a.isOption)))
      (wrapAttrs c!"summary" [(c!"class", c!"wj-collapsible-button wj-collapsible-button-top")]
        (wrapAttrs c!"span" [(c!"class", c!"wj-collapsible-show-text")] (strHtml ((optionOf args c!"show").getD c!"+ open block")) ++
          hide) ++
       wrapAttrs c!"div" [(c!"class", c!"wj-collapsible-content")] body ++
       if (hidePlace args).2 then wrapAttrs c!"wj-collapsible-button-bottom"
         [(c!"class", c!"wj-collapsible-button wj-collapsible-button-bottom")] hide
       else [])

/-- How many headings with an entry in the table of contents, formulas, blocks of code and footnotes there
were, and how many ids of tabs were generated. -/
structure Tally where
  headings : Nat
  formulas : Nat
  codes : Nat
  notes : Nat
  tabIds : Nat

/-- How many ids were generated: those of tabs, and those of headings if they have no true ids. -/
def Tally.generated (cx : ShowCtx) (n : Tally) : Nat := n.tabIds + if cx.settings.useTrueIds then 0 else n.headings

/-- A generated id. -/
def generatedId (cx : ShowCtx) (k : Nat) : Str := c!"wj-id-" ++ cx.randomId k

/-- The id of the next heading in the table of contents. -/
def headingId (cx : ShowCtx) (n : Tally) : Str :=
  if cx.settings.useTrueIds then c!"toc" ++ natToStr n.headings else generatedId cx (n.generated cx)

/-- The count after a block. -/
def Block.count (n : Tally) : Block → Tally
  | .heading _ true _ body => { n with headings := n.headings + 1, notes := n.notes + (Inline.notes.go body).length }
  | .foreign (.math ..) _ => { n with formulas := n.formulas + 1 }
  | .foreign (.code ..) _ => { n with codes := n.codes + 1 }
  | .within (.tabs ..) body => go { n with tabIds := n.tabIds + body.length + body.length } body
  | .within _ body => go n body
  | b => { n with notes := n.notes + b.notes.length }
where
  /-- of a sequence -/
  go (n : Tally) : List (Block × Bool) → Tally
    | [] => n
    | (b, _) :: bs => go (b.count n) bs

/-- A symbol from the common sheet. -/
def spriteHtml (id : Str) : Str :=
  wrapAttrs c!"svg" [(c!"class", c!"wj-sprite sprite-" ++ id), (c!"viewBox", c!"0 0 24 24")]
    (wrapAttrs c!"use" [(c!"href", c!"/files--static/media/ui.svg#" ++ id)] [])

/-- The HTML of a block whose contents are not markup.  Code is shown as it is; HTML is not part of the page but
of the document it frames; formulas are numbered. -/
def foreignHtml (cx : ShowCtx) (n : Tally) (text : Str) : Foreign → Str
  | .code _ args _ =>
    let language := (optionOf args c!"type").map lowerA
    wrapAttrs c!"wj-code" [(c!"class", c!"wj-code wj-language-" ++ language.getD c!"none")]
      (wrapAttrs c!"div" [(c!"class", c!"wj-code-panel")]
        (wrapAttrs c!"wj-code-copy" [(c!"type", c!"button"), (c!"class", c!"wj-code-copy"), (c!"title", c!"Copy to Clipboard")]
          (spriteHtml c!"wj-clipboard" ++ spriteHtml c!"wj-clipboard-success") ++
         wrapAttrs c!"span" [(c!"class", c!"wj-code-language")] (strHtml (language.getD []))) ++
       wrap c!"pre" (wrap c!"code" (strHtml text)))
  | .html .. => wrapAttrs c!"iframe" [(c!"src", c!"https://example.com/"), (c!"crossorigin", [])] []
  | .math _ label _ =>
    wrapAttrs c!"div" ((c!"class", c!"wj-math wj-math-block") :: (label.map fun l => (c!"data-name", trim (plainText l))).toList)
      (wrapAttrs c!"span" [(c!"class", c!"wj-equation-number")]
        (wrapAttrs c!"span" [(c!"class", c!"wj-equation-paren wj-equation-paren-open")] c!"(" ++ natToStr (n.formulas + 1) ++
         wrapAttrs c!"span" [(c!"class", c!"wj-equation-paren wj-equation-paren-close")] c!")") ++
       wrapAttrs c!"code" [(c!"class", c!"wj-math-source wj-hidden"), (c!"aria-hidden", c!"true")] (strHtml (trim text)) ++
       match cx.mathml true (trim text) with
       | .ok m => wrapAttrs c!"wj-math-ml" [(c!"class", c!"wj-math-ml")] m
       | .error e => wrapAttrs c!"span" [(c!"class", c!"wj-error-block")] (strHtml e))

/-- The entries of a table of contents from the `k`-th on, after one at a depth: where the depth changes, nested
lists start or end.  Each leads to the heading of its number. -/
def entriesHtml (depth k : Nat) : List (Nat × Str) → Str
  | [] => (List.replicate (depth + 1) c!"</ul>").flatten
  | (d, name) :: more =>
    (List.replicate (d - depth) c!"<ul>").flatten ++ (List.replicate (depth - d) c!"</ul>").flatten ++
    wrap c!"li" (wrapAttrs c!"a" [(c!"href", c!"#toc" ++ natToStr k), (c!"class", c!"wj-link wj-link-anchor"),
      (c!"data-link-type", c!"table-of-contents")] (strHtml name)) ++
    entriesHtml d (k + 1) more

/-- The HTML of a block without contents. -/
def gadgetHtml (cx : ShowCtx) : Gadget → Str
  | .contents side _ args =>
    let ids := cx.settings.useTrueIds
    wrapAttrs c!"div" (withAttrs ((if ids then [(c!"id", c!"wj-toc")] else []) ++
        (side.map fun s => (c!"class", if s.align = .left then c!"wj-float-left" else c!"wj-float-right")).toList) (attrsOf cx.toCtx args))
      (wrapAttrs c!"div" (if ids then [(c!"id", c!"wj-toc-action-bar")] else [])
        (wrapAttrs c!"a" [(c!"href", c!"javascript:;"), (c!"onclick", c!"WIKIJUMP.page.listeners.foldToc(event)")] []) ++
       wrapAttrs c!"div" [(c!"class", c!"title")] c!"Table of Contents" ++
       wrapAttrs c!"div" (if ids then [(c!"id", c!"wj-toc-list")] else [])
         (if cx.entries = [] then [] else c!"<ul>" ++ entriesHtml 0 0 cx.entries))
  | .frame _ url args => wrapAttrs c!"iframe" (withAttrs [(c!"src", url), (c!"crossorigin", [])] (attrsOf cx.toCtx args)) []
  | .video _ host args =>
    let id := (optionOf args c!"video").getD []
    wrapAttrs c!"div" [(c!"class", c!"wj-embed")]
      (if lowerA host = c!"youtube" then
        wrapAttrs c!"iframe" [(c!"src", c!"https://www.youtube.com/embed/" ++ id), (c!"frameborder", c!"0"),
          (c!"allow", c!"accelerometer; autoplay; clipboard-write; encrypted-media; gyroscope; picture-in-picture"),
          (c!"allowfullscreen", [])] []
      else
        wrapAttrs c!"iframe" [(c!"src", c!"https://player.vimeo.com/video/" ++ id), (c!"frameborder", c!"0"),
          (c!"allow", c!"autoplay; fullscreen; picture-inpicture"), (c!"allowfullscreen", [])] [])
  | .module _ which args => c!"<p>TODO: module " ++
      (match moduleOf cx.toCtx which args with
        | some (.backlinks _) => c!"Backlinks"
        | some (.categories _) => c!"Categories"
        | some (.join ..) => c!"Join"
        | some (.pageTree ..) => c!"PageTree"
        | _ => c!"Rate") ++ c!"</p>"

/-- The HTML of a cell. -/
def Cell.html (cx : ShowCtx) (n : Nat) (c : Cell) : Str :=
  wrapAttrs (if c.kind = .title then c!"th" else c!"td")
    ((if c.more = 0 then [] else [(c!"colspan", natToStr (c.more + 1))]) ++ (c.kind.align.map fun a => (c!"class", alignClass a)).toList)
    (Inline.html.go cx n c.body)

/-- The HTML of the cells of a row. -/
def cellsHtml (cx : ShowCtx) (n : Nat) : List Cell → Str
  | [] => []
  | c :: cells => c.html cx n ++ cellsHtml cx (n + (Inline.notes.go c.body).length) cells

/-- The HTML of the rows of a table. -/
def rowsHtml (cx : ShowCtx) (n : Nat) : List (List Cell) → Str
  | [] => []
  | cells :: rows => wrap c!"tr" (cellsHtml cx n cells) ++
    rowsHtml cx (n + (cells.flatMap fun c => Inline.notes.go c.body).length) rows

/-- The HTML of definitions. -/
def definitionsHtml (cx : ShowCtx) (n : Nat) : List (List Inline × List Inline) → Str
  | [] => []
  | (key, value) :: items =>
    wrap c!"dt" (Inline.html.go cx n key) ++
    wrap c!"dd" (Inline.html.go cx (n + (Inline.notes.go key).length) value) ++
    definitionsHtml cx (n + (Inline.notes.go key).length + (Inline.notes.go value).length) items

/-- The HTML of the items of a list made of blocks. -/
def itemsHtml (cx : ShowCtx) (n : Nat) : List Item → Str
  | [] => []
  | i :: is => wrapAttrs c!"li" (attrsOf cx.toCtx i.tag.args) (Inline.html.go cx n i.body) ++
    itemsHtml cx (n + (Inline.notes.go i.body).length) is

/-- The HTML of a cell made of blocks. -/
def Item.cellHtml (cx : ShowCtx) (n : Nat) (i : Item) : Str :=
  let attrs := attrsOf cx.toCtx i.tag.args
  wrapAttrs (if lowerA i.tag.name = c!"hcell" then c!"th" else c!"td")
    (withAttrs (if spanOf attrs = 1 then [] else [(c!"colspan", natToStr (spanOf attrs))])
      (attrs.filter fun a => a.1 != c!"colspan"))
    (Inline.html.go cx n i.body)

/-- The HTML of cells made of blocks. -/
def blockCellsHtml (cx : ShowCtx) (n : Nat) : List Item → Str
  | [] => []
  | i :: is => i.cellHtml cx n ++ blockCellsHtml cx (n + (Inline.notes.go i.body).length) is

/-- The HTML of rows made of blocks. -/
def blockRowsHtml (cx : ShowCtx) (n : Nat) : List (Tag × List Item) → Str
  | [] => []
  | (t, is) :: rows => wrapAttrs c!"tr" (attrsOf cx.toCtx t.args) (blockCellsHtml cx n is) ++
    blockRowsHtml cx (n + (is.flatMap fun i => Inline.notes.go i.body).length) rows

/-- The HTML of a list or table made of blocks. -/
def gridHtml (cx : ShowCtx) (n : Nat) : Grid → Str
  | .list tag items => wrapAttrs (if tag.listType = .numbered then c!"ol" else c!"ul") (attrsOf cx.toCtx tag.args) (itemsHtml cx n items)
  | .table tag rows => wrapAttrs c!"table" (attrsOf cx.toCtx tag.args) (wrap c!"tbody" (blockRowsHtml cx n rows))

/-- The entries of the `j`-th bibliography from the `i`-th on. -/
def sourcesHtml (cx : OutCtx) (j i : Nat) : List (Str × List Inline) → Str
  | [] => []
  | (_, text) :: more =>
    wrapAttrs c!"div" [(c!"class", c!"wj-bibliography-item bibitem"),
        (c!"id", c!"wj-bibliography-item-" ++ natToStr j ++ c!"-" ++ natToStr i ++ c!" bibitem-" ++ natToStr j ++ c!"-" ++ natToStr i)]
      (wrapAttrs c!"wj-bibliography-item-marker"
        [(c!"class", c!"wj-bibliography-item-marker"), (c!"type", c!"button"), (c!"role", c!"link")]
        (natToStr i ++ wrapAttrs c!"span" [(c!"class", c!"wj-bibliography-sep")] c!".") ++
       sourceHtml cx text) ++
    sourcesHtml cx j (i + 1) more

/-- The HTML of a bibliography, unless it is hidden. -/
def Biblio.html (cx : OutCtx) (b : Biblio) : Str :=
  if switchedOn b.tag.args c!"hide" then [] else
    wrapAttrs c!"div" [(c!"class", c!"wj-bibliography bibitems")]
      (wrapAttrs c!"div" [(c!"class", c!"wj-bibliography-title title")]
        (strHtml ((optionOf b.tag.args c!"title").getD c!"Bibliography")) ++
       sourcesHtml cx (b.number + 1) 1 b.entries)

/-- The label of a tab. -/
def Block.label : Block → Str
  | .within (.tab _ label _) _ => plainText label
  | _ => []

/-- The buttons of tabs from the `i`-th on; the first one is selected.  The ids of the buttons are those from the
`b`-th on, the ids of what they control those from the `p`-th on. -/
def buttonsHtml (cx : ShowCtx) (b p i : Nat) : List (Block × Bool) → Str
  | [] => []
  | (tab, _) :: more =>
    wrapAttrs c!"wj-tabs-button" [(c!"class", c!"wj-tabs-button"), (c!"id", generatedId cx (b + i)), (c!"role", c!"tab"),
      (c!"aria-label", tab.label), (c!"aria-selected", if i = 0 then c!"true" else c!"false"),
      (c!"aria-controls", generatedId cx (p + i)), (c!"tabindex", if i = 0 then c!"0" else c!"-1")] (strHtml tab.label) ++
    buttonsHtml cx b p (i + 1) more

/-- The HTML of a block after others. -/
def Block.html (cx : ShowCtx) (n : Tally) : Block → Str
  | .para body => paraHtml (Inline.html.trimmed cx n.notes body)
  | .heading level true _ body => wrapWith (c!"h" ++ natToStr level) c!"id" (headingId cx n) (Inline.html.go cx n.notes body)
  | .heading level false _ body => wrap (c!"h" ++ natToStr level) (Inline.html.go cx n.notes body)
  | .rule _ => c!"<hr>"
  | .center _ body => wrapWith c!"div" c!"class" c!"wj-align-center" (Inline.html.go cx n.notes body)
  | .clear _ side => wrapWith c!"div" c!"class" (sideClass side) []
  | .list kind items => wrap kind.tag (itemHtml.go cx n.notes items)
  | .quote items => wrap c!"blockquote" (quoteHtml cx n.notes items none)
  | .table rows => wrapWith c!"table" c!"class" c!"wj-table"
      (wrap c!"tbody" (rowsHtml cx n.notes rows))
  | .definitions items => wrap c!"dl" (definitionsHtml cx n.notes items)
  | .within (.tabs ..) body =>
    wrapAttrs c!"wj-tabs" [(c!"class", c!"wj-tabs")]
      (wrapAttrs c!"div" [(c!"class", c!"wj-tabs-button-list"), (c!"role", c!"tablist")]
        (buttonsHtml cx (n.generated cx) (n.generated cx + body.length) 0 body) ++
       wrapAttrs c!"div" [(c!"class", c!"wj-tabs-panel-list")]
         (panels (n.generated cx) (n.generated cx + body.length) 0 { n with tabIds := n.tabIds + body.length + body.length } body))
  | .within s body => s.html cx.toCtx (go n body)
  | .foreign v text => foreignHtml cx n text v
  | .gadget g => gadgetHtml cx g
  | .grid g => gridHtml cx n.notes g
  | .biblio b => b.html cx.toOutCtx
where
  /-- of a sequence -/
  go (n : Tally) : List (Block × Bool) → Str
    | [] => []
    | (b, _) :: bs => b.html cx n ++ go (b.count n) bs
  /-- of the contents of tabs from the `i`-th on; the first one is shown -/
  panels (b p i : Nat) (n : Tally) : List (Block × Bool) → Str
    | [] => []
    | (tab, _) :: more =>
      wrapAttrs c!"div" ([(c!"class", c!"wj-tabs-panel"), (c!"id", generatedId cx (p + i)), (c!"role", c!"tabpanel"),
        (c!"aria-labelledby", generatedId cx (b + i)), (c!"tabindex", c!"0")] ++ if i = 0 then [] else [(c!"hidden", [])])
        (tab.html cx n) ++
      panels b p (i + 1) (tab.count n) more

/-- The footnotes from the `k`-th on in the list. -/
def notesHtml (cx : ShowCtx) (all k : Nat) : List (List Inline) → Str
  | [] => []
  | body :: more =>
    wrapAttrs c!"li" [(c!"class", c!"wj-footnote-list-item"), (c!"data-id", natToStr k)]
      (wrapAttrs c!"wj-footnote-list-item-marker"
        [(c!"class", c!"wj-footnote-list-item-marker"), (c!"type", c!"button"), (c!"role", c!"link")]
        (natToStr k ++ wrapAttrs c!"span" [(c!"class", c!"wj-footnote-sep")] c!".") ++
       wrapAttrs c!"span" [(c!"class", c!"wj-footnote-list-item-contents")] (Inline.html.trimmed cx all body)) ++
    notesHtml cx all (k + 1) more

/-- The list of footnotes, if there are any. -/
def footnotesHtml (cx : ShowCtx) (notes : List (List Inline)) : Str :=
  if notes = [] then [] else
    wrapAttrs c!"div" [(c!"class", c!"wj-footnote-list")]
      (wrapAttrs c!"div" [(c!"class", c!"wj-title")] c!"Footnotes" ++ wrap c!"ol" (notesHtml cx notes.length 1 notes))

/-- The HTML of a page.  The footnotes follow it. -/
def Page.html (cx : OutCtx) (d : Page) : Str :=
  wrapWith c!"wj-body" c!"class" c!"wj-body"
    (Block.html.go (d.show cx) ⟨0, 0, 0, 0, 0⟩ d ++ footnotesHtml (d.show cx) d.notes)

/-! ### Text -/

/-- At the start of a line. -/
def fresh (acc : Str) : Str := if acc.getLast? = some '\n' then acc else acc ++ c!"\n"

/-- The text of the items of a list, one per line, after the text `acc`; items without text are left out. -/
def itemText (acc : Str) : Outline ListKind → Str
  | .line body => if body.all Inline.isComment then acc else acc ++ Inline.text.go body ++ c!"\n"
  | .nested _ items => go (fresh acc) items
where
  /-- of a sequence -/
  go (acc : Str) : List (Outline ListKind) → Str
    | [] => acc
    | i :: is => go (itemText acc i) is

/-- A paragraph of text, if it has begun and is not empty. -/
def paraText : Option (Bool × Str) → Str
  | some (true, s) => c!"\n" ++ s ++ c!"\n"
  | _ => []

/-- The text of the contents of a quote, with the paragraph so far and whether it is not empty. -/
def quoteText : List (Outline Unit) → Option (Bool × Str) → Str
  | [], cur => paraText cur
  | .line body :: is, none => quoteText is (some (!body.all Inline.isComment, Inline.text.go body))
  | .line body :: is, some (_, cur) => quoteText is (some (true, cur ++ c!"\n" ++ Inline.text.go body))
  | .nested _ items :: is, cur => paraText cur ++ c!"\n" ++ quoteText items none ++ c!"\n" ++ quoteText is none

/-- The text of a list or table made of blocks, after the text `acc`: items without text are left out. -/
def gridText (acc : Str) : Grid → Str
  | .list _ items => fresh acc ++ items.flatMap fun i =>
      if i.body.all Inline.isComment then [] else Inline.text.go i.body ++ c!"\n"
  | .table _ rows => fresh acc ++ (rows.flatMap fun r => (r.2.flatMap fun i => Inline.text.go i.body) ++ c!"\n") ++ c!"\n"

/-- The text of a block, after the text `acc`. -/
def Block.text (acc : Str) : Block → Str
  | .para body => match body.dropWhile Inline.isGap with
    | [] => acc
    | i :: is => acc ++ c!"\n" ++ Inline.text.go (i :: is) ++ c!"\n"
  | .heading _ _ _ body => acc ++ c!"\n" ++ Inline.text.go body ++ c!"\n"
  | .rule _ | .clear .. | .foreign (.html ..) _ | .foreign (.math ..) _ | .gadget _ | .biblio _ => acc
  | .foreign (.code ..) text => acc ++ c!"\n" ++ text ++ c!"\n"
  | .grid g => gridText acc g
  | .center _ body => acc ++ Inline.text.go body
  | .list _ items => itemText.go (fresh acc) items
  | .quote items => acc ++ c!"\n" ++ quoteText items none ++ c!"\n"
  | .table rows => fresh acc ++ (rows.flatMap fun cells => (cells.flatMap fun c => Inline.text.go c.body) ++ c!"\n") ++ c!"\n"
  | .definitions items => acc ++ (items.flatMap fun (key, value) => Inline.text.go key ++ c!" " ++ Inline.text.go value ++ c!"\n") ++ c!"\n"
  | .within (.box ..) body => go (acc ++ c!"\n") body ++ c!"\n"
  | .within (.tab _ label _) body => go (acc ++ plainText label ++ c!"\n") body ++ c!"\n"
  | .within _ body => go acc body
where
  /-- of a sequence -/
  go (acc : Str) : List (Block × Bool) → Str
    | [] => acc
    | (b, _) :: bs => go (b.text acc) bs

/-- Without line ends at both ends. -/
def stripLines (s : Str) : Str := ((s.dropWhile (· == '\n')).reverse.dropWhile (· == '\n')).reverse

/-- The text of a page. -/
def Page.text (d : Page) : Str := stripLines (Block.text.go [] d)

/-! ### Dates and embedded contents -/

/-- The number of seconds between 1 January 1970, 0:00 UTC and a date: its clock shows `localSecs` seconds since then and is
`offset` seconds ahead of UTC. -/
def instant (localSecs : Int) (offset : Option Int) : Int :=
  match offset with
  | some ahead => localSecs - ahead
  | none => localSecs

/-- Decimal notation. -/
def decimal (n : Int) : Str := (if n < 0 then c!"-" else []) ++ Nat.toDigits 10 n.natAbs

/-- A date at some time `now`. -/
def dateHtml (now : Int) (written : Option Str) (d : DateVal) (hover : Bool) : Str :=
  wrapAttrs c!"span" [(c!"class", if hover then c!"wj-date wj-date-hover" else c!"wj-date"),
    (c!"data-timestamp", decimal (instant d.localSecs d.offset)), (c!"data-delta", decimal (instant d.localSecs d.offset - now))]
    (strHtml (written.getD c!"<ERROR>"))

/-- A player or a script of the host. -/
def embedHtml (e : Embed) : Str :=
  wrapAttrs c!"div" [(c!"class", c!"wj-embed")] (match e with
    | .youtube video => wrapAttrs c!"iframe" [(c!"src", c!"https://www.youtube.com/embed/" ++ video), (c!"frameborder", c!"0"),
        (c!"allow", c!"accelerometer; autoplay; clipboard-write; encrypted-media; gyroscope; picture-in-picture"),
        (c!"allowfullscreen", [])] []
    | .vimeo video => wrapAttrs c!"iframe" [(c!"src", c!"https://player.vimeo.com/video/" ++ video), (c!"frameborder", c!"0"),
        (c!"allow", c!"autoplay; fullscreen; picture-inpicture"), (c!"allowfullscreen", [])] []
    | .githubGist user hash => wrapAttrs c!"script" [(c!"src", c!"https://gist.github.com/" ++ user ++ c!"/" ++ hash ++ c!".js")] []
    | .gitlabSnippet snippet => wrapAttrs c!"script" [(c!"src", c!"https://gitlab.com/-/snippets/" ++ snippet ++ c!".js")] [])

end Ftml.Markup
