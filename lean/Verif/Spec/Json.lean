import Verif.Model.Serde
import Verif.Model.Wasm
/-
The JSON form of syntax trees, tokens, errors and settings with all names spelled out, for C91 and C92: what a reader of
the JSON relies on.  (The model derives the names from those of the Rust types as `serde` does.)
-/
namespace Ftml.Format
open Serde

/-- A text or null. -/
def optText : Option Str → Json
  | none => .null
  | some s => .str s

/-- The names of alignments. -/
def align : Alignment → Str
  | .left => c!"left" | .right => c!"right" | .center => c!"center" | .justify => c!"justify"

/-- An alignment or null. -/
def optAlign : Option Alignment → Json
  | none => .null
  | some a => .str (align a)

/-- A map with texts. -/
def texts (m : List (Str × Str)) : Json := .obj (m.map fun p => (p.1, .str p.2))

/-- Where links open. -/
def target : Option AnchorTarget → Json
  | none => .null
  | some .newTab => .str c!"new-tab" | some .parent => .str c!"parent" | some .top => .str c!"top" | some .same => .str c!"same"

/-- The names of kinds of links. -/
def linkType : LinkType → Str
  | .direct => c!"direct" | .page => c!"page" | .interwiki => c!"interwiki" | .anchor => c!"anchor" | .toc => c!"table-of-contents"

/-- A page. -/
def page (r : PageRef) : Json := .obj [(c!"site", optText r.site), (c!"page", .str r.page)]

/-- A place: a page or an address. -/
def place : LinkLoc → Json
  | .page r => page r
  | .url u => .str u

/-- What a link shows. -/
def label : LinkLabel → Json
  | .text s => .obj [(c!"text", .str s)]
  | .url u => .obj [(c!"url", optText u)]
  | .page => .str c!"page"

/-- Where an image comes from. -/
def source : ImageSource → Json
  | .url u => .obj [(c!"type", .str c!"url"), (c!"data", .str u)]
  | .file1 f => .obj [(c!"type", .str c!"file1"), (c!"data", .obj [(c!"file", .str f)])]
  | .file2 p f => .obj [(c!"type", .str c!"file2"), (c!"data", .obj [(c!"page", .str p), (c!"file", .str f)])]
  | .file3 s p f => .obj [(c!"type", .str c!"file3"), (c!"data", .obj [(c!"site", .str s), (c!"page", .str p), (c!"file", .str f)])]

/-- Embedded things. -/
def embed : Embed → Json
  | .youtube v => .obj [(c!"embed", .str c!"youtube"), (c!"data", .obj [(c!"video-id", .str v)])]
  | .vimeo v => .obj [(c!"embed", .str c!"vimeo"), (c!"data", .obj [(c!"video-id", .str v)])]
  | .githubGist u h => .obj [(c!"embed", .str c!"github-gist"), (c!"data", .obj [(c!"username", .str u), (c!"hash", .str h)])]
  | .gitlabSnippet i => .obj [(c!"embed", .str c!"gitlab-snippet"), (c!"data", .obj [(c!"snippet-id", .str i)])]

/-- Modules. -/
def module_ : Module → Json
  | .backlinks p => .obj [(c!"module", .str c!"backlinks"), (c!"data", .obj [(c!"page", optText p)])]
  | .categories h => .obj [(c!"module", .str c!"categories"), (c!"data", .obj [(c!"include-hidden", .bool h)])]
  | .join b a => .obj [(c!"module", .str c!"join"), (c!"data", .obj [(c!"button-text", optText b), (c!"attributes", texts a)])]
  | .pageTree r s d => .obj [(c!"module", .str c!"page-tree"), (c!"data", .obj [(c!"root", optText r), (c!"show-root", .bool s),
      (c!"depth", match d with | none => .null | some n => .num n)])]
  | .rate => .obj [(c!"module", .str c!"rate")]

/-- The kinds of containers. -/
def container : CType → Json
  | .bold => .str c!"bold" | .italics => .str c!"italics" | .underline => .str c!"underline"
  | .superscript => .str c!"superscript" | .subscript => .str c!"subscript" | .strikethrough => .str c!"strikethrough"
  | .monospace => .str c!"monospace" | .span => .str c!"span" | .div => .str c!"div" | .mark => .str c!"mark"
  | .blockquote => .str c!"blockquote" | .insertion => .str c!"insertion" | .deletion => .str c!"deletion"
  | .hidden => .str c!"hidden" | .invisible => .str c!"invisible" | .size => .str c!"size" | .ruby => .str c!"ruby"
  | .rubyText => .str c!"ruby-text" | .paragraph => .str c!"paragraph"
  | .align a => .obj [(c!"align", .str (align a))]
  | .header h => .obj [(c!"header", .obj [(c!"level", .num h.level), (c!"has-toc", .bool h.hasToc)])]

/-- Items of lists that are not in a list, and the like. -/
def part : PartKind → Str
  | .listItem => c!"ListItem" | .tableRow => c!"TableRow" | .tableCell => c!"TableCell" | .tab => c!"Tab" | .rubyText => c!"RubyText"

/-- An element with contents. -/
def elem (name : Str) (data : Json) : Json := .obj [(c!"element", .str name), (c!"data", data)]
/-- An element without. -/
def bare (name : Str) : Json := .obj [(c!"element", .str name)]

/-- An element, given how dates are written and the JSON of what is in it.  (Names are in lower case with dashes,
except `key_string` and those of parts.) -/
def node (date : DateVal → Str) (kids : List Json) : Kind → Json
  | .container c a => elem c!"container" (.obj [(c!"type", container c), (c!"attributes", texts a), (c!"elements", .arr kids)])
  | .module m => elem c!"module" (module_ m)
  | .text s => elem c!"text" (.str s)
  | .raw s => elem c!"raw" (.str s)
  | .variable s => elem c!"variable" (.str s)
  | .email s => elem c!"email" (.str s)
  | .table a => elem c!"table" (.obj [(c!"attributes", texts a), (c!"rows", .arr kids)])
  | .tabView => elem c!"tab-view" (.arr kids)
  | .anchor t a => elem c!"anchor" (.obj [(c!"target", target t), (c!"attributes", texts a), (c!"elements", .arr kids)])
  | .anchorName s => elem c!"anchor-name" (.str s)
  | .link t l e lb tg => elem c!"link" (.obj [(c!"type", .str (linkType t)), (c!"link", place l), (c!"extra", optText e),
      (c!"label", label lb), (c!"target", target tg)])
  | .image s l al a => elem c!"image" (.obj [(c!"source", source s), (c!"link", match l with | none => .null | some l => place l),
      (c!"alignment", match al with | none => .null | some al => .obj [(c!"align", .str (align al.align)), (c!"float", .bool al.float)]),
      (c!"attributes", texts a)])
  | .list t a => elem c!"list" (.obj [(c!"type", .str (match t with | .bullet => c!"bullet" | .numbered => c!"numbered" | .generic => c!"generic")),
      (c!"attributes", texts a), (c!"items", .arr kids)])
  | .definitionList => elem c!"definition-list" (.arr kids)
  | .radioButton n c a => elem c!"radio-button" (.obj [(c!"name", .str n), (c!"checked", .bool c), (c!"attributes", texts a)])
  | .checkBox c a => elem c!"check-box" (.obj [(c!"checked", .bool c), (c!"attributes", texts a)])
  | .collapsible a so st ht tp bt => elem c!"collapsible" (.obj [(c!"elements", .arr kids), (c!"attributes", texts a),
      (c!"start-open", .bool so), (c!"show-text", optText st), (c!"hide-text", optText ht), (c!"show-top", .bool tp), (c!"show-bottom", .bool bt)])
  | .toc a al => elem c!"table-of-contents" (.obj [(c!"attributes", texts a), (c!"align", optAlign al)])
  | .footnote => bare c!"footnote"
  | .footnoteBlock t h => elem c!"footnote-block" (.obj [(c!"title", optText t), (c!"hide", .bool h)])
  | .bibCite l b => elem c!"bibliography-cite" (.obj [(c!"label", .str l), (c!"brackets", .bool b)])
  | .bibBlock i t h => elem c!"bibliography-block" (.obj [(c!"index", .num i), (c!"title", optText t), (c!"hide", .bool h)])
  | .user n s => elem c!"user" (.obj [(c!"name", .str n), (c!"show-avatar", .bool s)])
  | .date v f h => elem c!"date" (.obj [(c!"value", .str (date v)), (c!"format", optText f), (c!"hover", .bool h)])
  | .color c => elem c!"color" (.obj [(c!"color", .str c), (c!"elements", .arr kids)])
  | .code c l => elem c!"code" (.obj [(c!"contents", .str c), (c!"language", optText l)])
  | .math n l => elem c!"math" (.obj [(c!"name", optText n), (c!"latex-source", .str l)])
  | .mathInline l => elem c!"math-inline" (.obj [(c!"latex-source", .str l)])
  | .equationRef n => elem c!"equation-reference" (.str n)
  | .embed e => elem c!"embed" (embed e)
  | .html c => elem c!"html" (.obj [(c!"contents", .str c)])
  | .iframe a u => elem c!"iframe" (.obj [(c!"attributes", texts a), (c!"url", .str u)])
  | .include p v l => elem c!"include" (.obj [(c!"paragraph-safe", .bool p), (c!"variables", texts v), (c!"location", page l),
      (c!"elements", .arr kids)])
  | .style c => elem c!"style" (.str c)
  | .lineBreak => bare c!"line-break"
  | .lineBreaks n => elem c!"line-breaks" (.num n)
  | .clearFloat c => elem c!"clear-float" (.str (match c with | .left => c!"left" | .right => c!"right" | .both => c!"both"))
  | .horizontalRule => bare c!"horizontal-rule"
  | .part p => elem c!"partial" (match kids with
    | [j] => .obj [(part p, j)]
    | _ => .null)
  | .row a => .obj [(c!"attributes", texts a), (c!"cells", .arr kids)]
  | .cell h n al a => .obj [(c!"header", .bool h), (c!"column-span", .num n), (c!"align", optAlign al), (c!"attributes", texts a),
      (c!"elements", .arr kids)]
  | .tab l => .obj [(c!"label", .str l), (c!"elements", .arr kids)]
  | .item a => .obj [(c!"item-type", .str c!"elements"), (c!"attributes", texts a), (c!"elements", .arr kids)]
  | .subList => match kids with
    | [.obj fs] => .obj ((c!"item-type", .str c!"sub-list") :: fs)
    | _ => .null
  | .defItem key => match kids with
    | [a, b] => .obj [(c!"key_string", .str key), (c!"key", a), (c!"value", b)]
    | _ => .null
  | .defKey | .defValue => .arr kids
  | .rubyText a => .obj [(c!"attributes", texts a), (c!"elements", .arr kids)]

/-- A tree, given the JSON of elements. -/
def tree (elem : Elem → Json) (t : Tree) : Json :=
  let all (es : List Elem) : Json := .arr (es.map elem)
  .obj [(c!"elements", all t.elements), (c!"table-of-contents", all t.toc), (c!"html-blocks", .arr (t.htmlBlocks.map .str)),
    (c!"code-blocks", .arr (t.codeBlocks.map fun b => .obj [(c!"contents", .str b.contents), (c!"name", optText b.name)])),
    (c!"footnotes", .arr (t.footnotes.map all)),
    (c!"bibliographies", .arr (t.bibliographies.map fun b => .arr (b.entries.map fun e => .arr [.str e.1, all e.2]))),
    (c!"wikitext-len", .num t.wikitextLen)]

/-- The names of tokens. -/
def token : Token → Str
  | .leftBracket => c!"left-bracket" | .leftBracketAnchor => c!"left-bracket-anchor"
  | .leftBracketStar => c!"left-bracket-star" | .rightBracket => c!"right-bracket" | .leftBlock => c!"left-block"
  | .leftBlockEnd => c!"left-block-end" | .leftBlockAnchor => c!"left-block-anchor" | .leftBlockStar => c!"left-block-star"
  | .leftMath => c!"left-math" | .leftParentheses => c!"left-parentheses" | .rightBlock => c!"right-block"
  | .rightMath => c!"right-math" | .rightParentheses => c!"right-parentheses" | .doubleDash => c!"double-dash"
  | .tripleDash => c!"triple-dash" | .doubleTilde => c!"double-tilde" | .leftDoubleAngle => c!"left-double-angle"
  | .clearFloatBoth => c!"clear-float-both" | .clearFloatLeft => c!"clear-float-left"
  | .clearFloatRight => c!"clear-float-right" | .pipe => c!"pipe" | .equals => c!"equals" | .colon => c!"colon"
  | .underscore => c!"underscore" | .quote => c!"quote" | .heading => c!"heading" | .lineBreak => c!"line-break"
  | .paragraphBreak => c!"paragraph-break" | .whitespace => c!"whitespace" | .bold => c!"bold" | .italics => c!"italics"
  | .underline => c!"underline" | .superscript => c!"superscript" | .subscript => c!"subscript"
  | .leftMonospace => c!"left-monospace" | .rightMonospace => c!"right-monospace" | .color => c!"color" | .raw => c!"raw"
  | .leftRaw => c!"left-raw" | .rightRaw => c!"right-raw" | .bulletItem => c!"bullet-item"
  | .numberedItem => c!"numbered-item" | .leftLink => c!"left-link" | .leftLinkStar => c!"left-link-star"
  | .rightLink => c!"right-link" | .tableColumn => c!"table-column" | .tableColumnLeft => c!"table-column-left"
  | .tableColumnRight => c!"table-column-right" | .tableColumnCenter => c!"table-column-center"
  | .tableColumnTitle => c!"table-column-title" | .identifier => c!"identifier" | .email => c!"email" | .url => c!"url"
  | .variable => c!"variable" | .string => c!"string" | .leftComment => c!"left-comment" | .rightComment => c!"right-comment"
  | .inputStart => c!"input-start" | .inputEnd => c!"input-end" | .other => c!"other"

/-- The names of errors. -/
def error : EKind → Str
  | .recursionDepthExceeded => c!"recursion-depth-exceeded" | .endOfInput => c!"end-of-input"
  | .noRulesMatch => c!"no-rules-match" | .ruleFailed => c!"rule-failed" | .notSupportedMode => c!"not-supported-mode"
  | .notStartOfLine => c!"not-start-of-line" | .invalidInclude => c!"invalid-include" | .listEmpty => c!"list-empty"
  | .listContainsNonItem => c!"list-contains-non-item" | .listItemOutsideList => c!"list-item-outside-list"
  | .listDepthExceeded => c!"list-depth-exceeded" | .tableContainsNonRow => c!"table-contains-non-row"
  | .tableRowContainsNonCell => c!"table-row-contains-non-cell" | .tableRowOutsideTable => c!"table-row-outside-table"
  | .tableCellOutsideTable => c!"table-cell-outside-table" | .tabViewEmpty => c!"tab-view-empty"
  | .tabViewContainsNonTab => c!"tab-view-contains-non-tab" | .tabOutsideTabView => c!"tab-outside-tab-view"
  | .footnotesNested => c!"footnotes-nested" | .blockquoteDepthExceeded => c!"blockquote-depth-exceeded"
  | .rubyTextOutsideRuby => c!"ruby-text-outside-ruby"
  | .bibliographyContainsNonDefinitionList => c!"bibliography-contains-non-definition-list"
  | .codeNonUniqueName => c!"code-non-unique-name" | .noSuchBlock => c!"no-such-block"
  | .blockDisallowsStar => c!"block-disallows-star" | .blockDisallowsScore => c!"block-disallows-score"
  | .blockMissingName => c!"block-missing-name" | .blockMissingCloseBrackets => c!"block-missing-close-brackets"
  | .blockMalformedArguments => c!"block-malformed-arguments" | .blockMissingArguments => c!"block-missing-arguments"
  | .blockExpectedEnd => c!"block-expected-end" | .blockEndMismatch => c!"block-end-mismatch"
  | .noSuchEmbed => c!"no-such-embed" | .noSuchModule => c!"no-such-module" | .moduleMissingName => c!"module-missing-name"
  | .noSuchPage => c!"no-such-page" | .noSuchVariable => c!"no-such-variable" | .invalidUrl => c!"invalid-url"

/-- A part of a text. -/
def span (a b : Nat) : Json := .obj [(c!"start", .num a), (c!"end", .num b)]

/-- Settings. -/
def settings (s : Settings) : Json :=
  .obj [(c!"mode", .str (match s.mode with
      | .page => c!"page" | .draft => c!"draft" | .forumPost => c!"forum-post" | .directMessage => c!"direct-message" | .list => c!"list")),
    (c!"layout", .str (match s.layout with | .wikidot => c!"wikidot" | .wikijump => c!"wikijump")),
    (c!"enable-page-syntax", .bool s.enablePageSyntax), (c!"use-include-compatibility", .bool s.useIncludeCompatibility),
    (c!"use-true-ids", .bool s.useTrueIds), (c!"isolate-user-ids", .bool s.isolateUserIds), (c!"minify-css", .bool s.minifyCss),
    (c!"allow-local-paths", .bool s.allowLocalPaths), (c!"interwiki", texts s.interwiki.prefixes)]

end Ftml.Format
