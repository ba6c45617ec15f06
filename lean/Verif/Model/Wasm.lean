import Verif.Model.Serde
import Verif.Model.Owned
import Verif.Model.Parse
/-!
Model of the WebAssembly interface, `src/wasm/{tokenizer,parsing,utf16,settings}.rs`, and of the JSON form of the values
it hands out: tokens, errors, settings. `wasm_bindgen` itself (how strings cross the boundary) is not modelled.
-/
namespace Ftml
namespace Wasm
open Serde

/-- `convert_tokens_utf16`, src/wasm/tokenizer.rs:84-98, behind `Tokenization::tokens`, lines 64-68; `none` = panic. -/
def tokens (text : Str) : Option (List ETok) :=
  let t := tokenize text
  t.tokens.mapM (toUtf16 (utf16Map t.fullText))

/-- `ParseError::to_utf16_indices`, src/parsing/error.rs:79-100; `none` = panic. -/
def errUtf16 (m : List (Nat × Nat)) (e : PErr) : Option PErr :=
  match getIndex m e.start, getIndex m e.stop with
  | some a, some b => some { e with start := a, stop := b }
  | _, _ => none

/-- `convert_errors_utf16`, src/wasm/parsing.rs:116-133; `none` = panic. -/
def convertErrors (text : Str) (errors : List PErr) : Option (List PErr) :=
  if errors.isEmpty then some errors else errors.mapM (errUtf16 (utf16Map text))

/-- What a call from JavaScript ends in. -/
inductive Answer (α : Type) where
  | ok (a : α)
  /-- an exception with a message -/
  | error
  /-- a panic, which aborts the module -/
  | panic

/-- `parse`, src/wasm/parsing.rs:90-112 (`none`: exhausted fuel of the model, see `parse`). -/
def parse (w : World) (text : Str) (info : PageInfo) (settings : Settings) : Option (Answer Outcome) :=
  match Ftml.parse w (tokenize text) info settings with
  | none => none
  | some (.error _) => some .panic
  | some (.ok o) =>
    match convertErrors (tokenize text).fullText o.errors with
    | none => some .panic
    | some errors => some (.ok ⟨o.tree.owned, errors⟩)

/-- `Utf16IndexMap::get_index`, src/wasm/utf16.rs:87-93 with `check_index`, lines 69-85. -/
def getIndex (text : Str) (i : Nat) : Answer Nat :=
  if byteLen text < i then .error
  else match Ftml.getIndex (utf16Map text) i with
    | some j => .ok j
    | none => .panic

/-- `WikitextSettings::from_mode`, src/wasm/settings.rs:56-75. -/
def fromMode (mode layout : Str) : Answer Settings :=
  let mode? : Option Mode :=
    if mode == c!"page" then some .page
    else if mode == c!"draft" then some .draft
    else if mode == c!"forum-post" then some .forumPost
    else if mode == c!"direct-message" then some .directMessage
    else if mode == c!"list" then some .list
    else none
  let layout? : Option Layout :=
    if layout == c!"wikidot" then some .wikidot
    else if layout == c!"wikijump" then some .wikijump
    else none
  match mode?, layout? with
  | some m, some l => .ok (Settings.fromMode m l)
  | _, _ => .error

/-! ### JSON of tokens, errors and settings -/

/-- The variants of `Token`, src/parsing/token/mod.rs:73-169. -/
def tokenVariant : Token → Str
  | .leftBracket => c!"LeftBracket" | .leftBracketAnchor => c!"LeftBracketAnchor" | .leftBracketStar => c!"LeftBracketStar"
  | .rightBracket => c!"RightBracket" | .leftBlock => c!"LeftBlock" | .leftBlockEnd => c!"LeftBlockEnd"
  | .leftBlockAnchor => c!"LeftBlockAnchor" | .leftBlockStar => c!"LeftBlockStar" | .leftMath => c!"LeftMath"
  | .leftParentheses => c!"LeftParentheses" | .rightBlock => c!"RightBlock" | .rightMath => c!"RightMath"
  | .rightParentheses => c!"RightParentheses" | .doubleDash => c!"DoubleDash" | .tripleDash => c!"TripleDash"
  | .doubleTilde => c!"DoubleTilde" | .leftDoubleAngle => c!"LeftDoubleAngle" | .clearFloatBoth => c!"ClearFloatBoth"
  | .clearFloatLeft => c!"ClearFloatLeft" | .clearFloatRight => c!"ClearFloatRight" | .pipe => c!"Pipe"
  | .equals => c!"Equals" | .colon => c!"Colon" | .underscore => c!"Underscore"
  | .quote => c!"Quote" | .heading => c!"Heading" | .lineBreak => c!"LineBreak"
  | .paragraphBreak => c!"ParagraphBreak" | .whitespace => c!"Whitespace" | .bold => c!"Bold"
  | .italics => c!"Italics" | .underline => c!"Underline" | .superscript => c!"Superscript"
  | .subscript => c!"Subscript" | .leftMonospace => c!"LeftMonospace" | .rightMonospace => c!"RightMonospace"
  | .color => c!"Color" | .raw => c!"Raw" | .leftRaw => c!"LeftRaw"
  | .rightRaw => c!"RightRaw" | .bulletItem => c!"BulletItem" | .numberedItem => c!"NumberedItem"
  | .leftLink => c!"LeftLink" | .leftLinkStar => c!"LeftLinkStar" | .rightLink => c!"RightLink"
  | .tableColumn => c!"TableColumn" | .tableColumnLeft => c!"TableColumnLeft" | .tableColumnRight => c!"TableColumnRight"
  | .tableColumnCenter => c!"TableColumnCenter" | .tableColumnTitle => c!"TableColumnTitle" | .identifier => c!"Identifier"
  | .email => c!"Email" | .url => c!"Url" | .variable => c!"Variable"
  | .string => c!"String" | .leftComment => c!"LeftComment" | .rightComment => c!"RightComment"
  | .inputStart => c!"InputStart" | .inputEnd => c!"InputEnd" | .other => c!"Other"

/-- The name of a `Token` in JSON, src/parsing/token/mod.rs:69-73. -/
def tokenName (t : Token) : Str := variantName (tokenVariant t)

/-- The variants of `Token` in order. -/
def allTokens : List Token := [.leftBracket, .leftBracketAnchor, .leftBracketStar, .rightBracket, .leftBlock, .leftBlockEnd, .leftBlockAnchor,
  .leftBlockStar, .leftMath, .leftParentheses, .rightBlock, .rightMath, .rightParentheses, .doubleDash,
  .tripleDash, .doubleTilde, .leftDoubleAngle, .clearFloatBoth, .clearFloatLeft, .clearFloatRight, .pipe,
  .equals, .colon, .underscore, .quote, .heading, .lineBreak, .paragraphBreak,
  .whitespace, .bold, .italics, .underline, .superscript, .subscript, .leftMonospace,
  .rightMonospace, .color, .raw, .leftRaw, .rightRaw, .bulletItem, .numberedItem,
  .leftLink, .leftLinkStar, .rightLink, .tableColumn, .tableColumnLeft, .tableColumnRight, .tableColumnCenter,
  .tableColumnTitle, .identifier, .email, .url, .variable, .string, .leftComment,
  .rightComment, .inputStart, .inputEnd, .other]

/-- The variants of `ParseErrorKind`, src/parsing/error.rs:105-219. -/
def errorVariant : EKind → Str
  | .recursionDepthExceeded => c!"RecursionDepthExceeded" | .endOfInput => c!"EndOfInput" | .noRulesMatch => c!"NoRulesMatch"
  | .ruleFailed => c!"RuleFailed" | .notSupportedMode => c!"NotSupportedMode" | .notStartOfLine => c!"NotStartOfLine"
  | .invalidInclude => c!"InvalidInclude" | .listEmpty => c!"ListEmpty" | .listContainsNonItem => c!"ListContainsNonItem"
  | .listItemOutsideList => c!"ListItemOutsideList" | .listDepthExceeded => c!"ListDepthExceeded" | .tableContainsNonRow => c!"TableContainsNonRow"
  | .tableRowContainsNonCell => c!"TableRowContainsNonCell" | .tableRowOutsideTable => c!"TableRowOutsideTable" | .tableCellOutsideTable => c!"TableCellOutsideTable"
  | .tabViewEmpty => c!"TabViewEmpty" | .tabViewContainsNonTab => c!"TabViewContainsNonTab" | .tabOutsideTabView => c!"TabOutsideTabView"
  | .footnotesNested => c!"FootnotesNested" | .blockquoteDepthExceeded => c!"BlockquoteDepthExceeded" | .rubyTextOutsideRuby => c!"RubyTextOutsideRuby"
  | .bibliographyContainsNonDefinitionList => c!"BibliographyContainsNonDefinitionList" | .codeNonUniqueName => c!"CodeNonUniqueName" | .noSuchBlock => c!"NoSuchBlock"
  | .blockDisallowsStar => c!"BlockDisallowsStar" | .blockDisallowsScore => c!"BlockDisallowsScore" | .blockMissingName => c!"BlockMissingName"
  | .blockMissingCloseBrackets => c!"BlockMissingCloseBrackets" | .blockMalformedArguments => c!"BlockMalformedArguments" | .blockMissingArguments => c!"BlockMissingArguments"
  | .blockExpectedEnd => c!"BlockExpectedEnd" | .blockEndMismatch => c!"BlockEndMismatch" | .noSuchEmbed => c!"NoSuchEmbed"
  | .noSuchModule => c!"NoSuchModule" | .moduleMissingName => c!"ModuleMissingName" | .noSuchPage => c!"NoSuchPage"
  | .noSuchVariable => c!"NoSuchVariable" | .invalidUrl => c!"InvalidUrl"

/-- The name of a `ParseErrorKind` in JSON, src/parsing/error.rs:103-104. -/
def errorName (k : EKind) : Str := variantName (errorVariant k)

/-- The variants of `ParseErrorKind` in order. -/
def allErrors : List EKind := [.recursionDepthExceeded, .endOfInput, .noRulesMatch, .ruleFailed, .notSupportedMode, .notStartOfLine, .invalidInclude,
  .listEmpty, .listContainsNonItem, .listItemOutsideList, .listDepthExceeded, .tableContainsNonRow, .tableRowContainsNonCell, .tableRowOutsideTable,
  .tableCellOutsideTable, .tabViewEmpty, .tabViewContainsNonTab, .tabOutsideTabView, .footnotesNested, .blockquoteDepthExceeded, .rubyTextOutsideRuby,
  .bibliographyContainsNonDefinitionList, .codeNonUniqueName, .noSuchBlock, .blockDisallowsStar, .blockDisallowsScore, .blockMissingName, .blockMissingCloseBrackets,
  .blockMalformedArguments, .blockMissingArguments, .blockExpectedEnd, .blockEndMismatch, .noSuchEmbed, .noSuchModule, .moduleMissingName,
  .noSuchPage, .noSuchVariable, .invalidUrl]

/-- A span: `Range<usize>` in `serde`. -/
def writeSpan (a b : Nat) : Json := .obj [(c!"start", .num a), (c!"end", .num b)]
/-- Reading a span. -/
def readSpan (j : Json) : Option (Nat × Nat) := do
  let fs ← asObj j
  let a ← asNat (← field fs c!"start")
  let b ← asNat (← field fs c!"end")
  pure (a, b)

/-- `ExtractedToken` (only written), src/parsing/token/mod.rs:42-47. -/
def writeToken (t : ETok) : Json :=
  .obj [(c!"token", .str (tokenName t.token)), (c!"slice", .str t.slice), (c!"span", writeSpan t.start t.stop)]

/-- `ParseError`, src/parsing/error.rs:34-41; the rule is a text. -/
def writeError (e : PErr) : Json :=
  .obj [(fieldName c!"token", .str (tokenName e.token)), (fieldName c!"rule", .str e.rule.name),
    (fieldName c!"span", writeSpan e.start e.stop), (fieldName c!"kind", .str (errorName e.kind))]

/-- What is read of a `ParseError`: the rule is kept as a text. -/
structure ReadError where
  token : Token
  rule : Str
  start : Nat
  stop : Nat
  kind : EKind
deriving DecidableEq

/-- Reading a `ParseError`, src/parsing/error.rs:34-41. -/
def readError (j : Json) : Option ReadError := do
  let fs ← asObj j
  let (t, c) ← readExternal (← field fs (fieldName c!"token"))
  noContents c
  let token ← ofName allTokens tokenName t
  let rule ← asStr (← field fs (fieldName c!"rule"))
  let (a, b) ← readSpan (← field fs (fieldName c!"span"))
  let (k, c) ← readExternal (← field fs (fieldName c!"kind"))
  noContents c
  let kind ← ofName allErrors errorName k
  pure ⟨token, rule, a, b, kind⟩

/-- The variants of `WikitextMode`, src/settings/mod.rs:162-180. -/
def modeName : Mode → Str
  | .page => variantName c!"Page"
  | .draft => variantName c!"Draft"
  | .forumPost => variantName c!"ForumPost"
  | .directMessage => variantName c!"DirectMessage"
  | .list => variantName c!"List"

/-- The variants of `Layout`, src/layout.rs:28-33. -/
def layoutName : Layout → Str
  | .wikidot => variantName c!"Wikidot"
  | .wikijump => variantName c!"Wikijump"

/-- `WikitextSettings`, src/settings/mod.rs:30-100; the interwiki settings are a flattened map,
src/settings/interwiki.rs:57-63. -/
def writeSettings (s : Settings) : Json :=
  .obj [(fieldName c!"mode", .str (modeName s.mode)), (fieldName c!"layout", .str (layoutName s.layout)),
    (fieldName c!"enable_page_syntax", .bool s.enablePageSyntax),
    (fieldName c!"use_include_compatibility", .bool s.useIncludeCompatibility),
    (fieldName c!"use_true_ids", .bool s.useTrueIds), (fieldName c!"isolate_user_ids", .bool s.isolateUserIds),
    (fieldName c!"minify_css", .bool s.minifyCss), (fieldName c!"allow_local_paths", .bool s.allowLocalPaths),
    (fieldName c!"interwiki", writeVars s.interwiki.prefixes)]

/-- Reading `WikitextSettings`, src/wasm/settings.rs:48-53. -/
def readSettings (j : Json) : Option Settings := do
  let fs ← asObj j
  let (m, c) ← readExternal (← field fs (fieldName c!"mode"))
  noContents c
  let mode ← ofName [.page, .draft, .forumPost, .directMessage, .list] modeName m
  let (l, c) ← readExternal (← field fs (fieldName c!"layout"))
  noContents c
  let layout ← ofName [.wikidot, .wikijump] layoutName l
  let page ← asBool (← field fs (fieldName c!"enable_page_syntax"))
  let compat ← asBool (← field fs (fieldName c!"use_include_compatibility"))
  let ids ← asBool (← field fs (fieldName c!"use_true_ids"))
  let isolate ← asBool (← field fs (fieldName c!"isolate_user_ids"))
  let minify ← asBool (← field fs (fieldName c!"minify_css"))
  let locals ← asBool (← field fs (fieldName c!"allow_local_paths"))
  let interwiki ← readVars (← field fs (fieldName c!"interwiki"))
  pure ⟨mode, layout, page, compat, ids, isolate, minify, locals, ⟨interwiki⟩⟩

end Wasm
end Ftml
