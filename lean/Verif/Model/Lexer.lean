import Verif.Model.Peg
/-
Model of `src/parsing/lexer.pest`, `src/parsing/token/mod.rs`, `src/tokenizer.rs`, `src/utf16.rs` and
`src/text.rs`.
-/
namespace Ftml
open Ftml Peg

/-- `Token` (src/parsing/token/mod.rs:73-169). -/
inductive Token where
  | leftBracket | leftBracketAnchor | leftBracketStar | rightBracket | leftBlock | leftBlockEnd
  | leftBlockAnchor | leftBlockStar | leftMath | leftParentheses | rightBlock | rightMath
  | rightParentheses | doubleDash | tripleDash | doubleTilde | leftDoubleAngle | clearFloatBoth
  | clearFloatLeft | clearFloatRight | pipe | equals | colon | underscore | quote | heading
  | lineBreak | paragraphBreak | whitespace
  | bold | italics | underline | superscript | subscript | leftMonospace | rightMonospace | color
  | raw | leftRaw | rightRaw
  | bulletItem | numberedItem
  | leftLink | leftLinkStar | rightLink
  | tableColumn | tableColumnLeft | tableColumnRight | tableColumnCenter | tableColumnTitle
  | identifier | email | url | variable | string
  | leftComment | rightComment | inputStart | inputEnd
  | other
deriving DecidableEq, Repr, Inhabited

/-- `ExtractedToken` (src/parsing/token/mod.rs:43-47); `start`/`stop` are the byte span. -/
structure ETok where
  token : Token
  slice : Str
  start : Nat
  stop : Nat
deriving DecidableEq, Repr, Inhabited

namespace Lexer

/-- `identifier` (src/parsing/lexer.pest:121). -/
def gIdentifier : Peg := plus (alt (cls isAlnumA) (cls isDigitA))
/-- A character that is not a space, tab or newline (src/parsing/lexer.pest:124). -/
def gNonSpace : Peg := seq (notp (alt (lit [' ']) (alt (lit ['\t']) newline))) any
/-- `email` (src/parsing/lexer.pest:123-129). -/
def gEmail : Peg :=
  seq (plus gNonSpace) (seq (lit ['@']) (seq (plus gNonSpace) (seq (lit ['.']) (plus gNonSpace))))
/-- `url` (src/parsing/lexer.pest:131-134). -/
def gUrl : Peg :=
  seq (alt (seq (lit c!"http") (opt (lit ['s']))) (lit c!"ftp"))
    (seq (lit c!"://")
      (plus (seq (notp (alt newline (alt (lit [' ']) (alt (lit ['|']) (alt (lit ['[']) (lit [']'])))))) any)))
/-- `variable` (src/parsing/lexer.pest:213). -/
def gVariable : Peg := seq (lit c!"{$") (seq gIdentifier (lit ['}']))
/-- `char` (src/parsing/lexer.pest:219-222). -/
def gChar : Peg :=
  alt (seq (notp (alt newline (alt (lit ['"']) (lit ['\\'])))) any)
    (seq (lit ['\\']) (seq (notp newline) any))
/-- `string` (src/parsing/lexer.pest:224). -/
def gString : Peg := seq (lit ['"']) (seq (star gChar) (lit ['"']))
/-- `"x"{3,}` for a symbol `x`. -/
def gThreePlus (x : Str) : Peg := seq (lit x) (seq (lit x) (plus (lit x)))
/-- `heading` (src/parsing/lexer.pest:177): `"+"{1,6} ~ ("*" ~ !"*")?`. -/
def gHeading : Peg := seq (seq (lit ['+']) (upTo 5 (lit ['+']))) (opt (seq (lit ['*']) (notp (lit ['*']))))
/-- `paragraph_break` (src/parsing/lexer.pest:231): `NEWLINE{2,}`. -/
def gParagraphBreak : Peg := seq newline (plus newline)

/-- The alternatives of the rule `token` in priority order (src/parsing/lexer.pest:34-115); every
alternative is the list of tokens it emits (`Rule` → `Token`, src/parsing/token/mod.rs:226-308) with
their rules (src/parsing/lexer.pest:121-239). -/
def alternatives : List (List (Token × Peg)) := [
  [(.raw, lit c!"@@")], [(.leftRaw, lit c!"@<")], [(.rightRaw, lit c!">@")],
  [(.leftComment, lit c!"[!--")], [(.rightComment, lit c!"--]")],
  [(.url, gUrl)], [(.identifier, gIdentifier)], [(.email, gEmail)], [(.variable, gVariable)],
  [(.string, gString)],
  [(.leftBracket, lit c!"["), (.leftLink, lit c!"[[[")],
  [(.rightLink, lit c!"]]]"), (.rightBracket, lit c!"]")],
  [(.leftLinkStar, lit c!"[[[*")], [(.leftLink, lit c!"[[[")], [(.leftMath, lit c!"[[$")],
  [(.leftBlockAnchor, lit c!"[[#")], [(.leftBlockStar, lit c!"[[*")], [(.leftBlockEnd, lit c!"[[/")],
  [(.leftBlock, lit c!"[[")], [(.leftBracketAnchor, lit c!"[#")], [(.leftBracketStar, lit c!"[*")],
  [(.leftBracket, lit c!"[")], [(.leftParentheses, lit c!"((")], [(.rightLink, lit c!"]]]")],
  [(.rightMath, lit c!"$]]")], [(.rightBlock, lit c!"]]")], [(.rightBracket, lit c!"]")],
  [(.rightParentheses, lit c!"))")],
  [(.bold, lit c!"**")], [(.italics, lit c!"//")], [(.underline, lit c!"__")],
  [(.superscript, lit c!"^^")], [(.subscript, lit c!",,")], [(.color, lit c!"##")],
  [(.leftMonospace, lit c!"{{")], [(.rightMonospace, lit c!"}}")],
  [(.tableColumnTitle, lit c!"||~")], [(.tableColumnLeft, lit c!"||<")],
  [(.tableColumnRight, lit c!"||>")], [(.tableColumnCenter, lit c!"||=")], [(.tableColumn, lit c!"||")],
  [(.clearFloatLeft, seq (gThreePlus ['~']) (lit ['<']))],
  [(.clearFloatRight, seq (gThreePlus ['~']) (lit ['>']))],
  [(.clearFloatBoth, gThreePlus ['~'])], [(.tripleDash, gThreePlus ['-'])], [(.doubleDash, lit c!"--")],
  [(.doubleTilde, lit c!"~~")], [(.leftDoubleAngle, lit c!"<<")], [(.pipe, lit c!"|")],
  [(.equals, lit c!"=")], [(.colon, lit c!":")], [(.underscore, lit c!"_")],
  [(.quote, plus (lit ['>']))], [(.heading, gHeading)],
  [(.bulletItem, seq (lit ['*']) (notp (lit ['*'])))],
  [(.numberedItem, seq (lit ['#']) (notp (lit ['#'])))],
  [(.paragraphBreak, gParagraphBreak)], [(.lineBreak, newline)],
  [(.whitespace, plus (alt (lit [' ']) (lit ['\t'])))],
  [(.other, any)]]

/-- One alternative: its rules in sequence, emitting one (token, slice) pair each. -/
def runAlt : List (Token × Peg) → Str → Option (List (Token × Str) × Str)
  | [], s => some ([], s)
  | (t, p) :: ps, s =>
    match p.run s with
    | none => none
    | some (m, r) =>
      match runAlt ps r with
      | none => none
      | some (ts, r') => some ((t, m) :: ts, r')

/-- The rule `token`: first alternative that matches (src/parsing/lexer.pest:34-115). -/
def runToken : List (List (Token × Peg)) → Str → Option (List (Token × Str) × Str)
  | [], _ => none
  | a :: as, s =>
    match runAlt a s with
    | some r => some r
    | none => runToken as s

/-- `token*` (src/parsing/lexer.pest:30), at most `n` repetitions. -/
def runTokens (alts : List (List (Token × Peg))) : Nat → Str → List (Token × Str) × Str
  | 0, s => ([], s)
  | n + 1, s =>
    match runToken alts s with
    | none => ([], s)
    | some (ts, r) => let (ts', r') := runTokens alts n r; (ts ++ ts', r')

/-- `TokenLexer::parse(Rule::document, text)`: `SOI ~ token* ~ EOI` (src/parsing/lexer.pest:30);
`none` is the pest error. -/
def runDocument (text : Str) : Option (List (Token × Str)) :=
  match runTokens alternatives text.length text with
  | (ts, []) => some ts
  | (_, _ :: _) => none

/-- `Token::convert_pair` for consecutive pairs (src/parsing/token/mod.rs:210-223): attach byte spans. -/
def addSpans : Nat → List (Token × Str) → List ETok
  | _, [] => []
  | off, (t, s) :: rest => ⟨t, s, off, off + byteLen s⟩ :: addSpans (off + byteLen s) rest

/-- `Token::extract_all` (src/parsing/token/mod.rs:176-207). The EOI pair (an empty slice at the end)
becomes `InputEnd`. -/
def extractAll (text : Str) : List ETok :=
  match runDocument text with
  | some ts =>
    ⟨.inputStart, [], 0, 0⟩ :: (addSpans 0 ts ++ [⟨.inputEnd, [], byteLen text, byteLen text⟩])
  | none => [⟨.other, text, 0, byteLen text⟩]

end Lexer

/-- `Tokenization` (src/tokenizer.rs:26-29). -/
structure Tokenization where
  tokens : List ETok
  fullText : Str
deriving DecidableEq, Repr

/-- `tokenize` (src/tokenizer.rs:51-61). -/
def tokenize (text : Str) : Tokenization := ⟨Lexer.extractAll text, text⟩

/-- `Utf16IndexMap::new` (src/utf16.rs:47-68): insertions in order; the entries are (utf8, utf16). A
`HashMap` keyed by byte index, here the list of insertions. -/
def utf16Build : Nat → Nat → Str → List (Nat × Nat)
  | _, _, [] => []
  | i, j, [c] => [(i, j), (i + utf8Size c, j + utf16Size c)]
  | i, j, c :: d :: s => (i, j) :: utf16Build (i + utf8Size c) (j + utf16Size c) (d :: s)

/-- `Utf16IndexMap::new` (src/utf16.rs:47-68). -/
def utf16Map (text : Str) : List (Nat × Nat) := utf16Build 0 0 text

/-- `Utf16IndexMap::get_index` (src/utf16.rs:76-78); a missing key panics (`none`). Later insertions
override earlier ones. -/
def getIndex (m : List (Nat × Nat)) (i : Nat) : Option Nat :=
  (m.reverse.find? (·.1 == i)).map (·.2)

/-- `ExtractedToken::to_utf16_indices` (src/parsing/token/mod.rs:53-64); `none` = panic. -/
def toUtf16 (m : List (Nat × Nat)) (t : ETok) : Option ETok :=
  match getIndex m t.start, getIndex m t.stop with
  | some a, some b => some { t with start := a, stop := b }
  | _, _ => none

/-- `FullText::slice` (src/text.rs:59-67, 92-101); `none` = panic. -/
def fullSlice (text : Str) (a b : ETok) : Option Str := sliceBytes text a.start b.stop
/-- `FullText::slice_partial` (src/text.rs:82-90, 92-101); `none` = panic. -/
def fullSlicePartial (text : Str) (a b : ETok) : Option Str := sliceBytes text a.start b.start

end Ftml
