import Verif.Model.Str
/-
Model of `src/preproc/*`: the preprocessor run on wikitext before tokenization.
-/
namespace Ftml.Preproc
open Ftml

/-- A regular expression anchored at the current search position, together with its replacement.
Given the character before the position (`none` at the start of the text, needed for `^`) and the
text from the position on, it returns `(kept, out, rest)`: `kept` is matched text before the
replaced range, `out` is the replacement text, `rest` the text after the replaced range.
All the regexes of `src/preproc` match at least one character. -/
abbrev Matcher := Option Char → Str → Option (Str × Str × Str)

/-- `Regex::captures_at(text, offset)` (src/preproc/mod.rs:80, 107; src/preproc/whitespace.rs:113):
leftmost match starting at or after the offset; `prev` is the character before the offset.
Returns (text before the replaced range, replacement, text after the replaced range). -/
def search (m : Matcher) : Option Char → Str → Option (Str × Str × Str)
  | _, [] => none
  | prev, c :: s =>
    match m prev (c :: s) with
    | some r => some r
    | none =>
      match search m (some c) s with
      | some (pre, out, rest) => some (c :: pre, out, rest)
      | none => none

/-- `Replacer::replace` (src/preproc/mod.rs:64-130) and the loop of `replace_leading_spaces`
(src/preproc/whitespace.rs:108-125). The text is `done ++ rest` and the variable `offset` is
`done.len()`: after a replacement the offset is the end of the inserted text. The loop is unbounded in
the code, so it takes fuel here and `none` means that the fuel ran out (it is proved not to happen). -/
def replaceLoop (m : Matcher) : Nat → Str → Str → Option Str
  | 0, _, _ => none
  | fuel + 1, done, rest =>
    match search m done.getLast? rest with
    | none => some (done ++ rest)
    | some (pre, out, rest') => replaceLoop m fuel (done ++ pre ++ out) rest'

/-- One replacement pass over a whole text, starting at offset 0 (src/preproc/mod.rs:78, 105). -/
def replace (m : Matcher) (text : Str) : Option Str := replaceLoop m (text.length + 1) [] text

/-- `DOS_MAC_NEWLINES` `\r\n?` → `\n` (src/preproc/whitespace.rs:55-58). -/
def dosMac : Matcher
  | _, '\r' :: '\n' :: s => some ([], ['\n'], s)
  | _, '\r' :: s => some ([], ['\n'], s)
  | _, _ => none

/-- Is the position just after `prev` the start of a line (`^` in multi-line mode)? -/
def atLineStart : Option Char → Bool
  | none => true
  | some c => c = '\n'

/-- The non-standard spaces U+00A0 and U+2007 (src/preproc/whitespace.rs:35). -/
def isNonStd (c : Char) : Bool := c = '\u00a0' || c = '\u2007'

/-- `LEADING_NONSTANDARD_WHITESPACE` `^[\u00a0\u2007]+` (multi-line), each character replaced by one
space (src/preproc/whitespace.rs:34-39, 118-123). -/
def leadingNonStd : Matcher := fun prev s =>
  if atLineStart prev && !(s.takeWhile isNonStd).isEmpty then
    some ([], (s.takeWhile isNonStd).map (fun _ => ' '), s.dropWhile isNonStd)
  else none

/-- Longest prefix (at least one character) of the white-space run at the head of the text that is
followed by a newline or the end of the text; the greedy `\s+$` of multi-line mode. Returns the text
after the match. -/
def wsLine : Str → Option Str
  | [] => none
  | c :: s =>
    if isWS c then
      match wsLine s with
      | some r => some r
      | none =>
        match s with
        | [] => some []
        | d :: _ => if d = '\n' then some s else none
    else none

/-- `WHITESPACE_ONLY_LINE` `^\s+$` (multi-line) → "" (src/preproc/whitespace.rs:40-46). -/
def wsOnlyLine : Matcher := fun prev s =>
  if atLineStart prev then (wsLine s).map fun r => ([], [], r) else none

/-- `CONCAT_LINES` `\\\n` → "" (src/preproc/whitespace.rs:59-62). -/
def concatLines : Matcher
  | _, '\\' :: '\n' :: s => some ([], [], s)
  | _, _ => none

/-- `TABS` → four spaces (src/preproc/whitespace.rs:63-66). -/
def tabs : Matcher
  | _, '\t' :: s => some ([], [' ', ' ', ' ', ' '], s)
  | _, _ => none

/-- `NULL_SPACE` → one space (src/preproc/whitespace.rs:67-70). -/
def nullSpace : Matcher
  | _, '\x00' :: s => some ([], [' '], s)
  | _, _ => none

/-- `LEADING_NEWLINES` `^\n+` (start of text only) → "" (src/preproc/whitespace.rs:47-50). -/
def leadingNewlines : Matcher := fun prev s =>
  if prev.isNone && !(s.takeWhile (· = '\n')).isEmpty then some ([], [], s.dropWhile (· = '\n')) else none

/-- `TRAILING_NEWLINES` `\n+$` (end of text only) → "" (src/preproc/whitespace.rs:51-54). -/
def trailingNewlines : Matcher := fun _ s =>
  if !s.isEmpty && s.all (· = '\n') then some ([], [], []) else none


/-- `whitespace::substitute` (src/preproc/whitespace.rs:73-105). -/
def whitespaceSubst (text : Str) : Option Str := do
  let t ← replace dosMac text
  let t ← replace leadingNonStd t
  let t ← replace wsOnlyLine t
  let t ← replace concatLines t
  let t ← replace tabs t
  let t ← replace nullSpace t
  let t ← replace leadingNewlines t
  replace trailingNewlines t

/-- The lazy `(.*?)` followed by the closing string: shortest newline-free content before `close`
(`.` does not match `\n`). Returns content and the text after `close`. -/
def lazyTo (close : Str) : Str → Option (Str × Str)
  | [] => (stripPfx close []).map fun r => ([], r)
  | c :: s =>
    match stripPfx close (c :: s) with
    | some r => some ([], r)
    | none => if c = '\n' then none else (lazyTo close s).map fun (a, r) => (c :: a, r)

/-- A `RegexSurround` replacer `open(.*?)close` → `begin`content`end` (src/preproc/mod.rs:93-128). -/
def surround (op close : Str) (bgn fin : Char) : Matcher := fun _ s => do
  let r ← stripPfx op s
  let (content, rest) ← lazyTo close r
  some ([], bgn :: (content ++ [fin]), rest)

/-- `DOUBLE_QUOTES` (src/preproc/typography.rs:49-53). -/
def doubleQuotes : Matcher := surround ['`', '`'] ['\'', '\''] '\u201c' '\u201d'
/-- `LOW_DOUBLE_QUOTES` (src/preproc/typography.rs:56-60). -/
def lowDoubleQuotes : Matcher := surround [',', ','] ['\'', '\''] '\u201e' '\u201d'
/-- `SINGLE_QUOTES` (src/preproc/typography.rs:41-45). -/
def singleQuotes : Matcher := surround ['`'] ['\''] '\u2018' '\u2019'

/-- The `repl` group followed by its right context: three dots, or three dots separated by single
spaces, not followed by a dot. Returns the text after the dots (src/preproc/typography.rs:64). -/
def dots (s : Str) : Option Str :=
  match stripPfx ['.', '.', '.'] s with
  | some r => if r.head? = some '.' then none else some r
  | none =>
    match stripPfx ['.', ' ', '.', ' ', '.'] s with
    | some r => if r.head? = some '.' then none else some r
    | none => none

/-- `HORIZONTAL_ELLIPSIS` `(?:^|[^\.])(?<repl>(\.\.|\. \. )\.)(?:[^\.]|$)`; only the group `repl` is
replaced, so the preceding character is kept (src/preproc/typography.rs:63-66, src/preproc/mod.rs:82-87). -/
def ellipsis : Matcher := fun prev s =>
  match (if prev.isNone then dots s else none) with
  | some r => some ([], ['\u2026'], r)
  | none =>
    match s with
    | [] => none
    | c :: t => if c = '.' then none else (dots t).map fun r => ([c], ['\u2026'], r)

/-- `typography::substitute` (src/preproc/typography.rs:69-86). -/
def typographySubst (text : Str) : Option Str := do
  let t ← replace doubleQuotes text
  let t ← replace lowDoubleQuotes t
  let t ← replace singleQuotes t
  replace ellipsis t

/-- `preprocess` (src/preproc/mod.rs:144-149); `none` = does not terminate. -/
def preprocess (text : Str) : Option Str := (whitespaceSubst text).bind typographySubst

end Ftml.Preproc
