import Verif.Model.Data
import Verif.Model.Peg
/-
Model of `src/includes`: `include()`, the include block grammar and variable substitution.
-/
namespace Ftml.Includes
open Ftml

/-- `IncludeRef`, src/includes/include_ref.rs:28-33; `variables` is a hash map with unique keys. -/
structure IncludeRef where
  pageRef : PageRef
  variables : List (Str × Str)
deriving DecidableEq

/-- `FetchedPage`, src/includes/includer/mod.rs:40-45. -/
structure Fetched where
  pageRef : PageRef
  content : Option Str
deriving DecidableEq

/-- The `Includer` trait, src/includes/includer/mod.rs:48-62: user code with mutable state `σ` and
error type `E`. -/
structure Includer (σ E : Type) where
  includePages : σ → List IncludeRef → Except E (List Fetched) × σ
  noSuchInclude : σ → PageRef → Except E Str × σ

/-- Outcome of `include()`. -/
inductive Res (E : Type) where
  | ok (text : Str) (pages : List PageRef)
  | err (e : E)
  | panic
deriving DecidableEq

/-- Rust `String::replace_range(a..b, with)`: `none` = panic (range out of bounds or not on character
boundaries). -/
def replaceRange (s : Str) (a b : Nat) (w : Str) : Option Str :=
  if a ≤ b then
    match takeBytes a s, dropBytes b s with
    | some p, some q => some (p ++ w ++ q)
    | _, _ => none
  else none

/-! ### src/includes/grammar.pest -/

/-- `^"include"`: ASCII case-insensitive literal. -/
def stripCI : Str → Str → Option Str
  | [], s => some s
  | _ :: _, [] => none
  | p :: ps, c :: cs => if lowerC c = p then stripCI ps cs else none

/-- `space`, grammar.pest:81: at least one of blank, newline, tab; returns the rest. -/
def isSpace (c : Char) : Bool := c == ' ' || c == '\n' || c == '\t'
/-- `space` -/
def space (s : Str) : Option Str :=
  match s with
  | c :: r => if isSpace c then some (r.dropWhile isSpace) else none
  | [] => none
/-- `space?` -/
def spaceOpt (s : Str) : Str := s.dropWhile isSpace

/-- `include_end`, grammar.pest:56-58: `"]]"` followed by a line break or the end (not consumed). -/
def includeEnd (s : Str) : Option Str :=
  match stripPfx c!"]]" s with
  | none => none
  | some r => match r with
    | [] => some r
    | c :: _ => if c = '\n' ∨ c = '\r' then some r else none

/-- `value`, grammar.pest:66-68: everything up to `include_end` or a pipe; at least one character. -/
def valueLoop : Str → Str × Str
  | [] => ([], [])
  | c :: s =>
    if (includeEnd (c :: s)).isSome || c == '|' then ([], c :: s)
    else let (v, r) := valueLoop s; (c :: v, r)
/-- `value` -/
def value (s : Str) : Option (Str × Str) :=
  let (v, r) := valueLoop s
  if v.isEmpty then none else some (v, r)

/-- Character of `identifier`, grammar.pest:80. -/
def isIdent (c : Char) : Bool := isAlnumA c || c == '-' || c == '_'

/-- `argument`, grammar.pest:60-64: key, value, rest. -/
def argument (s : Str) : Option (Str × Str × Str) :=
  let key := s.takeWhile isIdent
  let r := s.dropWhile isIdent
  if key.isEmpty then none
  else match stripPfx c!"=" (spaceOpt r) with
    | none => none
    | some r => (value (spaceOpt r)).map fun (v, r) => (key, v, r)

/-- `(argument ~ space? ~ "|" ~ space?)*`, grammar.pest:40; fuel: every turn consumes a character. -/
def argsLoop : Nat → Str → List (Str × Str) × Str
  | 0, s => ([], s)
  | n+1, s =>
    match argument s with
    | none => ([], s)
    | some (k, v, r) =>
      match stripPfx c!"|" (spaceOpt r) with
      | none => ([], s)
      | some r => let (as, r') := argsLoop n (spaceOpt r); ((k, v) :: as, r')

/-- `("|")?` -/
def pipeOpt (s : Str) : Str := (stripPfx c!"|" s).getD s

/-- Character of `site_name`, grammar.pest:75. -/
def isSite (c : Char) : Bool := !(isSpace c || c == '[' || c == '|' || c == ']' || c == ':')
/-- Character of `page_name`, grammar.pest:76. -/
def isPage (c : Char) : Bool := !(isSpace c || c == '[' || c == '|' || c == ']')

/-- `page_ref`, grammar.pest:72-74: matched text and rest.  The optional `":" site ":"` is tried first;
`page_name` must match at least one character. -/
def pageRef (s : Str) : Option (Str × Str) :=
  let (pre, r) := match s with
    | ':' :: t =>
      let site := t.takeWhile isSite
      match t.dropWhile isSite with
      | ':' :: u => if site.isEmpty then ([], s) else (':' :: site ++ [':'], u)
      | _ => ([], s)
    | _ => ([], s)
  let page := r.takeWhile isPage
  if page.isEmpty then none else some (pre ++ page, r.dropWhile isPage)

/-- `include_normal`, grammar.pest:35-43 (`include_compatibility`, 46-54, matches the same texts):
page text, arguments in order, rest of the text after `"]]"`. -/
def block (s : Str) : Option (Str × List (Str × Str) × Str) := do
  let s ← stripPfx c!"[[" s
  let s ← stripCI c!"include" (spaceOpt s)
  let s ← space s
  let (page, s) ← pageRef s
  let s := spaceOpt s
  let s := match stripPfx c!"|" s with
    | some s => spaceOpt s
    | none => s
  let (args, s) := argsLoop s.length s
  let (args, s) := match argument s with
    | some (k, v, r) => (args ++ [(k, v)], pipeOpt (spaceOpt r))
    | none => (args, s)
  let s ← includeEnd (spaceOpt s)
  pure (page, args, s)

/-- The argument loop of `process_pairs`, src/includes/parse.rs:93-136: the first value of a key wins,
self references `{$key}` are skipped. -/
def processArgs (args : List (Str × Str)) : List (Str × Str) :=
  args.foldl (fun m (k, v) =>
    if !(m.any fun p => p.1 == k) && v != c!"{$" ++ k ++ c!"}" then m ++ [(k, v)] else m) []

/-- `parse_include_block`, src/includes/parse.rs:51-82, on the text starting at the match:
the include and the number of bytes of the block. -/
def parseBlock (s : Str) : Option (IncludeRef × Nat) :=
  match block s with
  | none => none
  | some (page, args, rest) =>
    (PageRef.parse page).map fun r => (⟨r, processArgs args⟩, byteLen s - byteLen rest)

/-! ### src/includes/mod.rs -/

/-- Number of characters matched by `INCLUDE_REGEX` (mod.rs:45-52, without the `^`) at the start of the
text. -/
def regexLen (s : Str) : Option Nat :=
  match stripPfx c!"[[" s with
  | none => none
  | some a => match stripCI c!"include" (a.dropWhile isWS) with
    | none => none
    | some b =>
      match b with
      | [] => none
      | c :: _ => if isWS c then some (s.length - (b.dropWhile isWS).length) else none

/-- `INCLUDE_REGEX.find_iter`: byte offset and remaining text of each match. `bol` says whether the
position is at the start of a line, `skip` is the number of characters of the current match still
to pass over. -/
def findIter : Bool → Nat → Nat → Str → List (Nat × Str)
  | _, _, _, [] => []
  | _, skip + 1, off, c :: s => findIter (c == '\n') skip (off + utf8Size c) s
  | bol, 0, off, c :: s =>
    match (if bol then regexLen (c :: s) else none) with
    | some n => (off, c :: s) :: findIter (c == '\n') (n - 1) (off + utf8Size c) s
    | none => findIter (c == '\n') 0 (off + utf8Size c) s

/-- The collection loop, mod.rs:85-101: ranges and includes. -/
def collect (input : Str) : List ((Nat × Nat) × IncludeRef) :=
  (findIter true 0 0 input).filterMap fun (start, rest) =>
    (parseBlock rest).map fun (inc, len) => ((start, start + len), inc)

/-- Character of a variable name, mod.rs:54. -/
def isVarChar (c : Char) : Bool := isAlnumA c || c == '_' || c == '-'

/-- `VARIABLE_REGEX` (mod.rs:53-54) at the start of the text: the name. -/
def varAt (s : Str) : Option Str :=
  match s with
  | '{' :: '$' :: r =>
    let name := r.takeWhile isVarChar
    if name.isEmpty then none
    else match r.dropWhile isVarChar with
      | '}' :: _ => some name
      | _ => none
  | _ => none

/-- `VARIABLE_REGEX.captures_iter` with the lookup of mod.rs:173-180: values and byte ranges. -/
def varMatches (vars : List (Str × Str)) : Nat → Nat → Str → List (Str × Nat × Nat)
  | _, _, [] => []
  | skip + 1, off, c :: s => varMatches vars skip (off + utf8Size c) s
  | 0, off, c :: s =>
    match varAt (c :: s) with
    | some name =>
      let rest := varMatches vars (name.length + 2) (off + utf8Size c) s
      match assocGet vars name with
      | some v => (v, off, off + byteLen name + 3) :: rest
      | none => rest
    | none => varMatches vars 0 (off + utf8Size c) s

/-- `replace_variables`, mod.rs:169-188; `none` = panic in `replace_range`. -/
def replaceVariables (vars : List (Str × Str)) (content : Str) : Option Str :=
  (varMatches vars 0 0 content).reverse.foldl (fun s (v, a, b) => s.bind fun s => replaceRange s a b v)
    (some content)

/-- The replacement loop, mod.rs:127-157, over the reversed list of (range, include, fetched page);
`pages` accumulates in loop order. -/
def spliceLoop {σ E : Type} (I : Includer σ E) (invalid : E) :
    σ → List (((Nat × Nat) × IncludeRef) × Fetched) → Str → List PageRef → Res E
  | _, [], out, pages => .ok out pages.reverse
  | st, (((a, b), inc), f) :: rest, out, pages =>
    if inc.pageRef ≠ f.pageRef then .err invalid
    else
      match f.content with
      | some content =>
        match replaceVariables inc.variables content with
        | none => .panic
        | some w =>
          match replaceRange out a b w with
          | none => .panic
          | some out => spliceLoop I invalid st rest out (pages ++ [inc.pageRef])
      | none =>
        match I.noSuchInclude st inc.pageRef with
        | (.error e, _) => .err e
        | (.ok w, st) =>
          match replaceRange out a b w with
          | none => .panic
          | some out => spliceLoop I invalid st rest out (pages ++ [inc.pageRef])

/-- `include`, mod.rs:58-164; `enabled` is `settings.enable_page_syntax`, `invalid` the value of
`invalid_return()`. -/
def runInclude {σ E : Type} (enabled : Bool) (I : Includer σ E) (invalid : E) (st : σ) (input : Str) : Res E :=
  if !enabled then .ok input []
  else
    let found := collect input
    match I.includePages st (found.map (·.2)) with
    | (.error e, _) => .err e
    | (.ok fetched, st) =>
      if found.length ≠ fetched.length then .err invalid
      else spliceLoop I invalid st (found.zip fetched).reverse input []

end Ftml.Includes
