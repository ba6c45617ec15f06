import Verif.Model.Str
/-
Model of `src/url.rs`, `src/id_prefix.rs` and of the external world the parser and renderer rely on.
-/
namespace Ftml

/-- Behaviour of the external crates the modelled code calls.  Every theorem quantifies over it, so
nothing about these crates is assumed unless a theorem says so explicitly. -/
structure Ext where
  /-- `wikidot_normalize::normalize` (in-place page name normaliser), called in `src/url.rs:117`. -/
  normalize : Str → Str
  /-- Whether a non-ASCII character matches the regex class `\w` (`src/url.rs:69`). -/
  isWordNonAscii : Char → Bool

/-- Regex class `\w`: exact on ASCII, external on other characters (`src/url.rs:69`). -/
def isWord (e : Ext) (c : Char) : Bool :=
  if c.toNat < 128 then isAlnumA c || c == '_' else e.isWordNonAscii c

/-- `URL_SCHEMES`, src/url.rs:29-49. -/
def urlSchemes : List Str :=
  [c!"blob:", c!"chrome-extension://", c!"chrome://", c!"content://", c!"dns:", c!"feed:",
   c!"file://", c!"ftp://", c!"git://", c!"gopher://", c!"http://", c!"https://", c!"irc6://",
   c!"irc://", c!"ircs://", c!"mailto:", c!"resource://", c!"rtmp://", c!"sftp://"]

/-- `is_url`, src/url.rs:51-60. -/
def isUrl (url : Str) : Bool := urlSchemes.any fun p => startsWith url p

/-- `dangerous_scheme`, src/url.rs:68-84.  The regex `^[\w\-]+$` is "non-empty and all characters
in the class" (Rust's `$` without the `m` flag only matches at the very end). -/
def dangerousScheme (e : Ext) (url : Str) : Bool :=
  match splitOnce ':' url with
  | none => false
  | some (scheme, _) =>
    if !(!scheme.isEmpty && scheme.all fun c => isWord e c || c == '-') then true
    else eqIgnoreCase scheme c!"javascript" || eqIgnoreCase scheme c!"data"

/-- `normalize_href`, src/url.rs:104-125.  `url.splitn(2, "#")` is `splitOnce`; after the insertion
on line 114 `split_url` always has an element 1, so `split_url[1]` does not panic: the `match`
enumerates the three shapes of `split("/")`. -/
def normalizeHref (e : Ext) (url : Str) : Str :=
  if isUrl url || startsWith url c!"#" || url == c!"javascript:;" then url
  else if dangerousScheme e url then c!"#invalid-url"
  else
    let (path, anchor) := match splitOnce '#' url with
      | some (a, b) => (a, some b)
      | none => (url, none)
    let parts := splitOn '/' path
    let parts := match parts with
      | [] => [[]]
      | p0 :: rest => if !p0.isEmpty || (p0.isEmpty && rest.isEmpty) then [] :: p0 :: rest else p0 :: rest
    let parts := match parts with
      | p0 :: p1 :: rest => p0 :: e.normalize p1 :: rest
      | other => other
    let out := joinWith c!"/" parts
    match anchor with
    | some a => out ++ c!"#" ++ a
    | none => out

/-- `isolate_ids`, src/id_prefix.rs:29-48: the `for` loop over `split_whitespace` with its
accumulator string. -/
def isolateIds (s : Str) : Str :=
  (splitWS s).foldl (fun acc cls =>
    let acc := if acc.isEmpty then acc else acc ++ c!" "
    let acc := if startsWith cls c!"u-" then acc else acc ++ c!"u-"
    acc ++ cls) []

end Ftml
