/-
Strings of the model: a Rust `&str`/`String` is the list of its `char`s.
-/
namespace Ftml

/-- A Rust string (`&str`, `String`, `Cow<str>`): the list of its Unicode scalar values. -/
abbrev Str := List Char

open Lean in
/-- `c!"abc"` is the character list `['a', 'b', 'c']` (notation only). -/
macro:max "c!" s:str : term => do
  let cs := s.getString.toList.toArray.map fun c => (⟨(Syntax.mkCharLit c).raw⟩ : TSyntax `term)
  `([$cs,*])

/-- `str::len`: number of UTF-8 bytes (Rust `char::len_utf8`). -/
def utf8Size (c : Char) : Nat :=
  if c.toNat < 0x80 then 1 else if c.toNat < 0x800 then 2 else if c.toNat < 0x10000 then 3 else 4

/-- Rust `char::len_utf16`. -/
def utf16Size (c : Char) : Nat := if c.toNat < 0x10000 then 1 else 2

/-- Rust `str::len` (bytes). -/
def byteLen : Str → Nat
  | [] => 0
  | c :: s => utf8Size c + byteLen s

/-- Number of UTF-16 code units of a text. -/
def utf16Len : Str → Nat
  | [] => 0
  | c :: s => utf16Size c + utf16Len s

/-- Unicode `White_Space` (Rust `char::is_whitespace`, regex `\s`). -/
def isWS (c : Char) : Bool :=
  let n := c.toNat
  (9 ≤ n && n ≤ 13) || n == 0x20 || n == 0x85 || n == 0xA0 || n == 0x1680 ||
  (0x2000 ≤ n && n ≤ 0x200A) || n == 0x2028 || n == 0x2029 || n == 0x202F || n == 0x205F || n == 0x3000

/-- Rust `char::is_ascii_lowercase`. -/
def isLowerA (c : Char) : Bool := 97 ≤ c.toNat && c.toNat ≤ 122
/-- Rust `char::is_ascii_uppercase`. -/
def isUpperA (c : Char) : Bool := 65 ≤ c.toNat && c.toNat ≤ 90
/-- ASCII digit. -/
def isDigitA (c : Char) : Bool := 48 ≤ c.toNat && c.toNat ≤ 57
/-- ASCII letter. -/
def isAlphaA (c : Char) : Bool := isLowerA c || isUpperA c
/-- ASCII alphanumeric (pest `ASCII_ALPHANUMERIC`). -/
def isAlnumA (c : Char) : Bool := isAlphaA c || isDigitA c

/-- Rust `char::to_ascii_lowercase`. -/
def lowerC (c : Char) : Char := if isUpperA c then Char.ofNat (c.toNat + 32) else c
/-- Rust `str::to_ascii_lowercase` / `make_ascii_lowercase`. -/
def lowerA (s : Str) : Str := s.map lowerC
/-- Rust `str::eq_ignore_ascii_case`. -/
def eqIgnoreCase (a b : Str) : Bool := lowerA a == lowerA b

/-- Rust `str::strip_prefix` (string pattern). -/
def stripPfx : Str → Str → Option Str
  | [], s => some s
  | _ :: _, [] => none
  | p :: ps, c :: cs => if p = c then stripPfx ps cs else none

/-- Rust `str::starts_with` (string pattern). -/
def startsWith (s p : Str) : Bool := (stripPfx p s).isSome

/-- Rust `str::strip_suffix` (string pattern). -/
def stripSfx (p s : Str) : Option Str := (stripPfx p.reverse s.reverse).map List.reverse
/-- Rust `str::ends_with` (string pattern). -/
def endsWith (s p : Str) : Bool := (stripSfx p s).isSome

/-- Rust `str::trim_start`. -/
def trimStart (s : Str) : Str := s.dropWhile isWS
/-- Rust `str::trim_end`. -/
def trimEnd (s : Str) : Str := (s.reverse.dropWhile isWS).reverse
/-- Rust `str::trim`. -/
def trim (s : Str) : Str := trimEnd (trimStart s)

/-- Rust `str::split_once(c)`: text before and after the first `c`. -/
def splitOnce (c : Char) : Str → Option (Str × Str)
  | [] => none
  | x :: xs => if x = c then some ([], xs) else (splitOnce c xs).map fun (a, b) => (x :: a, b)

/-- Rust `str::split(c)` for a character pattern: always at least one piece. -/
def splitOn (c : Char) : Str → List Str
  | [] => [[]]
  | x :: xs =>
    if x = c then [] :: splitOn c xs
    else match splitOn c xs with
      | [] => [[x]]
      | p :: ps => (x :: p) :: ps

/-- Rust `[&str]::join(sep)`. -/
def joinWith (sep : Str) : List Str → Str
  | [] => []
  | [a] => a
  | a :: b :: rest => a ++ sep ++ joinWith sep (b :: rest)

/-- Rust `str::contains(&str)`. -/
def containsSub (p : Str) : Str → Bool
  | [] => p.isEmpty
  | c :: s => (stripPfx p (c :: s)).isSome || containsSub p s

/-- Rust `str::split_whitespace`. -/
def splitWS (s : Str) : List Str := go [] s
where
  /-- accumulator is the current (reversed) word -/
  go (acc : Str) : Str → List Str
    | [] => if acc.isEmpty then [] else [acc.reverse]
    | c :: cs =>
      if isWS c then (if acc.isEmpty then go [] cs else acc.reverse :: go [] cs)
      else go (c :: acc) cs

/-- Decimal digits of a number (Rust `Display` for unsigned integers). -/
def natToStr (n : Nat) : Str := (Nat.toDigits 10 n)

/-- Rust `&text[n..]`: `none` (panic) when the UTF-8 byte offset `n` is out of range or not on a
character boundary. -/
def dropBytes (n : Nat) : Str → Option Str
  | [] => if n = 0 then some [] else none
  | c :: s =>
    if n = 0 then some (c :: s)
    else if utf8Size c ≤ n then dropBytes (n - utf8Size c) s else none

/-- Rust `&text[..n]`: `none` (panic) when the UTF-8 byte offset `n` is out of range or not on a
character boundary. -/
def takeBytes (n : Nat) : Str → Option Str
  | [] => if n = 0 then some [] else none
  | c :: s =>
    if n = 0 then some []
    else if utf8Size c ≤ n then (takeBytes (n - utf8Size c) s).map (c :: ·) else none

/-- Rust slice `&text[a..b]`, `none` = panic. -/
def sliceBytes (s : Str) (a b : Nat) : Option Str :=
  if a ≤ b then (dropBytes a s).bind (takeBytes (b - a)) else none

end Ftml
