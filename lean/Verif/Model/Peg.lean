import Verif.Model.Str
/-
A small deep embedding of the PEG expressions used by the pest grammars of the project, with pest's
semantics: ordered choice, greedy repetition without backtracking, look-ahead.
-/
namespace Ftml
open Ftml

/-- PEG expressions (the subset of pest used in `src/parsing/lexer.pest`). -/
inductive Peg where
  /-- string literal `"..."` -/
  | lit (s : Str)
  /-- one character of a class (`ANY` is the class of all characters) -/
  | cls (p : Char → Bool)
  /-- `a ~ b` -/
  | seq (a b : Peg)
  /-- `a | b` -/
  | alt (a b : Peg)
  /-- `a*` -/
  | star (a : Peg)
  /-- `!a` -/
  | notp (a : Peg)
  /-- `a?` -/
  | opt (a : Peg)
  /-- `a{0,n}` -/
  | upTo (n : Nat) (a : Peg)

/-- Greedy repetition of `f`, at most `n` times; stops at the first failure. A repeated expression that
matches the empty text would make pest loop for ever; no repeated expression of the grammar does. -/
def repeatUpTo (f : Str → Option (Str × Str)) : Nat → Str → Str × Str
  | 0, s => ([], s)
  | n + 1, s =>
    match f s with
    | none => ([], s)
    | some (m, r) => let (m', r') := repeatUpTo f n r; (m ++ m', r')

/-- Run a PEG expression: `some (matched, rest)` or failure. `a*` may repeat at most once per remaining
character since every iteration consumes at least one. -/
def Peg.run : Peg → Str → Option (Str × Str)
  | .lit p, s => (stripPfx p s).map fun r => (p, r)
  | .cls p, c :: s => if p c then some ([c], s) else none
  | .cls _, [] => none
  | .seq a b, s =>
    match a.run s with
    | none => none
    | some (m, r) =>
      match b.run r with
      | none => none
      | some (m', r') => some (m ++ m', r')
  | .alt a b, s =>
    match a.run s with
    | some x => some x
    | none => b.run s
  | .star a, s => some (repeatUpTo a.run s.length s)
  | .notp a, s => if (a.run s).isSome then none else some ([], s)
  | .opt a, s =>
    match a.run s with
    | some x => some x
    | none => some ([], s)
  | .upTo n a, s => some (repeatUpTo a.run n s)

/-- `ANY` -/
def Peg.any : Peg := .cls fun _ => true
/-- `a+` -/
def Peg.plus (a : Peg) : Peg := .seq a (.star a)
/-- `NEWLINE = "\n" | "\r\n" | "\r"` (pest built-in) -/
def Peg.newline : Peg := .alt (.lit ['\n']) (.alt (.lit ['\r', '\n']) (.lit ['\r']))

end Ftml
