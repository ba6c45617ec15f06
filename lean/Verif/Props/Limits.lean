import Verif.Props.Conditional
/-
How deep quotations and lists can be in the text: examples at the limits (C71 covers the pages below them).
-/
namespace Ftml

/-- The text has this part. -/
def hasPart (p : Str) : Str → Bool
  | [] => p.isEmpty
  | c :: s => p.isPrefixOf (c :: s) || hasPart p s

/-- A quotation of thirty levels, and text behind thirty-one signs. -/
example : hasPart (List.replicate 30 c!"<blockquote>").flatten (htmlOf (List.replicate 30 '>' ++ c!" a")) = true ∧
    hasPart c!"<blockquote>" (htmlOf (List.replicate 31 '>' ++ c!" a")) = false := by decide +kernel

/-- A list of twenty more levels, and text behind twenty-one blanks. -/
example : hasPart (List.replicate 20 c!"<ul>").flatten (htmlOf (c!"* a\n" ++ List.replicate 20 ' ' ++ c!"* b")) = true ∧
    hasPart c!"<ul>" (htmlOf (List.replicate 20 ' ' ++ c!"* b")) = true ∧
    hasPart c!"<ul>" (htmlOf (List.replicate 21 ' ' ++ c!"* b")) = false := by decide +kernel

end Ftml
