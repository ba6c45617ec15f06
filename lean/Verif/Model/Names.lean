import Verif.Model.Data
import Verif.Model.Html
/-!
Model of the conversions of small values from and to texts: `src/layout.rs`, `src/tree/link.rs`, `src/tree/heading.rs`.
(Those of alignments are in `Data`.)
-/
namespace Ftml

/-- `Layout::value`, src/layout.rs:36-42. -/
def Layout.value : Layout → Str
  | .wikidot => c!"wikidot"
  | .wikijump => c!"wikijump"

/-- `Layout::from_str`, src/layout.rs:61-73. -/
def Layout.ofStr (s : Str) : Option Layout :=
  if eqIgnoreCase s c!"wikidot" then some .wikidot
  else if eqIgnoreCase s c!"wikijump" then some .wikijump
  else none

/-- `LinkType::try_from`, src/tree/link.rs:275-288. -/
def LinkType.ofStr (s : Str) : Option LinkType :=
  if s == c!"direct" then some .direct
  else if s == c!"page" then some .page
  else if s == c!"interwiki" then some .interwiki
  else if s == c!"anchor" then some .anchor
  else if s == c!"table-of-contents" then some .toc
  else none

/-- `HeadingLevel::prefix`, src/tree/heading.rs:102-111. -/
def headingPrefix : Nat → Option Str
  | 1 => some c!"+"
  | 2 => some c!"++"
  | 3 => some c!"+++"
  | 4 => some c!"++++"
  | 5 => some c!"+++++"
  | 6 => some c!"++++++"
  | _ => none

end Ftml
