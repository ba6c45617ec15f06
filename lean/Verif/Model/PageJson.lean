import Verif.Model.Serde
/-
Model of the JSON form of page information (src/data/page_info.rs, src/data/score.rs), which the WebAssembly interface
reads from the object it is given (src/wasm/page_info.rs:49-53).

Simplifications: floating-point numbers (`f64`) are an arbitrary type `F` with the conversion from integers and the test
whether a number is finite; how digits are turned into floating-point numbers, in texts of JSON, is not modelled.
-/
namespace Ftml.PageJson
open Serde

/-- What is used of `f64`. -/
structure Floats (F : Type) where
  /-- `value as f64` -/
  ofInt : Int → F
  /-- neither infinite nor "not a number" -/
  finite : F → Bool

/-- `ScoreValue`, src/data/score.rs:28-33. -/
inductive Score (F : Type) where
  | integer (i : Int)
  | float (x : F)

/-- `ScoreValue::to_f64`, src/data/score.rs:35-43. -/
def Score.toF64 {F : Type} (o : Floats F) : Score F → F
  | .integer i => o.ofInt i
  | .float x => x

/-- A `PageInfo`, src/data/page_info.rs:24-64, with its score (the rest of the model leaves it out: nothing reads it). -/
structure PageData (F : Type) extends PageInfo where
  score : Score F

/-- Values in JSON with all numbers: integers (of at most 64 bits, with or without a sign) and others. -/
inductive Value (F : Type) where
  | int (i : Int)
  | real (x : F)
  | json (j : Json)

/-- `ScoreValue` in JSON: src/data/score.rs:28-29 (`untagged`); `serde_json` writes numbers that are not finite as null. -/
def writeScore {F : Type} (o : Floats F) : Score F → Value F
  | .integer i => .int i
  | .float x => if o.finite x then .real x else .json .null

/-- Reading a `ScoreValue`, src/data/score.rs:28-33: as an `i64` if it is one, else as an `f64`. -/
def readScore {F : Type} (o : Floats F) : Value F → Option (Score F)
  | .int i => some (if -2 ^ 63 ≤ i ∧ i < 2 ^ 63 then .integer i else .float (o.ofInt i))
  | .real x => some (.float x)
  | .json (.num n) => some (if n < 2 ^ 63 then .integer n else .float (o.ofInt n))
  | .json _ => none

/-- A field that must be there; one that is there twice is an error. -/
def oneField {F : Type} (l : List (Str × Value F)) (k : Str) : Option (Value F) :=
  match l.filter fun p => p.1 == k with
  | [p] => some p.2
  | _ => none

/-- A field of type `Option`, which may be missing. -/
def anyField {F : Type} (l : List (Str × Value F)) (k : Str) : Option (Value F) :=
  match l.filter fun p => p.1 == k with
  | [] => some (.json .null)
  | [p] => some p.2
  | _ => none

/-- A value without other numbers. -/
def plainValue {F : Type} : Value F → Option Json
  | .json j => some j
  | _ => none

/-- A `PageInfo` as the fields of an object: src/data/page_info.rs:25-26 (`rename_all = "kebab-case"`). -/
def writeInfo {F : Type} (o : Floats F) (p : PageData F) : List (Str × Value F) :=
  [(fieldName c!"page", .json (.str p.page)), (fieldName c!"category", .json (writeOpt p.category)),
   (fieldName c!"site", .json (.str p.site)), (fieldName c!"title", .json (.str p.title)),
   (fieldName c!"alt_title", .json (writeOpt p.altTitle)), (fieldName c!"score", writeScore o p.score),
   (fieldName c!"tags", .json (.arr (p.tags.map .str))), (fieldName c!"language", .json (.str p.language))]

/-- Reading a `PageInfo`, src/data/page_info.rs:25-64, from the fields of an object; other fields are ignored.  This is
what the constructor of the WebAssembly interface does (src/wasm/page_info.rs:49-53). -/
def readInfo {F : Type} (o : Floats F) (fs : List (Str × Value F)) : Option (PageData F) := do
  let page ← asStr (← plainValue (← oneField fs (fieldName c!"page")))
  let category ← asOpt asStr (← plainValue (← anyField fs (fieldName c!"category")))
  let site ← asStr (← plainValue (← oneField fs (fieldName c!"site")))
  let title ← asStr (← plainValue (← oneField fs (fieldName c!"title")))
  let altTitle ← asOpt asStr (← plainValue (← anyField fs (fieldName c!"alt_title")))
  let score ← readScore o (← oneField fs (fieldName c!"score"))
  let tags ← readAll asStr (← asArr (← plainValue (← oneField fs (fieldName c!"tags"))))
  let language ← asStr (← plainValue (← oneField fs (fieldName c!"language")))
  pure ⟨⟨page, category, site, title, altTitle, tags, language⟩, score⟩

end Ftml.PageJson
