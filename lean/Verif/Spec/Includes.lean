import Verif.Model.Str
/-
Include blocks as they are written: a small language of include blocks and of texts with such blocks, used
to state what `include` does (C95).  Only strings are used here, no function of the model of the parser.
-/
namespace Ftml.Includes

/-- Blanks, tabs and line breaks. -/
def Blanks (s : Str) : Prop := ∀ c ∈ s, c = ' ' ∨ c = '\t' ∨ c = '\n'

/-- An argument `name = value` of an include block, with the blanks around the equals sign and those after
the pipe that follows it. -/
structure Argument where
  name : Str
  before : Str
  after : Str
  value : Str
  sep : Str

/-- The text of an argument. -/
def Argument.write (a : Argument) : Str := a.name ++ a.before ++ c!"=" ++ a.after ++ a.value

/-- Which arguments are meant: names are made of letters, digits, `-` and `_`; a value has no pipe, does not
start with a blank (the blanks after the equals sign do not belong to it) and does not contain the end of
the block. -/
structure Argument.Ok (a : Argument) : Prop where
  name : a.name ≠ [] ∧ ∀ c ∈ a.name, c.isAlphanum ∨ c = '-' ∨ c = '_'
  before : Blanks a.before
  after : Blanks a.after
  sep : Blanks a.sep
  value : ∃ c v, a.value = c :: v ∧ c ≠ ' ' ∧ c ≠ '\t' ∧ c ≠ '\n'
  pipe : '|' ∉ a.value
  ends : ¬ c!"]]\n" <:+: a.value ∧ ¬ c!"]]\r" <:+: a.value

/-- An include block: `[[include page | name = value | name = value ]]` with all the blanks. -/
structure Inc where
  lead : Str
  word : Str
  gap : Str
  page : Str
  gap2 : Str
  /-- the pipe after the page, with the blanks after it -/
  bar : Option Str
  args : List Argument
  /-- whether there is a pipe after the last argument -/
  closed : Bool

/-- The text of the arguments. -/
def writeArgs (closed : Bool) : List Argument → Str
  | [] => []
  | [a] => a.write ++ (if closed then c!"|" ++ a.sep else [])
  | a :: b :: as => a.write ++ c!"|" ++ a.sep ++ writeArgs closed (b :: as)

/-- The text of an include block. -/
def Inc.write (i : Inc) : Str :=
  c!"[[" ++ i.lead ++ i.word ++ i.gap ++ i.page ++ i.gap2 ++ (match i.bar with | some b => c!"|" ++ b | none => []) ++
    writeArgs i.closed i.args ++ c!"]]"

/-- Which blocks are meant: the word `include` in any letter case, a page without blanks, brackets and
pipes (and not just `:site:`), and a pipe or a blank between the page and the first argument. -/
structure Inc.Ok (i : Inc) : Prop where
  lead : Blanks i.lead
  word : i.word.map Char.toLower = c!"include"
  gap : Blanks i.gap ∧ i.gap ≠ []
  page : i.page ≠ [] ∧ ∀ c ∈ i.page, c ∉ c!" \t\n[]|"
  site : ¬ ∃ s, s ≠ [] ∧ ':' ∉ s ∧ i.page = c!":" ++ s ++ c!":"
  gap2 : Blanks i.gap2
  bar : ∀ b, i.bar = some b → Blanks b
  args : ∀ a ∈ i.args, a.Ok
  apart : i.args ≠ [] → i.bar = none → i.gap2 ≠ []
  /-- no line within the block starts with two brackets -/
  lines : ¬ c!"\n[[" <:+: i.write

/-- A text with include blocks, each with the text in front of it, and the rest of the text. -/
structure IncDoc where
  parts : List (Str × Inc)
  rest : Str

/-- The text. -/
def IncDoc.write (d : IncDoc) : Str := (d.parts.flatMap fun p => p.1 ++ p.2.write) ++ d.rest

/-- The text follows an include block: it starts with a line break. -/
def Follows (s : Str) : Prop := ∃ c r, s = c :: r ∧ (c = '\n' ∨ c = '\r')
/-- An include block can follow the text: it ends with a line break. -/
def Leads (s : Str) : Prop := ∃ r, s = r ++ c!"\n"
/-- The word `include` does not occur, in any letter case. -/
def NoWord (s : Str) : Prop := ¬ ∃ w, w <:+: s ∧ w.map Char.toLower = c!"include"

/-- Every block is alone on its lines, and there are no other ones. -/
structure IncDoc.Ok (d : IncDoc) : Prop where
  blocks : ∀ p ∈ d.parts, p.2.Ok
  texts : ∀ p ∈ d.parts, NoWord p.1
  first : ∀ p ps, d.parts = p :: ps → p.1 = [] ∨ Leads p.1
  others : ∀ p ps, d.parts = p :: ps → ∀ q ∈ ps, Follows q.1 ∧ Leads q.1
  last : NoWord d.rest ∧ (d.parts ≠ [] → d.rest = [] ∨ Follows d.rest)

end Ftml.Includes
