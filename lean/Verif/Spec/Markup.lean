import Verif.Spec.Doc
/-
A small document language with its source text and its meaning: what a writer of the markup types, and
the elements a reader of the documentation expects for it.  Nothing here refers to tokens or rules.
-/
namespace Ftml.Markup

/-- Unformatted pieces of a line: a word of letters and digits, one other character, blanks. -/
inductive Plain where
  | word (s : Str)
  | char (c : Char)
  | blanks (n : Nat)
deriving DecidableEq, Repr

/-- The source text of a piece; `blanks n` is `n + 1` blanks. -/
def Plain.str : Plain → Str
  | .word s => s
  | .char c => [c]
  | .blanks n => List.replicate (n + 1) ' '

/-- The styles with paired markers. -/
inductive Style where
  | bold | italics | underline | superscript | subscript | monospace | strikethrough | struck
deriving DecidableEq, Repr

/-- The opening marker. -/
def Style.opening : Style → Str
  | .bold => c!"**"
  | .italics => c!"//"
  | .underline => c!"__"
  | .superscript => c!"^^"
  | .subscript => c!",,"
  | .monospace => c!"{{"
  | .strikethrough => c!"--"
  | .struck => c!"~~"

/-- The closing marker. -/
def Style.closing : Style → Str
  | .monospace => c!"}}"
  | s => s.opening

/-- The container a style stands for. -/
def Style.container : Style → CType
  | .bold => .bold
  | .italics => .italics
  | .underline => .underline
  | .superscript => .superscript
  | .subscript => .subscript
  | .monospace => .monospace
  | .strikethrough | .struck => .strikethrough

/-- What the meaning of some markup depends on besides its text. -/
structure Ctx where
  settings : Settings
  world : World
  info : PageInfo

/-- The text of some plain pieces. -/
def plainText (ps : List Plain) : Str := (ps.map Plain.str).flatten

/-! ### Raw text and comments -/

/-- The symbols of the markup that may stand in raw text and comments, where they mean nothing. -/
def idleMarks : List Str :=
  [c!"**", c!"//", c!"__", c!"^^", c!",,", c!"{{", c!"}}", c!"##", c!"--", c!"~~", c!"[!--", c!"[[", c!"[[*", c!"[[/", c!"[[#",
   c!"[[$", c!"$]]", c!"[[[", c!"[[[*", c!"]]]", c!"]]", c!"[", c!"[#", c!"[*", c!"((", c!"))"]

/-- Pieces of raw text and of comments. -/
inductive Sign where
  | plain (p : Plain)
  /-- a symbol of the markup -/
  | mark (s : Str)
  /-- an address -/
  | url (s : Str)
  /-- `{$name}` -/
  | var (name : Str)
  /-- a text in double quotes, with what needs to be escaped in it -/
  | quoted (s : Str)

/-- The source text of a piece. -/
def Sign.str : Sign → Str
  | .plain p => p.str
  | .mark s => s
  | .url s => s
  | .var name => c!"{$" ++ name ++ c!"}"
  | .quoted s => quote s

/-- The text of some pieces. -/
def signText (ss : List Sign) : Str := (ss.map Sign.str).flatten

/-! ### Blocks in a line -/

/-- An argument ` key="value"` of a block, `gap + 1` blanks before it. -/
structure Arg where
  gap : Nat
  key : List Plain
  value : Str

/-- The name of an argument. -/
abbrev Arg.name (a : Arg) : Str := plainText a.key

/-- The source text of an argument. -/
def Arg.pieces (a : Arg) : List Str :=
  List.replicate (a.gap + 1) ' ' :: (a.key.map Plain.str ++ [c!"=", quote a.value])

/-- The argument is called so, in whatever case. -/
def Arg.called (a : Arg) (key : Str) : Bool := lowerA a.name == key

/-- The value of an option: the last one counts. -/
def optionOf (args : List Arg) (key : Str) : Option Str := (args.filter (·.called key)).getLast?.map Arg.value

/-- The attribute an argument stands for, if any: those that are not allowed are dropped, and so are flags that are
false; flags that are true have no value, addresses are normalised (C12), and ids are prefixed if the settings ask for
it (C13).  `data-` and `aria-` must be in small letters. -/
def attrOf (cx : Ctx) (name value : Str) : Option (Str × Str) :=
  let key := lowerA name
  if safeAttributes.contains key || startsWith name c!"data-" || startsWith name c!"aria-" then
    if booleanAttributes.contains key then
      match parseBoolean value with
      | some true => some (key, [])
      | some false => none
      | none => some (key, value)
    else if urlAttributes.contains key then some (key, normalizeHref cx.world.toExt value)
    else if key = c!"id" ∧ cx.settings.isolateUserIds then some (key, isolateIds value)
    else some (key, value)
  else none

/-- Insert a name into a list in alphabetical order, unless it is there. -/
def insertName (k : Str) : List Str → List Str
  | [] => [k]
  | k' :: ks => if k = k' then k' :: ks else if strLt k k' then k :: k' :: ks else k' :: insertName k ks

/-- The names of the arguments in small letters and alphabetical order. -/
def argNames (args : List Arg) : List Str := args.foldr (fun a ks => insertName (lowerA a.name) ks) []

/-- The attributes some arguments stand for.  Of several with the same name the last value counts, and the first
spelling. -/
def attrsOf (cx : Ctx) (args : List Arg) : AttrMap :=
  (argNames args).filterMap fun k =>
    match args.find? (·.called k), optionOf args k with
    | some a, some v => attrOf cx a.name v
    | _, _ => none

/-- Blocks that wrap their contents in a container, by name. -/
def containerNames : List (Str × CType) :=
  [(c!"b", .bold), (c!"bold", .bold), (c!"strong", .bold), (c!"i", .italics), (c!"italics", .italics),
   (c!"em", .italics), (c!"emphasis", .italics), (c!"u", .underline), (c!"underline", .underline),
   (c!"s", .strikethrough), (c!"strikethrough", .strikethrough), (c!"tt", .monospace), (c!"mono", .monospace),
   (c!"monospace", .monospace), (c!"sub", .subscript), (c!"subscript", .subscript), (c!"sup", .superscript),
   (c!"super", .superscript), (c!"superscript", .superscript), (c!"del", .deletion), (c!"deletion", .deletion),
   (c!"ins", .insertion), (c!"insertion", .insertion), (c!"mark", .mark), (c!"highlight", .mark),
   (c!"span", .span), (c!"hidden", .hidden), (c!"invisible", .invisible)]

/-- The container of a name, in capitals or not. -/
def containerOf (name : Str) : Option CType := containerNames.lookup (lowerA name)

/-- A block around the contents. -/
inductive Wrap where
  /-- `[[name arguments]]…[[/close]]` -/
  | box (name : Str) (args : List Arg) (close : Str)
  /-- `[[a arguments]]…[[/a]]`, or `[[*a …]]` for a new tab -/
  | anchor (newTab : Bool) (name : Str) (args : List Arg) (close : Str)
  /-- `[[size value]]…[[/size]]` -/
  | size (name : Str) (value : List Plain) (close : Str)

/-- The source text of the start. -/
def Wrap.opening : Wrap → List Str
  | .box name args _ => c!"[[" :: name :: (args.flatMap Arg.pieces ++ [c!"]]"])
  | .anchor newTab name args _ => (if newTab then c!"[[*" else c!"[[") :: name :: (args.flatMap Arg.pieces ++ [c!"]]"])
  | .size name value _ => c!"[[" :: name :: c!" " :: (value.map Plain.str ++ [c!"]]"])

/-- The name at the end. -/
def Wrap.close : Wrap → Str
  | .box _ _ close | .anchor _ _ _ close | .size _ _ close => close

/-- The source text of the end. -/
def Wrap.closing (w : Wrap) : List Str := [c!"[[/", w.close, c!"]]"]

/-- What it stands for. -/
def Wrap.kind (cx : Ctx) : Wrap → Kind
  | .box name args _ => .container ((containerOf name).getD .span) (attrsOf cx args)
  | .anchor newTab _ args _ => .anchor (if newTab then some .newTab else none) (attrsOf cx args)
  | .size _ value _ => .container .size [(c!"style", c!"font-size: " ++ plainText value ++ c!";")]

/-! ### Marks in a line -/

/-- The address of a link: of a page elsewhere, or of this site, starting with `/`. -/
inductive Address where
  | web (url : Str)
  | path (more : List Plain)

/-- Its text, cut into symbols. -/
def Address.pieces : Address → List Str
  | .web url => [url]
  | .path more => c!"/" :: more.map Plain.str

/-- Its text. -/
def Address.str (a : Address) : Str := a.pieces.flatten

/-- Where a link leads: to a page, maybe of another site and in a category, and maybe to a part of it
(`#part`, `/option`), or to an address. -/
inductive Dest where
  | page (site category : Option (List Plain)) (name more : List Plain)
  | address (a : Address)

/-- `:site:`. -/
def sitePieces : Option (List Plain) → List Str
  | some s => c!":" :: (s.map Plain.str ++ [c!":"])
  | none => []

/-- `category:`. -/
def categoryPieces : Option (List Plain) → List Str
  | some s => s.map Plain.str ++ [c!":"]
  | none => []

/-- Its text, cut into symbols. -/
def Dest.pieces : Dest → List Str
  | .page site category name more =>
    sitePieces site ++ (categoryPieces category ++ (name.map Plain.str ++ more.map Plain.str))
  | .address a => a.pieces

/-- The page with its category. -/
def pageName (category : Option (List Plain)) (name : List Plain) : Str :=
  match category with
  | some c => plainText c ++ ':' :: plainText name
  | none => plainText name

/-- Where it leads. -/
def Dest.loc : Dest → LinkLoc
  | .page site category name _ => .page ⟨site.map plainText, pageName category name⟩
  | .address a => .url a.str

/-- The part of the page. -/
def Dest.extra : Dest → Option Str
  | .page _ _ _ (m :: more) => some (plainText (m :: more))
  | _ => none

/-- Links to pages and addresses. -/
def Dest.type : Dest → LinkType
  | .page .. => .page
  | .address _ => .direct

/-- What a link without a label shows, if it is not simply the page or the address: neither the site nor the
category are shown.  (The part of the page then is.  An address is taken to have a category, too:
`[[[https://example.com]]]` shows `//example.com`.) -/
def Dest.shown : Dest → Option Str
  | .page none none _ _ => none
  | .page _ _ name more => some (plainText name ++ plainText more)
  | .address a => if ':' ∈ a.str then some (trimStart ((a.str.dropWhile (· != ':')).drop 1)) else none

/-- The picture of an image: at an address, or a file of this page, of a page (`page/file`) or of a page of
another site (`site/page/file`). -/
inductive Picture where
  | web (url : Str)
  | own (file : List Plain)
  | ofPage (name file : List Plain)
  | ofSite (host name file : List Plain)

/-- Its text, cut into symbols. -/
def Picture.pieces : Picture → List Str
  | .web url => [url]
  | .own file => file.map Plain.str
  | .ofPage name file => name.map Plain.str ++ c!"/" :: file.map Plain.str
  | .ofSite host name file => host.map Plain.str ++ c!"/" :: (name.map Plain.str ++ c!"/" :: file.map Plain.str)

/-- Its text. -/
def Picture.str (p : Picture) : Str := p.pieces.flatten

/-- What it stands for. -/
def Picture.source : Picture → ImageSource
  | .web url => .url url
  | .own file => .file1 (plainText file)
  | .ofPage name file => .file2 (plainText name) (plainText file)
  | .ofSite host name file => .file3 (plainText host) (plainText name) (plainText file)

/-- Where an image stands: `=`, `<`, `>`, or floating, `f<`, `f>`. -/
def imageSides : List (FloatAlign × List Plain) :=
  [(⟨.center, false⟩, [.char '=']), (⟨.left, false⟩, [.char '<']), (⟨.right, false⟩, [.char '>']),
   (⟨.left, true⟩, [.word c!"f", .char '<']), (⟨.right, true⟩, [.word c!"f", .char '>'])]

/-- The mark for it. -/
def imageMark : Option FloatAlign → List Plain
  | some side => (imageSides.lookup side).getD []
  | none => []

/-- The argument is where an image leads, in capitals or not. -/
def Arg.isLink (a : Arg) : Bool := lowerA a.name == c!"link"

/-- Marks without contents. -/
inductive Leaf where
  /-- `[[user name]]`, or `[[*user name]]` with an avatar -/
  | user (avatar : Bool) (block : Str) (name : List Plain)
  /-- `((bibcite label))` -/
  | cite (mark : Str) (label : List Plain)
  /-- `[[bibcite label]]` -/
  | citeBlock (block : Str) (label : List Plain)
  /-- `[[# name]]` -/
  | target (name : List Plain)
  /-- `[[$ formula $]]` -/
  | math (source : List Plain)
  /-- `[[[page]]]`, `[[[page|label]]]`, or with `[[[*` for a new tab -/
  | link (newTab : Bool) (dest : Dest) (label : Option (List Plain))
  /-- `[address label]`, or `[*address label]` for a new tab -/
  | address (newTab : Bool) (a : Address) (gap : Nat) (label : List Plain)
  /-- `[#name label]` -/
  | jump (name : List Plain) (gap : Nat) (label : List Plain)
  /-- an address in the text -/
  | url (s : Str)
  /-- `{$name}` -/
  | var (name : Str)
  /-- `[[image picture arguments]]`, `[[f<image picture arguments]]` -/
  | image (side : Option FloatAlign) (block : Str) (picture : Picture) (args : List Arg)
  /-- `[[checkbox arguments]]`, or `[[*checkbox arguments]]` for a checked one; the blanks after it belong to it -/
  | checkbox (checked : Bool) (block : Str) (args : List Arg) (gap : Nat)
  /-- `[[radio group arguments]]`, or `[[*radio group arguments]]` for a chosen one; the blanks after it belong to it -/
  | radio (checked : Bool) (block : Str) (group : Str) (args : List Arg) (gap : Nat)

/-- The label of a link in three brackets. -/
def labelPieces : Option (List Plain) → List Str
  | some l => c!"|" :: l.map Plain.str
  | none => []

/-- The source text, cut into symbols. -/
def Leaf.pieces : Leaf → List Str
  | .user avatar block name =>
    (if avatar then c!"[[*" else c!"[[") :: block :: c!" " :: (name.map Plain.str ++ [c!"]]"])
  | .cite mark label => c!"((" :: mark :: c!" " :: (label.map Plain.str ++ [c!"))"])
  | .citeBlock block label => c!"[[" :: block :: c!" " :: (label.map Plain.str ++ [c!"]]"])
  | .target name => c!"[[#" :: c!" " :: (name.map Plain.str ++ [c!"]]"])
  | .math source => c!"[[$" :: (source.map Plain.str ++ [c!"$]]"])
  | .link newTab dest label =>
    (if newTab then c!"[[[*" else c!"[[[") :: (dest.pieces ++ (labelPieces label ++ [c!"]]]"]))
  | .address newTab a gap label =>
    (if newTab then c!"[*" else c!"[") ::
      (a.pieces ++ List.replicate (gap + 1) ' ' :: (label.map Plain.str ++ [c!"]"]))
  | .jump name gap label =>
    c!"[#" :: (name.map Plain.str ++ List.replicate (gap + 1) ' ' :: (label.map Plain.str ++ [c!"]"]))
  | .url s => [s]
  | .var name => [c!"{$" ++ name ++ c!"}"]
  | .image side block picture args =>
    c!"[[" :: ((imageMark side).map Plain.str ++ block :: c!" " :: (picture.pieces ++ (args.flatMap Arg.pieces ++ [c!"]]"])))
  | .checkbox checked block args gap =>
    (if checked then c!"[[*" else c!"[[") :: block :: (args.flatMap Arg.pieces ++ [c!"]]", List.replicate (gap + 1) ' '])
  | .radio checked block group args gap =>
    (if checked then c!"[[*" else c!"[[") :: block :: c!" " :: group ::
      (args.flatMap Arg.pieces ++ [c!"]]", List.replicate (gap + 1) ' '])

/-- The new tab. -/
def tabOf (newTab : Bool) : Option AnchorTarget := if newTab then some .newTab else none

/-- What it stands for. -/
def Leaf.kind (cx : Ctx) : Leaf → Kind
  | .user avatar _ name => .user (trim (plainText name)) avatar
  | .cite _ label => .bibCite (plainText label) false
  | .citeBlock _ label => .bibCite (trim (plainText label)) true
  | .target name => .anchorName (if cx.settings.isolateUserIds then isolateIds (plainText name) else plainText name)
  | .math source => .mathInline (trim (plainText source))
  | .link newTab dest label => .link dest.type dest.loc dest.extra
      (match label with | some l => .text (trim (plainText l)) | none => .url dest.shown) (tabOf newTab)
  | .address newTab a _ label => .link .direct (.url a.str) none (.text (trim (plainText label))) (tabOf newTab)
  | .jump name _ label => .link .anchor
      (.url (if name.isEmpty then c!"javascript:;" else '#' :: cx.world.normalize (plainText name))) none
      (.text (trim (plainText label))) none
  | .url s => .link .direct (.url s) none (.url none) none
  | .var name => .variable name
  | .image side _ picture args => .image picture.source ((optionOf args c!"link").map .url) side
      (attrsOf cx (args.filter fun a => !a.isLink))
  | .checkbox checked _ args _ => .checkBox checked (attrsOf cx args)
  | .radio checked _ group args _ => .radioButton group checked (attrsOf cx args)

/-- The text it shows. -/
def Leaf.text : Leaf → Str
  | .user _ _ name => trim (plainText name)
  | .cite .. | .citeBlock .. | .target _ | .math _ | .image .. | .checkbox .. | .radio .. => []
  | .link _ _ (some l) => trim (plainText l)
  | .link _ dest none => match dest.shown with
    | some s => s
    | none => match dest.loc with
      | .page r => r.page
      | .url u => u
  | .address _ _ _ label | .jump _ _ label => trim (plainText label)
  | .url s => s
  | .var name => c!"{$" ++ name ++ c!"}"

/-- Inline markup. -/
inductive Inline where
  /-- unformatted text -/
  | plain (p : Plain)
  /-- a line break -/
  | newline
  /-- `**body**` and the like -/
  | styled (s : Style) (body : List Inline)
  /-- `##name|body##` -/
  | color (name : List Plain) (body : List Inline)
  /-- `@@body@@` -/
  | raw (body : List Sign)
  /-- `[!--body--]` -/
  | comment (body : List Sign)
  /-- `[[span]]body[[/span]]` and the like -/
  | wrap (w : Wrap) (body : List Inline)
  /-- links and other marks -/
  | leaf (l : Leaf)
  /-- `[[footnote]]body[[/footnote]]` -/
  | note (name : Str) (body : List Inline) (close : Str)

/-- The source text, cut into symbols. -/
def Inline.pieces : Inline → List Str
  | .plain p => [p.str]
  | .newline => [c!"\n"]
  | .styled s body => s.opening :: (go body ++ [s.closing])
  | .color name body => c!"##" :: (name.map Plain.str ++ c!"|" :: (go body ++ [c!"##"]))
  | .raw body => c!"@@" :: (body.map Sign.str ++ [c!"@@"])
  | .comment body => c!"[!--" :: (body.map Sign.str ++ [c!"--]"])
  | .wrap w body => w.opening ++ (go body ++ w.closing)
  | .leaf l => l.pieces
  | .note name body close => c!"[[" :: name :: c!"]]" :: (go body ++ [c!"[[/", close, c!"]]"])
where
  /-- of a sequence -/
  go : List Inline → List Str
    | [] => []
    | i :: is => i.pieces ++ go is

/-- Three or six hexadecimal digits need a `#` in CSS. -/
def colorValue (name : Str) : Str :=
  if (name.length = 3 ∨ name.length = 6) ∧ ∀ c ∈ name, c ∈ c!"0123456789abcdefABCDEF" then '#' :: name else name

/-- The meaning of inline markup. -/
def Inline.elems (cx : Ctx) : Inline → List Elem
  | .plain p => [.mk (.text p.str) []]
  | .newline => [.mk .lineBreak []]
  | .styled s body => [.mk (.container s.container []) (go body)]
  | .color name body => [.mk (.color (colorValue (plainText name))) (go body)]
  | .raw body => [.mk (.raw (signText body)) []]
  | .comment _ => []
  | .wrap w body => [.mk (w.kind cx) (go body)]
  | .leaf l => [.mk (l.kind cx) []]
  | .note .. => [.mk .footnote []]
where
  /-- of a sequence -/
  go : List Inline → List Elem
    | [] => []
    | i :: is => i.elems cx ++ go is

/-- The footnotes, in order. -/
def Inline.notes : Inline → List (List Inline)
  | .styled _ body | .color _ body | .wrap _ body => go body
  | .note _ body _ => [body]
  | _ => []
where
  /-- of a sequence -/
  go : List Inline → List (List Inline)
    | [] => []
    | i :: is => i.notes ++ go is

/-- The contents of a footnote: line breaks at the start do not count. -/
def noteElems (cx : Ctx) (body : List Inline) : List Elem :=
  (Inline.elems.go cx body).dropWhile fun e => match e with | .mk .lineBreak _ => true | _ => false

/-- How deeply constructs are nested. -/
def Inline.height : Inline → Nat
  | .styled _ body => go body + 1
  | .color _ body => go body + 1
  | .wrap _ body => go body + 1
  | .note _ body _ => go body + 1
  | _ => 1
where
  /-- of a sequence -/
  go : List Inline → Nat
    | [] => 0
    | i :: is => max i.height (go is)

/-! ### Which sources are meant -/

/-- Characters that mean something at the start of a line only. -/
def lineChars : Str := c!":=+>*#"

/-- A plain piece: words consist of ASCII letters and digits; other characters exclude blanks, line ends
and the four characters that can start something by themselves. -/
def Plain.ok : Plain → Bool
  | .word s => !s.isEmpty && s.all isAlnumA
  | .char c => !isAlnumA c && !(c!" \t\n\r[_\"").contains c
  | .blanks _ => true

/-- Characters that, doubled, are another symbol (`--`) or the same one (two blanks). -/
def doubling : Str := c!"@>-](*/^,#{}|~<+) \n_"

/-- Whether a symbol followed by a character is still that symbol: words and blanks do not go on, a
character is not doubled (`--`), and a few other pairs are symbols of their own. -/
def apart (p : Str) (next : Char) : Bool :=
  match p with
  | [] => false
  | [c] =>
    if isAlnumA c then !isAlnumA next
    else !(next == c && doubling.contains c) &&
      !([('@', '<'), ('>', '@'), ('$', ']'), ('{', '$'), ('+', '*'), (' ', '\t'), ('\n', '\r'),
        ('[', '['), ('[', '#'), ('[', '*'), ('[', '!')].contains (c, next))
  | c :: _ =>
    if p.getLast? = some '\n' then next != '\n' && next != '\r'
    else if isAlnumA c then
      if p.all isAlnumA then !isAlnumA next && !([c!"http", c!"https", c!"ftp"].contains p && next == ':')
      else (c!"\n |[]").contains next
    else if c == ' ' then next != ' ' && next != '\t'
    else if c == '+' || c == '>' then next == ' '
    else if p = c!"--" then next != '-' && next != ']'
    else if c == '-' && p != c!"--]" then next != '-'
    else if c == '~' && p != c!"~~" then p.getLast? != some '~' || !(c!"~<>").contains next
    else if p = c!"~~" then next != '~'
    else if p = c!"[[" then !(c!"[$#*/").contains next
    else if p = c!"]]" || p = c!"]]]" then next != ']'
    else if p = c!"[[[" then next != '[' && next != '*'
    else if p = c!"||" then !(c!"~<>=").contains next
    else true

/-- Neighbouring symbols do not run together. -/
def separate : List Str → Bool
  | [] => true
  | p :: rest => (match rest with | (c :: _) :: _ => apart p c | _ => true) && separate rest

/-- The symbol is one of those characters. -/
def isLineChar : Str → Bool
  | [c] => lineChars.contains c
  | _ => false

/-- The symbols start with a block. -/
def startsBlock : List Str → Bool
  | p :: _ => p = c!"[[" || p = c!"[[*"
  | [] => false

/-- No line starts (after blanks) with one of the characters that mean something there, and no line but the
first with a block; the flag says whether the current line has already begun. -/
def linesOk : Bool → List Str → Bool
  | _, [] => true
  | begun, p :: rest =>
    if p = c!"\n" then !startsBlock rest && linesOk false rest
    else if p.all (· == ' ') then linesOk begun rest
    else (begun || !isLineChar p) && linesOk true rest

/-- The piece is blanks. -/
def Inline.isBlank : Inline → Bool
  | .plain (.blanks _) => true
  | _ => false

/-- Contents that fit between an opening and a closing marker: no member starts with the closing marker,
no blank stands right before it, and nothing starts with the opening marker and a blank. -/
def bodyOk (opening closing : Str) (body : List Inline) : Bool :=
  body.all (fun i => i.pieces.head? != some closing &&
    !(match i.pieces with | a :: b :: _ => a == opening && b.head? == some ' ' | _ => false)) &&
  !(match body.getLast? with | some i => i.isBlank | none => false)

/-- The name of an argument consists of words and dashes, and its value is on one line. -/
def Arg.ok (a : Arg) : Bool :=
  a.key.all (fun p => p.ok && (match p with | .word _ => true | .char c => c == '-' | .blanks _ => false)) &&
    !a.key.isEmpty && !a.value.contains '\n' && !a.value.contains '\r'

/-- Different entries. -/
def distinct : List Str → Bool
  | [] => true
  | a :: rest => !rest.contains a && distinct rest

/-- Well-formed starts and ends: both names belong to the same block. -/
def Wrap.ok : Wrap → Bool
  | .box name args close => (Plain.word name).ok && (Plain.word close).ok && args.all Arg.ok &&
      (containerOf name).isSome && containerOf name == containerOf close
  | .anchor _ name args close => [c!"a", c!"anchor"].contains (lowerA name) && [c!"a", c!"anchor"].contains (lowerA close) &&
      args.all Arg.ok
  | .size name value close => lowerA name == c!"size" && lowerA close == c!"size" && value.all Plain.ok &&
      !value.isEmpty && !(value.head?.any fun p => match p with | .blanks _ => true | _ => false)

/-- The piece is blanks. -/
def Plain.isBlank : Plain → Bool
  | .blanks _ => true
  | _ => false

/-- Pieces other than these characters. -/
def without (cs : Str) (ps : List Plain) : Bool :=
  ps.all fun p => p.ok && match p with | .char c => !cs.contains c | _ => true

/-- Pieces other than blanks and these characters. -/
def solid (cs : Str) (ps : List Plain) : Bool := without cs ps && ps.all fun p => !p.isBlank

/-- Something besides white space. -/
def hasText (ps : List Plain) : Bool := !(trim (plainText ps)).isEmpty

/-- A value of a block. -/
def valueOk (ps : List Plain) : Bool := ps.all Plain.ok && !ps.isEmpty && !ps.head?.any Plain.isBlank

/-- An address elsewhere: a scheme, and what follows up to a blank, a bar or a bracket. -/
def urlOk (s : Str) : Bool :=
  [c!"http://", c!"https://", c!"ftp://"].any fun p => startsWith s p && p.length < s.length &&
    s.all fun c => !(c!"\n\r |[]").contains c

/-- Well-formed addresses. -/
def Address.ok : Address → Bool
  | .web url => urlOk url
  | .path more => solid c!"]|" more

/-- A part of the name of a page. -/
def partOk (ps : List Plain) : Bool := without c!"/#:|" ps && !ps.isEmpty && trim (plainText ps) == plainText ps

/-- Well-formed destinations. -/
def Dest.ok : Dest → Bool
  | .page site category name more => site.all partOk && category.all partOk && partOk name && without c!":|" more &&
      (more.isEmpty || more.head? == some (.char '/') || more.head? == some (.char '#')) &&
      trim (plainText more) == plainText more &&
      !(pageName category name).head? == some '!' && !isUrl (pageName category name ++ plainText more)
  | .address a => a.ok && trim a.str == a.str

/-- A part of the path of a file. -/
def fileOk (ps : List Plain) : Bool := solid c!"/" ps && !ps.isEmpty

/-- Well-formed pictures. -/
def Picture.ok (p : Picture) : Bool :=
  trim p.str == p.str &&
  match p with
  | .web url => urlOk url
  | .own file => fileOk file && !isUrl p.str
  | .ofPage name file => fileOk name && fileOk file && !isUrl p.str
  | .ofSite host name file => fileOk host && fileOk name && fileOk file && !isUrl p.str

/-- Well-formed marks. -/
def Leaf.ok : Leaf → Bool
  | .user _ block name => lowerA block == c!"user" && valueOk name
  | .cite mark label => (Plain.word mark).ok && lowerA mark == c!"bibcite" && solid [] label && !label.isEmpty
  | .citeBlock block label => lowerA block == c!"bibcite" && valueOk label
  | .target name => solid [] name && !name.isEmpty
  | .math source => source.all Plain.ok && !source.isEmpty
  | .link _ dest label => dest.ok && label.all (fun l => l.all Plain.ok && hasText l)
  | .address _ a _ label => a.ok && without c!"]" label && hasText label
  | .jump name _ label => solid c!"]" name && without c!"]" label && hasText label
  | .url s => urlOk s
  | .var name => (Plain.word name).ok
  | .image side block picture args => side.all (fun s => imageSides.any (·.1 == s)) && lowerA block == c!"image" &&
      picture.ok && args.all Arg.ok &&
      (optionOf args c!"link").all (fun v => isUrl v || v.head? == some '/' || v.head? == some '#')
  | .checkbox _ block args _ => lowerA block == c!"checkbox" && args.all Arg.ok
  | .radio _ block group args _ => lowerA block == c!"radio" && (Plain.word group).ok && args.all Arg.ok

/-- It is a line break. -/
def Inline.isNewline : Inline → Bool
  | .newline => true
  | _ => false

/-- Line breaks right inside a block that stands on lines of its own do not count. -/
def Wrap.skipsBreaks : Wrap → Bool
  | .box name _ _ => [some CType.hidden, some .invisible].contains (containerOf name)
  | _ => false

/-- A start without arguments: blanks after it get lost. -/
def Wrap.bare : Wrap → Bool
  | .box _ args _ | .anchor _ _ args _ => args.isEmpty
  | .size .. => false

/-- Well-formed pieces of raw text and comments. -/
def Sign.ok : Sign → Bool
  | .plain p => p.ok
  | .mark s => idleMarks.contains s
  | .url s => urlOk s
  | .var name => (Plain.word name).ok
  | .quoted s => !s.contains '\n' && !s.contains '\r'

/-- Well-formed inline markup.  Footnotes are not nested. -/
def Inline.ok : Inline → Bool
  | .plain p => p.ok
  | .newline => true
  | .styled s body => go body && bodyOk s.opening s.closing body
  | .color name body => name.all (fun p => p.ok && p != .char '|') && go body &&
      body.all (fun i => i.pieces.head? != some c!"##")
  | .raw body => body.all Sign.ok && !body.isEmpty
  | .comment body => body.all Sign.ok
  | .wrap w body => w.ok && go body && !(w.bare && body.head?.any Inline.isBlank) &&
      !(w.skipsBreaks && (body.head?.any Inline.isNewline || body.getLast?.any Inline.isNewline))
  | .leaf l => l.ok
  | .note name body close => lowerA name == c!"footnote" && lowerA close == c!"footnote" && go body &&
      (Inline.notes.go body).isEmpty && !body.head?.any Inline.isBlank && !body.getLast?.any Inline.isNewline
where
  /-- of a sequence -/
  go : List Inline → Bool
    | [] => true
    | i :: is => i.ok && go is

/-! ### Pages -/

/-- Text that cannot be seen: blanks, and line ends. -/
def unseen (s : Str) : Str := s.map fun c => if c = '\n' then c else ' '

/-- The text shown for the contents of a block. -/
def Wrap.text (w : Wrap) (body : Str) : Str :=
  match w with
  | .box name _ _ => match containerOf name with
    | some .hidden => []
    | some .invisible => unseen body
    | _ => body
  | _ => body

/-- The text of inline markup, without its formatting. -/
def Inline.text : Inline → Str
  | .plain p => p.str
  | .newline => c!"\n"
  | .styled _ body => go body
  | .color _ body => go body
  | .raw body => signText body
  | .comment _ => []
  | .wrap w body => w.text (go body)
  | .leaf l => l.text
  | .note .. => []
where
  /-- of a sequence -/
  go : List Inline → Str
    | [] => []
    | i :: is => i.text ++ go is

/-- Lines, grouped and nested: lines of a list with nested lists of some kind, lines of a quote with
nested quotes. -/
inductive Outline (K : Type) where
  /-- a line -/
  | line (body : List Inline)
  /-- a nested group of the kind -/
  | nested (kind : K) (items : List (Outline K))

/-- The lines in order, each with its depth and the kind of the group it is in. -/
def Outline.lines {K : Type} (depth : Nat) (kind : K) : Outline K → List (Nat × K × List Inline)
  | .line body => [(depth, kind, body)]
  | .nested k items => go (depth + 1) k items
where
  /-- of a sequence -/
  go (depth : Nat) (kind : K) : List (Outline K) → List (Nat × K × List Inline)
    | [] => []
    | i :: is => i.lines depth kind ++ go depth kind is

/-- It is a line. -/
def Outline.isLine {K : Type} : Outline K → Bool
  | .line _ => true
  | .nested .. => false

/-- How a group may start: with a line, or (quotes) with a group. -/
def startOk {K : Type} (startNested : Bool) : List (Outline K) → Bool
  | [] => false
  | i :: _ => startNested || i.isLine

/-- Two neighbouring groups are told apart: they are of different kinds and the second starts with a
line. -/
def partedOk {K : Type} [DecidableEq K] : Outline K → List (Outline K) → Bool
  | .nested k _, .nested k' items :: _ => k != k' && startOk false items
  | _, _ => true

/-- Well-formed groups. -/
def Outline.ok {K : Type} [DecidableEq K] (startNested : Bool) : Outline K → Bool
  | .line _ => true
  | .nested _ items => startOk startNested items && go items
where
  /-- of a sequence -/
  go : List (Outline K) → Bool
    | [] => true
    | i :: is => i.ok startNested && partedOk i is && go is

/-- Kinds of lists. -/
inductive ListKind where
  | bullet | numbered
deriving DecidableEq, Repr

/-- The mark of an item. -/
def ListKind.mark : ListKind → Str
  | .bullet => c!"*"
  | .numbered => c!"#"

/-- The type of list it stands for. -/
def ListKind.type : ListKind → ListType
  | .bullet => .bullet
  | .numbered => .numbered

/-! ### Boxes around blocks -/

/-- Boxes that contain paragraphs and other blocks. -/
inductive Section where
  /-- `[[div arguments]]`, `[[blockquote arguments]]` -/
  | box (name : Str) (args : List Arg) (close : Str)
  /-- `[[=]]`, `[[==]]`, `[[<]]`, `[[>]]` -/
  | align (side : Alignment)
  /-- `[[collapsible arguments]]` -/
  | collapsible (name : Str) (args : List Arg) (close : Str)
  /-- `[[tabview]]`, `[[tabs]]`: there are tabs in it, and nothing else -/
  | tabs (name close : Str)
  /-- `[[tab label]]` -/
  | tab (name : Str) (label : List Plain) (close : Str)

/-- A tab view. -/
def Section.isTabs : Section → Bool
  | .tabs .. => true
  | _ => false

/-- A tab. -/
def Section.isTab : Section → Bool
  | .tab .. => true
  | _ => false

/-- Boxes, by name. -/
def boxNames : List (Str × CType) := [(c!"div", .div), (c!"blockquote", .blockquote), (c!"quote", .blockquote)]

/-- The box of a name, in capitals or not. -/
def boxOf (name : Str) : Option CType := boxNames.lookup (lowerA name)

/-- The marks of alignments. -/
def alignMark : Alignment → List Plain
  | .left => [.char '<']
  | .right => [.char '>']
  | .center => [.char '=']
  | .justify => [.char '=', .char '=']

/-- Arguments of collapsible boxes that are not attributes. -/
def collapsibleOptions : List Str := [c!"show", c!"hide", c!"folded", c!"hidelocation"]

/-- Whether the argument is one of them, in capitals or not. -/
def Arg.isOption (a : Arg) : Bool := collapsibleOptions.contains (lowerA a.name)

/-- Whether the box starts open: `folded="no"`. -/
def startsOpen (args : List Arg) : Bool :=
  (optionOf args c!"folded").any fun v => [c!"false", c!"f", c!"0", c!"no"].contains (lowerA (trim v))

/-- Whether the line to hide it is at the top, and whether at the bottom. -/
def hidePlace (args : List Arg) : Bool × Bool :=
  match (optionOf args c!"hidelocation").map fun v => lowerA (trim v) with
  | some v => (v == c!"top" || v == c!"both", v == c!"bottom" || v == c!"both")
  | none => (true, false)

/-- The source text of the start. -/
def Section.opening : Section → List Str
  | .box name args _ | .collapsible name args _ => c!"[[" :: name :: (args.flatMap Arg.pieces ++ [c!"]]"])
  | .align side => c!"[[" :: ((alignMark side).map Plain.str ++ [c!"]]"])
  | .tabs name _ => [c!"[[", name, c!"]]"]
  | .tab name label _ => c!"[[" :: name :: c!" " :: (label.map Plain.str ++ [c!"]]"])

/-- The source text of the end. -/
def Section.closing : Section → List Str
  | .box _ _ close | .collapsible _ _ close | .tabs _ close | .tab _ _ close => [c!"[[/", close, c!"]]"]
  | .align side => c!"[[/" :: ((alignMark side).map Plain.str ++ [c!"]]"])

/-- What it stands for. -/
def Section.kind (cx : Ctx) : Section → Kind
  | .box name args _ => .container ((boxOf name).getD .div) (attrsOf cx args)
  | .align side => .container (.align side) []
  | .collapsible _ args _ => .collapsible (attrsOf cx (args.filter fun a => !a.isOption)) (startsOpen args)
      (optionOf args c!"show") (optionOf args c!"hide") (hidePlace args).1 (hidePlace args).2
  | .tabs .. => .tabView
  | .tab _ label _ => .tab (plainText label)

/-- Well-formed boxes. -/
def Section.ok : Section → Bool
  | .box name args close => (Plain.word name).ok && (Plain.word close).ok && args.all Arg.ok &&
      (boxOf name).isSome && boxOf name == boxOf close
  | .align _ => true
  | .collapsible name args close => lowerA name == c!"collapsible" && lowerA close == c!"collapsible" &&
      args.all Arg.ok &&
      (optionOf args c!"folded").all (fun v =>
        [c!"true", c!"false", c!"t", c!"f", c!"1", c!"0", c!"yes", c!"no"].contains (lowerA (trim v))) &&
      (optionOf args c!"hidelocation").all (fun v =>
        [c!"top", c!"bottom", c!"both", c!"neither", c!"none"].contains (lowerA (trim v)))
  | .tabs name close => [c!"tabview", c!"tabs"].contains (lowerA name) && [c!"tabview", c!"tabs"].contains (lowerA close)
  | .tab name label close => lowerA name == c!"tab" && lowerA close == c!"tab" && valueOk label

/-! ### Blocks whose contents are not markup -/

/-- Blocks whose contents are taken as they are. -/
inductive Foreign where
  /-- `[[code arguments]]` -/
  | code (name : Str) (args : List Arg) (close : Str)
  /-- `[[html]]` -/
  | html (name close : Str)
  /-- `[[math]]`, `[[math label]]` -/
  | math (name : Str) (label : Option (List Plain)) (close : Str)

/-- The source text of the start. -/
def Foreign.opening : Foreign → List Str
  | .code name args _ => c!"[[" :: name :: (args.flatMap Arg.pieces ++ [c!"]]"])
  | .html name _ | .math name none _ => [c!"[[", name, c!"]]"]
  | .math name (some label) _ => c!"[[" :: name :: c!" " :: (label.map Plain.str ++ [c!"]]"])

/-- The source text of the end. -/
def Foreign.closing : Foreign → List Str
  | .code _ _ close | .html _ close | .math _ _ close => [c!"[[/", close, c!"]]"]

/-- The contents, on lines of their own. -/
def textPieces (text : Str) : List Str := if text = [] then [] else [text ++ c!"\n"]

/-- What it stands for. -/
def Foreign.kind (text : Str) : Foreign → Kind
  | .code _ args _ => .code text ((optionOf args c!"type").map lowerA)
  | .html .. => .html text
  | .math _ label _ => .math (label.map fun l => trim (plainText l)) (trim text)

/-- The contents: no end of a block, no empty line at the end.  (Nor is there one at the start, since the
symbols of a page do not run together.) -/
def textOk (text : Str) : Bool :=
  !containsSub c!"[[/" text && text.getLast?.all (fun c => c != '\n' && c != '\r')

/-- Well-formed blocks with other contents than markup. -/
def Foreign.ok (text : Str) : Foreign → Bool
  | .code name args close => lowerA name == c!"code" && lowerA close == c!"code" && args.all Arg.ok
  | .html name close => lowerA name == c!"html" && lowerA close == c!"html"
  | .math name label close => lowerA name == c!"math" && lowerA close == c!"math" && label.all valueOk && !(trim text).isEmpty

/-! ### Blocks without contents -/

/-- Blocks without contents, on a line of their own. -/
inductive Gadget where
  /-- `[[toc arguments]]`, `[[f<toc arguments]]`, `[[f>toc arguments]]` -/
  | contents (side : Option FloatAlign) (name : Str) (args : List Arg)
  /-- `[[iframe address arguments]]` -/
  | frame (name url : Str) (args : List Arg)
  /-- `[[embed youtube arguments]]`, `[[embed vimeo arguments]]` -/
  | video (name host : Str) (args : List Arg)
  /-- `[[module which arguments]]` -/
  | module (name which : Str) (args : List Arg)

/-- The source text. -/
def Gadget.pieces : Gadget → List Str
  | .contents side name args => c!"[[" :: ((imageMark side).map Plain.str ++ name :: (args.flatMap Arg.pieces ++ [c!"]]"]))
  | .frame name arg args | .video name arg args | .module name arg args =>
    c!"[[" :: name :: c!" " :: arg :: (args.flatMap Arg.pieces ++ [c!"]]"])

/-- The argument has this name, in capitals or not. -/
def Arg.isCalled (k : Str) (a : Arg) : Bool := lowerA a.name == k

/-- Whether a switch is on. -/
def switchedOn (args : List Arg) (k : Str) : Bool :=
  (optionOf args k).any fun v => [c!"true", c!"t", c!"1", c!"yes"].contains (lowerA (trim v))

/-- What stands after `+`, or the whole. -/
def unsigned : Str → Str
  | '+' :: r => r
  | s => s

/-- A positive number below 2^32, written in decimal digits, with `+` before it or not. -/
def positiveOf (s : Str) : Option Nat :=
  let digits := unsigned s
  if !digits.isEmpty && digits.all (fun c => '0' ≤ c && c ≤ '9') then
    let n := digits.foldl (fun n c => 10 * n + (c.toNat - 48)) 0
    if 0 < n ∧ n < 2 ^ 32 then some n else none
  else none

/-- The module of a name, in capitals or not. -/
def moduleOf (cx : Ctx) (which : Str) (args : List Arg) : Option Module :=
  [(c!"backlinks", Module.backlinks (optionOf args c!"page")),
   (c!"categories", .categories (switchedOn args c!"includehidden")),
   (c!"join", .join (optionOf args c!"button") (attrsOf cx (args.filter fun a => !a.isCalled c!"button"))),
   (c!"pagetree", .pageTree (optionOf args c!"root") (switchedOn args c!"showroot") ((optionOf args c!"depth").bind positiveOf)),
   (c!"rate", .rate)].lookup (lowerA which)

/-- The video. -/
def videoOf (host id : Str) : Embed := if lowerA host = c!"youtube" then .youtube id else .vimeo id

/-- What it stands for. -/
def Gadget.kind (cx : Ctx) : Gadget → Kind
  | .contents side _ args => .toc (attrsOf cx args) (side.map (·.align))
  | .frame _ url args => .iframe (attrsOf cx args) url
  | .video _ host args => .embed (videoOf host ((optionOf args c!"video").getD []))
  | .module _ which args => .module ((moduleOf cx which args).getD .rate)

/-- A switch that is given is on or off. -/
def switchOk (args : List Arg) (k : Str) : Bool :=
  (optionOf args k).all fun v =>
    [c!"true", c!"false", c!"t", c!"f", c!"1", c!"0", c!"yes", c!"no"].contains (lowerA (trim v))

/-- Well-formed blocks without contents. -/
def Gadget.ok : Gadget → Bool
  | .contents side name args => (side == none || side == some ⟨.left, true⟩ || side == some ⟨.right, true⟩) &&
      lowerA name == c!"toc" && args.all Arg.ok
  | .frame name url args => lowerA name == c!"iframe" && urlOk url && trim url == url && args.all Arg.ok
  | .video name host args => lowerA name == c!"embed" && [c!"youtube", c!"vimeo"].contains (lowerA host) && args.all Arg.ok &&
      (optionOf args c!"video").isSome
  | .module name which args => [c!"module", c!"module654"].contains (lowerA name) &&
      [c!"backlinks", c!"categories", c!"join", c!"pagetree", c!"rate"].contains (lowerA which) && args.all Arg.ok &&
      (lowerA which != c!"categories" || switchOk args c!"includehidden") &&
      (lowerA which != c!"pagetree" || (switchOk args c!"showroot" && (optionOf args c!"depth").all fun v => (positiveOf v).isSome))

/-- Those that are about the page. -/
def Gadget.isPage : Gadget → Bool
  | .contents .. | .module .. => true
  | _ => false

/-! ### Tables and definitions -/

/-- How a cell starts: `||`, `||~`, `||<`, `||=` or `||>`. -/
inductive CellKind where
  | plain | title | left | center | right
deriving DecidableEq, Repr

/-- The mark. -/
def CellKind.mark : CellKind → Str
  | .plain => c!"||"
  | .title => c!"||~"
  | .left => c!"||<"
  | .center => c!"||="
  | .right => c!"||>"

/-- The alignment it stands for. -/
def CellKind.align : CellKind → Option Alignment
  | .left => some .left
  | .center => some .center
  | .right => some .right
  | _ => none

/-- A cell of a table, with blanks before and after its contents; further `||` before it make it span as many
columns more. -/
structure Cell where
  more : Nat
  kind : CellKind
  before : Nat
  body : List Inline
  after : Nat

/-- Blanks, if any. -/
def blanksOf (n : Nat) : List Str := if n = 0 then [] else [List.replicate n ' ']

/-- The source text of a cell, cut into symbols. -/
def Cell.pieces (c : Cell) : List Str :=
  List.replicate c.more c!"||" ++ c.kind.mark :: (blanksOf c.before ++ (Inline.pieces.go c.body ++ blanksOf c.after))

/-- A row of a table. -/
def rowLine (cells : List Cell) : List Str := cells.flatMap Cell.pieces ++ [c!"||"]

/-- It is a comment. -/
def Inline.isComment : Inline → Bool
  | .comment _ => true
  | _ => false

/-- Well-formed cells: their contents are on one line and neither start (after comments) nor end with blanks.
A plain cell has something in it, blanks at least. -/
def Cell.ok (c : Cell) : Bool :=
  Inline.ok.go c.body && (Inline.pieces.go c.body).all (· != c!"\n") &&
  !(c.body.dropWhile Inline.isComment).head?.any Inline.isBlank && !c.body.getLast?.any Inline.isBlank &&
  !(c.kind == .plain && c.before == 0 && c.body.isEmpty && c.after == 0)

/-- What it stands for. -/
def Cell.elem (cx : Ctx) (c : Cell) : Elem :=
  .mk (.cell (c.kind == .title) (c.more + 1) c.kind.align []) (Inline.elems.go cx c.body)

/-- How deeply the contents of cells are nested. -/
def cellsHeight : List Cell → Nat
  | [] => 0
  | c :: cs => max (Inline.height.go c.body) (cellsHeight cs)

/-- The lines of a list of definitions: `: key : value`. -/
def definitionLine : List Inline × List Inline → List Str
  | (key, value) => c!":" :: c!" " :: (Inline.pieces.go key ++ c!" " :: c!":" :: c!" " :: Inline.pieces.go value)

/-- Text that consists of white space. -/
def Inline.isWhite : Inline → Bool
  | .plain p => p.str.all isWS
  | _ => false

/-- Apart from comments, contents that neither start nor end with white space. -/
def edgesOk (body : List Inline) : Bool :=
  let shown := body.filter fun i => !i.isComment
  !shown.head?.any Inline.isWhite && !shown.getLast?.any Inline.isWhite

/-- A blank and a colon next to each other. -/
def hasColon : List Inline → Bool
  | .plain (.blanks _) :: .plain (.char c) :: is => c == ':' || hasColon is
  | _ :: is => hasColon is
  | [] => false

/-- Well-formed definitions: both parts are on one line; the key is not empty and does not contain a colon after a
blank. -/
def definitionOk : List Inline × List Inline → Bool
  | (key, value) => Inline.ok.go key && Inline.ok.go value &&
      (Inline.pieces.go key).all (· != c!"\n") && (Inline.pieces.go value).all (· != c!"\n") &&
      edgesOk key && edgesOk value && !key.isEmpty && !hasColon key

/-- What a definition stands for. -/
def definitionElem (cx : Ctx) : List Inline × List Inline → Elem
  | (key, value) => .mk (.defItem (trim (Inline.pieces.go key).flatten))
      [.mk .defKey (Inline.elems.go cx key), .mk .defValue (Inline.elems.go cx value)]

/-- How deeply definitions are nested. -/
def definitionsHeight : List (List Inline × List Inline) → Nat
  | [] => 0
  | (key, value) :: ds => max (max (Inline.height.go key) (Inline.height.go value)) (definitionsHeight ds)

/-! ### Lists and tables made of blocks -/

/-- `[[name args]]` and `[[/close]]`. -/
structure Tag where
  name : Str
  args : List Arg
  close : Str

/-- The opening symbols. -/
def Tag.opening (t : Tag) : List Str := c!"[[" :: t.name :: (t.args.flatMap Arg.pieces ++ [c!"]]"])
/-- The closing symbols. -/
def Tag.closing (t : Tag) : List Str := [c!"[[/", t.close, c!"]]"]
/-- The block of this name, in capitals or not, with well-formed arguments. -/
def Tag.is (k : Str) (t : Tag) : Bool := lowerA t.name == k && lowerA t.close == k && t.args.all Arg.ok

/-- An item of a list or a cell of a table: `[[li]]text[[/li]]`, `[[cell]]text[[/cell]]` or `[[hcell]]text[[/hcell]]`. -/
structure Item where
  tag : Tag
  body : List Inline

/-- The source text of an item, cut into symbols. -/
def Item.pieces (i : Item) : List Str := i.tag.opening ++ (Inline.pieces.go i.body ++ i.tag.closing)

/-- Contents on one line without white space at the edges. -/
def Item.fine (i : Item) : Bool :=
  Inline.ok.go i.body && (Inline.pieces.go i.body).all (· != c!"\n") && edgesOk i.body

/-- Lists and tables made of blocks, every item, row and cell on a line of its own. -/
inductive Grid where
  /-- `[[ul]]` or `[[ol]]` with items -/
  | list (tag : Tag) (items : List Item)
  /-- `[[table]]` with `[[row]]`s of cells -/
  | table (tag : Tag) (rows : List (Tag × List Item))

/-- Parts, each on a line of its own, between the tags. -/
def Tag.around (t : Tag) (parts : List (List Str)) : List Str :=
  t.opening ++ c!"\n" :: (parts.flatMap (fun p => p ++ [c!"\n"]) ++ t.closing)

/-- A row. -/
def rowPieces (r : Tag × List Item) : List Str := r.1.around (r.2.map Item.pieces)

/-- The source text, cut into symbols. -/
def Grid.pieces : Grid → List Str
  | .list tag items => tag.around (items.map Item.pieces)
  | .table tag rows => tag.around (rows.map rowPieces)

/-- A cell. -/
def Item.isCell (i : Item) : Bool := i.tag.is c!"cell" || i.tag.is c!"hcell"

/-- Well-formed lists and tables: neither they nor their rows are empty. -/
def Grid.ok : Grid → Bool
  | .list tag items => (tag.is c!"ul" || tag.is c!"ol") && !items.isEmpty && items.all fun i => i.tag.is c!"li" && i.fine
  | .table tag rows => tag.is c!"table" && !rows.isEmpty &&
      rows.all fun r => r.1.is c!"row" && !r.2.isEmpty && r.2.all fun i => i.isCell && i.fine

/-- The items or cells, in order. -/
def Grid.items : Grid → List Item
  | .list _ items => items
  | .table _ rows => rows.flatMap (·.2)

/-- The kind of list. -/
def Tag.listType (t : Tag) : ListType := if lowerA t.name = c!"ol" then .numbered else .bullet

/-- An item of a list. -/
def Item.elem (cx : Ctx) (i : Item) : Elem := .mk (.item (attrsOf cx i.tag.args)) (Inline.elems.go cx i.body)

/-- How many columns a cell with these attributes spans: what `colspan` says, if that is a positive number. -/
def spanOf (attrs : AttrMap) : Nat := ((attrs.lookup c!"colspan").bind positiveOf).getD 1

/-- A cell of a table. -/
def Item.cellElem (cx : Ctx) (i : Item) : Elem :=
  .mk (.cell (lowerA i.tag.name == c!"hcell") (spanOf (attrsOf cx i.tag.args)) none
    ((attrsOf cx i.tag.args).filter fun a => a.1 != c!"colspan")) (Inline.elems.go cx i.body)

/-- A row of a table. -/
def rowElem (cx : Ctx) (r : Tag × List Item) : Elem := .mk (.row (attrsOf cx r.1.args)) (r.2.map (Item.cellElem cx))

/-- What it stands for. -/
def Grid.elem (cx : Ctx) : Grid → Elem
  | .list tag items => .mk (.list tag.listType (attrsOf cx tag.args)) (items.map (Item.elem cx))
  | .table tag rows => .mk (.table (attrsOf cx tag.args)) (rows.map (rowElem cx))

/-- How deeply the contents of items are nested. -/
def itemsHeight : List Item → Nat
  | [] => 0
  | i :: is => max (Inline.height.go i.body) (itemsHeight is)

/-- How deeply constructs are nested. -/
def Grid.height : Grid → Nat
  | .list _ items => itemsHeight items + 2
  | .table _ rows => itemsHeight (rows.flatMap (·.2)) + 3

/-! ### Bibliographies -/

/-- A citation. -/
def Leaf.isCite : Leaf → Bool
  | .cite .. | .citeBlock .. => true
  | _ => false

/-- There is no footnote and no citation. -/
def Inline.quiet : Inline → Bool
  | .styled _ body | .color _ body | .wrap _ body => go body
  | .leaf l => !l.isCite
  | .note .. => false
  | _ => true
where
  /-- in a sequence -/
  go : List Inline → Bool
    | [] => true
    | i :: is => i.quiet && go is

/-- A bibliography: `[[bibliography]]`, lines `: label : text`, `[[/bibliography]]`.  The number is how many
bibliographies there are before it on the page (`Page.fits`). -/
structure Biblio where
  number : Nat
  tag : Tag
  items : List (List Inline × List Inline)

/-- The source text, cut into symbols. -/
def Biblio.pieces (b : Biblio) : List Str := b.tag.around (b.items.map definitionLine)

/-- What it stands for. -/
def Biblio.kind (b : Biblio) : Kind :=
  .bibBlock b.number (optionOf b.tag.args c!"title") (switchedOn b.tag.args c!"hide")

/-- Of several entries with the same label, the first. -/
def firsts {α : Type} : List (Str × α) → List (Str × α)
  | [] => []
  | e :: es => e :: (firsts es).filter fun x => x.1 != e.1

/-- The entries: label and text. -/
def Biblio.entries (b : Biblio) : List (Str × List Inline) :=
  firsts (b.items.map fun i => (trim (Inline.pieces.go i.1).flatten, i.2))

/-- What is noted down with the page. -/
def Biblio.bibl (cx : Ctx) (b : Biblio) : Bibl Elem := ⟨b.entries.map fun e => (e.1, Inline.elems.go cx e.2)⟩

/-- Well-formed bibliographies: there are entries, without footnotes or citations in them. -/
def Biblio.ok (b : Biblio) : Bool :=
  b.tag.is c!"bibliography" && switchOk b.tag.args c!"hide" && !b.items.isEmpty &&
  b.items.all fun i => definitionOk i && Inline.quiet.go i.1 && Inline.quiet.go i.2

/-- How deeply constructs are nested. -/
def Biblio.height (b : Biblio) : Nat := definitionsHeight b.items + 2

/-- Parts of a page. -/
inductive Block where
  /-- lines of text -/
  | para (body : List Inline)
  /-- `+ body`, `++ body`, …; `+* body` for headings without an entry in the table of contents -/
  | heading (level : Nat) (toc : Bool) (gap : Nat) (body : List Inline)
  /-- `---` or more dashes -/
  | rule (more : Nat)
  /-- `= body` -/
  | center (gap : Nat) (body : List Inline)
  /-- `~~~`, `~~~<` or `~~~>`, or with more tildes -/
  | clear (more : Nat) (side : ClearFloat)
  /-- `* line`, `# line`, indented by one blank more for every level -/
  | list (kind : ListKind) (items : List (Outline ListKind))
  /-- `> line`, with one `>` more for every level -/
  | quote (items : List (Outline Unit))
  /-- rows of cells, `||cell||cell||` -/
  | table (rows : List (List Cell))
  /-- `: key : value` -/
  | definitions (items : List (List Inline × List Inline))
  /-- a box on lines of its own; every block in it is followed by one line end or (flag `false`) two -/
  | within (s : Section) (body : List (Block × Bool))
  /-- a block on lines of its own whose contents are not markup -/
  | foreign (v : Foreign) (text : Str)
  /-- a block without contents on a line of its own -/
  | gadget (g : Gadget)
  /-- a list or table made of blocks -/
  | grid (g : Grid)
  /-- a bibliography -/
  | biblio (b : Biblio)

/-- What follows the tildes. -/
def sideMark : ClearFloat → Str
  | .both => []
  | .left => ['<']
  | .right => ['>']

/-- A line of a list. -/
def listLine : Nat × ListKind × List Inline → List Str
  | (depth, kind, body) =>
    (if depth = 0 then [] else [List.replicate depth ' ']) ++ kind.mark :: c!" " :: Inline.pieces.go body

/-- A line of a quote. -/
def quoteLine : Nat × Unit × List Inline → List Str
  | (depth, _, body) => List.replicate (depth + 1) '>' :: c!" " :: Inline.pieces.go body

/-- Lines with line ends between them. -/
def joinLines : List (List Str) → List Str
  | [] => []
  | [l] => l
  | l :: ls => l ++ c!"\n" :: joinLines ls

/-- What follows a block: the next one is on the next line or after an empty line. -/
def gap (tight : Bool) : Str := if tight then c!"\n" else c!"\n\n"

/-- The source text, cut into symbols. -/
def Block.pieces : Block → List Str
  | .para body => Inline.pieces.go body
  | .heading level toc gap body =>
    (List.replicate level '+' ++ if toc then [] else ['*']) :: List.replicate (gap + 1) ' ' :: Inline.pieces.go body
  | .rule more => [List.replicate (more + 3) '-']
  | .center gap body => c!"=" :: List.replicate (gap + 1) ' ' :: Inline.pieces.go body
  | .clear more side => [List.replicate (more + 3) '~' ++ sideMark side]
  | .list kind items => joinLines ((Outline.lines.go 0 kind items).map listLine)
  | .quote items => joinLines ((Outline.lines.go 0 () items).map quoteLine)
  | .table rows => joinLines (rows.map rowLine)
  | .definitions items => joinLines (items.map definitionLine)
  | .within s body => s.opening ++ c!"\n" :: (go body ++ s.closing)
  | .foreign v text => v.opening ++ c!"\n" :: (textPieces text ++ v.closing)
  | .gadget g => g.pieces
  | .grid g => g.pieces
  | .biblio b => b.pieces
where
  /-- of the contents of a box -/
  go : List (Block × Bool) → List Str
    | [] => []
    | (b, tight) :: bs => b.pieces ++ gap tight :: go bs

/-- The items and sub-lists of a list. -/
def itemElem (cx : Ctx) : Outline ListKind → Elem
  | .line body => .mk (.item []) (Inline.elems.go cx body)
  | .nested kind items => .mk .subList [.mk (.list kind.type []) (go items)]
where
  /-- of a sequence -/
  go : List (Outline ListKind) → List Elem
    | [] => []
    | i :: is => itemElem cx i :: go is

/-- A paragraph, unless it has no elements. -/
def paraOf : List Elem → List Elem
  | [] => []
  | e :: es => [.mk (.container .paragraph []) (e :: es)]

/-- The contents of a quote: successive lines are one paragraph, with line breaks between them.  The
second argument is the paragraph so far, if it has begun. -/
def quoteElems (cx : Ctx) : List (Outline Unit) → Option (List Elem) → List Elem
  | [], cur => paraOf (cur.getD [])
  | .line body :: is, none => quoteElems cx is (some (Inline.elems.go cx body))
  | .line body :: is, some cur => quoteElems cx is (some (cur ++ .mk .lineBreak [] :: Inline.elems.go cx body))
  | .nested _ items :: is, cur =>
    paraOf (cur.getD []) ++ .mk (.container .blockquote []) (quoteElems cx items none) :: quoteElems cx is none

/-- The meaning: line breaks at the start of a paragraph do not count, nor does a paragraph without
elements. -/
def Block.elems (cx : Ctx) : Block → List Elem
  | .para body =>
    paraOf ((Inline.elems.go cx body).dropWhile (fun e => match e with | .mk .lineBreak _ => true | _ => false))
  | .heading level toc _ body => [.mk (.container (.header ⟨level, toc⟩) []) (Inline.elems.go cx body)]
  | .rule _ => [.mk .horizontalRule []]
  | .center _ body => [.mk (.container (.align .center) []) (Inline.elems.go cx body)]
  | .clear _ side => [.mk (.clearFloat side) []]
  | .list kind items => [.mk (.list kind.type []) (itemElem.go cx items)]
  | .quote items => [.mk (.container .blockquote []) (quoteElems cx items none)]
  | .table rows => [.mk (.table [(c!"class", c!"wj-table")]) (rows.map fun cells => .mk (.row []) (cells.map (Cell.elem cx)))]
  | .definitions items => [.mk .definitionList (items.map (definitionElem cx))]
  | .within s body => [.mk (s.kind cx) (go body)]
  | .foreign v text => [.mk (v.kind text) []]
  | .gadget g => [.mk (g.kind cx) []]
  | .grid g => [g.elem cx]
  | .biblio b => [.mk b.kind []]
where
  /-- of the contents of a box -/
  go : List (Block × Bool) → List Elem
    | [] => []
    | (b, _) :: bs => b.elems cx ++ go bs

/-- The entries of the table of contents: depth and name. -/
def Block.toc : Block → List (Nat × Str)
  | .heading level true _ body => [(level - 1, Inline.text.go body)]
  | .within _ body => go body
  | _ => []
where
  /-- of the contents of a box -/
  go : List (Block × Bool) → List (Nat × Str)
    | [] => []
    | (b, _) :: bs => b.toc ++ go bs

/-- The contents of `[[html]]` blocks. -/
def Block.htmls : Block → List Str
  | .foreign (.html ..) text => [text]
  | .within _ body => go body
  | _ => []
where
  /-- of the contents of a box -/
  go : List (Block × Bool) → List Str
    | [] => []
    | (b, _) :: bs => b.htmls ++ go bs

/-- The contents of `[[code]]` blocks with their names, normalised. -/
def Block.codes (cx : Ctx) : Block → List CodeBlock
  | .foreign (.code _ args _) text => [⟨text, (optionOf args c!"name").map cx.world.normalize⟩]
  | .within _ body => go body
  | _ => []
where
  /-- of the contents of a box -/
  go : List (Block × Bool) → List CodeBlock
    | [] => []
    | (b, _) :: bs => b.codes cx ++ go bs

/-- The footnotes of a block, in order. -/
def Block.notes : Block → List (List Inline)
  | .para body | .heading _ _ _ body | .center _ body => Inline.notes.go body
  | .table rows => rows.flatMap fun cells => cells.flatMap fun c => Inline.notes.go c.body
  | .definitions items => items.flatMap fun (key, value) => Inline.notes.go key ++ Inline.notes.go value
  | .rule _ | .clear .. | .foreign .. | .gadget _ | .biblio _ => []
  | .grid g => g.items.flatMap fun i => Inline.notes.go i.body
  | .list kind items => (Outline.lines.go 0 kind items).flatMap fun l => Inline.notes.go l.2.2
  | .quote items => (Outline.lines.go 0 () items).flatMap fun l => Inline.notes.go l.2.2
  | .within _ body => go body
where
  /-- of the contents of a box -/
  go : List (Block × Bool) → List (List Inline)
    | [] => []
    | (b, _) :: bs => b.notes ++ go bs

/-- The bibliographies. -/
def Block.bibs : Block → List Biblio
  | .biblio b => [b]
  | .within _ body => go body
  | _ => []
where
  /-- of the contents of a box -/
  go : List (Block × Bool) → List Biblio
    | [] => []
    | (b, _) :: bs => b.bibs ++ go bs

/-- Whether there is a block that is about the page: they mean something on pages only. -/
def Block.isPage : Block → Bool
  | .gadget g => g.isPage
  | .within _ body => go body
  | _ => false
where
  /-- of the contents of a box -/
  go : List (Block × Bool) → Bool
    | [] => false
    | (b, _) :: bs => b.isPage || go bs

/-- How deeply the contents of lines are nested. -/
def linesHeight {K : Type} : List (Nat × K × List Inline) → Nat
  | [] => 0
  | (_, _, body) :: ls => max (Inline.height.go body) (linesHeight ls)

/-- How deeply constructs are nested. -/
def Block.height : Block → Nat
  | .para body => Inline.height.go body
  | .heading _ _ _ body | .center _ body => Inline.height.go body + 1
  | .rule _ | .clear .. | .foreign .. | .gadget _ => 1
  | .grid g => g.height
  | .biblio b => b.height
  | .list kind items => linesHeight (Outline.lines.go 0 kind items) + 1
  | .quote items => linesHeight (Outline.lines.go 0 () items) + 1
  | .table rows => cellsHeight rows.flatten + 1
  | .definitions items => definitionsHeight items + 1
  | .within _ body => go body + 1
where
  /-- of the contents of a box -/
  go : List (Block × Bool) → Nat
    | [] => 0
    | (b, _) :: bs => max b.height (go bs)

/-- Lines whose contents are well-formed and on one line, not nested deeper than the limit. -/
def lineOk {K : Type} (limit : Nat) : Nat × K × List Inline → Bool
  | (depth, _, body) => depth ≤ limit && Inline.ok.go body && (Inline.pieces.go body).all (· != c!"\n")

/-- A block of lines of text. -/
def Block.isPara : Block → Bool
  | .para _ => true
  | _ => false

/-- A box or a block with contents of its own. -/
def Block.isBox : Block → Bool
  | .within .. | .foreign .. | .gadget _ | .grid _ | .biblio _ => true
  | _ => false

/-- Two lists or quotes would be one, even with an empty line between them, and blanks after a list would
get lost. -/
def Page.mayFollow : Block → Block → Bool
  | .list .., .list .. => false
  | .quote .., .quote .. => false
  | .list .., .para (i :: _) => !i.isBlank
  | _, _ => true
/-- Two blocks on successive lines that would be one. -/
def Page.joins : Block → Block → Bool
  | .para _, .para _ | .table _, .table _ | .definitions _, .definitions _ => true
  | _, _ => false
/-- Which blocks follow each other; between two blocks of text, tables or lists of definitions there is an empty
line, and so there is before text that starts with a `[[block]]`. -/
def Page.gapsOk : List (Block × Bool) → Bool
  | (b, tight) :: (b', t') :: bs =>
    (!tight || !joins b b') && (!tight || b'.isBox || !startsBlock b'.pieces) && mayFollow b b' && gapsOk ((b', t') :: bs)
  | _ => true

/-- A tab. -/
def Block.isTab : Block → Bool
  | .within s _ => s.isTab
  | _ => false

/-- There are no tabs outside tab views. -/
def Page.noTabs (d : List (Block × Bool)) : Bool := d.all fun b => !b.1.isTab

/-- The contents of a tab view: tabs, each on lines of its own. -/
def Page.onlyTabs (d : List (Block × Bool)) : Bool := !d.isEmpty && d.all fun b => b.1.isTab && b.2

/-- Well-formed blocks. -/
def Block.ok : Block → Bool
  | .para body => Inline.ok.go body && !body.isEmpty && linesOk false (Inline.pieces.go body)
  | .heading level _ _ body =>
    1 ≤ level && level ≤ 6 && Inline.ok.go body && (Inline.pieces.go body).all (· != c!"\n")
  | .center _ body => Inline.ok.go body && (Inline.pieces.go body).all (· != c!"\n")
  | .rule _ | .clear .. => true
  | .list kind items => startOk false items && Outline.ok.go false items &&
      (Outline.lines.go 0 kind items).all (lineOk 20)
  | .quote items => startOk true items && Outline.ok.go true items && (Outline.lines.go 0 () items).all (lineOk 29)
  | .table rows => !rows.isEmpty && rows.all fun cells => !cells.isEmpty && cells.all Cell.ok
  | .definitions items => !items.isEmpty && items.all definitionOk
  | .within s body => s.ok && go body && (if s.isTabs then Page.onlyTabs body else Page.gapsOk body && Page.noTabs body)
  | .foreign v text => v.ok text && textOk text
  | .gadget g => g.ok
  | .grid g => g.ok
  | .biblio b => b.ok
where
  /-- of the contents of a box -/
  go : List (Block × Bool) → Bool
    | [] => true
    | (b, _) :: bs => b.ok && go bs

/-- A page: blocks, each with the flag whether the next one follows on the next line instead of after an
empty line. -/
abbrev Page := List (Block × Bool)

namespace Page
/-- The source text, cut into symbols. -/
def pieces : Page → List Str
  | [] => []
  | [(b, _)] => b.pieces
  | (b, tight) :: bs => b.pieces ++ gap tight :: pieces bs
/-- The source text. -/
def write (d : Page) : Str := d.pieces.flatten
/-- The meaning. -/
def elems (cx : Ctx) (d : Page) : List Elem := d.flatMap (·.1.elems cx)
/-- The entries of the table of contents. -/
def toc (d : Page) : List (Nat × Str) := d.flatMap (·.1.toc)
/-- The contents of `[[html]]` blocks. -/
def htmls (d : Page) : List Str := d.flatMap (·.1.htmls)
/-- The contents of `[[code]]` blocks with their names. -/
def codes (cx : Ctx) (d : Page) : List CodeBlock := d.flatMap (·.1.codes cx)
/-- The footnotes. -/
def notes (d : Page) : List (List Inline) := d.flatMap (·.1.notes)
/-- The bibliographies. -/
def bibs (d : Page) : List Biblio := d.flatMap (·.1.bibs)
/-- The names of `[[code]]` blocks differ, blocks about pages are allowed if there are any, and the bibliographies
are numbered in order. -/
def fits (cx : Ctx) (d : Page) : Bool :=
  distinct ((d.codes cx).filterMap (·.name)) && (cx.settings.enablePageSyntax || !d.any (·.1.isPage)) &&
  d.bibs.map (·.number) == List.range d.bibs.length
/-- Well-formed pages: the blocks are, symbols do not run together, and nesting is limited. -/
def ok (d : Page) : Bool :=
  d.all (·.1.ok) && separate d.pieces && (gapsOk d && noTabs d) && d.all (·.1.height ≤ 100)
end Page

/-! ### Plain text -/

/-- Characters without any meaning in the markup: letters, digits, blanks, and everything except tabs,
line ends and the characters of its symbols. -/
def harmless (c : Char) : Bool :=
  isAlnumA c || c == ' ' || !(c!"\t\n\r[]_\"@<>-()*/^,#{}|~=:+$").contains c

/-- The text of a sequence of text elements, if it is one. -/
def textsOf : List Elem → Option Str
  | [] => some []
  | .mk (.text s) [] :: es => (textsOf es).map (s ++ ·)
  | _ => none

end Ftml.Markup
