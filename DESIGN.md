# Formal model of scpwiki/ftml in Lean 4

The code under `/repo/src` is modelled function by function as total, computable Lean functions; the
properties of `properties.jsonl` are theorems about these functions, proved for all inputs.  Everything uses
core Lean only (no Mathlib).

## Reading order

| directory | contents |
|---|---|
| `lean/Verif/Model/` | the model. Every definition cites the Rust file and lines it models and says what it simplifies |
| `lean/Verif/Spec/` | notions needed to state properties (`Doc`: forests of a tree, occurrence of a node, allowed children, what a text opens; `Html`: a strict HTML reader, nesting, safe tags, what rendering reaches; `Markup`, `MarkupOut`: a document language, the tree, text and HTML its pages stand for; `Includes`: a language of include blocks). They do not mention how the code works |
| `lean/Verif/Props/` | the property theorems `Cxx_…`, each with a concrete case that meets its hypotheses |
| `lean/Verif/Lemmas/` | proofs |
| `AXIOMS.md` | axioms of each property theorem (generated with `#print axioms`) |
| `seeded/LOG.jsonl` | wrong programs tried against the theorems |

## How code becomes model

* **Strings** (`&str`, `String`) are `List Char`; byte offsets are computed from UTF-8 lengths where the code
  uses them. Strings that are not valid UTF-8 do not exist in Rust either.
* **Failure.** `Result` and `Option` stay data. Every `panic!`, `assert!`, `unwrap`, `expect`, index or slice that
  can fail in a release build is an explicit outcome `panic` with its cause (`Panic` for the parser,
  `HPanic` for the HTML renderer). Debug assertions are not modelled: the theorems are about release builds.
* **Loops and recursion** that Rust leaves unbounded take fuel and have an explicit outcome `diverge`/`hang`, so
  that termination is a theorem (C03, C18, C29, C69) or its failure is (C47). Fuel is a parameter of the theorems or is
  shown to suffice.
* **Mutation.** Rust's `&mut` state is passed and returned. The parser is a state monad
  `M α = St → (ok | err | panic | diverge) × St`; the part of the state that Rust keeps behind `Rc<RefCell>` (table
  of contents, footnotes, code and HTML blocks, bibliographies) survives a failed rule, the rest is restored, as in the
  code. The HTML renderer's actions return the text they append.
* **Trees.** The mutually recursive Rust element types are one rose tree: `Kind` carries all non-recursive fields
  of a variant, `Elem.mk kind kids` adds the children in order; rows, cells, tabs, items and so on, which are separate
  Rust types, are structural kinds. That they occur only where the Rust types allow is theorem C61.
* **Maps.** `BTreeMap`s are sorted association lists, `HashMap`s association lists whose order is never observed
  (C20 proves independence from the order for attribute arguments).
* **Externals.** Code outside the repository is a parameter over which theorems quantify: `Ext`/`World`/`HWorld` hold
  `wikidot_normalize::normalize`, the regular-expression class `\w` on non-ASCII characters, date parsing and formatting, HTML entities,
  `parcel_css`, `latex2mathml`, random ids, page existence, the clock. Assumptions on them appear as hypotheses
  (`WorldOk`: printed CSS has no `</style`, MathML output is nested MathML) and nowhere else.
* The lexer is pest's PEG semantics (ordered choice, greedy repetition) applied to a transcription of `lexer.pest`;
  regular expressions of the `regex` crate are transcribed to functions by hand.

## What is modelled

| model | Rust |
|---|---|
| `Str` | `str` methods used: trim, split, ASCII case, White_Space, UTF-8/16 lengths |
| `Preproc` | `src/preproc/{mod,typography,whitespace}.rs` |
| `Peg`, `Lexer` | `src/parsing/lexer.pest`, `src/parsing/token/*`, `src/tokenizer.rs`, `src/utf16.rs`, `src/text.rs` |
| `Url` | `src/url.rs`, `src/id_prefix.rs` |
| `Data` | `src/non_empty_vec.rs`, `src/parsing/{depth,boolean,string}.rs`, `src/data/page_ref.rs`, `src/settings/interwiki.rs`, `src/tree/{attribute/*,align,anchor,bibliography,clear_float,heading,image,link,variables}.rs` |
| `Includes` | `src/includes/*` |
| `Tree` | `src/tree/{element/*,container,module,embed,list,table,tab,ruby,definition_list,partial,date,code}.rs`, `src/settings/mod.rs`, `src/data/page_info.rs`, `src/parsing/strip.rs` |
| `ParserCore` | `src/parsing/{parser,consume,result,error,paragraph/*,collect/*}.rs`, `src/parsing/rule/mod.rs` |
| `Rules` | `src/parsing/rule/mapping.rs` and every rule in `src/parsing/rule/impls/*.rs` |
| `BlockCore`, `Blocks` | `src/parsing/rule/impls/block/{mod,rule,parser,arguments,mapping}.rs` and every block in `blocks/*` and `modules/*` |
| `Parse` | `src/parsing/mod.rs` (`parse`), the consumption driver, the nesting limit, table of contents |
| `TextRender` | `src/render/text/*`, `src/render/handle.rs` (labels) |
| `Owned` | `to_owned` of all tree types, `src/tree/{clone,element/collection,element/iter_ref,element/iter_owned}.rs`, `src/data/karma.rs`, `src/includes/includer/{null,debug}.rs` |
| `Names` | conversions of small values from and to texts: `src/layout.rs`, `src/tree/{link,heading}.rs` |
| `Serde` | `Serialize`/`Deserialize` (derived and by hand) of all types of `src/tree/` and of `src/data/page_ref.rs` as JSON values |
| `Wasm` | `src/wasm/{tokenizer,parsing,utf16,settings}.rs`, JSON of `Token`, `ParseError`, `WikitextSettings` |
| `Html` | `src/render/html/**`, `src/render/handle.rs` |

Not modelled: logging, the text of JSON (the values `serde` builds are), the glue of the WASM interface (`wasm_bindgen`, how strings cross the boundary), `src/render/{debug,null}.rs`, the digits of floating-point scores, memory and stack
exhaustion, running time, debug assertions, the display names of errors.

## Agreement with the code

The model is executable. Outside the proofs it was run on the project's own fixtures in `/repo/test` (648 of them):
647 syntax trees with their errors and 646 HTML bodies agree exactly with the recorded ones.  The other tree has a key
too many in its recorded JSON, which deserialisation ignores; the other two bodies contain error messages of the LaTeX
converter, which is external here.

## Trusted base

* Lean 4.33.0's kernel. Theorems depend on no axioms but `propext`, `Classical.choice`, `Quot.sound` (per theorem:
  `AXIOMS.md`). No `native_decide`, no `bv_decide`. `decide +kernel` is used only for concrete facts (witnesses, finite tables);
  the kernel evaluates them.
* The transcription of the Rust code, of pest's semantics and of regular expressions, by hand.
* The specifications in `Spec/` and the English reading of the theorems.

## Method

1. *Texts* (preprocessing, lexer, includes, pure helpers): induction over the text or the loop, against an independent
   specification.
2. *Parser*: one Hoare-style logic for the monad (`Lemmas/Hoare`, `Core`): a triple carries a state invariant, a
   condition on results and the set of allowed panics; a lemma per combinator, then one specification per rule and block
   (`RulesSpec`, `BlocksSpec`), closed over the recursion of the driver by induction on the depth budget, loops by the number of
   tokens left. All tree properties are instances of one invariant on nodes (`NodeOk` in `Spec/Doc`), so each
   quantifies over every text, page and setting.
3. *Renderers*: structural induction over the tree, a lemma per element; HTML against the strict reader of `Spec/Html`;
   relations between two runs (`Cl`, `Sim`) for independence of depth and of texts.
4. *Defects*: a concrete text evaluated by the kernel (`decide +kernel`), beside the general theorem whose
   hypothesis it violates.

## Properties

| property | claim | modelled in | proof | status |
|---|---|---|---|---|
| C01 | Preprocessing removes carriage returns, tabs and NULs | Preproc | each pass keeps the set of removed characters removed; loop invariant of the replace loop | proved |
| C02 | Preprocessed text neither starts nor ends with a newline | Preproc | last pass strips; later passes keep the ends | proved |
| C03 | Preprocessing always terminates and is total | Preproc | each replacement strictly advances the search offset; fuel = length suffices | proved |
| C04 | Backslash-newline joins: which joins survive | Preproc | what each pass leaves; the project's claim is false: witness; true without double backslashes | proved |
| C05 | Ellipsis substitution only touches isolated dot triples | Preproc | identity without the trigger characters; project's claim is false: witness | proved |
| C06 | Preprocessing is the identity on already-clean text | Preproc | each pass is the identity on clean text | proved |
| C07 | Tokens tile the input exactly | Peg, Lexer | induction over the remaining text; every alternative consumes a non-empty prefix | proved |
| C08 | The lexer never falls back | Peg, Lexer | the last alternative matches any character | proved |
| C09 | No Email token is ever produced | Peg, Lexer | the greedy repetition before `@` consumes it | proved |
| C10 | UTF-16 index conversion is exact | Lexer | induction over the text; spec = UTF-16 code units of the prefix; panics characterised | proved |
| C11 | Converting all tokens of a text to UTF-16 indices | Lexer | C07 with C10 | proved |
| C12 | No dangerous scheme survives href normalisation | Url | case analysis against `SafeHref`; holds for every external normaliser | proved |
| C13 | ID isolation prefixes every id, idempotently | Url, Data | induction over words | proved |
| C14 | NonEmptyVec is never empty and pops like a stack | Data | refinement to lists over any sequence of operations | proved |
| C15 | Depth-list nesting preserves items and order | Data | invariant of the stack of open lists; spec: flattening gives items with depths back | proved |
| C16 | Page references round-trip through their display form | Data | case analysis of the parser on the printed form | proved |
| C17 | Page reference parsing rejects exactly the malformed strings | Data | both directions by case analysis | proved |
| C18 | Interwiki URLs follow the template and contain no spaces | Data | induction over the template; space loop decreases | proved |
| C19 | Variable scopes resolve innermost first and are restored | Data | induction over scopes | proved |
| C20 | Attribute maps contain only whitelisted attributes | Data | fold over arguments; whitelisting per key; order independence for distinct keys | proved |
| C21 | Bibliography labels are unique and first definition wins | Data | history of add calls by induction | proved |
| C22 | Link location parsing keeps URLs and drops only anchors and subpaths of pages | Data | case analysis; base and extra re-join | proved |
| C23 | Image sources split exactly | Data | case analysis on number of slashes | proved |
| C24 | Includes disabled leaves text untouched | Includes | definition unfolds; includer not called | proved |
| C25 | Includes splice exactly the include blocks | Includes | loop invariant of backwards splicing; spec = concatenation of segments; all blocks found | proved |
| C26 | An includer returning the wrong number of pages or wrong page is an error, never a bad splice | Includes | the check precedes the splice | proved |
| C27 | Nested include blocks can crash include | Includes | no panic for disjoint ranges; witness for nested ones | proved |
| C28 | Include variables are substituted once, non-recursively | Includes | one left-to-right pass; spec = segments | proved |
| C29 | Parsing terminates on every input | all parser modules | triples exclude `diverge` given enough fuel; fuel computed from text length and depth limit | proved |
| C30 | Parsing never panics, apart from three known defects | all parser modules | triples carry the allowed panics and their textual cause; three witnesses | proved |
| C31 | Parse errors point into the text | all parser modules | errors carry a token of the list; tokens tile (C07) | proved |
| C32 | Attributes in the parsed tree are safe | all parser modules | attribute maps enter only through `from_arguments` and three fixed places | proved |
| C33 | With page syntax disabled no page-only element is produced | all parser modules | node invariant indexed by settings | proved |
| C34 | Bibliography blocks refer to existing bibliographies | all parser modules | index drawn from list length, list only grows | proved |
| C35 | Named code blocks are unique | all parser modules | shared-state invariant | proved |
| C36 | Footnotes do not nest | all parser modules | flag in the state; node invariant indexed by it | proved |
| C37 | Paragraphs contain only paragraph-safe elements | all parser modules | paragraph stack invariant | proved |
| C38 | A footnote block is always present exactly when needed | all parser modules | flag set only by the block; end of `parse` | proved |
| C39 | Plain text is preserved verbatim | Lexer, ParserCore, Rules, Parse | functional: corollary of C71, cutting the text into words, blanks and characters (Spec/Markup `harmless`) | proved |
| C40 | Some valid markup loses text | all parser modules | witness texts evaluated in the kernel | proved |
| C41 | Recursion depth is bounded | Parse | depth counter invariant; fallback | proved |
| C42 | HTML escaping leaves no markup characters | Html | induction over the text; reader inverts escaping | proved |
| C43 | Rendered HTML is balanced | Html | strict reader; one lemma per element, induction over tree and nesting level | proved |
| C44 | User text cannot inject tags or break out of attributes | Html | same walk carries `TagOk`; independence from texts by a relation between two runs; witness for the injection | proved |
| C45 | Rendered link targets carry no dangerous scheme | Html, Url | C12 on every href; witness for the extra part | proved |
| C46 | Footnote rendering and numbering | Html | counter equals number of references written; outcome characterised; witness | proved |
| C47 | A bibliography entry citing itself makes rendering recurse forever | Html | a forest rendered within itself: no level suffices; two parsed witnesses | proved |
| C48 | Heading ids are unique and sequential | Html | counter equals number of heading ids written | proved |
| C49 | Text rendering never starts or ends with a newline | TextRender | end strip; hidden containers restore output | proved |
| C50 | When rendering panics | TextRender | both directions by induction over the tree; witnesses | proved |
| C51 | Preprocessing preserves visible content | Preproc | content filter commutes with every pass | proved |
| C52 | Blank lines are compressed | Preproc | invariant; witness | proved |
| C53 | Preprocessing is not idempotent | Preproc | witness | proved |
| C54 | Any value can be passed in quotes | Data | induction over the value; witness for the lone backslash | proved |
| C55 | Boolean arguments | Data | case analysis | proved |
| C56 | Anchor targets do not all round-trip | Data | all targets | proved |
| C57 | Token slices have the shape their kind promises | Lexer | shape of each PEG alternative | proved |
| C58 | Include arguments: first real value wins | Includes | fold over arguments | proved |
| C59 | Left-over partial elements lie below their hosts | all parser modules | node invariant with host; witness | proved |
| C60 | The table of contents | all parser modules | entries recorded in order; C15; witness for duplicates | proved |
| C61 | Parsed trees are well-formed | all parser modules | node invariant `allowedKid` | proved |
| C62 | Special elements come from their blocks | all parser modules | origin recorded per block name | proved |
| C63 | Code, HTML, styles and formulas are verbatim | all parser modules | collected token slices tile a substring | proved |
| C64 | Footnote references have footnotes | all parser modules | count invariant; witness | proved |
| C65 | Values in a parsed tree are in range | all parser modules | node invariant | proved |
| C66 | Parsed text renders | all parser modules, TextRender | C50 with C59 and C65 | proved |
| C67 | Visible text is kept by text rendering | TextRender | induction over the tree | proved |
| C68 | Invisible containers render as blanks | TextRender | induction over the tree; witness for the leak | proved |
| C69 | Rendering to HTML ends | Html, all parser modules | monotone in the level; bounded nesting gives a level; parsed trees are sound | proved |
| C70 | Texts are shown by HTML rendering | Html | walk to the node; siblings are readable (C43) | proved |
| C71 | Pages written in the markup parse to their meaning | Lexer, ParserCore, Rules, BlockCore, Blocks, Parse; Spec/Markup (document language, its source text, its meaning) | functional correctness by induction over the page: every symbol lexes to its token (Lexing, PageLex), every construct is consumed by its rule and no earlier rule (Eats, InlineAll, PageAll), the paragraph loop gathers the elements (Chain); tables and definition lists by evaluating their loops row by row (TableRun, DefinitionRun); boxes by a second induction over the nesting (SectionRun, PageAll); blocks of code, HTML and formulas hold arbitrary text without `[[/`, whose tokens are collected whatever they are (LexLocal, ForeignRun) | proved |
| C72 | Pages written in the markup render to their HTML | C71 and Html; Spec/MarkupOut (the expected HTML) | C71, then exact evaluation of the renderer by induction over the page | proved |
| C73 | Pages written in the markup render to their text | C71 and TextRender; Spec/MarkupOut (the expected text) | C71, then exact evaluation of the renderer by induction over the page | proved |
| C74 | The links reported for a page are those shown | Html (addLink, renderLink); Spec/Html (linkHrefs, wikiTarget, webTarget) | the invariant HOk of the HTML writer, carried through every rendering function, relates the links added to the link tags read back | proved |
| C75 | Every text that avoids the known defects becomes a safe page | all parser modules, Html; Props/Safe (SafeTag) | the parser invariant traces the names of attributes and the collected blocks to the text; composition of C30, C32, C62, C63, C65, C69 and C43-C48 | proved |
| C76 | What conditions on tags and categories mean | Blocks (parseConditions, checkConditions) | the text is a list of words between blanks; the fold of the check is three quantifiers | proved |
| C77 | Which time zones a date accepts | Blocks (parseTimezone) | equivalence with the written form, by cases of the regular expression and induction over the digits | proved |
| C78 | Characters can be written by their numbers | Blocks (findEntity, stripEntity) | round trip through digits of any base, by strong induction on the number | proved |
| C79 | Line ends part the token stream | Lexer (the whole grammar) | every alternative of the grammar is local: its outcome in front of a line end does not depend on what follows (LexLocal, by structural rules for each combinator), then induction over the text | proved |
| C80 | Attributes are those written in the text | all parser modules; Spec/Doc (ArgWritten, ValueOf, AttrFrom) | the invariant of block heads: arguments come from slices of the text between quotes; the parser invariant carries AttrFrom to every element | proved |
| C81 | No text is invented | all parser modules; Spec/Doc (TextFrom) | the parser invariant carries the provenance of each kind of string through every rule (Special in Lemmas/Hoare) | proved |
| C82 | Ids of authors and of the renderer do not clash | all parser modules, Url, Html; Spec/Html (OwnId, Source, TagOk.id) | the writer invariant says where each id attribute comes from; with C13, C80, C81 the words of an id are traced to the text | proved |
| C83 | Images come from where the author says | all parser modules, Html; Spec/Html (PictureAt, TagOk.image), Spec/Doc (ImageFrom) | the writer invariant says where each img address comes from; the parser invariant traces the source of images to the text | proved |
| C84 | What is kept out of drafts, posts and messages | Tree (Settings.fromMode), Includes, all parser modules, Html | the ids clause of the writer invariant depends on the setting for true ids; with C24, C33 and C83 | proved |
| C85 | Owned copies and iteration | Owned (every to_owned, ElementList, both iterators) | structural induction over the tree, case per kind; reinsertion into a sorted map is the identity; induction over the steps | proved |
| C86 | The built-in includers | Owned (nullIncluder, debugIncluder), Includes | C25_succeeds and C25_splice for the includer at hand; direct evaluation for the null includer | proved |
| C87 | Karma levels are the numbers up to five | Owned (KarmaLevel) | cases | proved |
| C88 | The table of contents leads to the headings | all parser modules, Html | from C72: the HTML of the page holds every heading with its id and every entry with its link, by induction over the blocks | proved |
| C89 | From source text to output: the stages put together | `sourceTree` chains the models of include, preprocess, tokenize and parse as README.md:172-200 does; `Clean`, `unixNewlines`, `Mentions` are the small specifications. | Newline pass idempotence; no match of the include regular expression without the word; C06 on the clean spelling, then C71-C73. | proved |
| C90 | The metadata of a page say what they should | Html (HtmlMeta.render, initialMeta, htmlRender) | the strict HTML reader of Spec/Html.lean is run over the text; escaped values are read back as themselves | proved |
| C91 | A syntax tree written as JSON and read back is the same tree | Serde (Json, writeTree, readTree; serde attributes of all tree types) | induction on the fuel of the reader; every field is read back, and the field invariants of parsed trees come from C61 | proved |
| C92 | The interface for JavaScript speaks of positions in JavaScript strings | Wasm (tokens, parse, getIndex, fromMode, JSON of tokens, errors, settings) | the code units of a JavaScript string are a separate specification; positions from C10/C11/C31, names by cases | proved |
| C93 | Small values are read from their texts | Names (Layout.ofStr, LinkType.ofStr, headingPrefix), Data (Heading.ofStr, Alignment.ofStr) | cases on the text and on the value; both directions | proved |
| C94 | What unclosed blocks cost | The parser as in C71 (consume, fallback, blocks, footnotes); `unclosedPage` is the page. | induction on the number of blocks: each call reads the rest as contents of the block, fails, and reads it again as text; a finding (F27) | proved |
| C95 | Include blocks are read as written, and exactly they are replaced | Includes; `Spec/Includes` is a small language of include blocks and of texts with them. | the regular expression finds each written block and nothing else, the grammar reads it back argument by argument; then C26-C28 about the splicing; induction over the blocks | proved |
| C96 | Citations show the entry they cite, and bibliographies list all entries | Parser and HTML as in C71/C72; bibliographies and citations are part of the document language (`Biblio`, `Page.cited`). | from C72: the HTML of every block and inline is part of that of the page; the numbering by induction over entries and bibliographies | proved |
| C97 | Dates and embedded contents are shown as what they stand for | HTML renderer; `Spec/MarkupOut` says which instant a date denotes and what each embed is written as (`instant`, `decimal`, `dateHtml`, `embedHtml`). | rendering is traced element by element (`Puts`), induction over the list; the timestamp by arithmetic, the decimal notation by induction | proved |
| C98 | Underscores at the ends of lines are line breaks | The parser as in C71; `Between` (in `Props/HardBreak`) lists what may stand between two words and its meaning. | the text is lexed symbol by symbol, the underscore rule is traced in each situation, induction over the words | proved |
| C99 | Links come from one line of the text | The link rules, `collect` and the head values of blocks as they are; `OnLine` and `LinkFrom` in `Spec/Doc`. | program logic for the parser: the searches remember that no token they passed is one they stop at; only line and paragraph breaks contain a line end (C57) | proved |
| C100 | Preprocessing is exactly tidying, quotation marks and ellipses | The passes as in C01-C06; `tidy`, `Quoted` and `Dotted` in `Props/Whitespace` say what they do. | each pass is an equation or a relation by induction over its replacements; the relations are shown to have one result | proved |
| C101 | Page information goes through JSON unchanged | PageJson (PageInfo and ScoreValue in JSON; floating-point numbers are any type with a conversion from integers and a test whether a number is finite). | reading is an equivalence with the fields there are, field by field; written objects satisfy it | proved |
| C102 | Text between @@ and @@ is shown as it is | Lexer, Rules (ruleRaw), Parse, Html, TextRender | the symbols of a line do not depend on what follows its end (LexLocal); by the shapes of symbols (C57) none reaches into the closing @@, so it is a symbol of its own; then the rule and the paragraph loop are evaluated line by line | proved |
| C103 | An underscore behind the name of a block drops line breaks and paragraphs | Rules, Blocks (blkSpan, blkAnchor, blkDiv), Parse; `ScoredPage` in `Props/Scored` is the small specification | the symbols are read one by one (Lexing), the body by the lemmas of C71 (body_chain), the block rule and the paragraph loop are evaluated | proved |
| C104 | Trees in JSON are read whatever the order of their fields | Serde (readTree, readElem, readTagged, field, optField, readPage); `timesGiven`, `Gives`, `MayGive` in `Props/SerdeRead` are the small specification | reading a field depends only on the pairs with its name; a permutation that repeats no name keeps those pairs; then the chain of fields is followed | proved |
| C105 | Tags for line breaks, characters and equations stand for what they say | Lexer, Blocks (blkLines, blkChar, blkEquationRef, getHeadValue), Parse, Html, TextRender; `Stands` in `Props/Tags` is the small specification | the symbols are read one by one (Lexing), the block rule is evaluated with the value at hand (C78 for the numbers of characters), the paragraph loop part by part, the renderers part by part | proved |
| C106 | What a comment contains has no effect | Lexer, Rules (ruleComment, ruleLineBreak), Parse; `CommentText`, `CommentLine` in `Props/Comments` are the small specification | the symbols of a comment at the end of a line do not depend on what follows (LexLocal); by the shapes of symbols (C57) none but --] itself reaches into its end; then the comment rule runs over them, and the paragraph loop line by line | proved |
| C107 | What the results depend on | parser, both renderers | a walk over every function of the parser (type class `Indep`) and of the HTML renderer (`AlikeH`): the environment is read only through the named fields; examples show that each field matters | proved |

## Defects of the code found on the way

Each has a theorem evaluated on a concrete text, or is a hypothesis of a positive theorem:

* `parse("))")` panics (C30); block parts in the wrong place panic or stay as partial elements on which both
  renderers panic (C30, C50, C59); a blank link label panics in headings and in both renderers (C30, C50).
* Text is lost by list bullets, headings, definition lists and table rows that turn out not to be such (C40). A row of a
  table with a blank after its last mark vanishes (`C40_table_blank_row_lost`); `: a :` takes the next definition for its
  value (`C40_definition_taken`).
* Shared state written by rules that fail later stays: duplicate table-of-contents entries (C60) and footnotes (C64).
* A bibliography entry that cites itself, and a footnote block in a footnote, make HTML rendering recurse without end
  (C47); a footnote in a bibliography entry makes it panic (C46).
* Attribute names beginning with `data-` or `aria-` are not checked further and can carry event handlers (C44); the extra part
  of a `javascript:;` link is an active script (C45); protocol-relative URLs pass as paths (C12).
* Nested include blocks make `include` panic (C27). E-mail addresses are never recognised (C09). The empty text cannot
  be converted to UTF-16 indices (C11). An equation reference shows through invisible containers (C68). A link to a place
  of the page itself is reported as a link to a page, the link of an image is not reported (C74).
* Without isolation authors can write the ids of headings (`C82_clash_without_isolation`); a NUL that was not replaced by
  preprocessing escapes isolation (`C82_nul_escapes`). A `src` attribute of an image is appended to its address
  (`C83_source_appended`).
* Preprocessing leaves backslash-newlines (C04), dot triples (C05), runs of newlines (C52), and is not idempotent
  (C53), against its own documentation and tests. Anchor target `Same` does not round-trip (C56).
* The blank after a block start without arguments is lost: `a[[b]] x[[/b]]` reads `ax` (`blank_after_start_lost`, C71).
* `[[[https://example.com]]]` shows `//example.com` (`address_loses_scheme`); `[[[p#x]]]` shows `p`, but `[[[c:p#x]]]` shows `p#x`
  (`part_shown_with_category`, C71).
