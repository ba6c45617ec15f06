{"id": "C01", "title": "Preprocessing removes carriage returns, tabs and NULs", "statement": "After preprocess(&mut s), s contains no '\\r', no '\\t' and no '\\0', whatever s was.", "quantifier": "every Unicode string s", "why_tests_cant": "ranges over infinitely many strings; a test fixes finitely many", "anchors": ["src/preproc/mod.rs:preprocess", "src/preproc/whitespace.rs:substitute"]}
{"id": "C02", "title": "Preprocessed text neither starts nor ends with a newline", "statement": "After preprocess(&mut s), s does not start with '\\n' and does not end with '\\n'.", "quantifier": "every Unicode string s", "why_tests_cant": "ranges over infinitely many strings; a test fixes finitely many", "anchors": ["src/preproc/whitespace.rs:LEADING_NEWLINES", "src/preproc/whitespace.rs:TRAILING_NEWLINES"]}
{"id": "C03", "title": "Preprocessing always terminates and is total", "statement": "Every replacement loop of preprocess makes progress, so preprocess returns on every input, and each of its eight replacement passes reaches a text in which the searched pattern has no match at or after the final search offset.", "quantifier": "every Unicode string", "why_tests_cant": "termination is about all inputs and all loop iterations", "anchors": ["src/preproc/mod.rs:Replacer::replace"]}
{"id": "C04", "title": "Backslash-newline joins: which joins survive", "statement": "preprocess removes every backslash-newline pair present after newline normalisation, but the documented claim that none remain in the output is false: a run of two backslashes before two newlines leaves one.", "quantifier": "every string for the removal, one witness for the failure", "why_tests_cant": "ranges over infinitely many strings; a test fixes finitely many", "anchors": ["src/preproc/whitespace.rs:CONCAT_LINES", "src/preproc/test.rs:prefilter_prop"]}
{"id": "C05", "title": "Ellipsis substitution only touches isolated dot triples", "statement": "The typography pass never alters text without a backtick, double comma or ellipsis (three dots, also with blanks between them); and the claim tested by the project's own proptest that no '...' remains is false for four dots.", "quantifier": "every string without those characters; one witness", "why_tests_cant": "ranges over infinitely many strings; a test fixes finitely many", "anchors": ["src/preproc/typography.rs:substitute"]}
{"id": "C06", "title": "Preprocessing is the identity on already-clean text", "statement": "If s has no line ending in a backslash, no backtick, comma pair, ellipsis, CR, tab or NUL, no non-standard leading space, no whitespace-only line, no three newlines in a row and no leading/trailing newline, preprocess leaves s unchanged.", "quantifier": "every string satisfying the cleanliness predicate", "why_tests_cant": "ranges over infinitely many strings; a test fixes finitely many", "anchors": ["src/preproc/mod.rs:preprocess"]}
{"id": "C07", "title": "Tokens tile the input exactly", "statement": "tokenize(text) returns a first token InputStart with span 0..0 and a last token InputEnd with span len..len; between them the tokens' spans are consecutive, non-empty, start at 0 and end at len, and each token's slice is exactly the text at its span (so concatenating slices gives back the text, and every span lies on UTF-8 boundaries).", "quantifier": "every Unicode string", "why_tests_cant": "ranges over infinitely many strings; a test fixes finitely many", "anchors": ["src/tokenizer.rs:tokenize", "src/parsing/token/mod.rs:extract_all", "src/parsing/lexer.pest"]}
{"id": "C08", "title": "The lexer never falls back", "statement": "The pest grammar accepts every text, so the error branch of extract_all (one Other token for everything) is never taken.", "quantifier": "every Unicode string", "why_tests_cant": "ranges over infinitely many strings; a test fixes finitely many", "anchors": ["src/parsing/token/mod.rs:extract_all"]}
{"id": "C09", "title": "No Email token is ever produced", "statement": "No input makes the lexer emit an Email token (the greedy grammar rule cannot match), so Element::Email never appears from lexing an address.", "quantifier": "every Unicode string", "why_tests_cant": "absence over all inputs", "anchors": ["src/parsing/lexer.pest:email"]}
{"id": "C10", "title": "UTF-16 index conversion is exact", "statement": "For every text and every byte offset i on a character boundary (except offset 0 of the empty text, where get_index panics), Utf16IndexMap::new(text).get_index(i) is the number of UTF-16 code units of the prefix of i bytes; it panics on every other offset.", "quantifier": "every string and every offset", "why_tests_cant": "ranges over infinitely many strings; a test fixes finitely many", "anchors": ["src/utf16.rs:Utf16IndexMap"]}
{"id": "C11", "title": "Converting all tokens of a text to UTF-16 indices", "statement": "For every non-empty text, to_utf16_indices succeeds on every token of tokenize(text), keeps token and slice, and yields consecutive spans ending at the UTF-16 length; for the empty text it panics.", "quantifier": "every string, every token", "why_tests_cant": "ranges over infinitely many strings; a test fixes finitely many", "anchors": ["src/parsing/token/mod.rs:to_utf16_indices", "src/utf16.rs"]}
{"id": "C12", "title": "No dangerous scheme survives href normalisation", "statement": "For every URL string u and every behaviour of the external page-name normaliser, normalize_href(u) either starts with one of the whitelisted schemes, or starts with '#', or is exactly 'javascript:;', or starts with '/'. In particular no javascript: or data: URL in any letter case or with embedded whitespace is returned, apart from the inert 'javascript:;'.", "quantifier": "every string u and every normaliser function", "why_tests_cant": "quantifies over all attacker strings", "anchors": ["src/url.rs:normalize_href", "src/url.rs:dangerous_scheme", "src/url.rs:is_url"]}
{"id": "C13", "title": "ID isolation prefixes every id, idempotently", "statement": "isolate_ids(s) is the whitespace-separated words of s, each given the prefix 'u-' exactly when it lacks it, joined by single spaces; applying it twice equals applying it once.", "quantifier": "every string", "why_tests_cant": "ranges over infinitely many strings; a test fixes finitely many", "anchors": ["src/id_prefix.rs:isolate_ids"]}
{"id": "C14", "title": "NonEmptyVec is never empty and pops like a stack", "statement": "Under any sequence of operations a NonEmptyVec has length at least one, last() never fails, and pop on a one-element vector returns nothing and leaves it unchanged.", "quantifier": "every operation sequence", "why_tests_cant": "histories are unbounded", "anchors": ["src/non_empty_vec.rs"]}
{"id": "C15", "title": "Depth-list nesting preserves items and order", "statement": "process_depths never panics on a list of items with depths, keeps every item exactly once in order, places each item at its given depth, and starts a new list where the list type at the same depth changes.", "quantifier": "every finite list of (depth, type, item)", "why_tests_cant": "ranges over infinitely many strings; a test fixes finitely many", "anchors": ["src/parsing/depth.rs:process_depths"]}
{"id": "C16", "title": "Page references round-trip through their display form", "statement": "For every PageRef whose page part is trimmed, non-empty and does not begin with ':' and whose site (if any) is trimmed, non-empty and colon-free, PageRef::parse of its displayed text is the same PageRef.", "quantifier": "every such PageRef", "why_tests_cant": "ranges over infinitely many strings; a test fixes finitely many", "anchors": ["src/data/page_ref.rs:PageRef::parse", "src/data/page_ref.rs:Display"]}
{"id": "C17", "title": "Page reference parsing rejects exactly the malformed strings", "statement": "PageRef::parse fails exactly when the trimmed string is empty, or starts with ':' and has no second ':' or has it immediately; it never panics; a parsed page has no surrounding whitespace.", "quantifier": "every string", "why_tests_cant": "ranges over infinitely many strings; a test fixes finitely many", "anchors": ["src/data/page_ref.rs:PageRef::parse"]}
{"id": "C18", "title": "Interwiki URLs follow the template and contain no spaces", "statement": "InterwikiSettings::build(link) is Some exactly when link has the form prefix:path with non-empty prefix known to the table and non-empty path; the result is the template with every '$$' replaced by path and then every space by %20; it contains no space and the space-replacing loop terminates.", "quantifier": "every table, every link", "why_tests_cant": "ranges over infinitely many strings; a test fixes finitely many", "anchors": ["src/settings/interwiki.rs:build"]}
{"id": "C19", "title": "Variable scopes resolve innermost first and are restored", "statement": "VariableScopes::get returns the value in the most recently pushed scope that defines the name; push followed by pop restores every lookup.", "quantifier": "every scope stack and name", "why_tests_cant": "histories are unbounded", "anchors": ["src/tree/variables.rs"]}
{"id": "C20", "title": "Attribute maps contain only whitelisted attributes", "statement": "Every key in AttributeMap::from_arguments(args) is ASCII-lowercase-equal to a whitelisted attribute name or starts with 'aria-' or 'data-'; no event-handler attribute (on...) can appear; href and src values are normalised so they carry no dangerous scheme; insert of an unsafe attribute is refused.", "quantifier": "every argument map", "why_tests_cant": "quantifies over all attacker-supplied attribute maps", "anchors": ["src/tree/attribute/mod.rs", "src/tree/attribute/safe.rs:is_safe_attribute"]}
{"id": "C21", "title": "Bibliography labels are unique and first definition wins", "statement": "After any sequence of add calls a bibliography has pairwise distinct labels, get returns the 1-based position of the first definition of that label, and get_reference returns the first bibliography's entry.", "quantifier": "every sequence of additions", "why_tests_cant": "histories are unbounded", "anchors": ["src/tree/bibliography.rs"]}
{"id": "C22", "title": "Link location parsing keeps URLs and drops only anchors and subpaths of pages", "statement": "LinkLocation::parse never panics; URLs, '#...' and '/...' are kept verbatim; otherwise the location and parse_extra together reconstruct the link (base + extra = link, base without '/' or '#').", "quantifier": "every string", "why_tests_cant": "ranges over infinitely many strings; a test fixes finitely many", "anchors": ["src/tree/link.rs:LinkLocation::parse", "src/tree/link.rs:parse_extra"]}
{"id": "C23", "title": "Image sources split exactly", "statement": "ImageSource::parse fails exactly on non-URLs with more than two '/' after an optional leading one; the parts contain no '/' and re-joining them with '/' gives the source back.", "quantifier": "every string", "why_tests_cant": "ranges over infinitely many strings; a test fixes finitely many", "anchors": ["src/tree/image.rs:ImageSource::parse"]}
{"id": "C24", "title": "Includes disabled leaves text untouched", "statement": "With enable_page_syntax = false, include returns the input text unchanged and no pages, and never calls the includer.", "quantifier": "every input, settings and includer", "why_tests_cant": "ranges over infinitely many strings; a test fixes finitely many", "anchors": ["src/includes/mod.rs:include"]}
{"id": "C25", "title": "Includes splice exactly the include blocks", "statement": "When the parsed include ranges do not overlap, include's output is the input with each include block replaced by its fetched (variable-substituted) text and all other text preserved in order, and the page list is the includes in document order.", "quantifier": "every input and every includer behaviour", "why_tests_cant": "ranges over infinitely many strings; a test fixes finitely many", "anchors": ["src/includes/mod.rs:include"]}
{"id": "C26", "title": "An includer returning the wrong number of pages or wrong page is an error, never a bad splice", "statement": "If the includer returns a different number of pages than asked or a page whose reference differs, include returns the invalid-return error (or an includer error), never Ok.", "quantifier": "every input and includer", "why_tests_cant": "ranges over infinitely many strings; a test fixes finitely many", "anchors": ["src/includes/mod.rs:include"]}
{"id": "C27", "title": "Nested include blocks can crash include", "statement": "There is an input with an include block inside another's argument for which include panics (range out of bounds) with a well-behaved includer; include never panics when ranges are disjoint.", "quantifier": "all inputs with disjoint ranges; witness for overlap", "why_tests_cant": "the crash depends on the relative length of fetched text", "anchors": ["src/includes/mod.rs:include"]}
{"id": "C28", "title": "Include variables are substituted once, non-recursively", "statement": "replace_variables replaces each '{$name}' whose name is in the map by its value, leaves every other part (including unknown variables and text introduced by values) unchanged.", "quantifier": "every content and map", "why_tests_cant": "ranges over infinitely many strings; a test fixes finitely many", "anchors": ["src/includes/mod.rs:replace_variables"]}
{"id": "C29", "title": "Parsing terminates on every input", "statement": "parse returns for every token stream produced by tokenize and every settings: no parser loop or recursion runs forever.", "quantifier": "every text, page info and settings", "why_tests_cant": "termination over all inputs", "anchors": ["src/parsing/mod.rs:parse", "src/parsing/consume.rs", "src/parsing/collect", "src/parsing/paragraph"]}
{"id": "C30", "title": "Parsing never panics, apart from three known defects", "statement": "parse panics (release build) on no text that avoids three things: the characters '))', the opening of a block for a part of a list, table, tab view or ruby annotation, and a triple-bracket link with a blank label. Every panic has one of these as its cause, and each of the three can cause one.", "quantifier": "every text", "why_tests_cant": "ranges over infinitely many strings; a test fixes finitely many", "anchors": ["src/parsing/rule/mapping.rs", "src/parsing/rule/impls/bibcite.rs"]}
{"id": "C31", "title": "Parse errors point into the text", "statement": "Every ParseError reported by parse carries the kind and span of a token of the text; the span lies in the text on character boundaries.", "quantifier": "every text", "why_tests_cant": "ranges over infinitely many strings; a test fixes finitely many", "anchors": ["src/parsing/error.rs", "src/parsing/consume.rs"]}
{"id": "C32", "title": "Attributes in the parsed tree are safe", "statement": "Every attribute map anywhere in the tree returned by parse (including footnotes, bibliographies) contains no name twice and only whitelisted attribute names (on the list of safe ones, or standing in the text and beginning with aria- or data-), href/src values without dangerous schemes, and prefixed ids when the settings isolate user ids.", "quantifier": "every text and settings", "why_tests_cant": "quantifies over all attacker documents", "anchors": ["src/parsing", "src/tree/attribute"]}
{"id": "C33", "title": "With page syntax disabled no page-only element is produced", "statement": "If settings.enable_page_syntax is false the parsed tree (with its footnotes and bibliographies) contains no module, style sheet, table of contents or included elements.", "quantifier": "every text", "why_tests_cant": "ranges over infinitely many strings; a test fixes finitely many", "anchors": ["src/parsing/check_step.rs", "src/parsing/parser.rs:check_page_syntax"]}
{"id": "C34", "title": "Bibliography blocks refer to existing bibliographies", "statement": "Every BibliographyBlock in the parsed tree has an index less than the number of bibliographies in the tree, so rendering it never indexes out of range.", "quantifier": "every text", "why_tests_cant": "ranges over infinitely many strings; a test fixes finitely many", "anchors": ["src/parsing/rule/impls/block/blocks/bibliography.rs", "src/tree/bibliography.rs"]}
{"id": "C35", "title": "Named code blocks are unique", "statement": "In the list of code blocks of a parsed tree no two blocks have the same name; every code block and HTML block occurring in the tree is in the tree's list of such blocks.", "quantifier": "every text", "why_tests_cant": "ranges over infinitely many strings; a test fixes finitely many", "anchors": ["src/parsing/parser.rs:push_code_block"]}
{"id": "C36", "title": "Footnotes do not nest", "statement": "No footnote of a parsed tree contains a reference to a footnote.", "quantifier": "every text", "why_tests_cant": "ranges over infinitely many strings; a test fixes finitely many", "anchors": ["src/parsing/rule/impls/block/blocks/footnote.rs"]}
{"id": "C37", "title": "Paragraphs contain only paragraph-safe elements", "statement": "Every paragraph anywhere in a parsed tree is non-empty and contains only elements that may stand in a paragraph.", "quantifier": "every text", "why_tests_cant": "ranges over infinitely many strings; a test fixes finitely many", "anchors": ["src/parsing/paragraph"]}
{"id": "C38", "title": "A footnote block is always present exactly when needed", "statement": "If the text opens no footnote block, the elements of the parsed tree end with the default footnote block and contain no other (unless the nesting limit degraded the whole text to one text element).", "quantifier": "every text", "why_tests_cant": "ranges over infinitely many strings; a test fixes finitely many", "anchors": ["src/parsing/mod.rs:parse"]}
{"id": "C39", "title": "Plain text is preserved verbatim", "statement": "A text of letters, digits, blanks and characters without meaning in the markup parses, without errors, to one paragraph whose text elements concatenate to the text (and the footnote block).", "quantifier": "every such text", "why_tests_cant": "ranges over infinitely many strings; a test fixes finitely many", "anchors": ["src/parsing/rule/impls/text.rs"]}
{"id": "C40", "title": "Some valid markup loses text", "statement": "There are documents whose visible text is dropped by the parser (list bullet, definition list, table row, heading defects), and a definition whose missing value is taken from the next line.", "quantifier": "witnesses", "why_tests_cant": "shows the guarantee 'text is never lost' is false", "anchors": ["src/parsing/rule/impls/list.rs", "src/parsing/rule/impls/definition_list.rs", "src/parsing/rule/impls/table.rs", "src/parsing/rule/impls/header.rs"]}
{"id": "C41", "title": "Recursion depth is bounded", "statement": "Parsing nests at most 100 calls of the rule driver; if the limit is exceeded at the top, the result is the whole text as one text element with one error of that kind, and otherwise the tree is a regular one with a footnote block.", "quantifier": "every text", "why_tests_cant": "ranges over infinitely many strings; a test fixes finitely many", "anchors": ["src/parsing/consume.rs", "src/parsing/parser.rs:depth_increment"]}
{"id": "C42", "title": "HTML escaping leaves no markup characters", "statement": "escape(s) contains no '<', '>', quote, apostrophe or NUL, and every '&' in it begins one of the five entities; unescaping gives s back with NULs as spaces.", "quantifier": "every string", "why_tests_cant": "ranges over infinitely many strings; a test fixes finitely many", "anchors": ["src/render/html/escape.rs"]}
{"id": "C43", "title": "Rendered HTML is balanced", "statement": "For every tree with plain attribute names on which rendering succeeds, the HTML body is accepted by a strict independent HTML reader and is a sequence of properly nested elements (void elements excepted), provided the CSS printer never prints </style and the MathML converter returns nested MathML.", "quantifier": "every syntax tree, page info, settings and external CSS/MathML/random behaviour", "why_tests_cant": "structural property of all trees", "anchors": ["src/render/html"]}
{"id": "C44", "title": "User text cannot inject tags or break out of attributes", "statement": "For every tree with plain attribute names, every element of the rendered body is one the renderer uses, has no attribute twice, and its attributes are the renderer's own or attributes of the tree; scripts, frames and event handlers are limited to the known ones. Replacing the contents of text elements by other text does not change the tags of the body. Attribute names that are not plain (data-... with spaces) can inject attributes: a witness exists.", "quantifier": "every syntax tree", "why_tests_cant": "quantifies over attacker documents", "anchors": ["src/render/html"]}
{"id": "C45", "title": "Rendered link targets carry no dangerous scheme", "statement": "Every href in the rendered body is safe in the sense of C12, or is an href attribute of the tree, or is javascript:; followed by the extra part of such a link of the tree; the last case occurs and is an active script.", "quantifier": "every syntax tree", "why_tests_cant": "ranges over infinitely many strings; a test fixes finitely many", "anchors": ["src/render/html/element/link.rs", "src/render/html/element/image.rs"]}
{"id": "C46", "title": "Footnote rendering and numbering", "statement": "Footnote references in the rendered body are numbered 1, 2, 3, ... in order, at most as many as there are footnotes. When only the body has references and nothing else panics, rendering that ends gives a page, with exactly the references of the body, if and only if there are at least as many footnotes as references, and panics for want of a footnote otherwise. With a footnote in a bibliography entry, which is rendered once per citation, a parsed page can panic: a witness exists.", "quantifier": "every tree", "why_tests_cant": "ranges over infinitely many strings; a test fixes finitely many", "anchors": ["src/render/html/element/footnotes.rs"]}
{"id": "C47", "title": "A bibliography entry citing itself makes rendering recurse forever", "statement": "Rendering a page on which some bibliography entry, or footnote, is rendered within itself never returns a page; in particular not for an entry that cites itself, nor for a list of footnotes in a footnote. Two parsed texts recurse forever, whatever the settings.", "quantifier": "a family of trees; all recursion depths", "why_tests_cant": "non-termination cannot be shown by a finite test", "anchors": ["src/render/html/element/bibliography.rs"]}
{"id": "C48", "title": "Heading ids are unique and sequential", "statement": "With use_true_ids, the ids of the headings in the rendered body are toc0, toc1, ... in order, without repetition, if the tree gives headings no ids of its own.", "quantifier": "every tree", "why_tests_cant": "ranges over infinitely many strings; a test fixes finitely many", "anchors": ["src/tree/heading.rs", "src/render/html/context.rs"]}
{"id": "C49", "title": "Text rendering never starts or ends with a newline", "statement": "TextRender output does not start or end with '\\n', and hidden containers contribute nothing.", "quantifier": "every tree", "why_tests_cant": "ranges over infinitely many strings; a test fixes finitely many", "anchors": ["src/render/text"]}
{"id": "C50", "title": "When rendering panics", "statement": "The text renderer panics exactly on the trees in which it reaches a partial element or a link to a URL labelled with a page title; parse can return such trees (nested list item blocks, blank link labels).", "quantifier": "every tree; witness documents", "why_tests_cant": "ranges over infinitely many strings; a test fixes finitely many", "anchors": ["src/render/html/element/mod.rs", "src/render/text/elements.rs", "src/tree/partial.rs"]}
{"id": "C51", "title": "Preprocessing preserves visible content", "statement": "The visible characters of preprocess(s) (everything but whitespace, backslashes and the typographic marks it rewrites) are those of s, in order: nothing is dropped, duplicated or reordered.", "quantifier": "every text", "why_tests_cant": "ranges over infinitely many strings; a test fixes finitely many", "anchors": ["src/preproc/mod.rs:preprocess"]}
{"id": "C52", "title": "Blank lines are compressed", "statement": "When the text has no backslash or NUL, preprocess output has no run of three newlines; in general it may (a witness exists).", "quantifier": "every text", "why_tests_cant": "ranges over infinitely many strings; a test fixes finitely many", "anchors": ["src/preproc/whitespace.rs"]}
{"id": "C53", "title": "Preprocessing is not idempotent", "statement": "There is a text for which preprocessing twice differs from preprocessing once.", "quantifier": "witness", "why_tests_cant": "a limitation a caller must know when caching preprocessed text", "anchors": ["src/preproc/mod.rs"]}
{"id": "C54", "title": "Any value can be passed in quotes", "statement": "parse_string of the quoted form of any string (quotes and backslashes escaped) is that string; unquoted text is returned verbatim; a lone backslash before the closing quote is lost.", "quantifier": "every string", "why_tests_cant": "ranges over infinitely many strings; a test fixes finitely many", "anchors": ["src/parsing/string.rs:parse_string"]}
{"id": "C55", "title": "Boolean arguments", "statement": "parse_boolean accepts exactly true/t/1/yes and false/f/0/no, ignoring ASCII case and surrounding whitespace.", "quantifier": "every string", "why_tests_cant": "ranges over infinitely many strings; a test fixes finitely many", "anchors": ["src/parsing/boolean.rs:parse_boolean"]}
{"id": "C56", "title": "Anchor targets do not all round-trip", "statement": "The target attribute written for each anchor target parses back to that target, except for Same, whose written form is not accepted.", "quantifier": "every anchor target", "why_tests_cant": "documents a defect: _same is not an HTML target", "anchors": ["src/tree/anchor.rs"]}
{"id": "C57", "title": "Token slices have the shape their kind promises", "statement": "Every token returned by tokenize has a slice of the form its kind stands for: fixed tokens their literal, headings one to six '+' with an optional '*', variables '{$name}', URLs a scheme and a non-empty rest without spaces, pipes or brackets, and so on; every heading token converts to a heading of the level given by its plus signs. Blanks are read as one token: no token of blanks follows another.", "quantifier": "every text, every token", "why_tests_cant": "ranges over infinitely many strings; a test fixes finitely many", "anchors": ["src/parsing/lexer.pest", "src/parsing/token/mod.rs", "src/tree/heading.rs"]}
{"id": "C58", "title": "Include arguments: first real value wins", "statement": "The variables an include block passes to the includer have distinct names; each name gets the value of its first argument that is not just a reference to itself; names are identifiers and values are non-empty and contain no pipe.", "quantifier": "every include block text and argument list", "why_tests_cant": "ranges over infinitely many strings; a test fixes finitely many", "anchors": ["src/includes/parse.rs:process_pairs", "src/includes/grammar.pest"]}
{"id": "C59", "title": "Left-over partial elements lie below their hosts", "statement": "A partial element left in the body of a parsed tree always lies below a node with a place for such parts (item in item, cell in cell, tab in tab, ruby text in ruby) and the text opens its block; row parts and top-level parts are never left over. Such elements are left over for some texts.", "quantifier": "every text", "why_tests_cant": "ranges over infinitely many strings; a test fixes finitely many", "anchors": ["src/parsing/rule/impls/block/blocks", "src/tree/partial.rs"]}
{"id": "C60", "title": "The table of contents", "statement": "The table of contents of a parsed tree is a nest of bullet lists whose entries link to #toc0, #toc1, ... in order, and has at least as many entries as the body has headings that count; it can have more.", "quantifier": "every text", "why_tests_cant": "ranges over infinitely many strings; a test fixes finitely many", "anchors": ["src/parsing/mod.rs:parse", "src/parsing/parser.rs:push_table_of_contents_entry", "src/parsing/depth.rs"]}
{"id": "C61", "title": "Parsed trees are well-formed", "statement": "Tables hold rows, rows cells, lists items and sub-lists, definition lists items of one key and one value, and so on; parts of elements occur nowhere else; elements without contents have none; cells span at least one column; tab views and definition lists are non-empty.", "quantifier": "every text", "why_tests_cant": "ranges over infinitely many strings; a test fixes finitely many", "anchors": ["src/tree", "src/parsing/rule/impls"]}
{"id": "C62", "title": "Special elements come from their blocks", "statement": "An element only a block can make (module, HTML, iframe, image, user, embed, ...) is in a parsed tree only if the text opens that block; the default footnote block is the one exception. Footnotes, bibliographies, code and HTML blocks are collected only if the text opens such a block; the code and HTML stand in the text.", "quantifier": "every text", "why_tests_cant": "ranges over infinitely many strings; a test fixes finitely many", "anchors": ["src/parsing/rule/impls/block"]}
{"id": "C63", "title": "Code, HTML, styles and formulas are verbatim", "statement": "The contents of code, HTML, style and math elements of a parsed tree are substrings of the text, character by character.", "quantifier": "every text", "why_tests_cant": "ranges over infinitely many strings; a test fixes finitely many", "anchors": ["src/parsing/rule/impls/block/blocks/code.rs", "src/parsing/rule/impls/block/blocks/html.rs", "src/parsing/rule/impls/block/blocks/css.rs", "src/parsing/rule/impls/block/blocks/math.rs", "src/parsing/collect/text.rs"]}
{"id": "C64", "title": "Footnote references have footnotes", "statement": "A parsed tree has at least as many footnotes as its body has references to footnotes; it can have more.", "quantifier": "every text", "why_tests_cant": "ranges over infinitely many strings; a test fixes finitely many", "anchors": ["src/parsing/rule/impls/block/blocks/footnote.rs"]}
{"id": "C65", "title": "Values in a parsed tree are in range", "statement": "In a parsed tree heading levels are 1 to 6, line-break counts 1 to 100, variable names non-empty ASCII alphanumeric, frame sources absolute URLs, embeds of known kinds, anchor names isolated if asked for, no e-mail elements; a URL link is labelled with a page title only if the text has a blank link label.", "quantifier": "every text", "why_tests_cant": "ranges over infinitely many strings; a test fixes finitely many", "anchors": ["src/parsing/rule/impls"]}
{"id": "C66", "title": "Parsed text renders", "statement": "The tree parsed from any text that opens no part block and has no blank link label renders to text without panic.", "quantifier": "every text, and every page info and world at rendering", "why_tests_cant": "ranges over infinitely many strings; a test fixes finitely many", "anchors": ["src/parsing", "src/render/text"]}
{"id": "C67", "title": "Visible text is kept by text rendering", "statement": "Every text or raw element of a tree that is below no hidden or invisible container appears in the rendered text as a contiguous substring (if it has no newline).", "quantifier": "every tree", "why_tests_cant": "ranges over infinitely many strings; a test fixes finitely many", "anchors": ["src/render/text/elements.rs"]}
{"id": "C68", "title": "Invisible containers render as blanks", "statement": "Invisible containers without dates and equation references render to spaces and newlines only; an equation reference inside one leaks its name.", "quantifier": "every tree; witness document", "why_tests_cant": "ranges over infinitely many strings; a test fixes finitely many", "anchors": ["src/render/text/context.rs", "src/render/text/elements.rs"]}
{"id": "C69", "title": "Rendering to HTML ends", "statement": "The depth of recursion allowed does not change what rendering returns; rendering returns if forests rendered within each other nest to a bounded depth. The tree parsed from any text without part blocks, footnote block and blank link labels, whose bibliography entries are plain, renders to a page, without panic, if the CSS parser does not fail.", "quantifier": "every tree; every text, page, settings and world", "why_tests_cant": "ranges over infinitely many strings; a test fixes finitely many", "anchors": ["src/render/html", "src/parsing"]}
{"id": "C70", "title": "Texts are shown by HTML rendering", "statement": "Every text, raw text, source code or link label that rendering reaches, from the body of the page or through its lists of footnotes, bibliographies, citations and tables of contents, is found in the text of the rendered page as a contiguous substring, character references decoded, unchanged but for NUL characters.", "quantifier": "every syntax tree with plain attribute names", "why_tests_cant": "ranges over infinitely many strings; a test fixes finitely many", "anchors": ["src/render/html"]}
{"id": "C71", "title": "Pages written in the markup parse to their meaning", "statement": "A page written from headings, paragraphs, centred lines, rules, float clears, nested bullet and numbered lists, nested quotes, tables (title cells, aligned cells, cells spanning columns), lists of definitions, lists and tables made of blocks ([[ul]], [[ol]], [[li]], [[table]], [[row]], [[cell]], [[hcell]] with arguments), bibliographies, and boxes around any of these (div and blockquote with arguments, alignments, collapsible boxes with their options, tab views with their labelled tabs, nested at will), and blocks of code, HTML and formulas holding any text but the end of a block, and tables of contents, frames, videos and modules, whose lines hold words, characters, blanks, line breaks, nested paired styles, colours, raw text and comments (in which the symbols of the markup mean nothing), blocks in a line (bold to invisible by any of their names in any case, span, anchors, sizes, with quoted arguments), images (from an address or a file, aligned or floating, with their attributes and links), links to pages, addresses and places on the page, users, checkboxes and radio buttons (with the blanks after them, which are not kept), citations, link targets, formulas, variables and footnotes (holding any of these, with line breaks), parses without errors to exactly the elements these stand for, followed by the footnote block; its table of contents lists its headings with their depths and names, the HTML and code blocks (with their languages and names, which must differ) and the contents of the footnotes are collected in order; nothing else is.", "quantifier": "every page of the document language, every world, page info and settings", "why_tests_cant": "ranges over infinitely many strings; a test fixes finitely many", "anchors": ["src/parsing", "src/parsing/rule/impls", "src/parsing/lexer.pest"]}
{"id": "C72", "title": "Pages written in the markup render to their HTML", "statement": "A page written in the markup, parsed and rendered, is exactly the expected HTML: paragraphs, headings, rules, centred lines, float clears, nested lists and quotes, tables with spans and alignments, definition lists, lists and tables made of blocks, bibliographies and the citations of their entries, boxes with their attributes and the collapsible ones with their buttons, tab views (a button for each tab with its label, button i controlling panel i and panel i naming button i, by generated ids of their own; the first tab selected and shown, the others hidden), blocks of code escaped and with their language, framed HTML, numbered formulas, the table of contents with its nested list of links wherever it is asked for, frames and videos, styled text, blocks in a line with their attributes (the user's classes joined to the output's own, addresses normalised), images with their places, addresses, attributes and links, links with their addresses, classes and labels, users, formulas, targets, footnotes numbered in the order they are written in, each with its contents at its reference and again in the list at the end, with all text escaped; its headings in the table of contents carry, in order, the ids the table's links point to (or, without true ids, the generated ones); the links reported are those written, in order, those to pages apart from those to other addresses.", "quantifier": "every page of the document language, every world, page info and settings", "why_tests_cant": "ranges over infinitely many strings; a test fixes finitely many", "anchors": ["src/parsing", "src/render/html"]}
{"id": "C73", "title": "Pages written in the markup render to their text", "statement": "A page written in the markup, parsed and rendered as text, is exactly its text without markup and footnotes (hidden blocks left out, invisible ones blanked), each paragraph, heading, list item, row of a table, definition, box, label and contents of a tab, block of code and line of a quote on lines of its own.", "quantifier": "every page of the document language, every world, page info and settings", "why_tests_cant": "ranges over infinitely many strings; a test fixes finitely many", "anchors": ["src/parsing", "src/render/text"]}
{"id": "C74", "title": "The links reported for a page are those shown", "statement": "Rendering to HTML reports links to pages and links to web addresses. The link elements (class wj-link) of the rendered page are, in order, link elements of the syntax tree, each with the address of its target; the reported links are exactly the targets of these elements, in order: page names and addresses that are no web addresses as links to pages, web addresses as external links, the empty link javascript:; not at all.", "quantifier": "every syntax tree with plain attribute names, every world, page info and settings", "why_tests_cant": "ranges over infinitely many strings; a test fixes finitely many", "anchors": ["src/render/html/context.rs", "src/render/html/element/link.rs", "src/data/backlinks.rs"]}
{"id": "C75", "title": "Every text that avoids the known defects becomes a safe page", "statement": "For every text that contains neither )) nor aria- nor data-, opens no block for a part of a list, table, tab view or ruby annotation, no footnote block and no bibliography, and has no blank link label: parsing returns, HTML rendering returns, and the page is properly nested HTML in which every element is a known one with attributes from the renderer's list or the list of safe attributes, none twice, without event handlers but the renderer's own, with safe link addresses (or the empty link), and scripts and frames only from known places; footnote references and headings are numbered in order.", "quantifier": "every text, world, page info and settings", "why_tests_cant": "ranges over infinitely many strings; a test fixes finitely many", "anchors": ["src/parsing", "src/render/html", "src/tree/attribute"]}
{"id": "C76", "title": "What conditions on tags and categories mean", "statement": "A page passes the condition of an [[iftags]] block exactly if it has every tag written with +, no tag written with -, and at least one of the unsigned tags if there are any, whatever blanks stand around them; for [[ifcategory]] + counts as no sign, and a page without a category is in _default. Every text is a list of such conditions. A page made of one such block shows the contents of the block if the page passes and nothing otherwise; but the footnotes of hidden contents are listed all the same, and a later footnote reference then shows the text of the hidden one.", "quantifier": "every condition text, every list of tags", "why_tests_cant": "ranges over infinitely many strings; a test fixes finitely many", "anchors": ["src/parsing/element_condition.rs:ElementCondition", "src/parsing/rule/impls/block/blocks/iftags.rs", "src/parsing/rule/impls/block/blocks/ifcategory.rs"]}
{"id": "C77", "title": "Which time zones a date accepts", "statement": "A time zone argument is accepted exactly if it is an optionally signed number of hours and minutes (one or two digits, optional colon, optional two digits) or else an optionally signed decimal number of seconds, of at most 25:59:59; its offset is that many seconds. In particular seconds of at most four digits are read as hours and minutes.", "quantifier": "every argument text", "why_tests_cant": "ranges over infinitely many strings; a test fixes finitely many", "anchors": ["src/parsing/rule/impls/block/blocks/date.rs:parse_timezone"]}
{"id": "C78", "title": "Characters can be written by their numbers", "statement": "Every character can be written in a [[char]] block by its number, decimal or hexadecimal, with & and ; and blanks around it or not; numbers that are no characters are rejected.", "quantifier": "every character and number, every spelling", "why_tests_cant": "ranges over infinitely many strings; a test fixes finitely many", "anchors": ["src/parsing/rule/impls/block/blocks/char.rs:find_entity,get_char,strip_entity"]}
{"id": "C79", "title": "Line ends part the token stream", "statement": "The tokens of two texts joined by a line end, the first not ending in one, are the tokens of the first followed by those of the rest from the line end on, at their places: no token reaches from one line into the next, and how a line is cut into tokens does not depend on what comes before or after it. (An empty line is one token, so the condition is needed.)", "quantifier": "every pair of texts", "why_tests_cant": "ranges over infinitely many strings; a test fixes finitely many", "anchors": ["src/parsing/lexer.pest", "src/parsing/token/mod.rs:Token::extract_all", "src/tokenizer.rs:tokenize"]}
{"id": "C80", "title": "Attributes are those written in the text", "statement": "Every attribute of an element of a parsed page stands in the text as a name on one line, an equals sign and a value on one line between quotes, of which the first not escaped is the last: its name is the written one up to case, its value what the quotes hold with escapes resolved, changed only as flags, addresses and (when isolated) ids are. The only other attributes are the class of tables and the styles for sizes; so a text without quotes or equals signs has no other attributes.", "quantifier": "every text, world, page info and settings; every attribute of every element anywhere in the tree", "why_tests_cant": "ranges over infinitely many strings; a test fixes finitely many", "anchors": ["src/parsing/parser.rs", "src/parsing/rule/impls/block/parser.rs:get_head_map", "src/parsing/rule/impls/block/arguments.rs:to_attribute_map", "src/tree/attribute/mod.rs"]}
{"id": "C81", "title": "No text is invented", "statement": "Every text element of a parsed page is a piece of the text, or one of the dashes and angle quotes that stand for a piece of it, or the character that a [[char]] block standing in it names (by name or number, without blanks, & and ;), or the text of [[later]] or of a missing included page; raw text, names of users, labels of citations and tabs, references to equations, inline formulas, names of radio buttons, variables and frame addresses are pieces of one line of the text; colours and link targets are, up to a leading # and the isolation of ids. Titles, labels of collapsible blocks, languages of code, formats of dates, videos, links of images and options of modules are values of the arguments for them.", "quantifier": "every text, world, page info and settings; every element anywhere in the tree", "why_tests_cant": "ranges over infinitely many strings; a test fixes finitely many", "anchors": ["src/parsing/rule/impls", "src/parsing/rule/impls/block/blocks"]}
{"id": "C82", "title": "Ids of authors and of the renderer do not clash", "statement": "Every id on a rendered page is one written by the author, on an element or as an anchor, or one the renderer makes up (of a heading, a tab, the table of contents, a bibliography entry), or both with a blank between them. If ids are isolated, every id on a page parsed from a text without NUL and rendered begins with u- or is one the renderer makes up, and none of the latter begins with u-: so authors cannot write a generated id. (Without isolation they can: witness.)", "quantifier": "every text, world, page info and settings; every element of the rendered page", "why_tests_cant": "ranges over infinitely many strings; a test fixes finitely many", "anchors": ["src/id_prefix.rs:isolate_ids", "src/render/html", "src/tree/attribute/mod.rs:isolate_id"]}
{"id": "C83", "title": "Images come from where the author says", "statement": "The address of every image of a rendered page is the placeholder of avatars, or that of an image of the syntax tree: a web address as given, or, only where local paths are allowed, that of a file of the named page and site or of this one; on a page parsed from a text the web address or the name of the site stands in the text. A src attribute given besides is appended to it (witness).", "quantifier": "every text, world, page info and settings; every image of the rendered page", "why_tests_cant": "ranges over infinitely many strings; a test fixes finitely many", "anchors": ["src/render/html/element/image.rs", "src/tree/image.rs:ImageSource::parse", "src/render/handle.rs:get_image_link"]}
{"id": "C84", "title": "What is kept out of drafts, posts and messages", "statement": "In every mode but that of pages, an id of the rendered text is the author's (an attribute or the name of a link target), or random, or that of a bibliography entry, or one of the latter three followed by the author's: headings and tables of contents get no fixed ids. In posts and messages, moreover, nothing is included, the tree has no module, style, table of contents or included elements, and images are avatars or begin with a web address standing in the text, so that no file of the wiki is shown. (Bibliography entries keep fixed ids, and authors can write the fixed ids of pages in every mode: witnesses.)", "quantifier": "every text, includer, world and page info; every mode but that of pages, and posts and messages", "why_tests_cant": "ranges over infinitely many strings; a test fixes finitely many", "anchors": ["src/settings/mod.rs:WikitextSettings::from_mode", "src/render/html", "src/includes/mod.rs:include", "src/parsing/parser.rs:check_page_syntax", "src/tree/image.rs"]}
{"id": "C85", "title": "Owned copies and iteration", "statement": "The owned copy of a syntax tree (to_owned) is equal to it in every field of every element, in particular for parsed trees. Iterating over an element collection, by reference or by value, yields its elements in order, each once, and then nothing, however often it is asked; len is their number and is_empty says whether there are none.", "quantifier": "every syntax tree (attribute maps sorted, as they always are), every text, every collection and number of steps", "why_tests_cant": "ranges over infinitely many strings; a test fixes finitely many", "anchors": ["src/tree/clone.rs", "src/tree/element/object.rs:Element::to_owned", "src/tree/mod.rs:SyntaxTree::to_owned", "src/tree/element/iter_ref.rs", "src/tree/element/iter_owned.rs", "src/tree/element/collection.rs"]}
{"id": "C86", "title": "The built-in includers", "statement": "The debug includer works on every text whose include blocks do not overlap: each block becomes a text naming its page and its variables in order of their names, except that the first of several is treated as missing. The null includer leaves texts without include blocks as they are; on any other it makes include fail with the invalid-return error, although it is documented to replace include blocks with nothing.", "quantifier": "every text, every error value", "why_tests_cant": "ranges over infinitely many strings; a test fixes finitely many", "anchors": ["src/includes/includer/null.rs:NullIncluder", "src/includes/includer/debug.rs:DebugIncluder", "src/includes/mod.rs:include"]}
{"id": "C87", "title": "Karma levels are the numbers up to five", "statement": "A karma level is made from a number exactly if the number is at most 5, and it has that number as its value; levels with the same value are equal.", "quantifier": "every number and level", "why_tests_cant": "ranges over infinitely many strings; a test fixes finitely many", "anchors": ["src/data/karma.rs:KarmaLevel"]}
{"id": "C88", "title": "The table of contents leads to the headings", "statement": "Wherever a page written in the markup shows its table of contents, the entry number i is a link to #toci, and the rendered page has a heading with the id toci whose text is the name of the entry; this holds for every entry, and there is one for each heading that is not excluded. (Without true ids, as in drafts, the links still lead to #toci but the headings carry generated ids, so they lead nowhere: witness.)", "quantifier": "every page written in the markup, world, page info and settings with true ids; every entry of the table", "why_tests_cant": "ranges over infinitely many strings; a test fixes finitely many", "anchors": ["src/render/html/element/toc.rs:render_table_of_contents", "src/render/html/element/container.rs", "src/parsing/parser.rs:push_table_of_contents_entry", "src/parsing/mod.rs:build_toc_list_element"]}
{"id": "C89", "title": "From source text to output: the stages put together", "statement": "Preprocessing does not depend on how lines end (LF, CRLF, CR or a mixture). A text without the word 'include' (any letter case) asks the includer for no page, and a text that asks for none is unchanged by include() and reports no pages. For a page of the document language whose spelling needs no preprocessing, any source which becomes that spelling (up to line endings) when its includes are resolved gives, by include, preprocess, tokenize, parse and render, exactly the HTML, the links and the text the page stands for.", "quantifier": "every source text; every page of the document language; every includer, page, world, settings", "why_tests_cant": "ranges over infinitely many strings; a test fixes finitely many", "anchors": ["src/includes/mod.rs:include", "src/preproc/mod.rs:preprocess", "src/tokenizer.rs:tokenize", "src/parsing/mod.rs:parse", "src/render/html/render.rs:HtmlRender", "README.md"]}
{"id": "C90", "title": "The metadata of a page say what they should", "statement": "The metadata entries that come with a rendered page, written out as HTML, are read by an HTML reader as exactly four meta elements: the content type, the generator with its version and the layout, the description (the title, followed by a dash and the alternative title if there is one) and the keywords (the tags, separated by commas); no title, alternative title, tag or version can break out of its entry or add another one. More generally every list of entries is read back as the entries it was made of (NUL characters are shown as blanks).", "quantifier": "every page info, settings and tree, and every list of entries", "why_tests_cant": "ranges over infinitely many strings; a test fixes finitely many", "anchors": ["src/render/html/meta.rs:HtmlMeta::render", "src/render/html/context.rs:HtmlContext::initial_metadata", "src/layout.rs:Layout::description"]}
{"id": "C91", "title": "A syntax tree written as JSON and read back is the same tree", "statement": "Serialising any syntax tree produced by parsing and deserialising the result yields the same tree, in every field of every element, whatever the page, page info and settings; in particular two parsed pages with the same JSON have the same tree, so a renderer on the other side of a process boundary loses nothing. The names in the JSON are fixed: missing options are null, element names and fields are in lower case with dashes (except key_string and the names of parts), and the tag tells which variant was written. In JSON from elsewhere, objects of attributes and of variables are read exactly if their values are texts, and a key given several times has the last value.", "quantifier": "every page text, page info, settings and parse outcome; every tree whose nodes are as the types guarantee; every format of dates that can be read back", "why_tests_cant": "ranges over infinitely many strings; a test fixes finitely many", "anchors": ["src/tree/mod.rs: SyntaxTree", "src/tree/element/object.rs: Element", "src/tree/container.rs: Container", "src/tree/attribute/mod.rs: AttributeMap", "src/tree/link.rs", "src/tree/image.rs", "src/tree/list.rs", "src/tree/table.rs", "src/tree/tab.rs", "src/tree/module.rs", "src/tree/date.rs", "src/data/page_ref.rs"]}
{"id": "C92", "title": "The interface for JavaScript speaks of positions in JavaScript strings", "statement": "For every non-empty text, tokens() of the WebAssembly interface succeeds, and each token's span cuts exactly its slice out of the JavaScript (UTF-16) string; the spans lie one after the other from 0 to the length of the string (for the empty text tokens() panics). parse() of the interface fails only when parse fails, and gives the same tree and the same errors, the span of each cutting the text the error is about out of the JavaScript string - also for the empty text. get_index answers at every boundary between characters, throws behind the end, and panics inside a character. from_mode accepts exactly the names used in JSON. Tokens, errors and settings have fixed names in JSON; settings and errors written as JSON are read back unchanged.", "quantifier": "every text, page info, settings, position, error", "why_tests_cant": "ranges over infinitely many strings; a test fixes finitely many", "anchors": ["src/wasm/tokenizer.rs: convert_tokens_utf16", "src/wasm/parsing.rs: parse, convert_errors_utf16", "src/wasm/utf16.rs: get_index", "src/wasm/settings.rs: from_mode", "src/parsing/error.rs: ParseError::to_utf16_indices", "src/settings/mod.rs"]}
{"id": "C93", "title": "Small values are read from their texts", "statement": "LinkType::try_from accepts exactly the names LinkType::name writes, Alignment::try_from exactly the four marks, Layout::from_str exactly the names Layout::value writes in any letter case, each giving the value the text stands for. Heading::try_from reads the marks of every heading as this heading; it accepts exactly the texts of one to six bytes that end in a plus sign, and those with an asterisk after one to six bytes (the other characters need not be plus signs).", "quantifier": "every text and every value", "why_tests_cant": "ranges over infinitely many strings; a test fixes finitely many", "anchors": ["src/tree/link.rs: LinkType::try_from", "src/tree/align.rs: Alignment::try_from", "src/layout.rs: Layout::from_str", "src/tree/heading.rs: Heading::try_from, HeadingLevel::prefix"]}
{"id": "C94", "title": "What unclosed blocks cost", "statement": "A user relies on the work done for a page, and on the lists collected from it, being in proportion to its length. This is false: for every n up to the limit on nesting (98), the page of 8n+26 characters made of n times [[span]] followed by [[footnote]]x[[/footnote]] parses without an error to one paragraph with the brackets as text and one footnote reference, but its list of footnotes has 2^n entries, all the same: the contents of every unclosed block are parsed twice, once as contents (which fails at the end of the page, without taking back what was collected) and once as text.", "quantifier": "every number of unclosed blocks within the nesting limit; every world, page info and settings", "why_tests_cant": "ranges over infinitely many strings; a test fixes finitely many", "anchors": ["src/parsing/consume.rs: consume", "src/parsing/rule/mod.rs: Rule::try_consume", "src/parsing/rule/impls/block/parser.rs: get_body_elements", "src/parsing/parser.rs: push_footnote"]}
{"id": "C95", "title": "Include blocks are read as written, and exactly they are replaced", "statement": "In a text where every include block stands alone on its lines and the word include does not occur elsewhere, include requests exactly the written blocks, in order, each with the page of its reference and the written argument names and values (blanks around the page, the equals signs and after pipes are ignored; those before a pipe belong to the value; the word may be in any letter case; pipe after the page and after the last argument are optional); and it returns the text with each block replaced by its page's contents, variables filled in, everything else unchanged, and the pages in order.", "quantifier": "every text made of such blocks, any number of them, every argument list; every includer and its contents", "why_tests_cant": "ranges over infinitely many strings; a test fixes finitely many", "anchors": ["src/includes/mod.rs: include", "src/includes/parse.rs: parse_include_block", "src/includes/grammar.pest", "src/data/page_ref.rs: PageRef::parse"]}
{"id": "C96", "title": "Citations show the entry they cite, and bibliographies list all entries", "statement": "On a page of the document language, the entry a label refers to is that of the first bibliography with such an entry, in a bibliography the first line with the label; a citation ((bibcite label)) or [[bibcite label]] in paragraphs, headings or centred lines, at any depth, shows the number of that entry (its place in its bibliography, from one on) and its text, or the message that there is none; every bibliography that is not hidden lists all its entries under these numbers, with ids that hold the number of the bibliography too. Bibliographies may come before or after the citations. (The number alone does not tell the entry when there are two bibliographies.)", "quantifier": "every well-formed page of the document language with any number of bibliographies, entries and citations; every world, page info and settings", "why_tests_cant": "ranges over infinitely many strings; a test fixes finitely many", "anchors": ["src/parsing/rule/impls/block/blocks/bibliography.rs", "src/parsing/rule/impls/bibcite.rs", "src/parsing/rule/impls/block/blocks/bibcite.rs", "src/tree/bibliography.rs", "src/render/html/element/bibliography.rs"]}
{"id": "C97", "title": "Dates and embedded contents are shown as what they stand for", "statement": "A tree made of texts, dates and embeds renders to exactly the concatenation of what each stands for: a date to a time element (with class, the timestamp that is the number of seconds from 1970 to the instant the date with its clock and offset denotes, whether hovering shows it) around the formatted text, an embed to the markup of its provider (YouTube, Vimeo, GitHub gist, GitLab snippet) with the written identifiers in their places and escaped, a text to itself escaped.", "quantifier": "every list of texts, dates (civil day, clock, offset, hover flag) and embeds; every world, page info and settings", "why_tests_cant": "ranges over infinitely many strings; a test fixes finitely many", "anchors": ["src/tree/date.rs: DateItem::timestamp", "src/render/html/element/date.rs: render_date", "src/render/html/element/embed.rs: render_embed", "src/tree/embed.rs"]}
{"id": "C98", "title": "Underscores at the ends of lines are line breaks", "statement": "In a page of words in lines, an underscore at the end of a line, after a blank or alone on its line, stands for a line break and takes the end of the line with it, even if a blank line follows (the paragraph goes on); an underscore right after a word at the end of a line, or anywhere within a line, is text. The page is one paragraph with exactly these contents.", "quantifier": "every sequence of words of ASCII letters and digits, any number of them, with any of seven things between two of them; every world, page info and settings", "why_tests_cant": "ranges over infinitely many strings; a test fixes finitely many", "anchors": ["src/parsing/rule/impls/underscore_line_break.rs", "src/parsing/rule/impls/line_break.rs", "src/parsing/paragraph/mod.rs"]}
{"id": "C99", "title": "Links come from one line of the text", "statement": "Every link in a parsed tree, except the entries of the table of contents, comes from one line of the text: its label (if it has one) stands there, and so does an address that says where the link leads: for a link to a place on the page, # and the address in normal form (javascript:; if there is none); for a direct link the address itself, which is a web address or a path; for a link in three brackets, what the address means (a page of this or another site, an address, or what the settings say for a wiki). No link, and no name, label, colour, formula or raw text (C81), reaches over the end of a line.", "quantifier": "every text, world, page info and settings, every link anywhere in the tree", "why_tests_cant": "ranges over infinitely many strings; a test fixes finitely many", "anchors": ["src/parsing/rule/impls/link_single.rs", "src/parsing/rule/impls/link_triple.rs", "src/parsing/rule/impls/link_anchor.rs", "src/parsing/rule/impls/url.rs", "src/tree/link.rs: LinkLocation::parse_interwiki", "src/parsing/collect/mod.rs"]}
{"id": "C100", "title": "Preprocessing is exactly tidying, quotation marks and ellipses", "statement": "The result of preprocess is fully determined: line ends are unified; no-break and figure spaces at the starts of lines become spaces; blank lines in a row become one empty line; lines that end in a backslash are joined with the next; tabs become four spaces, zero characters one; line ends at both ends of the text go; then, in this order, each shortest piece on one line between two backticks and two apostrophes, between two commas and two apostrophes, and between a backtick and an apostrophe is put in double, low double and single quotation marks, left to right; then three dots, with blanks between them or not, that have no dot before or after them become an ellipsis. Nothing else changes, and the result is the only text with this description.", "quantifier": "every text", "why_tests_cant": "ranges over infinitely many strings; a test fixes finitely many", "anchors": ["src/preproc/mod.rs: preprocess", "src/preproc/whitespace.rs: substitute", "src/preproc/typography.rs: substitute"]}
{"id": "C101", "title": "Page information goes through JSON unchanged", "statement": "Page information is read from an object exactly if the object has each of the fields page, site, title, language (texts), tags (an array of texts) and score (a number) once, and category and alt-title at most once, as a text or null; other fields and the order do not matter. Page information that is written as JSON and read back is the same, in every field, unless its score is infinite or not a number: then it is written but cannot be read. The score the WebAssembly interface tells is the number that stands in the object, also for integers that do not fit in 64 bits with a sign.", "quantifier": "every page information and every object; any arithmetic of floating-point numbers", "why_tests_cant": "ranges over infinitely many strings; a test fixes finitely many", "anchors": ["src/data/page_info.rs:PageInfo", "src/data/score.rs:ScoreValue", "src/wasm/page_info.rs:PageInfo::new"]}
{"id": "C102", "title": "Text between @@ and @@ is shown as it is", "statement": "Lines, each put between @@ and @@, parse without any error to one paragraph of these lines, character by character, whatever markup, brackets, quotation marks or control characters they contain: no markup, block, comment or variable within them has an effect. The HTML is a paragraph with each line, escaped, in its own element and line breaks between them, without links; the text rendering is the lines (without line ends at both ends). A line must not contain @@ or a line end, must not end with @ or >, and a web address in it must be followed, somewhere, by a blank, | or a bracket; otherwise the closing @@ is read as part of another symbol.", "quantifier": "every such list of lines, empty lines included, every world, page info and settings", "why_tests_cant": "ranges over infinitely many strings; a test fixes finitely many", "anchors": ["src/parsing/rule/impls/raw.rs", "src/parsing/lexer.pest", "src/render/html/element/text.rs", "src/render/text/elements.rs"]}
{"id": "C103", "title": "An underscore behind the name of a block drops line breaks and paragraphs", "statement": "A page that is [[span_ ...]] contents [[/span]], [[a_ ...]] contents [[/a]] (also [[*a_ ...]] and under the other name anchor) or [[div_ ...]] contents [[/div]], with or without a line break after the first tag and before the last one, parses without any error to exactly that block with the given options around the meaning of the contents: the line breaks at the ends of the contents are left out and the contents are not put in a paragraph. Without the underscore the span keeps the line breaks and the contents of the division are a paragraph.", "quantifier": "all options and all contents of the document language of C71 (inline markup of any length and nesting below the limit, with further line breaks inside), every upper and lower case spelling of the names, every world, page info and settings", "why_tests_cant": "ranges over infinitely many strings; a test fixes finitely many", "anchors": ["src/parsing/rule/impls/block/blocks/span.rs", "src/parsing/rule/impls/block/blocks/anchor.rs", "src/parsing/rule/impls/block/blocks/div.rs", "src/parsing/strip.rs:strip_newlines", "src/parsing/rule/impls/block/rule.rs"]}
{"id": "C104", "title": "Trees in JSON are read whatever the order of their fields", "statement": "A tree is read from an object only if the object has each of elements, table-of-contents, html-blocks, code-blocks, footnotes and bibliographies exactly once and wikitext-len at most once; the order of the fields does not matter, fields with other names do not matter, and a missing wikitext-len is 0. An element is read from an object with the text element, exactly once, and data, at most once, again in any order and with any other fields; an element without contents (line break, rule, footnote) has no data or null there, nothing else. A reference to a page is read exactly from an object with page, a text, once, and site, a text or null, at most once.", "quantifier": "every object (any fields, any order, any number of times), any way to read dates, any nesting", "why_tests_cant": "ranges over infinitely many strings; a test fixes finitely many", "anchors": ["src/tree/mod.rs:SyntaxTree", "src/tree/element/object.rs:Element", "src/data/page_ref.rs:PageRef"]}
{"id": "C105", "title": "Tags for line breaks, characters and equations stand for what they say", "statement": "A line of words, blanks and tags [[lines N]] (up to 100), [[char X]] and [[equation name]] parses without any error to one paragraph in which every tag is replaced, in its place, by exactly that many line breaks, by the character with that number (decimal or hexadecimal) or that name, with & and ; around it or not, or by a reference to the equation of that name; nothing before, between or behind them is lost. In HTML the line breaks are <br>, the characters are escaped and the reference carries the name; in text they are line ends, the characters and [name].", "quantifier": "every number of parts in every order, every number from 1 to 100 in every decimal spelling, every Unicode character by number, every named character the world knows, every equation name of words and single characters, all spellings of the tag names in upper and lower case, every page info and settings", "why_tests_cant": "ranges over infinitely many strings; a test fixes finitely many", "anchors": ["src/parsing/rule/impls/block/blocks/lines.rs", "src/parsing/rule/impls/block/blocks/char.rs", "src/parsing/rule/impls/block/blocks/equation_ref.rs", "src/parsing/rule/impls/block/parser.rs:get_head_value", "src/render/html/element/math.rs:render_equation_reference"]}
{"id": "C106", "title": "What a comment contains has no effect", "statement": "Lines of words, each with or without a comment [!-- ... --] at its end, parse without any error to one paragraph of exactly these words and blanks with line breaks between the lines; the tree and the errors are those of the page without the comments, apart from the recorded length of the text. The comments can contain anything: markup, unclosed blocks, line ends and empty lines, quotation marks, variables, other beginnings of comments, control characters; only --] ends one.", "quantifier": "every number of lines and words, every comment text in which --] does not occur and which does not end in -, in [! or in a web address that would swallow the end (the theorem's file shows that these are needed), every world, page info and settings", "why_tests_cant": "ranges over infinitely many strings; a test fixes finitely many", "anchors": ["src/parsing/rule/impls/comment.rs", "src/parsing/lexer.pest", "src/parsing/paragraph/mod.rs"]}
{"id": "C107", "title": "What the results depend on", "statement": "Parsing the same tokens gives the same outcome (tree, errors, or panic) for any two pages whose site, category and tags agree and any two settings which agree on page syntax, isolation of ids and interwiki prefixes: the page's title, name and language, the mode, the layout and the settings for rendering have no effect. The text of a tree depends on the page's site only. Its HTML and the links reported depend on the page's site and name and on whether local paths, minified CSS and true ids are wanted, and on nothing else of the page's information and the settings; of the tree, the HTML depends on the elements, the table of contents, the footnotes and the bibliographies, and the text on the elements only. So the layout has no effect on either; forum posts are treated like direct messages and drafts like lists.", "quantifier": "all texts, pages, settings, trees and behaviours of the external functions", "why_tests_cant": "ranges over infinitely many strings; a test fixes finitely many", "anchors": ["src/parsing/parser.rs: Parser", "src/render/html/context.rs: HtmlContext", "src/render/text/context.rs: TextContext", "src/settings/mod.rs: WikitextSettings::from_mode", "src/data/page_info.rs: PageInfo"]}
