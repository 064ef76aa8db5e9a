{
 "C01": {
  "note": "Proved for texts in Tame (documented size limits, no backslash before a non-ASCII character, ASCII // comments); C04_counterexample_* show the code violates the property outside it."
 },
 "C02": {
  "note": "Proved for texts in Tame."
 },
 "C03": {
  "note": "Every lexer state and history."
 },
 "C04": {
  "note": "Proved for texts in Tame; C04_counterexample_* are inputs on which the code panics or leaves the character boundary."
 },
 "C05": {
  "note": "Every lexer state and every number of advances."
 },
 "C06": {
  "note": "Both whitespace features; C06_only is the converse."
 },
 "C07": {
  "note": "All block comments, closed or not."
 },
 "C08": {
  "note": "Proved for comments that are ASCII and NUL-free; C08_counterexample shows the code is wrong beyond that."
 },
 "C09": {
  "note": "All strings without a backslash directly followed by a non-ASCII character or NUL; counterexample: quote_style of an unclosed single-quoted string."
 },
 "C10": {
  "note": "All names without a backslash before a non-ASCII character; function names other than url-like ones."
 },
 "C11": {
  "note": "The full claim is false (C11_counterexample: escapes never count as upper-case); proved for names without escapes."
 },
 "C12": {
  "note": "All number texts; value stated through the model's correctly rounded decimal conversion."
 },
 "C13": {
  "note": "Proved except the unit-recognition bugs in C13_counterexample."
 },
 "C14": {
  "note": "Proved except svmax/svmin, whose strings are swapped in the code."
 },
 "C15": {
  "note": "Proved except the keyword-recognition bugs in C15_counterexample."
 },
 "C16": {
  "note": "Proved except the bugs in C16_counterexample."
 },
 "C17": {
  "note": "Every constructor, every argument within the documented limits; NUMBER_ZERO is a counterexample."
 },
 "C18": {
  "note": "Every token bit pattern; is_bad, is_trivia, is_int are false claims in the code, exact characterisations proved instead."
 },
 "C19": {
  "note": "Every KindSet and kind list."
 },
 "C20": {
  "note": "All but PERIOD, PLUS, UNDERSCORE, for which it is false."
 },
 "C21": {
  "note": "Every token except unclosed comments shorter than 4 bytes, for which C21_negation shows it false."
 },
 "C22": {
  "note": "Every name, string and url of the grammar, without a backslash before a non-ASCII character."
 },
 "C23": {
  "note": "False when an escape decodes to an upper-case letter (C23_counterexample)."
 },
 "C24": {
  "note": "Proved for values without NUL escapes; C24_counterexample otherwise."
 },
 "C25": {
  "note": "Proved unless the escape is a single non-ASCII character (C25_counterexample)."
 },
 "C26": {
  "note": "All spans."
 },
 "C27": {
  "note": "All sources and offsets on a character boundary; C27_off_boundary is what happens otherwise."
 },
 "C29": {
  "note": "Proved except '-' and -0 after a name (C29_counterexample); C29_only is the converse."
 },
 "C30": {
  "note": "Order, separators and failure points are proved for all cursor sequences and writers; that the text is the source text is proved except for numbers and known dimensions."
 },
 "C31": {
  "note": "All cursor sequences."
 },
 "C32": {
  "note": "Every parser state, skip set and k>=1; peek_n(0) underflows (C32_peek_0)."
 },
 "C33": {
  "note": "Every source, every interleaving of next()/consume_trivia()/set_skip, and every grammar program (Prog: any adaptive sequence of parser calls, including nested try_parse)."
 },
 "C34": {
  "note": "Proved for parsers with fewer than 256 errors and 65536 trivia when the checkpoint is taken; C34_counterexample: 65536 comments."
 },
 "C35": {
  "note": "Proved for every grammar program that leaves skip/stop/state as it found them; C35_counterexample: a failing parser that changed skip leaks it."
 },
 "C36": {
  "note": "Every grammar program and source under 64KiB; C36_trailing_trivia: trailing trivia is neither consumed nor recorded."
 },
 "C39": {
  "note": "Exact for every source shorter than 64 KiB. C39_bracket_positions shows that bracket positions do not come back (offset taken before trivia; dummy offset for closing brackets)."
 },
 "C48": {
  "note": "Proved for well-bracketed sources of any depth; the code closes a block with any closing bracket (C48_counterexample), so the full property is false."
 },
 "C37": {
  "note": "Exactly when adding two specificities adds the counts (the code ORs the bytes: iff no bit is shared), the order of sums is irrelevant, the order is lexicographic, page selectors. Missing: the general claim is false, C37_counterexample, C37_page_counterexample."
 },
 "C41": {
  "note": "From i32 to code and back for all numbers; from code to i32 and back for all codes but the one whose arms disagree (C41_counterexample)."
 },
 "C42": {
  "note": "For every message the code reads back (C42_exact says which), alone and in sequence, given that JSON text round-trips (Codec). Counterexamples: `result: null`, and error codes that do not come back."
 },
 "C43": {
  "note": "Missing: messages whose method belongs to the other group (a notification with a request method is answered; a request with a notification method never is), and messages before initialisation."
 },
 "C44": {
  "note": "Missing: early requests get no error reply (C44_counterexample); the initialised flag is set by initialize."
 },
 "C45": {
  "note": "No underflow for all texts and highlights; decodes to the protocol's positions in texts without characters outside the BMP and lone carriage returns."
 },
 "C46": {
  "note": "For every history of notifications on texts without characters outside the BMP and without the line breaks only ropey knows; counterexamples for the rest and for positions beyond the end of a line or text."
 },
 "C47": {
  "note": "Every interleaving of the two threads; always the latest text, at most three steps per operation; a text that parses to no style sheet at all leaves both threads waiting (C47_counterexample)."
 },
 "C38": {
  "note": "Every production of the An+B grammar, over all token streams with trivia anywhere the grammar allows it, is read with the right A and B, except negative signed numbers after n and -n- forms (C38_signed_partial, C38_dash_partial); everything accepted is an An+B or one of the malformed shapes listed in Spec.Malformed (C38_only_partial); C52_cursors: accepted tokens are written back unchanged. False in general: C38_counterexample (2n -1 is read as 2n+1, ...)."
 },
 "C40": {
  "note": "Proved for every feature parser whose features start with a bracket: a single feature, `f and g`, `f or g` are read as conditions of these features and written back token for token. Refuted: no condition has more than two features; `f and g and ...` is always an error; after `f or g` a second `or` is left unread; `not f` is always an error; `f not g` loses f. Nothing is missing beyond what the counterexamples exclude."
 },
 "C28": {
  "note": "Two texts (C28_partial), whole texts (C28_whole_partial) and the writer sink's own output (C28_written_partial): where no separator is asked for the texts re-lex to exactly the same tokens; where one is asked for, to one whitespace token. Excepted: the pairs listed in Spec.Merges, each shown to merge in C28_counterexample, and texts outside Tame."
 },
 "C49": {
  "note": "Every token and every pair; finite case analysis over kinds, with the kind read from arbitrary token bits."
 },
 "C50": {
  "note": "Every interleaving of the caller and the worker thread and every sequence of operations whose texts all parse to a style sheet (C47_counterexample is the remaining case)."
 },
 "C51": {
  "note": "Every text and every list of highlights that start on a character boundary, any length."
 },
 "C52": {
  "note": "Every token stream, every accepted An+B."
 },
 "C53": {
  "note": "Every server state and change event."
 },
 "C54": {
  "note": "Every server state, every further message sequence."
 },
 "C55": {
  "note": "All 32-bit integers."
 },
 "C56": {
  "note": "All specificities representable in three bytes."
 },
 "C57": {
  "note": "All units (finite), all stored codes."
 },
 "C58": {
  "note": "Every source, start position, feature name, legacy-prefix convention and value parser that writes back what it reads."
 },
 "C59": {
  "note": "Every parser position of every source: acceptance and rejection are characterised exactly."
 },
 "C60": {
  "note": "Every source under 64 KiB that parses. Missing: source order for rules mixing declarations and nested rules, for which it is false (C60_order_counterexample)."
 },
 "C61": {
  "note": "Every source and position, success or error, every nesting depth."
 },
 "C62": {
  "note": "Every parser position, every single-token node."
 },
 "C63": {
  "note": "Every parser position. False outside: a skipped declaration starting at a closing curly bracket or semicolon (the two counterexamples)."
 },
 "C64": {
  "note": "All messages. Missing: exactly one of result and error, which the code violates on every response (C64_counterexample)."
 },
 "C65": {
  "note": "All byte streams, given the JSON codec as a parameter; httparse is modelled by its documented header grammar."
 },
 "C66": {
  "note": "Every decimal text (C66_parse, C66_exact) and every number token of up to the documented length (C66_value_partial). Missing: the token value is the value of the text read by str::parse::<f32>, whose correct rounding is specified, not the algorithm of the standard library."
 },
 "C67": {
  "note": "Proved for all sources inside Tame (escapes of ASCII characters only, token lengths that fit their bit fields). C67_decodable_partial: names and numbers. C67_punctuation_partial: colons, commas, brackets, delimiters. C67_strings_partial: strings. C67_readable_partial: the text of every token of every kind, except comments that are not closed (C67_counterexample_comment) and urls whose whitespace does not fit its bit field. False outside Tame: C67_counterexample, C67_counterexample_backslash."
 },
 "C68": {
  "note": "Proved for all Tame sources, from any position between tokens, with any stop set and nesting state. Outside Tame the lexer itself panics: C68_counterexample. Discrete and ranged features are proved for values that are words or single tokens (the framework EatsIf covers any value parser that returns)."
 },
 "C69": {
  "note": "Proved for whole lists, compound selectors and the parts. Beyond the statement: a Namespace node (not the prefix) parsed by itself loses the identifier of `a*` (C69_counterexample); inside a selector that case does not arise.",
  "status": "proved"
 },
 "C70": {
  "note": "Proved for all Tame sources from any position between tokens with the default skip set, and (C70_any_skip_partial) with any skip set without EOF and delimiters if every comment is closed. Missing: sources on which the lexer itself panics (C68_counterexample)."
 },
 "C71": {
  "note": "Proved for success. After an error the skip set can be left changed: C71_counterexample; the property is stated for success only, but the counterexample is kept as a caution.",
  "status": "proved"
 },
 "C72": {
  "note": "Proved in full."
 },
 "C73": {
  "note": "Proved in full. The names themselves are tables transcribed from the macros' keys."
 },
 "C74": {
  "note": "The commas are proved; that no selector is empty and none follows the last comma is false: C74_counterexample."
 },
 "C75": {
  "note": "Proved: no leading descendant combinator. The rest is false: C75_counterexample."
 },
 "C76": {
  "note": "See the theorem for the part of the grammar that is proved; C76_counterexample: `a||b`, `|b` and `[|a]` are rejected, `:lang(en` is rejected at the end of the source."
 },
 "C77": {
  "status": "partial",
  "note": "Every source under 64 KiB, with the 341 property definitions css_ast has (C77_real_values), and with any set of property values that keep what they parse (C77_nothing_lost). Missing: sources with a `@charset` without semicolon, with a negated condition, or with a circular `<radial-size>`, for which it is false (C77_charset_counterexample, C77_not_counterexample, C77_circle_counterexample). C77_trivia: the trivia of a style sheet are whitespace and comments only."
 },
 "C79": {
  "status": "partial",
  "note": "Soundness. Proved for every declaration of every source under 64 KiB and 315 of the 341 properties, against the definitions in css_ast's own text and, for hand-written types, against Spec/CssValues.lean, which marks where hdx accepts more than CSS (as does Spec/ValueSyntax.lean for a <time> without unit). For the macro: for every definition that is Faithful (C79_definitions_partial). Missing: the 26 misreadProperties, and the marked types, for which it is false (C79_counterexample_*); what is inside gradients and stripes() is not specified."
 },
 "C80": {
  "status": "partial",
  "note": "Proved for every source and every rule against Spec/RuleLabels.lean, which marks where hdx accepts more than CSS. Missing: the stricter grammar of CSS at the marked places, for which it is false (C80_counterexample_*); the full grammar of the selectors of style rules is C73 (here: their tags, pseudo-classes and functions), values of declarations C79."
 },
 "C81": {
  "note": "C81_value characterises all five forms for every parser state and every set of property grammars; C81_style_sheet and C81_css say it for all declarations of a style sheet by the tokens of their values (only the first component value: after a selector that fails, white space is no longer skipped and becomes part of the values, C81_counterexample_leak). The counterexamples show where this decision is not that of CSS: a wide keyword followed by more, !important that becomes part of a value, acos(), a blank at the end of the source.",
  "status": "proved"
 },
 "C82": {
  "note": "Proved for 320 of the 341 definitions: for all of them it is computed (in the kernel, over the table) which tokens the parsers may commit on (`infoAt`), and proved once for all definitions that a parser whose alternatives are apart takes all of the language of the definition. Missing: the 21 properties in `narrowProperties` (counterexamples for most), image functions, calc-size(), stripes(), values at the end of the source, and names with escapes whose two readings differ (Clear; C82_plain_partial shows that sources without escapes and capitals in units have none)."
 },
 "C78": {
  "note": "Proved for all definitions of css_ast. C78_counterexample_* show that the reader is wrong for other texts, which css_ast does not contain.",
  "status": "proved"
 },
 "C83": {
  "note": "Style rules with selectors of C76, declarations with values of C82, CSS-wide keywords, custom properties, computed values (`var()`, `calc()`, ...) or unknown properties with any balanced tokens, and the at-rules `@media` (queries of C84), `@container`, `@layer` (statement and block), `@document`, `@font-face`, `@keyframes`, `@page` with margin rules, and `@property` with `syntax` and `inherits`, nested to any depth: the sheet is parsed without errors into the rules of the tree. Missing: `@supports`, `initial-value` in `@property` (counterexample), `@charset`, the at-rules that hdx does not parse, and the selectors, values and queries that C76, C82 and C84 leave out; nested rules that begin with an ident and a colon, rules that begin with a dashed ident, and at-rules with two semicolons together are read in another way (counterexamples)."
 },
 "C84": {
  "note": "All features of the table, ranges, one or two features in a condition, types with `not`/`only`. Missing because hdx does not read them (counterexamples here and in C80, C40): commas between queries, chains of three, `not` before a feature, vendor features with `min`/`max`, four -moz- features whose table entry names the wrong parser (C84_counterexample_moz), numbers without a fraction, container features named after `<=`. Names must be clear (no escapes)."
 },
 "C85": {
  "note": "False as stated: C85_counterexample is a source on which parsing the sheet panics. Proved (C85_returns_partial, C85_source_partial) for every Tame source, from any position between tokens and with any skip set without delimiters and EOF, in which every comment is closed, urls are short, and no token is one of the four names that lead to unfinished parsers (@page, @container, font-tech(, font-format(): C85_counterexample_unfinished shows that each of the four does make parsing panic or loop. In particular the todo!() of calc-size() is never reached. The statement's hypotheses are Spec.Ready, Spec.Quiet (Props/Returns.lean) and Spec.Calm (Lemmas/Returns.lean)."
 },
 "C86": {
  "status": "partial",
  "note": "Proved for every Tame source (within the lexer's documented limits, no backslash before a non-ASCII character, // comments ASCII) shorter than 64 KiB. Missing: other sources; and that every obsolete element is shown as Deprecated, which is false (C86_counterexample_obsolete: names that are in two lists, like marquee)."
 },
 "C87": {
  "status": "partial",
  "note": "Proved for every Tame source (within the lexer's documented limits, no backslash before a non-ASCII character, // comments ASCII) shorter than 64 KiB. Missing: other sources."
 },
 "C88": {
  "status": "partial",
  "note": "False as stated (C88_counterexample: @media and @-webkit-keyframes). Proved for every tree: it panics if and only if the walk comes to one of these two rules, at any depth, and with no other panic; in @-moz-document nothing is walked."
 },
 "C89": {
  "status": "partial",
  "note": "Proved for every Tame source (within the lexer's documented limits, no backslash before a non-ASCII character, // comments ASCII) shorter than 64 KiB, when the walk returns (C88). ruleShows and walked in Spec/Highlight.lean say what is shown. Missing: other sources, and what is never shown (C89_counterexample: namespaced tags, arguments of pseudo-classes, @font-face, rules in @-moz-document)."
 },
 "C90": {
  "status": "partial",
  "note": "Proved for every Tame source (within the lexer's documented limits, no backslash before a non-ASCII character, // comments ASCII) shorter than 64 KiB when there is a style sheet and the walk returns; that positions and lengths are those of the protocol only for ASCII sources without lone carriage returns (C90_protocol_partial); for others false (C90_counterexample_length, C45_counterexample). C90_counterexample_silent: a source to which there is no reply."
 },
 "C91": {
  "note": "C91_in_order_partial (any values that keep their order) and C91_real_values_partial (the 341 properties of css_ast, with C91_values proved for all of them). Partial because the property fails for declarations after rules and for values written in the definition's order (two counterexample theorems), and the hypotheses exclude exactly those, besides C77's exclusions; brackets are compared up to position, since a block's closing bracket is stored without one.",
  "status": "partial"
 },
 "C92": {
  "note": "Proved for texts under 64 KiB within the lexer's limits (Tame) and style sheets whose tree keeps its tokens (WholeAll NoCircle; in order: WholeAll keepsOrder and InOrderAll). The last sentence is false: C92_counterexample (a declaration after a nested rule is moved before it with no semicolon between them; `1px -0` is written `1px-0`). C92_again_partial and C92_again_in_order_partial: where no two neighbours meet one of C28's exceptions and numbers are written as they stood, the text that is written is lexed to the same tokens, with a whitespace token where a space was put in."
 },
 "C93": {
  "note": "Proved for sources within the lexer's limits (Tame); the conversion to JavaScript values is not modelled."
 },
 "C94": {
  "note": "Proved for sources under 64 KiB."
 },
 "C95": {
  "note": "Proved for sources under 64 KiB within the lexer's limits (Tame). The end of a BadDeclaration is wrong: it is the place of the custom property plus the length of the token before it, and may lie behind the end of the source (C95_counterexample). The errors without a label (UnexpectedEnd, UnexpectedCloseCurly) are shown never to be the only ones."
 },
 "C96": {
  "note": "C96_replies, C96_ending and C96_terminates are complete: any parser, any highlighter, any interleaving. C96_answered_partial puts C46, C90 and the threads together, for ASCII texts that can be highlighted; C96_counterexample shows the sessions that end early (@media is answered with nothing and then ends the session for all documents; a text without a style sheet makes the server wait for ever). Endless loops of the parser are modelled as threads that never come back."
 },
 "C97": {
  "note": "Proved: the order of the responses, what else is written, the trace level, how the threads come to rest, the bound on their steps, and when the process is over. Partial: replies may be lost at the end of the process (C97_lost_partial bounds them by two, C97_lost_exit_partial by one after `exit`; C97_counterexample_lost loses two), and `exit` does not end the process (C97_counterexample_exit). Panics of the handler are in C96, not here."
 },
 "C98": {
  "note": "Proved for all positions of all sources: what is accepted (C98_sound), and that the tree keeps the tokens (C98_kept). Partial: it returns on the sources of C85 (C98_returns_partial); all of stripes(), symbols() of strings and urls, and names are taken when names are clear (C98_stripes_partial, C98_symbols_partial, C98_names_partial). C98_counterexample: predefined styles that are misspelt or missing in the code's list, and an empty symbols()."
 },
 "C99": {
  "note": "C99_variant, C99_builds, C99_number and C99_sign are whole, for tokens whose name is read as written (Clear). C99_accepts_partial: every unit but `x` of resolutions. Counterexamples: is_zero is true of 5px (it compares with >=), and 1x is not a resolution. C99_as_i32: the conversion of a number token to i32 truncates and saturates."
 },
 "C100": {
  "note": "The theorems are for whole style sheets. Missing: blocks of unknown at-rules with rules in them or with a last declaration without semicolon, at-rules of a known name that are broken, broken qualified rules, and preludes that end with the source. C100_counterexample_bracket: an unmatched closing bracket, or a broken string, in the prelude of an unknown at-rule loses the whole sheet.",
  "status": "partial"
 }
}