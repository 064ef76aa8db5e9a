# Formal model of keithamus/hdx in Lean 4

(Generated by `scripts/design.py` from `scripts/design_head.md`, `properties.jsonl`, `MANIFEST.json` and `scripts/how.json`.)

## Layout

| path | content |
|---|---|
| `lean/Verif/Model/*.lean` | the model, function by function; each definition cites the Rust file and lines it models |
| `lean/Verif/Spec/*.lean`  | small specifications written from the CSS / LSP / JSON-RPC / IEEE documents and the crate docs, independent of the model |
| `lean/Verif/Lemmas/*.lean`| helper lemmas |
| `lean/Verif/Props/*.lean` | the property theorems `Cnn_*`, each with an `example` that meets its hypotheses |
| `seeded/LOG.jsonl` | the wrong programs the theorems were tested against; `seeded/run.py` runs such a batch in a scratch copy |

## Modelling decisions

* Rust `char` = Lean `Char` (both are Unicode scalar values). A `&str` is a `List Char`; byte offsets and lengths are
  `Nat` computed with `Char.utf8Size`; slicing at a byte offset that is not a character boundary is an explicit panic
  value (`Except Panic`), as are arithmetic underflow, `unwrap` on `None` and `todo!()`.
* A `Token` is a pair of `BitVec 32` words with the same shifts and masks as `token.rs`. Lengths counted by the lexer
  are `Nat`s truncated to 32 bits when packed (release-mode behaviour of `u32`); arithmetic that would overflow is the
  release-mode (wrapping) one, except subtraction below zero, which is reported as a panic.
* `&mut Chars` becomes a function returning the rest of the list. Loops are (structural or well-founded) recursion.
* `f32` values are bit patterns; decimal parsing (`str::parse::<f32>`) is modelled as a correctly rounded conversion on
  rationals (`Model/F32.lean`); `f32` *formatting* is a parameter where it occurs (`Model/Sink.lean`).
* The parser is a state record (`Model/Parser.lean`) and grammars are `Prog`s: finite-or-fuelled trees of parser calls whose
  continuations see the answers (`Model/Prog.lean`). A theorem about all `Prog`s is a theorem about every deterministic
  client of the parser, `try_parse` included. Loops of the grammar (`while !p.at_end()` …) carry fuel taken from the parser
  (remaining bytes plus a constant); running out is the distinct outcome `Panic.diverges`, never a silent success.
* Traits with type parameters (features, conditions, at-rules, blocks, lists) are functions taking the parameter's parser.
* When the code violates a property, the negation is proved with a concrete witness (`..._counterexample`) and the
  strongest guarded statement found is proved as `..._partial`.

## Trusted base

* Lean 4.33.0's kernel. No `native_decide`, no `bv_decide`, no axioms of our own, no unfinished proof. The axioms used are
  Lean's own `propext`, `Classical.choice`, `Quot.sound`; the list per theorem is at the end of this file.
* The reading of the Rust source into the model: the code was read as text and is not run here.
* Rust's standard library as described above (UTF-8 strings, integer arithmetic in release mode, `f32` parsing correctly
  rounded) and the external crates as listed below.

### Modelled

| code in /repo/crates | model |
|---|---|
| css_lexer/src/{private,constants,lib,feature}.rs: the whole lexer | `Model/Chars`, `Model/Lexer`, `Model/UnitTrie` (private.rs:150-674) |
| css_lexer/src/{token,kind,kindset,pairwise,comment_style,quote_style,whitespace_style}.rs | `Model/Token` |
| css_lexer/src/dimension_unit.rs | `Model/DimensionUnit` |
| css_lexer/src/{cursor,span,source_offset}.rs, css_lexer/src/syntax/* | `Model/Cursor` |
| css_parse/src/{parser,parser_checkpoint,parser_return,diagnostics}.rs, traits/{parse,peek}.rs | `Model/Parser`, `Model/Prog` |
| css_parse/src/{cursor_fmt_sink,cursor_vec_sink}.rs | `Model/Sink` |
| css_parse/src/syntax/*, traits/{block,declaration,style_sheet}.rs, traits/rules/*, token_macros.rs (the parts used) | `Model/Grammar`, `Model/Rules` |
| css_parse/src/comparison.rs, traits/{boolean,discrete,ranged}_feature.rs, traits/lists/feature_condition_list.rs | `Model/Features` |
| css_ast/src/selector/nth.rs | `Model/Nth` |
| css_parse/src/traits/selectors.rs, css_ast/src/selector/*.rs (lists, compounds, tags, classes, attributes, namespaces, pseudo-classes and -elements with their name tables), css_parse/src/macros/pseudo_{class,element}.rs | `Model/Selectors`, `Model/SelectorNames` |
| css_parse/src/traits/lists/*.rs, traits/declaration.rs, traits/rules/*.rs (as lists of rules, declarations and preludes) | `Model/Lists` |
| css_ast/src/properties/mod.rs (`Property`, `StyleValue`; the single properties' parsers are a parameter) | `Model/Properties` |
| css_ast/src/rules/media/*, css_ast/src/rules/container/*, css_ast/src/{units,types} as far as these use them | `Model/Media` |
| css_ast/src/{stylesheet,stylerule}.rs, css_ast/src/rules/*.rs | `Model/AtRules` |
| csskit_proc_macro/src/{def,value,string_transform}.rs: the reader of value definitions and the meaning of the code it writes | `Model/Definitions` (reader), `Model/ValueDef` (meaning) |
| css_ast/src/values/*/mod.rs: the 341 definitions; css_ast/src/values/*/types.rs, css_ast/src/types, css_ast/src/units as far as these use them | `Model/Definitions`, `Model/Images`, `Model/ValueDef` |
| css_ast/src/specificity.rs, page selectors of css_ast/src/rules/page.rs | `Model/Specificity` |
| csskit_highlight/src/{lib,css}.rs (but not `Display`), and the `Visitable` implementations of css_ast as far as the highlighter sees them | `Model/Highlight` |
| csskit/src/main.rs:103-138 (`build`), csskit_wasm/src/lib.rs (`lex`, `parse`, `minify`) | `Model/Build`, `Model/Wasm` |
| csskit_lsp/src/jsonrpc/*, server.rs, server/handler.rs, service.rs | `Model/Lsp/*` |

### Not modelled

* Memory: the bump allocator, `Vec` growth, lifetimes, stack depth (deep nesting can exhaust the Rust stack; the model has none).
* `debug_assert!`s and the `last_cursor` bookkeeping that exists only in debug builds, miette's rendering of diagnostics
  (a diagnostic is its code and span), `tracing`, serde implementations of AST nodes, `Hash`/`Debug` impls.
* Of css_ast: types that no property uses (`BgImage`, ...; `counter_style.rs` and `symbols.rs` are modelled, C98), which variant of
  `AnimateableFeature` a word is, units whose macro builds no AST node (`CustomDimension`; the others are modelled, C99), visits that no visitor overrides.
* csskit (the command line, but for `build` on one file), `Display` of csskit_highlight, csskit_transform (all commented out),
  of csskit_wasm the conversion to JavaScript values and `parse_error_report`. Of csskit_proc_macro: the tokens the macros write (what the written code does is modelled), the visitor and
  `Parse`-for-node derives.
* External crates: serde_json (a `Codec` parameter with a round-trip hypothesis where needed), httparse (its documented
  header grammar), ropey (a list of characters with ropey's documented line breaks), lsp-types (the JSON shapes used),
  crossbeam channels (FIFO queues; threads are interleaved step by step).

## The properties

**C01 Tokenisation is lossless and tiles the source** (partial). Modelled: Lexer. Proof: induction over the text for every sub-consumer, then over the number of tokens. Proved for texts in Tame (documented size limits, no backslash before a non-ASCII character, ASCII // comments); C04_counterexample_* show the code violates the property outside it.
Theorems: `Hdx.C01_partial`

**C02 Every advance makes progress until the end** (partial). Modelled: Lexer. Proof: case analysis of the dispatcher; each branch consumes at least one character. Proved for texts in Tame.
Theorems: `Hdx.C02_partial`

**C03 EOF exactly at the end, and forever after** (proved). Modelled: Lexer. Proof: invariant of the lexer state. Every lexer state and history.
Theorems: `Hdx.C03_eof_iff_at_end`, `Hdx.C03_eof_forever`

**C04 Lexing never panics and never splits a character** (partial). Modelled: Lexer. Proof: every slice offset shown to be a sum of character lengths; counterexamples by evaluation. Proved for texts in Tame; C04_counterexample_* are inputs on which the code panics or leaves the character boundary.
Theorems: `Hdx.C04_partial`, `Hdx.C04_counterexample_panic`, `Hdx.C04_counterexample_escape`, `Hdx.C04_counterexample_comment`

**C05 A token depends only on the text from its start** (proved). Modelled: Lexer. Proof: simulation between two lexers whose remaining texts agree; induction over advances. Every lexer state and every number of advances.
Theorems: `Hdx.C05_suffix`, `Hdx.C05_rewind`

**C06 Whitespace tokens are maximal runs with the right style** (proved). Modelled: Lexer. Proof: induction over the run of whitespace. Both whitespace features; C06_only is the converse.
Theorems: `Hdx.C06_collapsed`, `Hdx.C06_separate`, `Hdx.C06_only`

**C07 Block comments end at the first */ and are classified by their opener** (proved). Modelled: Lexer. Proof: induction over the comment text against a first-occurrence specification. All block comments, closed or not.
Theorems: `Hdx.C07_closed`, `Hdx.C07_unclosed`, `Hdx.C07_total`, `Hdx.C07_only`

**C08 Single-line comments stop at the end of the line** (partial). Modelled: Lexer. Proof: induction over the line. Proved for comments that are ASCII and NUL-free; C08_counterexample shows the code is wrong beyond that.
Theorems: `Hdx.C08_partial`, `Hdx.C08_disabled`, `Hdx.C08_counterexample`

**C09 String tokens follow the CSS string grammar** (partial). Modelled: Lexer. Proof: induction against an inductive string grammar (Spec/Lexical). All strings without a backslash directly followed by a non-ASCII character or NUL; counterexample: quote_style of an unclosed single-quoted string.
Theorems: `Hdx.C09_partial`, `Hdx.C09_total`, `Hdx.C09_counterexample`, `Hdx.C09_only`

**C10 Identifier-like tokens are maximal CSS identifiers** (partial). Modelled: Lexer. Proof: induction against an inductive name grammar; maximality by the grammar's follow condition. All names without a backslash before a non-ASCII character; function names other than url-like ones.
Theorems: `Hdx.C10_longest`, `Hdx.C10_total`, `Hdx.C10_ident_partial`, `Hdx.C10_function_partial`, `Hdx.C10_atKeyword_partial`, `Hdx.C10_hash_partial`, `Hdx.C10_only`

**C11 Identifier facts are truthful** (partial). Modelled: Lexer. Proof: induction over the name with the flags as accumulated state. The full claim is false (C11_counterexample: escapes never count as upper-case); proved for names without escapes.
Theorems: `Hdx.C11_counterexample`, `Hdx.C11_lower_unescaped`

**C12 Number tokens follow the CSS number grammar** (partial). Modelled: Lexer, F32. Proof: induction over digit runs; number grammar as an inductive predicate. All number texts; value stated through the model's correctly rounded decimal conversion.
Theorems: `Hdx.C12_partial`, `Hdx.C12_total`, `Hdx.C12_only`

**C13 Known dimension units are recognised case-insensitively** (partial). Modelled: UnitTrie, DimensionUnit. Proof: exhaustive evaluation of the trie (kernel) lifted to all letter cases and all other texts. Proved except the unit-recognition bugs in C13_counterexample.
Theorems: `Hdx.C13_percent`, `Hdx.C13_partial`, `Hdx.C13_counterexample`

**C14 Dimension unit tables agree** (partial). Modelled: DimensionUnit. Proof: finite case analysis over all units. Proved except svmax/svmin, whose strings are swapped in the code.
Theorems: `Hdx.C14_partial`, `Hdx.C14_counterexample`

**C15 Only url( introduces a url token** (partial). Modelled: Lexer. Proof: case analysis of the keyword scan over all texts. Proved except the keyword-recognition bugs in C15_counterexample.
Theorems: `Hdx.C15_partial`, `Hdx.C15_counterexample`

**C16 Unquoted URL tokens follow the CSS url grammar** (partial). Modelled: Lexer. Proof: induction over the url body against an inductive grammar. Proved except the bugs in C16_counterexample.
Theorems: `Hdx.C16_url`, `Hdx.C16_bad_partial`, `Hdx.C16_total`, `Hdx.C16_counterexample`

**C17 Packing token facts is loss-free within the documented limits** (partial). Modelled: Token. Proof: BitVec/Nat shift and mask lemmas, per constructor. Every constructor, every argument within the documented limits; NUMBER_ZERO is a counterexample.
Theorems: `Hdx.C17_whitespace`, `Hdx.C17_comment`, `Hdx.C17_number`, `Hdx.C17_dimension_unknown`, `Hdx.C17_dimension_known`, `Hdx.C17_badString`, `Hdx.C17_badUrl`, `Hdx.C17_ident`, `Hdx.C17_function`, `Hdx.C17_atKeyword`, `Hdx.C17_hash`, `Hdx.C17_string`, `Hdx.C17_string_counterexample`, `Hdx.C17_url`, `Hdx.C17_delim`, `Hdx.C17_char_constant`, `Hdx.C17_NUMBER_ZERO_counterexample`, `Hdx.C17_limit_is_needed`

**C18 Kind predicates mean what they document** (partial). Modelled: Token. Proof: bit lemmas for arbitrary tokens, then case analysis over kinds. Every token bit pattern; is_bad, is_trivia, is_int are false claims in the code, exact characterisations proved instead.
Theorems: `Hdx.C18_eq_kind`, `Hdx.C18_eq_kindset`, `Hdx.C18_is_cdc`, `Hdx.C18_cdc_cdo`, `Hdx.C18_is_bad_partial`, `Hdx.C18_is_bad_exact`, `Hdx.C18_is_bad_counterexample`, `Hdx.C18_is_trivia_partial`, `Hdx.C18_is_trivia_counterexample`, `Hdx.C18_numeric_partial`, `Hdx.C18_numeric_counterexample`, `Hdx.C18_is_ident_like_exact`, `Hdx.C18_is_delim_like`

**C19 KindSet behaves as a set of kinds** (proved). Modelled: Token (kindset). Proof: bitwise extensionality; induction over kind lists. Every KindSet and kind list.
Theorems: `Hdx.C19_add`, `Hdx.C19_new`, `Hdx.C19_none`, `Hdx.C19_any`, `Hdx.C19_named`, `Hdx.C19_token`

**C20 Named tokens equal the lexed tokens** (partial). Modelled: Token, Lexer. Proof: evaluation of the lexer on the token's text, in every continuation. All but PERIOD, PLUS, UNDERSCORE, for which it is false.
Theorems: `Hdx.C20_partial`, `Hdx.C20_anywhere`, `Hdx.C20_alone`, `Hdx.C20_backslash`, `Hdx.C20_counterexample`, `Hdx.C20_delims`

**C21 Token affixes never exceed the token** (partial). Modelled: Token. Proof: per-kind case analysis over arbitrary lengths. Every token except unclosed comments shorter than 4 bytes, for which C21_negation shows it false.
Theorems: `Hdx.C21_partial`, `Hdx.C21_negation`

**C22 parse_str decodes escapes as CSS prescribes** (partial). Modelled: Cursor. Proof: induction over the text against a direct recursive decoder (Spec/Decode). Every name, string and url of the grammar, without a backslash before a non-ASCII character.
Theorems: `Hdx.C22_ident_partial`, `Hdx.C22_function_partial`, `Hdx.C22_atKeyword_partial`, `Hdx.C22_hash_partial`, `Hdx.C22_dimension_partial`, `Hdx.C22_url_partial`, `Hdx.C22_string_partial`, `Hdx.C22_counterexample`

**C23 parse_str_lower is the ASCII-lowercase of parse_str** (partial). Modelled: Cursor. Proof: simulation of the two decoders. False when an escape decodes to an upper-case letter (C23_counterexample).
Theorems: `Hdx.C23_partial`, `Hdx.C23_not_lower`, `Hdx.C23_counterexample`

**C24 eq_ignore_ascii_case decides case-insensitive equality of the decoded text** (partial). Modelled: Cursor. Proof: induction over the text and the literal in step. Proved for values without NUL escapes; C24_counterexample otherwise.
Theorems: `Hdx.C24_partial`, `Hdx.C24_escaped_partial`, `Hdx.C24_counterexample`

**C25 Lexer and decoder agree on where an escape ends** (partial). Modelled: Cursor, Lexer. Proof: case analysis of both escape readers on the same text. Proved unless the escape is a single non-ASCII character (C25_counterexample).
Theorems: `Hdx.C25_partial`, `Hdx.C25_decoder`, `Hdx.C25_counterexample`

**C26 Span addition is the smallest enclosing span** (proved). Modelled: Cursor (span.rs). Proof: order reasoning. All spans.
Theorems: `Hdx.C26_hull`, `Hdx.C26_comm`, `Hdx.C26_assoc`, `Hdx.C26_idem`, `Hdx.C26_contains`

**C27 line_and_column inverts to the byte offset** (proved). Modelled: Cursor (span.rs, source_offset.rs). Proof: induction over the text. All sources and offsets on a character boundary; C27_off_boundary is what happens otherwise.
Theorems: `Hdx.C27_value`, `Hdx.C27_injective`, `Hdx.C27_off_boundary`

**C28 Separator insertion keeps tokens apart** (partial). Modelled: Token, Lexer, Sink. Proof: first-token relation; each pair of neighbours analysed, then induction over the sequence. Two texts (C28_partial), whole texts (C28_whole_partial) and the writer sink's own output (C28_written_partial): where no separator is asked for the texts re-lex to exactly the same tokens; where one is asked for, to one whitespace token. Excepted: the pairs listed in Spec.Merges, each shown to merge in C28_counterexample, and texts outside Tame.
Theorems: `Hdx.C28_partial`, `Hdx.C28_whole_partial`, `Hdx.C28_counterexample`, `Hdx.C28_written_partial`

**C29 Separator table matches the CSS serialisation table** (partial). Modelled: Token. Proof: decision table over token classes, both directions. Proved except '-' and -0 after a name (C29_counterexample); C29_only is the converse.
Theorems: `Hdx.C29_partial`, `Hdx.C29_only`, `Hdx.C29_counterexample`

**C30 The formatting sink writes each cursor once, in order** (partial). Modelled: Sink. Proof: induction over the appended cursors with a failing writer as a parameter. Order, separators and failure points are proved for all cursor sequences and writers; that the text is the source text is proved except for numbers and known dimensions.
Theorems: `Hdx.C30_infallible`, `Hdx.C30_fallible`, `Hdx.C30_after_error`, `Hdx.C30_text_partial`, `Hdx.C30_number_partial`, `Hdx.C30_counterexample`

**C31 The vector sink never leaves two mergeable cursors adjacent** (proved). Modelled: Sink. Proof: invariant of the vector under append. All cursor sequences.
Theorems: `Hdx.C31_appends`

**C32 Peeking has no effect and predicts next()** (proved). Modelled: Parser. Proof: the peek is the same run of the lexer as the step; induction over skipped tokens. Every parser state, skip set and k>=1; peek_n(0) underflows (C32_peek_0).
Theorems: `Hdx.Parser.C32_peek_next`, `Hdx.Parser.C32_peek_n`, `Hdx.Parser.C32_peek_0`

**C33 No token is lost: returned or recorded as trivia exactly once** (proved). Modelled: Parser, Prog. Proof: invariant: returned ++ trivia is a prefix of the token stream; induction over programs. Every source, every interleaving of next()/consume_trivia()/set_skip, and every grammar program (Prog: any adaptive sequence of parser calls, including nested try_parse).
Theorems: `Hdx.C33_calls`, `Hdx.C33_programs`

**C34 Rewind restores the parser** (partial). Modelled: Parser. Proof: state equality after rewind; arithmetic of the truncated counters. Proved for parsers with fewer than 256 errors and 65536 trivia when the checkpoint is taken; C34_counterexample: 65536 comments.
Theorems: `Hdx.C34_errors_partial`, `Hdx.C34_errors_counterexample`, `Hdx.C34_partial`, `Hdx.C34_programs_partial`, `Hdx.C34_counterexample`

**C35 A failed try_parse leaves no trace** (partial). Modelled: Parser, Prog. Proof: induction over programs. Proved for every grammar program that leaves skip/stop/state as it found them; C35_counterexample: a failing parser that changed skip leaks it.
Theorems: `Hdx.C35_no_trace`, `Hdx.C35_rule`, `Hdx.C35_partial`, `Hdx.C35_counterexample`

**C36 parse_entirely consumes everything or reports** (proved). Modelled: Parser, Prog. Proof: induction over programs and the remaining tokens. Every grammar program and source under 64KiB; C36_trailing_trivia: trailing trivia is neither consumed nor recorded.
Theorems: `Hdx.C36_rest`, `Hdx.C36_no_errors`, `Hdx.C36_total`, `Hdx.C36_trailing_trivia`

**C37 Specificity addition sums components** (partial). Modelled: Specificity. Proof: bit lemmas; induction over sums. Exactly when adding two specificities adds the counts (the code ORs the bytes: iff no bit is shared), the order of sums is irrelevant, the order is lexicographic, page selectors. Missing: the general claim is false, C37_counterexample, C37_page_counterexample.
Theorems: `Hdx.C37_partial`, `Hdx.C37_counterexample`, `Hdx.C37_add_assign`, `Hdx.C37_sum_partial`, `Hdx.C37_page_partial`, `Hdx.C37_page_counterexample`

**C38 An+B values follow the CSS An+B grammar** (partial). Modelled: Nth. Proof: symbolic execution over streams of arbitrary content (Ahead), both directions. Every production of the An+B grammar, over all token streams with trivia anywhere the grammar allows it, is read with the right A and B, except negative signed numbers after n and -n- forms (C38_signed_partial, C38_dash_partial); everything accepted is an An+B or one of the malformed shapes listed in Spec.Malformed (C38_only_partial); C52_cursors: accepted tokens are written back unchanged. False in general: C38_counterexample (2n -1 is read as 2n+1, ...).
Theorems: `Hdx.C38_odd`, `Hdx.C38_even`, `Hdx.C38_integer`, `Hdx.C38_step`, `Hdx.C38_digits`, `Hdx.C38_signed_partial`, `Hdx.C38_dash_partial`, `Hdx.C38_plus`, `Hdx.C38_minus`, `Hdx.C38_only_partial`, `Hdx.C38_start`, `Hdx.C38_counterexample`, `Hdx.C38_comment_counterexample`

**C39 Component values re-emit what they consumed** (proved). Modelled: Grammar. Proof: induction over fuel/tree: written tokens = consumed tokens. Exact for every source shorter than 64 KiB. C39_bracket_positions shows that bracket positions do not come back (offset taken before trivia; dummy offset for closing brackets).
Theorems: `Hdx.C39_round_trip`, `Hdx.C39_bracket_positions`

**C40 Conditions combine with and/or/not in any length** (partial). Modelled: Features. Proof: symbolic execution with the feature parser as a parameter. Proved for every feature parser whose features start with a bracket: a single feature, `f and g`, `f or g` are read as conditions of these features and written back token for token. Refuted: no condition has more than two features; `f and g and ...` is always an error; after `f or g` a second `or` is left unread; `not f` is always an error; `f not g` loses f. Nothing is missing beyond what the counterexamples exclude.
Theorems: `Hdx.C40_single_partial`, `Hdx.C40_and_partial`, `Hdx.C40_or_partial`, `Hdx.C40_written_partial`, `Hdx.C40_length_counterexample`, `Hdx.C40_not_counterexample`, `Hdx.C40_chain_counterexample`, `Hdx.C40_or_counterexample`, `Hdx.C40_dropped_counterexample`, `Hdx.C40_counterexample`

**C41 LSP error codes round-trip** (partial). Modelled: Lsp/ErrorCode. Proof: case analysis, all integers. From i32 to code and back for all numbers; from code to i32 and back for all codes but the one whose arms disagree (C41_counterexample).
Theorems: `Hdx.Lsp.C41_code_partial`, `Hdx.Lsp.C41_counterexample`

**C42 Messages round-trip through the wire format** (partial). Modelled: Lsp/Message. Proof: codec law; induction over the message sequence; JSON text codec is a parameter with a round-trip hypothesis. For every message the code reads back (C42_exact says which), alone and in sequence, given that JSON text round-trips (Codec). Counterexamples: `result: null`, and error codes that do not come back.
Theorems: `Hdx.Lsp.C42_message_partial`, `Hdx.Lsp.C42_sequence_partial`, `Hdx.Lsp.C42_exact`, `Hdx.Lsp.C42_counterexample_null`, `Hdx.Lsp.C42_counterexample_code`

**C43 Exactly one reply per request, none per notification** (partial). Modelled: Lsp/Server. Proof: induction over the message sequence. Missing: messages whose method belongs to the other group (a notification with a request method is answered; a request with a notification method never is), and messages before initialisation.
Theorems: `Hdx.Lsp.C43_request_partial`, `Hdx.Lsp.C43_notification_partial`, `Hdx.Lsp.C43_history_partial`, `Hdx.Lsp.C43_counterexample_notification`, `Hdx.Lsp.C43_counterexample_request`

**C44 Nothing is served before initialize** (partial). Modelled: Lsp/Server. Proof: invariant of the initialised flag. Missing: early requests get no error reply (C44_counterexample); the initialised flag is set by initialize.
Theorems: `Hdx.Lsp.C44_before_partial`, `Hdx.Lsp.C44_counterexample`

**C45 Semantic token deltas decode to the true positions** (partial). Modelled: Lsp/Document. Proof: induction over highlights and text. No underflow for all texts and highlights; decodes to the protocol's positions in texts without characters outside the BMP and lone carriage returns.
Theorems: `Hdx.Lsp.C45_partial`, `Hdx.Lsp.C45_counterexample`, `Hdx.Lsp.C45_off_boundary`

**C46 Incremental edits keep server and client documents equal** (partial). Modelled: Lsp/Document. Proof: simulation between rope and protocol text; induction over the history. For every history of notifications on texts without characters outside the BMP and without the line breaks only ropey knows; counterexamples for the rest and for positions beyond the end of a line or text.
Theorems: `Hdx.Lsp.C46_partial`, `Hdx.Lsp.C46_edit_partial`, `Hdx.Lsp.C46_counterexample_utf16`, `Hdx.Lsp.C46_counterexample_breaks`, `Hdx.Lsp.C46_counterexample_line`, `Hdx.Lsp.C46_counterexample_end`

**C47 A highlight request is always answered from the latest text** (partial). Modelled: Lsp/Server. Proof: labelled transition system; invariant and a decreasing measure. Every interleaving of the two threads; always the latest text, at most three steps per operation; a text that parses to no style sheet at all leaves both threads waiting (C47_counterexample).
Theorems: `Hdx.Lsp.C47_answered_partial`, `Hdx.Lsp.C47_counterexample`

**C48 Blocks are closed by their own bracket** (partial). Modelled: Grammar. Proof: induction over well-bracketed token trees. Proved for well-bracketed sources of any depth; the code closes a block with any closing bracket (C48_counterexample), so the full property is false.
Theorems: `Hdx.C48_balanced_partial`, `Hdx.C48_counterexample`

**C49 Bracket pairs** (proved). Modelled: Token. Proof: case analysis. Every token and every pair; finite case analysis over kinds, with the kind read from arbitrary token bits.
Theorems: `Hdx.C49_pair`, `Hdx.C49_mirror`, `Hdx.C49_back`, `Hdx.C49_same`

**C50 Highlights follow the last commit** (proved). Modelled: Lsp/Server. Proof: invariant over the transition system, decreasing measure. Every interleaving of the caller and the worker thread and every sequence of operations whose texts all parse to a style sheet (C47_counterexample is the remaining case).
Theorems: `Hdx.Lsp.C50_latest`, `Hdx.Lsp.C50_terminates`

**C51 Semantic token deltas decode** (proved). Modelled: Lsp/Document. Proof: induction over highlights. Every text and every list of highlights that start on a character boundary, any length.
Theorems: `Hdx.Lsp.C51_deltas`

**C52 An+B is written back unchanged** (proved). Modelled: Nth. Proof: symbolic execution. Every token stream, every accepted An+B.
Theorems: `Hdx.C52_cursors`

**C53 Whole-document changes and isolation of documents** (proved). Modelled: Lsp/Document, Lsp/Server. Proof: case analysis of the handler. Every server state and change event.
Theorems: `Hdx.Lsp.C53_full`, `Hdx.Lsp.C53_unopened`, `Hdx.Lsp.C53_others`

**C54 Responses are ignored and initialisation is permanent** (proved). Modelled: Lsp/Server. Proof: induction over messages. Every server state, every further message sequence.
Theorems: `Hdx.Lsp.C54_response`, `Hdx.Lsp.C54_stays`

**C55 Error numbers survive** (proved). Modelled: Lsp/ErrorCode. Proof: case analysis. All 32-bit integers.
Theorems: `Hdx.Lsp.C55_number`

**C56 Specificity ordering** (proved). Modelled: Specificity. Proof: lexicographic order; bit lemmas. All specificities representable in three bytes.
Theorems: `Hdx.C56_sum_order`, `Hdx.C56_order`, `Hdx.C56_add_not_less`

**C57 Unit codes are distinct** (proved). Modelled: DimensionUnit. Proof: finite case analysis. All units (finite), all stored codes.
Theorems: `Hdx.C57_code_len`, `Hdx.C57_code_injective`

**C58 Media and container features are written back exactly as they were read** (proved). Modelled: Features. Proof: symbolic execution; `Writes` predicate composed along the program. Every source, start position, feature name, legacy-prefix convention and value parser that writes back what it reads.
Theorems: `Hdx.C58_boolean`, `Hdx.C58_discrete`, `Hdx.C58_ranged`

**C59 Comparison operators are recognised exactly** (proved). Modelled: Features. Proof: symbolic execution. Every parser position of every source: acceptance and rejection are characterised exactly.
Theorems: `Hdx.C59_accepts`, `Hdx.C59_rejects`

**C60 A parsed style sheet accounts for every token of the source** (partial). Modelled: Rules. Proof: mutual induction over fuel: written ++ dropped is the token stream. Every source under 64 KiB that parses. Missing: source order for rules mixing declarations and nested rules, for which it is false (C60_order_counterexample).
Theorems: `Hdx.C60_source`, `Hdx.C60_nothing_lost`, `Hdx.C60_in_order_partial`, `Hdx.C60_order_counterexample`

**C61 Parsing a node leaves the parser's modes as it found them** (proved). Modelled: Grammar, Rules, Nth, Features. Proof: compositional `KeepsModes` predicate. Every source and position, success or error, every nesting depth.
Theorems: `Hdx.C61_component_values`, `Hdx.C61_declaration`, `Hdx.C61_bad_declaration`, `Hdx.C61_rule`, `Hdx.C61_style_sheet`, `Hdx.C61_nth`, `Hdx.C61_block`, `Hdx.C61_qualified_rule`, `Hdx.C61_at_rule`, `Hdx.C61_ranged_feature`, `Hdx.C61_discrete_feature`, `Hdx.C61_condition`

**C62 Single-token nodes consume exactly one token and report the offending one** (proved). Modelled: Parser, Prog. Proof: symbolic execution, all token predicates. Every parser position, every single-token node.
Theorems: `Hdx.C62_node`, `Hdx.C62_token`, `Hdx.C62_if_peek_no`, `Hdx.C62_if_peek_yes`, `Hdx.C62_optional`

**C63 What lies ahead decides what is parsed** (partial). Modelled: Rules, Grammar. Proof: symbolic execution; exactness in both directions. Every parser position. False outside: a skipped declaration starting at a closing curly bracket or semicolon (the two counterexamples).
Theorems: `Hdx.C63_declaration`, `Hdx.C63_declaration_parsed`, `Hdx.C63_important`, `Hdx.C63_important_parsed`, `Hdx.C63_at_name`, `Hdx.C63_at_other_name`, `Hdx.C63_rule`, `Hdx.C63_bad_declaration`, `Hdx.C63_bad_declaration_counterexample`, `Hdx.C63_bad_declaration_semicolon_counterexample`

**C64 The language server writes JSON-RPC 2.0 objects** (partial). Modelled: Lsp/Message. Proof: case analysis of the encoder. All messages. Missing: exactly one of result and error, which the code violates on every response (C64_counterexample).
Theorems: `Hdx.Lsp.C64_request`, `Hdx.Lsp.C64_notification`, `Hdx.Lsp.C64_result_partial`, `Hdx.Lsp.C64_error_partial`, `Hdx.Lsp.C64_counterexample`

**C65 The language server only reads well-formed messages, and exactly their bytes** (proved). Modelled: Lsp/Message. Proof: induction over header lines; byte accounting. All byte streams, given the JSON codec as a parameter; httparse is modelled by its documented header grammar.
Theorems: `Hdx.Lsp.C65_response`, `Hdx.Lsp.C65_frame`, `Hdx.Lsp.C65_unknown_field`

**C66 The value of a number token is the nearest f32** (partial). Modelled: F32. Proof: rational arithmetic: nearest representable, ties to even; induction over digits. Every decimal text (C66_parse, C66_exact) and every number token of up to the documented length (C66_value_partial). Missing: the token value is the value of the text read by str::parse::<f32>, whose correct rounding is specified, not the algorithm of the standard library.
Theorems: `Hdx.C66_parse`, `Hdx.C66_value_partial`, `Hdx.C66_exact`, `Hdx.C66_integer`, `Hdx.C66_integer_value_partial`

**C67 The text of every token can be read** (partial). Modelled: Model/Cursor.lean (parse_str, parse_str_lower, eq_ignore_ascii_case with their slices as checked operations), Model/Lexer.lean. Proof: Each scanner's result is decomposed (name, number, unit) and shown to give an `Inner` split of the source at character boundaries; the three loops are total on any text made of units (`inner_total`).. Proved for all sources inside Tame (escapes of ASCII characters only, token lengths that fit their bit fields). C67_decodable_partial: names and numbers. C67_punctuation_partial: colons, commas, brackets, delimiters. C67_strings_partial: strings. C67_readable_partial: the text of every token of every kind, except comments that are not closed (C67_counterexample_comment) and urls whose whitespace does not fit its bit field. False outside Tame: C67_counterexample, C67_counterexample_backslash.
Theorems: `Hdx.C67_readable_partial`, `Hdx.C67_strings_partial`, `Hdx.C67_counterexample_comment`, `Hdx.C67_counterexample_backslash`, `Hdx.C67_decodable_partial`, `Hdx.C67_punctuation_partial`, `Hdx.C67_counterexample`

**C68 Parsing returns** (partial). Modelled: Model/Grammar.lean, Model/Rules.lean, Model/Nth.lean, Model/Features.lean; loops take fuel and panic with `diverges` when it runs out. Proof: `EatsIf src n P x`: with fewer than n tokens left, x returns, never ends before where it began, and consumes a token when its result is in P; closed under every combinator, so each parser's fuel is shown to suffice by induction on the tokens left.. Proved for all Tame sources, from any position between tokens, with any stop set and nesting state. Outside Tame the lexer itself panics: C68_counterexample. Discrete and ranged features are proved for values that are words or single tokens (the framework EatsIf covers any value parser that returns).
Theorems: `Hdx.C68_componentValues_partial`, `Hdx.C68_declaration_partial`, `Hdx.C68_rule_partial`, `Hdx.C68_styleSheet_partial`, `Hdx.C68_entirely_partial`, `Hdx.C68_nth_partial`, `Hdx.C68_boolean_partial`, `Hdx.C68_discrete_partial`, `Hdx.C68_ranged_partial`, `Hdx.C68_condition_partial`, `Hdx.C68_counterexample`

**C69 A parsed selector list writes back its tokens** (proved). Modelled: Model/Selectors.lean, Model/SelectorNames.lean; every taken cursor is logged. Proof: `Sound`: induction on fuel, following each parser with a weakest-precondition calculus for successful runs (`Succ`, Lemmas/Wp.lean); backtracking drops the log of the abandoned part. The skip set of the state matters: what was seen with comments skipped is what is taken with trivia skipped (`next_skip`).. Proved for whole lists, compound selectors and the parts. Beyond the statement: a Namespace node (not the prefix) parsed by itself loses the identifier of `a*` (C69_counterexample); inside a selector that case does not arise.
Theorems: `Hdx.C69_selector_list`, `Hdx.C69_compound_selector`, `Hdx.C69_parts`, `Hdx.C69_counterexample`

**C70 Parsing a selector list returns** (partial). Modelled: Model/Selectors.lean, Model/SelectorNames.lean. Proof: `Goes`/`EatsT`: as C68, extended by the skip set. The loop over the list makes progress because a compound selector that consumed nothing stands before a comma, which is then taken (`compoundSelector_stops`, `same_next`).. Proved for all Tame sources from any position between tokens with the default skip set, and (C70_any_skip_partial) with any skip set without EOF and delimiters if every comment is closed. Missing: sources on which the lexer itself panics (C68_counterexample).
Theorems: `Hdx.C70_selector_list_partial`, `Hdx.C70_source_partial`, `Hdx.C70_any_skip_partial`

**C71 A selector that parses leaves the parser's modes as they were** (proved). Modelled: Model/Selectors.lean, Model/SelectorNames.lean. Proof: The second half of `Sound`.. Proved for success. After an error the skip set can be left changed: C71_counterexample; the property is stated for success only, but the counterexample is kept as a caution.
Theorems: `Hdx.C71_selector_list`, `Hdx.C71_counterexample`

**C72 Where a selector ends** (proved). Modelled: Model/Selectors.lean, Model/SelectorNames.lean. Proof: Induction on the fuel of the two loops: the only ways out.. Proved in full.
Theorems: `Hdx.C72_list_stops`, `Hdx.C72_compound_stops`

**C73 The pieces of a parsed selector are what they are labelled as** (proved). Modelled: Model/Selectors.lean, Model/SelectorNames.lean. Proof: `Label`, `CompoundLabel`, `ListLabel` are the specification; `Says`/`SaysT` carries it through each parser, with induction on fuel for nesting.. Proved in full. The names themselves are tables transcribed from the macros' keys.
Theorems: `Hdx.C73_selector_list`

**C74 A selector list is selectors with commas between them** (partial). Modelled: Model/Selectors.lean, Model/SelectorNames.lean. Proof: A selector without a comma stands where the list ends, by C72, so it is the last.. The commas are proved; that no selector is empty and none follows the last comma is false: C74_counterexample.
Theorems: `Hdx.C74_commas_partial`, `Hdx.C74_counterexample`

**C75 Whitespace and comments around selectors and combinators do not matter** (partial). Modelled: Model/Selectors.lean, Model/SelectorNames.lean. Proof: After consume_trivia the lexer stands before a token outside the skip set (`consumeTriviaLoop_at`), so the first component cannot be whitespace.. Proved: no leading descendant combinator. The rest is false: C75_counterexample.
Theorems: `Hdx.C75_leading_partial`, `Hdx.C75_counterexample`

**C76 Selectors of the grammar are accepted** (partial). Modelled: Model/Selectors.lean, Model/SelectorNames.lean. Proof: Evaluation of the parser along the token stream, by induction on the list of pieces.. See the theorem for the part of the grammar that is proved; C76_counterexample: `a||b`, `|b` and `[|a]` are rejected, `:lang(en` is rejected at the end of the source.
Theorems: `Hdx.C76_accepts_partial`, `Hdx.C76_counterexample`

**C77 The AST of a style sheet loses no token** (partial). Modelled: Model/AtRules.lean, Model/Lists.lean, Model/Properties.lean, Model/Media.lean, Model/ValueDef.lean, Model/Images.lean, Model/Definitions.lean. Proof: A calculus of what a parser takes and what its tree writes (Lemmas/Saves, Lemmas/Kept, Lemmas/ValueSaves), followed through every rule parser, every combinator of the value definitions and every hand-written type; induction on fuel for nesting.. Every source under 64 KiB, with the 341 property definitions css_ast has (C77_real_values), and with any set of property values that keep what they parse (C77_nothing_lost). Missing: sources with a `@charset` without semicolon, with a negated condition, or with a circular `<radial-size>`, for which it is false (C77_charset_counterexample, C77_not_counterexample, C77_circle_counterexample). C77_trivia: the trivia of a style sheet are whitespace and comments only.
Theorems: `Hdx.C77_trivia`, `Hdx.C77_nothing_lost`, `Hdx.C77_charset_counterexample`, `Hdx.C77_not_counterexample`, `Hdx.C77_values`, `Hdx.C77_real_values`, `Hdx.C77_circle_counterexample`

**C79 A typed property value is a value of the property** (partial). Modelled: Model/ValueDef.lean, Model/Definitions.lean, Model/Images.lean, Model/Properties.lean, Model/AtRules.lean. Proof: Spec/ValueSyntax.lean states which token lists match a definition, from css-values-4; a calculus of the tokens a parser takes (Lemmas/Reads) follows every combinator of the macro; induction on how deep types refer to others; then Lemmas/EveryDeclaration carries it to every declaration of a style sheet, with its place in the token stream.. Soundness. Proved for every declaration of every source under 64 KiB and 315 of the 341 properties, against the definitions in css_ast's own text and, for hand-written types, against Spec/CssValues.lean, which marks where hdx accepts more than CSS (as does Spec/ValueSyntax.lean for a <time> without unit). For the macro: for every definition that is Faithful (C79_definitions_partial). Missing: the 26 misreadProperties, and the marked types, for which it is false (C79_counterexample_*); what is inside gradients and stripes() is not specified.
Theorems: `Hdx.C79_style_sheet_partial`, `Hdx.C79_value_partial`, `Hdx.C79_definitions_partial`, `Hdx.C79_types_partial`, `Hdx.C79_counterexample_radius`, `Hdx.C79_counterexample_margin`, `Hdx.C79_counterexample_percentage`, `Hdx.C79_counterexample_string`, `Hdx.C79_counterexample_time`, `Hdx.C79_counterexample_word`, `Hdx.C79_counterexample_width`, `Hdx.C79_counterexample_color`, `Hdx.C79_counterexample_unclosed`

**C80 The parts of a rule are what they are labelled as** (partial). Modelled: Model/AtRules.lean, Model/Media.lean, Model/Features.lean, Model/Lists.lean. Proof: Spec/RuleLabels.lean states for each label what its tokens are, with its own table of media features; a calculus of what a parser's results say about the source (Says) follows every rule parser, by induction on fuel; the table in the code agrees row by row with that of the specification.. Proved for every source and every rule against Spec/RuleLabels.lean, which marks where hdx accepts more than CSS. Missing: the stricter grammar of CSS at the marked places, for which it is false (C80_counterexample_*); the full grammar of the selectors of style rules is C73 (here: their tags, pseudo-classes and functions), values of declarations C79.
Theorems: `Hdx.C80_style_sheet`, `Hdx.C80_counterexample_domain`, `Hdx.C80_counterexample_keyframes`, `Hdx.C80_counterexample_layer`, `Hdx.C80_counterexample_not`, `Hdx.C80_counterexample_comma`, `Hdx.C80_counterexample_three`, `Hdx.C80_counterexample_boolean`, `Hdx.C80_counterexample_property`

**C81 The form of a declaration's value follows from its name, its first token and the grammar of the property** (proved). Modelled: Model/Properties.lean (styleValue, typedValue, valueEnds, rawValue), Model/Definitions.lean (realValues). Proof: Inversion of the program; determinism of programs gives the negative part (no grammar would have taken a value); that value parsers keep the modes of the parser (Lemmas/ValueModes.lean) gives that the tokens of an unknown value begin where the typed attempt began.. C81_value characterises all five forms for every parser state and every set of property grammars; C81_style_sheet and C81_css say it for all declarations of a style sheet by the tokens of their values (only the first component value: after a selector that fails, white space is no longer skipped and becomes part of the values, C81_counterexample_leak). The counterexamples show where this decision is not that of CSS: a wide keyword followed by more, !important that becomes part of a value, acos(), a blank at the end of the source.
Theorems: `Hdx.C81_value`, `Hdx.C81_style_sheet`, `Hdx.C81_css`, `Hdx.C81_counterexample_leak`, `Hdx.C81_counterexample_wide`, `Hdx.C81_counterexample_important`, `Hdx.C81_counterexample_acos`, `Hdx.C81_counterexample_later`, `Hdx.C81_counterexample_blank`

**C82 Values that the grammar of their property takes are typed** (partial). Modelled: Model/ValueDef, Model/Definitions, Model/Images, Model/Properties (macro-generated and hand-written parsers of values), Model/Lists (declarations). Proof: Spec/ValueSyntax defines what a list of tokens must be to match a definition. For every definition the sets of tokens it may begin with, and of tokens on which an optional part would go on, are computed (`defInfo`, Lemmas/CompleteDefs); if the sets of neighbouring parts are apart, the deterministic parser takes every matching list and stops after it (`defInfo_complete`, by induction on definitions and on the matching). `decide +kernel` over the table of 341 rows shows that this is so for 320 of them. Lemmas/ClearTokens: names of tokens of plain sources are clear.. Proved for 320 of the 341 definitions: for all of them it is computed (in the kernel, over the table) which tokens the parsers may commit on (`infoAt`), and proved once for all definitions that a parser whose alternatives are apart takes all of the language of the definition. Missing: the 21 properties in `narrowProperties` (counterexamples for most), image functions, calc-size(), stripes(), values at the end of the source, and names with escapes whose two readings differ (Clear; C82_plain_partial shows that sources without escapes and capitals in units have none).
Theorems: `Hdx.C82_declaration_partial`, `Hdx.C82_plain_partial`, `Hdx.C82_names`, `Hdx.C82_counterexample_number`, `Hdx.C82_counterexample_percentage`, `Hdx.C82_counterexample_options`, `Hdx.C82_counterexample_lists`, `Hdx.C82_counterexample_functions`, `Hdx.C82_counterexample_order`

**C78 Value definitions are read as the CSS notation prescribes** (proved). Modelled: Model/Definitions (defTokens, readDef, Def.combine, the table of definitions). Proof: Spec/DefSyntax is the grammar of the notation, on texts, with levels of tightness. A checker that goes through definition and text together is proved sound for the grammar (by induction on definitions), and evaluated by the kernel on all rows of the table.. Proved for all definitions of css_ast. C78_counterexample_* show that the reader is wrong for other texts, which css_ast does not contain.
Theorems: `Hdx.C78_definitions`, `Hdx.C78_lookup`, `Hdx.C78_counterexample_three`, `Hdx.C78_counterexample_twice`

**C83 A grammatical style sheet is parsed into its rules** (partial). Modelled: Model/AtRules `cssStyleSheet`, `cssRule`, `styleRule`, `knownAtRule` and the at-rules, Model/Rules `blockLoop`, `isDeclaration`, `atRule`, `qualifiedRule`, Model/Lists, Model/Properties `property`; grammar as trees over tokens in Spec/SheetSyntax, Spec/AtRuleSyntax, Spec/DeclSyntax, Spec/RawValues. Proof: Lemmas/Steps: a triple `Steps` that says how a program moves from one token list to another, with comments and whitespace in between; mutual induction on the tree of rules, blocks and lists; parse_entirely by C36. Raw values (Lemmas/Raw, Lemmas/Walks) by induction on the balanced tokens, with fuel for the rest of the source. At-rules without rules in them on token lists (Lemmas/ListWalks, Lemmas/AtRuleWalks), what is before a block in Lemmas/GroupWalks.. Style rules with selectors of C76, declarations with values of C82, CSS-wide keywords, custom properties, computed values (`var()`, `calc()`, ...) or unknown properties with any balanced tokens, and the at-rules `@media` (queries of C84), `@container`, `@layer` (statement and block), `@document`, `@font-face`, `@keyframes`, `@page` with margin rules, and `@property` with `syntax` and `inherits`, nested to any depth: the sheet is parsed without errors into the rules of the tree. Missing: `@supports`, `initial-value` in `@property` (counterexample), `@charset`, the at-rules that hdx does not parse, and the selectors, values and queries that C76, C82 and C84 leave out; nested rules that begin with an ident and a colon, rules that begin with a dashed ident, and at-rules with two semicolons together are read in another way (counterexamples).
Theorems: `Hdx.C83_sheet_run_partial`, `Hdx.C83_sheet_partial`, `Hdx.C83_counterexample_nested`, `Hdx.C83_counterexample_dashed`, `Hdx.C83_counterexample_semicolons`, `Hdx.C83_counterexample_initial`

**C84 Media queries and container conditions are read as they are written** (partial). Modelled: Model/Features `comparison`, `discreteFeature`, `rangedFeature`, `condition`; Model/Media `MEDIA_FEATURES`, `mediaFeature`, `mediaQuery`, `containerFeature`, `containerCondition`; Model/Lists `preludeList`; grammar in Spec/MediaSyntax over the labels of Spec/RuleLabels. Proof: Lemmas/MediaYields: each parser yields the part whose tokens are ahead (`Yields`), by cases on the part; the lookahead by `On.peekN`, adjacent tokens by `On.touch` (Lemmas/Touch); the table of hdx is compared with the table of CSS by the kernel.. All features of the table, ranges, one or two features in a condition, types with `not`/`only`. Missing because hdx does not read them (counterexamples here and in C80, C40): commas between queries, chains of three, `not` before a feature, vendor features with `min`/`max`, four -moz- features whose table entry names the wrong parser (C84_counterexample_moz), numbers without a fraction, container features named after `<=`. Names must be clear (no escapes).
Theorems: `Hdx.C84_media_partial`, `Hdx.C84_container_partial`, `Hdx.C84_counterexample_prefix`, `Hdx.C84_counterexample_number`, `Hdx.C84_counterexample_fourth`, `Hdx.C84_counterexample_apart`, `Hdx.C84_counterexample_moz`, `Hdx.C84_counterexample_chain`

**C85 Parsing a style sheet returns** (partial). Modelled: Model/AtRules.lean (cssStyleSheet over realValues) and everything it uses: Properties, Lists, Media, ValueDef, Images, Definitions, Selectors, Nth, Grammar, Parser, Lexer. Proof: `EatsIf` (Lemmas/Returns.lean), a program logic for programs that return and use up tokens, over a `Text` that may be strict: in a strict text all tokens can be read. Lemmas/SelectorStrict.lean: selectors with any skip set; ValueStrict.lean to ValueStrict4.lean: a decidable check of the definitions (`Def.parserOk`), proved sound and evaluated on the table of 341; RuleStrict.lean: rules, at-rules, preludes, blocks (a block's loop stops at its `}` even where an item uses up nothing). The counterexamples are evaluated in the kernel.. False as stated: C85_counterexample is a source on which parsing the sheet panics. Proved (C85_returns_partial, C85_source_partial) for every Tame source, from any position between tokens and with any skip set without delimiters and EOF, in which every comment is closed, urls are short, and no token is one of the four names that lead to unfinished parsers (@page, @container, font-tech(, font-format(): C85_counterexample_unfinished shows that each of the four does make parsing panic or loop. In particular the todo!() of calc-size() is never reached. The statement's hypotheses are Spec.Ready, Spec.Quiet (Props/Returns.lean) and Spec.Calm (Lemmas/Returns.lean).
Theorems: `Hdx.C85_returns_partial`, `Hdx.C85_source_partial`, `Hdx.C85_values_partial`, `Hdx.C85_counterexample`, `Hdx.C85_counterexample_unfinished`

**C86 What an editor highlights is what it says** (partial). Modelled: Model/Highlight.lean over the trees of Model/AtRules.lean. Proof: Lemmas/Marks.lean and VisitMarks.lean: the cursors that a visit keeps are cursors of the tree in order; with C80 (labels) and C77 (nothing lost) they are tokens of the source; Spec/Highlight.lean states what each type and modifier of the legend says about them.. Proved for every Tame source (within the lexer's documented limits, no backslash before a non-ASCII character, // comments ASCII) shorter than 64 KiB. Missing: other sources; and that every obsolete element is shown as Deprecated, which is false (C86_counterexample_obsolete: names that are in two lists, like marquee).
Theorems: `Hdx.C86_truth_partial`, `Hdx.C86_counterexample_obsolete`

**C87 Highlights do not overlap and none is lost** (partial). Modelled: Model/Highlight.lean. Proof: the marks of a sheet are distinct tokens, in the order of the source within each part, hence their spans are apart; then insert never replaces an entry (SheetFacts.entries_eq).. Proved for every Tame source (within the lexer's documented limits, no backslash before a non-ASCII character, // comments ASCII) shorter than 64 KiB. Missing: other sources.
Theorems: `Hdx.C87_map`, `Hdx.C87_apart_partial`

**C88 Highlighting a parsed style sheet does not panic** (partial). Modelled: Model/Highlight.lean (sheetVisits with the todo!() of Visitable). Proof: mutual induction over rules and lists of rules.. False as stated (C88_counterexample: @media and @-webkit-keyframes). Proved for every tree: it panics if and only if the walk comes to one of these two rules, at any depth, and with no other panic; in @-moz-document nothing is walked.
Theorems: `Hdx.C88_panics`, `Hdx.C88_counterexample`

**C89 All tags, pseudo-classes, declarations and braces of the rules are highlighted** (partial). Modelled: Model/Highlight.lean. Proof: mutual induction over rules: what is visited is, up to order, what Spec.walkedAll and Spec.ruleShows say (Lemmas/Visits.lean); with C87 no entry is lost.. Proved for every Tame source (within the lexer's documented limits, no backslash before a non-ASCII character, // comments ASCII) shorter than 64 KiB, when the walk returns (C88). ruleShows and walked in Spec/Highlight.lean say what is shown. Missing: other sources, and what is never shown (C89_counterexample: namespaced tags, arguments of pseudo-classes, @font-face, rules in @-moz-document).
Theorems: `Hdx.C89_all_partial`, `Hdx.C89_counterexample`

**C90 The semantic tokens that the server sends are what is to be shown, in place** (partial). Modelled: Model/Highlight.lean (highlightReply, semanticTokens), Lsp/Document. Proof: C51 on the highlights of C87, which start on character boundaries; order of a sorted list of distinct spans is unique; Understood states what a client makes of the reply.. Proved for every Tame source (within the lexer's documented limits, no backslash before a non-ASCII character, // comments ASCII) shorter than 64 KiB when there is a style sheet and the walk returns; that positions and lengths are those of the protocol only for ASCII sources without lone carriage returns (C90_protocol_partial); for others false (C90_counterexample_length, C45_counterexample). C90_counterexample_silent: a source to which there is no reply.
Theorems: `Hdx.C90_reply_partial`, `Hdx.C90_protocol_partial`, `Hdx.C90_any_order_partial`, `Hdx.C90_counterexample_length`, `Hdx.C90_counterexample_silent`

**C91 What css_ast's tree writes is in the order of the source** (partial). Modelled: The css_ast tree of Model/AtRules.lean, Model/Lists.lean, Model/Definitions.lean and what it writes (CssRule.cursorsOf); the conditions are Spec/CssText.lean (WholeAll, InOrderAll) and Spec/ValueOrder.lean (Straight).. Proof: Induction over the parser programs: each relates the tokens it took to the tokens its result writes, and, when the taken tokens have increasing positions, that the written ones are a subsequence of them (Kept true). For `||`/`&&` definitions the values found are compared by position (Grown). The lexer gives increasing positions (LexedUntil_offsets).. C91_in_order_partial (any values that keep their order) and C91_real_values_partial (the 341 properties of css_ast, with C91_values proved for all of them). Partial because the property fails for declarations after rules and for values written in the definition's order (two counterexample theorems), and the hypotheses exclude exactly those, besides C77's exclusions; brackets are compared up to position, since a block's closing bracket is stored without one.
Theorems: `Hdx.C91_in_order_partial`, `Hdx.C91_values`, `Hdx.C91_real_values_partial`, `Hdx.C91_counterexample_declaration_after_rule`, `Hdx.C91_counterexample_any_order`

**C92 What csskit build writes is the style sheet that was read** (partial). Modelled: Model/Build.lean over Model/AtRules.lean, Model/Definitions.lean and Model/Sink.lean; Spec/Build.lean; Spec/Separate.lean for what the output is lexed to. Proof: From nothing_lost (C77, C91), the fact that the loop over the rules only ends where nothing but tokens to skip is left, the fact that only whitespace and comments are ever skipped (class Tidy, inferred over the text of every parser), and what the sink writes for each token (C30). What the output is lexed to follows from C28 for whole texts (Props/BuildAgain.lean).. Proved for texts under 64 KiB within the lexer's limits (Tame) and style sheets whose tree keeps its tokens (WholeAll NoCircle; in order: WholeAll keepsOrder and InOrderAll). The last sentence is false: C92_counterexample (a declaration after a nested rule is moved before it with no semicolon between them; `1px -0` is written `1px-0`). C92_again_partial and C92_again_in_order_partial: where no two neighbours meet one of C28's exceptions and numbers are written as they stood, the text that is written is lexed to the same tokens, with a whitespace token where a space was put in.
Theorems: `Hdx.C92_build_partial`, `Hdx.C92_in_order_partial`, `Hdx.C92_counterexample`, `Hdx.C92_again_partial`, `Hdx.C92_again_in_order_partial`

**C93 The WebAssembly function lex returns the tokens of the source** (partial). Modelled: Model/Wasm.lean; Spec/Wasm.lean (Tiles). Proof: Induction over the source with advance_tame (C01-C03).. Proved for sources within the lexer's limits (Tame); the conversion to JavaScript values is not modelled.
Theorems: `Hdx.C93_lex_partial`, `Hdx.C93_unit`, `Hdx.C93_names`

**C94 The WebAssembly function minify is all or nothing, and agrees with csskit build** (partial). Modelled: Model/Wasm.lean, Model/Build.lean. Proof: From C36_rest, and the fact that the loop over the rules only succeeds where nothing but tokens to skip is left: then there are no errors.. Proved for sources under 64 KiB.
Theorems: `Hdx.C94_minify_partial`, `Hdx.C94_refused`

**C95 The diagnostics of the WebAssembly function parse say where the source is wrong** (partial). Modelled: Model/Wasm.lean; Spec/Wasm.lean (OfSource). Proof: Only the generic rules' errors reach the caller (the parsers for known rules are tried and undone). Lemmas/Blames.lean follows each of them: what a failing program says of its diagnostic and of the parser it leaves behind, with rules only begun before the end of the source.. Proved for sources under 64 KiB within the lexer's limits (Tame). The end of a BadDeclaration is wrong: it is the place of the custom property plus the length of the token before it, and may lie behind the end of the source (C95_counterexample). The errors without a label (UnexpectedEnd, UnexpectedCloseCurly) are shown never to be the only ones.
Theorems: `Hdx.C95_not_silent`, `Hdx.C95_points_partial`, `Hdx.C95_counterexample`

**C96 A session with the language server: what is answered, and how it ends** (partial). Modelled: Model/Lsp/Session.lean (handler and all document threads with rendezvous channels, panics and endless loops), Model/Lsp/RealSession.lean; Spec/LspSession.lean (the server without threads). Proof: An invariant over all interleavings: the replies sent and what the sequential server would still reply are together what it replies in all; the states without a step are the ends it names; a measure bounds the number of steps. Then induction over the messages, with C46 for the text and C90 for the tokens.. C96_replies, C96_ending and C96_terminates are complete: any parser, any highlighter, any interleaving. C96_answered_partial puts C46, C90 and the threads together, for ASCII texts that can be highlighted; C96_counterexample shows the sessions that end early (@media is answered with nothing and then ends the session for all documents; a text without a style sheet makes the server wait for ever). Endless loops of the parser are modelled as threads that never come back.
Theorems: `Hdx.C96_answered_partial`, `Hdx.C96_counterexample`, `Hdx.Lsp.C96_replies`, `Hdx.Lsp.C96_ending`, `Hdx.Lsp.C96_terminates`

**C97 The process csskit lsp: what it writes, and when it ends** (partial). Modelled: Model/Lsp/Threads: the three threads, the two channels of capacity zero, the trace level, the main thread that joins the reader only; over the handler of Model/Lsp/Server. Proof: an invariant: the replies to all messages are the responses written, then what the writer holds, then what the handler holds, then the replies to the messages to come; a weight for the number of steps. Proved: the order of the responses, what else is written, the trace level, how the threads come to rest, the bound on their steps, and when the process is over. Partial: replies may be lost at the end of the process (C97_lost_partial bounds them by two, C97_lost_exit_partial by one after `exit`; C97_counterexample_lost loses two), and `exit` does not end the process (C97_counterexample_exit). Panics of the handler are in C96, not here.
Theorems: `Hdx.Lsp.C97_in_order`, `Hdx.Lsp.C97_quiet`, `Hdx.Lsp.C97_trace_values`, `Hdx.Lsp.C97_level`, `Hdx.Lsp.C97_lost_partial`, `Hdx.Lsp.C97_rest`, `Hdx.Lsp.C97_terminates`, `Hdx.Lsp.C97_exit`, `Hdx.Lsp.C97_lost_exit_partial`, `Hdx.Lsp.C97_counterexample_lost`, `Hdx.Lsp.C97_counterexample_exit`

**C98 Counter styles, symbols() and stripes(): exactly what is written is read** (partial). Modelled: Model/Counters (counter_style.rs, symbols.rs), Model/Images (image_1d.rs). Proof: Reads, Saves, Eats and Yields: the program logics of the other values; induction on the list of stripes or symbols. Proved for all positions of all sources: what is accepted (C98_sound), and that the tree keeps the tokens (C98_kept). Partial: it returns on the sources of C85 (C98_returns_partial); all of stripes(), symbols() of strings and urls, and names are taken when names are clear (C98_stripes_partial, C98_symbols_partial, C98_names_partial). C98_counterexample: predefined styles that are misspelt or missing in the code's list, and an empty symbols().
Theorems: `Hdx.C98_sound`, `Hdx.C98_kept`, `Hdx.C98_returns_partial`, `Hdx.C98_stripes_partial`, `Hdx.C98_symbols_partial`, `Hdx.C98_names_partial`, `Hdx.C98_counterexample`

**C99 Numbers with units keep the unit and the number that are written** (partial). Modelled: Model/Quantities: Peek, Build, f32 and Cursor conversions and the sign tests of the types in css_ast/src/units; Model/Media isDimensionOf with the names of the macros. NaN does not occur: no number token has it.. Proof: Each test and each builder is characterised by the same predicate on the token, then the chains by induction; sign tests on the bits against the number that the bits stand for.. C99_variant, C99_builds, C99_number and C99_sign are whole, for tokens whose name is read as written (Clear). C99_accepts_partial: every unit but `x` of resolutions. Counterexamples: is_zero is true of 5px (it compares with >=), and 1x is not a resolution. C99_as_i32: the conversion of a number token to i32 truncates and saturates.
Theorems: `Hdx.C99_variant`, `Hdx.C99_builds`, `Hdx.C99_number`, `Hdx.C99_sign`, `Hdx.C99_as_i32`, `Hdx.C99_zero_partial`, `Hdx.C99_accepts_partial`, `Hdx.C99_counterexample_zero`, `Hdx.C99_counterexample_x`

**C100 Unknown at-rules do not affect the rules around them** (partial). Modelled: Model/Rules atRule, optionalBlock, genericAtRule; Model/AtRules knownAtRule, atCssRule, unknownAtRule, cssStyleSheet.. Proof: Spec/UnknownRules: sheets of known rules (the trees of C83) and unknown at-rules, and what they become. The prelude is read with the loop of component values (Lemmas/Raw) under the stop set of at-rules; a name outside the table has no parser or one that fails at once and is undone; then induction over the sheet with the step lemmas of C83.. The theorems are for whole style sheets. Missing: blocks of unknown at-rules with rules in them or with a last declaration without semicolon, at-rules of a known name that are broken, broken qualified rules, and preludes that end with the source. C100_counterexample_bracket: an unmatched closing bracket, or a broken string, in the prelude of an unknown at-rule loses the whole sheet.
Theorems: `Hdx.C100_sheet_partial`, `Hdx.C100_apart_partial`, `Hdx.C100_counterexample_bracket`

## Axioms of each theorem

No theorem depends on an axiom outside `propext`, `Classical.choice`, `Quot.sound`.

* `propext`, `Classical.choice`, `Quot.sound` (365): `Hdx.C01_partial`, `Hdx.C02_partial`, `Hdx.C03_eof_iff_at_end`, `Hdx.C03_eof_forever`, `Hdx.C04_partial`, `Hdx.C04_counterexample_panic`, `Hdx.C04_counterexample_escape`, `Hdx.C04_counterexample_comment`, `Hdx.C05_suffix`, `Hdx.C05_rewind`, `Hdx.C06_collapsed`, `Hdx.C06_separate`, `Hdx.C06_only`, `Hdx.C07_closed`, `Hdx.C07_unclosed`, `Hdx.C07_total`, `Hdx.C07_only`, `Hdx.C08_partial`, `Hdx.C08_disabled`, `Hdx.C08_counterexample`, `Hdx.C09_partial`, `Hdx.C09_total`, `Hdx.C09_counterexample`, `Hdx.C09_only`, `Hdx.C10_longest`, `Hdx.C10_total`, `Hdx.C10_ident_partial`, `Hdx.C10_function_partial`, `Hdx.C10_atKeyword_partial`, `Hdx.C10_hash_partial`, `Hdx.C10_only`, `Hdx.C11_counterexample`, `Hdx.C12_partial`, `Hdx.C12_total`, `Hdx.C12_only`, `Hdx.C13_percent`, `Hdx.C13_partial`, `Hdx.C13_counterexample`, `Hdx.C15_partial`, `Hdx.C15_counterexample`, `Hdx.C16_url`, `Hdx.C16_bad_partial`, `Hdx.C16_total`, `Hdx.C16_counterexample`, `Hdx.C17_whitespace`, `Hdx.C17_comment`, `Hdx.C17_number`, `Hdx.C17_dimension_unknown`, `Hdx.C17_dimension_known`, `Hdx.C17_badString`, `Hdx.C17_badUrl`, `Hdx.C17_ident`, `Hdx.C17_function`, `Hdx.C17_atKeyword`, `Hdx.C17_hash`, `Hdx.C17_string`, `Hdx.C17_url`, `Hdx.C17_delim`, `Hdx.C17_char_constant`, `Hdx.C18_is_cdc`, `Hdx.C19_add`, `Hdx.C19_new`, `Hdx.C19_token`, `Hdx.C20_partial`, `Hdx.C20_anywhere`, `Hdx.C20_alone`, `Hdx.C20_backslash`, `Hdx.C20_counterexample`, `Hdx.C20_delims`, `Hdx.C21_partial`, `Hdx.C21_negation`, `Hdx.C22_ident_partial`, `Hdx.C22_function_partial`, `Hdx.C22_atKeyword_partial`, `Hdx.C22_hash_partial`, `Hdx.C22_dimension_partial`, `Hdx.C22_url_partial`, `Hdx.C22_string_partial`, `Hdx.C22_counterexample`, `Hdx.C23_partial`, `Hdx.C23_not_lower`, `Hdx.C23_counterexample`, `Hdx.C24_partial`, `Hdx.C24_escaped_partial`, `Hdx.C24_counterexample`, `Hdx.C25_partial`, `Hdx.C25_decoder`, `Hdx.C26_hull`, `Hdx.C26_contains`, `Hdx.C27_value`, `Hdx.C27_injective`, `Hdx.C28_partial`, `Hdx.C28_whole_partial`, `Hdx.C28_counterexample`, `Hdx.C28_written_partial`, `Hdx.C29_partial`, `Hdx.C29_only`, `Hdx.C29_counterexample`, `Hdx.C30_text_partial`, `Hdx.C30_number_partial`, `Hdx.C30_counterexample`, `Hdx.Parser.C32_peek_next`, `Hdx.Parser.C32_peek_n`, `Hdx.Parser.C32_peek_0`, `Hdx.C33_calls`, `Hdx.C33_programs`, `Hdx.C34_partial`, `Hdx.C34_programs_partial`, `Hdx.C34_counterexample`, `Hdx.C35_no_trace`, `Hdx.C35_rule`, `Hdx.C35_partial`, `Hdx.C35_counterexample`, `Hdx.C36_rest`, `Hdx.C36_no_errors`, `Hdx.C36_total`, `Hdx.C36_trailing_trivia`, `Hdx.C37_partial`, `Hdx.C37_sum_partial`, `Hdx.C38_odd`, `Hdx.C38_even`, `Hdx.C38_integer`, `Hdx.C38_step`, `Hdx.C38_digits`, `Hdx.C38_signed_partial`, `Hdx.C38_dash_partial`, `Hdx.C38_plus`, `Hdx.C38_minus`, `Hdx.C38_only_partial`, `Hdx.C38_start`, `Hdx.C38_counterexample`, `Hdx.C38_comment_counterexample`, `Hdx.C39_round_trip`, `Hdx.C39_bracket_positions`, `Hdx.C40_single_partial`, `Hdx.C40_and_partial`, `Hdx.C40_or_partial`, `Hdx.C40_written_partial`, `Hdx.C40_length_counterexample`, `Hdx.C40_not_counterexample`, `Hdx.C40_chain_counterexample`, `Hdx.C40_or_counterexample`, `Hdx.C40_dropped_counterexample`, `Hdx.C40_counterexample`, `Hdx.Lsp.C42_message_partial`, `Hdx.Lsp.C42_sequence_partial`, `Hdx.Lsp.C42_exact`, `Hdx.Lsp.C42_counterexample_null`, `Hdx.Lsp.C43_request_partial`, `Hdx.Lsp.C43_history_partial`, `Hdx.Lsp.C45_partial`, `Hdx.Lsp.C46_partial`, `Hdx.Lsp.C46_edit_partial`, `Hdx.C48_balanced_partial`, `Hdx.C48_counterexample`, `Hdx.Lsp.C51_deltas`, `Hdx.C52_cursors`, `Hdx.Lsp.C53_full`, `Hdx.C58_boolean`, `Hdx.C58_discrete`, `Hdx.C58_ranged`, `Hdx.C59_accepts`, `Hdx.C59_rejects`, `Hdx.C60_source`, `Hdx.C60_nothing_lost`, `Hdx.C60_in_order_partial`, `Hdx.C60_order_counterexample`, `Hdx.C61_component_values`, `Hdx.C61_declaration`, `Hdx.C61_bad_declaration`, `Hdx.C61_rule`, `Hdx.C61_style_sheet`, `Hdx.C61_nth`, `Hdx.C61_block`, `Hdx.C61_qualified_rule`, `Hdx.C61_at_rule`, `Hdx.C61_ranged_feature`, `Hdx.C61_discrete_feature`, `Hdx.C61_condition`, `Hdx.C62_node`, `Hdx.C62_token`, `Hdx.C62_if_peek_no`, `Hdx.C62_if_peek_yes`, `Hdx.C62_optional`, `Hdx.C63_declaration`, `Hdx.C63_declaration_parsed`, `Hdx.C63_important`, `Hdx.C63_important_parsed`, `Hdx.C63_at_name`, `Hdx.C63_at_other_name`, `Hdx.C63_rule`, `Hdx.C63_bad_declaration`, `Hdx.C63_bad_declaration_counterexample`, `Hdx.C63_bad_declaration_semicolon_counterexample`, `Hdx.Lsp.C64_request`, `Hdx.Lsp.C64_notification`, `Hdx.Lsp.C64_result_partial`, `Hdx.Lsp.C64_error_partial`, `Hdx.Lsp.C64_counterexample`, `Hdx.Lsp.C65_response`, `Hdx.Lsp.C65_frame`, `Hdx.Lsp.C65_unknown_field`, `Hdx.C66_parse`, `Hdx.C66_value_partial`, `Hdx.C66_exact`, `Hdx.C66_integer`, `Hdx.C66_integer_value_partial`, `Hdx.C67_readable_partial`, `Hdx.C67_strings_partial`, `Hdx.C67_counterexample_comment`, `Hdx.C67_counterexample_backslash`, `Hdx.C67_decodable_partial`, `Hdx.C67_punctuation_partial`, `Hdx.C67_counterexample`, `Hdx.C68_componentValues_partial`, `Hdx.C68_declaration_partial`, `Hdx.C68_rule_partial`, `Hdx.C68_styleSheet_partial`, `Hdx.C68_entirely_partial`, `Hdx.C68_nth_partial`, `Hdx.C68_boolean_partial`, `Hdx.C68_discrete_partial`, `Hdx.C68_ranged_partial`, `Hdx.C68_condition_partial`, `Hdx.C68_counterexample`, `Hdx.C69_selector_list`, `Hdx.C69_compound_selector`, `Hdx.C69_parts`, `Hdx.C69_counterexample`, `Hdx.C70_selector_list_partial`, `Hdx.C70_source_partial`, `Hdx.C70_any_skip_partial`, `Hdx.C71_selector_list`, `Hdx.C71_counterexample`, `Hdx.C72_list_stops`, `Hdx.C72_compound_stops`, `Hdx.C73_selector_list`, `Hdx.C74_commas_partial`, `Hdx.C74_counterexample`, `Hdx.C75_leading_partial`, `Hdx.C75_counterexample`, `Hdx.C76_accepts_partial`, `Hdx.C76_counterexample`, `Hdx.C77_trivia`, `Hdx.C77_nothing_lost`, `Hdx.C77_charset_counterexample`, `Hdx.C77_not_counterexample`, `Hdx.C77_values`, `Hdx.C77_real_values`, `Hdx.C77_circle_counterexample`, `Hdx.C79_style_sheet_partial`, `Hdx.C79_value_partial`, `Hdx.C79_definitions_partial`, `Hdx.C79_types_partial`, `Hdx.C79_counterexample_radius`, `Hdx.C79_counterexample_margin`, `Hdx.C79_counterexample_percentage`, `Hdx.C79_counterexample_string`, `Hdx.C79_counterexample_time`, `Hdx.C79_counterexample_word`, `Hdx.C79_counterexample_width`, `Hdx.C79_counterexample_color`, `Hdx.C79_counterexample_unclosed`, `Hdx.C80_style_sheet`, `Hdx.C80_counterexample_domain`, `Hdx.C80_counterexample_keyframes`, `Hdx.C80_counterexample_layer`, `Hdx.C80_counterexample_not`, `Hdx.C80_counterexample_comma`, `Hdx.C80_counterexample_three`, `Hdx.C80_counterexample_boolean`, `Hdx.C80_counterexample_property`, `Hdx.C81_value`, `Hdx.C81_style_sheet`, `Hdx.C81_css`, `Hdx.C81_counterexample_leak`, `Hdx.C81_counterexample_wide`, `Hdx.C81_counterexample_important`, `Hdx.C81_counterexample_acos`, `Hdx.C81_counterexample_later`, `Hdx.C81_counterexample_blank`, `Hdx.C82_declaration_partial`, `Hdx.C82_plain_partial`, `Hdx.C82_counterexample_number`, `Hdx.C82_counterexample_percentage`, `Hdx.C82_counterexample_options`, `Hdx.C82_counterexample_lists`, `Hdx.C82_counterexample_functions`, `Hdx.C82_counterexample_order`, `Hdx.C78_definitions`, `Hdx.C78_lookup`, `Hdx.C78_counterexample_three`, `Hdx.C78_counterexample_twice`, `Hdx.C83_sheet_run_partial`, `Hdx.C83_sheet_partial`, `Hdx.C83_counterexample_nested`, `Hdx.C83_counterexample_dashed`, `Hdx.C83_counterexample_semicolons`, `Hdx.C83_counterexample_initial`, `Hdx.C84_media_partial`, `Hdx.C84_container_partial`, `Hdx.C84_counterexample_prefix`, `Hdx.C84_counterexample_number`, `Hdx.C84_counterexample_fourth`, `Hdx.C84_counterexample_apart`, `Hdx.C84_counterexample_moz`, `Hdx.C84_counterexample_chain`, `Hdx.C85_returns_partial`, `Hdx.C85_source_partial`, `Hdx.C85_values_partial`, `Hdx.C85_counterexample`, `Hdx.C85_counterexample_unfinished`, `Hdx.C86_truth_partial`, `Hdx.C86_counterexample_obsolete`, `Hdx.C87_apart_partial`, `Hdx.C88_counterexample`, `Hdx.C89_all_partial`, `Hdx.C89_counterexample`, `Hdx.C90_reply_partial`, `Hdx.C90_protocol_partial`, `Hdx.C90_any_order_partial`, `Hdx.C90_counterexample_length`, `Hdx.C90_counterexample_silent`, `Hdx.C91_in_order_partial`, `Hdx.C91_values`, `Hdx.C91_real_values_partial`, `Hdx.C91_counterexample_declaration_after_rule`, `Hdx.C91_counterexample_any_order`, `Hdx.C92_build_partial`, `Hdx.C92_in_order_partial`, `Hdx.C92_counterexample`, `Hdx.C92_again_partial`, `Hdx.C92_again_in_order_partial`, `Hdx.C93_lex_partial`, `Hdx.C93_unit`, `Hdx.C93_names`, `Hdx.C94_minify_partial`, `Hdx.C94_refused`, `Hdx.C95_not_silent`, `Hdx.C95_points_partial`, `Hdx.C95_counterexample`, `Hdx.C96_answered_partial`, `Hdx.C96_counterexample`, `Hdx.Lsp.C96_terminates`, `Hdx.Lsp.C97_exit`, `Hdx.Lsp.C97_lost_exit_partial`, `Hdx.C98_sound`, `Hdx.C98_kept`, `Hdx.C98_returns_partial`, `Hdx.C98_stripes_partial`, `Hdx.C98_symbols_partial`, `Hdx.C98_names_partial`, `Hdx.C98_counterexample`, `Hdx.C99_variant`, `Hdx.C99_builds`, `Hdx.C99_number`, `Hdx.C99_sign`, `Hdx.C99_as_i32`, `Hdx.C99_zero_partial`, `Hdx.C99_accepts_partial`, `Hdx.C99_counterexample_zero`, `Hdx.C99_counterexample_x`, `Hdx.C100_sheet_partial`, `Hdx.C100_apart_partial`, `Hdx.C100_counterexample_bracket`
* `propext`, `Quot.sound` (54): `Hdx.C11_lower_unescaped`, `Hdx.C17_string_counterexample`, `Hdx.C17_NUMBER_ZERO_counterexample`, `Hdx.C17_limit_is_needed`, `Hdx.C18_eq_kind`, `Hdx.C18_eq_kindset`, `Hdx.C18_cdc_cdo`, `Hdx.C18_is_bad_partial`, `Hdx.C18_is_bad_exact`, `Hdx.C18_is_bad_counterexample`, `Hdx.C18_is_trivia_partial`, `Hdx.C18_is_trivia_counterexample`, `Hdx.C18_numeric_partial`, `Hdx.C18_numeric_counterexample`, `Hdx.C18_is_ident_like_exact`, `Hdx.C18_is_delim_like`, `Hdx.C19_none`, `Hdx.C19_any`, `Hdx.C19_named`, `Hdx.C25_counterexample`, `Hdx.C26_comm`, `Hdx.C26_assoc`, `Hdx.C30_infallible`, `Hdx.C30_fallible`, `Hdx.C30_after_error`, `Hdx.C31_appends`, `Hdx.C34_errors_counterexample`, `Hdx.C37_counterexample`, `Hdx.C37_add_assign`, `Hdx.C37_page_partial`, `Hdx.C37_page_counterexample`, `Hdx.Lsp.C41_code_partial`, `Hdx.Lsp.C44_before_partial`, `Hdx.Lsp.C45_counterexample`, `Hdx.Lsp.C45_off_boundary`, `Hdx.Lsp.C47_answered_partial`, `Hdx.C49_pair`, `Hdx.C49_mirror`, `Hdx.C49_back`, `Hdx.C49_same`, `Hdx.Lsp.C50_latest`, `Hdx.Lsp.C50_terminates`, `Hdx.Lsp.C54_stays`, `Hdx.C56_sum_order`, `Hdx.C56_add_not_less`, `Hdx.C82_names`, `Hdx.C87_map`, `Hdx.C88_panics`, `Hdx.Lsp.C96_replies`, `Hdx.Lsp.C96_ending`, `Hdx.Lsp.C97_quiet`, `Hdx.Lsp.C97_level`, `Hdx.Lsp.C97_lost_partial`, `Hdx.Lsp.C97_terminates`
* `propext` (20): `Hdx.C26_idem`, `Hdx.C34_errors_partial`, `Hdx.Lsp.C42_counterexample_code`, `Hdx.Lsp.C43_notification_partial`, `Hdx.Lsp.C43_counterexample_notification`, `Hdx.Lsp.C43_counterexample_request`, `Hdx.Lsp.C44_counterexample`, `Hdx.Lsp.C46_counterexample_utf16`, `Hdx.Lsp.C46_counterexample_breaks`, `Hdx.Lsp.C46_counterexample_line`, `Hdx.Lsp.C46_counterexample_end`, `Hdx.Lsp.C53_unopened`, `Hdx.Lsp.C53_others`, `Hdx.Lsp.C54_response`, `Hdx.C56_order`, `Hdx.Lsp.C97_in_order`, `Hdx.Lsp.C97_trace_values`, `Hdx.Lsp.C97_rest`, `Hdx.Lsp.C97_counterexample_lost`, `Hdx.Lsp.C97_counterexample_exit`
* no axioms (8): `Hdx.C14_partial`, `Hdx.C14_counterexample`, `Hdx.C27_off_boundary`, `Hdx.Lsp.C41_counterexample`, `Hdx.Lsp.C47_counterexample`, `Hdx.Lsp.C55_number`, `Hdx.C57_code_len`, `Hdx.C57_code_injective`
