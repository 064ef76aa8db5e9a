# Formal model of keithamus/hdx in Lean 4

(Generated by `scripts/design.py` from `scripts/design_head.md`, `properties.jsonl`, `MANIFEST.json` and `scripts/how.json`.)

## Layout

| path | content |
|---|---|
| `lean/Verif/Model/*.lean` | the model, function by function; each definition cites the Rust file and lines it models |
| `lean/Verif/Spec/*.lean`  | small specifications written from the CSS / LSP / JSON-RPC / IEEE documents and the crate docs, independent of the model |
| `lean/Verif/Lemmas/*.lean`| helper lemmas |
| `lean/Verif/Props/*.lean` | the property theorems `Cnn_*`, each with an `example` that meets its hypotheses |
| `seeded/LOG.jsonl` | the wrong programs the theorems were tested against; `seeded/run.py` runs such a batch in a scratch copy |

## Modelling decisions

* Rust `char` = Lean `Char` (both are Unicode scalar values). A `&str` is a `List Char`; byte offsets and lengths are
  `Nat` computed with `Char.utf8Size`; slicing at a byte offset that is not a character boundary is an explicit panic
  value (`Except Panic`), as are arithmetic underflow, `unwrap` on `None` and `todo!()`.
* A `Token` is a pair of `BitVec 32` words with the same shifts and masks as `token.rs`. Lengths counted by the lexer
  are `Nat`s truncated to 32 bits when packed (release-mode behaviour of `u32`); arithmetic that would overflow is the
  release-mode (wrapping) one, except subtraction below zero, which is reported as a panic.
* `&mut Chars` becomes a function returning the rest of the list. Loops are (structural or well-founded) recursion.
* `f32` values are bit patterns; decimal parsing (`str::parse::<f32>`) is modelled as a correctly rounded conversion on
  rationals (`Model/F32.lean`); `f32` *formatting* is a parameter where it occurs (`Model/Sink.lean`).
* The parser is a state record (`Model/Parser.lean`) and grammars are `Prog`s: finite-or-fuelled trees of parser calls whose
  continuations see the answers (`Model/Prog.lean`). A theorem about all `Prog`s is a theorem about every deterministic
  client of the parser, `try_parse` included. Loops of the grammar (`while !p.at_end()` …) carry fuel taken from the parser
  (remaining bytes plus a constant); running out is the distinct outcome `Panic.diverges`, never a silent success.
* Traits with type parameters (features, conditions, at-rules, blocks, lists) are functions taking the parameter's parser.
* When the code violates a property, the negation is proved with a concrete witness (`..._counterexample`) and the
  strongest guarded statement found is proved as `..._partial`.

## Trusted base

* Lean 4.33.0's kernel. No `native_decide`, no `bv_decide`, no axioms of our own, no unfinished proof. The axioms used are
  Lean's own `propext`, `Classical.choice`, `Quot.sound`; the list per theorem is at the end of this file.
* The reading of the Rust source into the model: the code was read as text and is not run here.
* Rust's standard library as described above (UTF-8 strings, integer arithmetic in release mode, `f32` parsing correctly
  rounded) and the external crates as listed below.

### Modelled

| code in /repo/crates | model |
|---|---|
| css_lexer/src/{private,constants,lib,feature}.rs: the whole lexer | `Model/Chars`, `Model/Lexer`, `Model/UnitTrie` (private.rs:150-674) |
| css_lexer/src/{token,kind,kindset,pairwise,comment_style,quote_style,whitespace_style}.rs | `Model/Token` |
| css_lexer/src/dimension_unit.rs | `Model/DimensionUnit` |
| css_lexer/src/{cursor,span,source_offset}.rs, css_lexer/src/syntax/* | `Model/Cursor` |
| css_parse/src/{parser,parser_checkpoint,parser_return,diagnostics}.rs, traits/{parse,peek}.rs | `Model/Parser`, `Model/Prog` |
| css_parse/src/{cursor_fmt_sink,cursor_vec_sink}.rs | `Model/Sink` |
| css_parse/src/syntax/*, traits/{block,declaration,style_sheet}.rs, traits/rules/*, token_macros.rs (the parts used) | `Model/Grammar`, `Model/Rules` |
| css_parse/src/comparison.rs, traits/{boolean,discrete,ranged}_feature.rs, traits/lists/feature_condition_list.rs | `Model/Features` |
| css_ast/src/selector/nth.rs | `Model/Nth` |
| css_parse/src/traits/selectors.rs, css_ast/src/selector/*.rs (lists, compounds, tags, classes, attributes, namespaces, pseudo-classes and -elements with their name tables), css_parse/src/macros/pseudo_{class,element}.rs | `Model/Selectors`, `Model/SelectorNames` |
| css_parse/src/traits/lists/*.rs, traits/declaration.rs, traits/rules/*.rs (as lists of rules, declarations and preludes) | `Model/Lists` |
| css_ast/src/properties/mod.rs (`Property`, `StyleValue`; the single properties' parsers are a parameter) | `Model/Properties` |
| css_ast/src/rules/media/*, css_ast/src/rules/container/*, css_ast/src/{units,types} as far as these use them | `Model/Media` |
| css_ast/src/{stylesheet,stylerule}.rs, css_ast/src/rules/*.rs | `Model/AtRules` |
| csskit_proc_macro/src/{def,value,string_transform}.rs: the reader of value definitions and the meaning of the code it writes | `Model/Definitions` (reader), `Model/ValueDef` (meaning) |
| css_ast/src/values/*/mod.rs: the 341 definitions; css_ast/src/values/*/types.rs, css_ast/src/types, css_ast/src/units as far as these use them | `Model/Definitions`, `Model/Images`, `Model/ValueDef` |
| css_ast/src/specificity.rs, page selectors of css_ast/src/rules/page.rs | `Model/Specificity` |
| csskit_highlight/src/{lib,css}.rs (but not `Display`), and the `Visitable` implementations of css_ast as far as the highlighter sees them | `Model/Highlight` |
| csskit/src/main.rs:103-138 (`build`), csskit_wasm/src/lib.rs (`lex`, `parse`, `minify`) | `Model/Build`, `Model/Wasm` |
| csskit_lsp/src/jsonrpc/*, server.rs, server/handler.rs, service.rs | `Model/Lsp/*` |

### Not modelled

* Memory: the bump allocator, `Vec` growth, lifetimes, stack depth (deep nesting can exhaust the Rust stack; the model has none).
* `debug_assert!`s and the `last_cursor` bookkeeping that exists only in debug builds, miette's rendering of diagnostics
  (a diagnostic is its code and span), `tracing`, serde implementations of AST nodes, `Hash`/`Debug` impls.
* Of css_ast: types that no property uses (`BgImage`, ...; `counter_style.rs` and `symbols.rs` are modelled, C98), which variant of
  `AnimateableFeature` a word is, units whose macro builds no AST node (`CustomDimension`; the others are modelled, C99), visits that no visitor overrides.
* csskit (the command line, but for `build` on one file), `Display` of csskit_highlight, csskit_transform (all commented out),
  of csskit_wasm the conversion to JavaScript values and `parse_error_report`. Of csskit_proc_macro: the tokens the macros write (what the written code does is modelled), the visitor and
  `Parse`-for-node derives.
* External crates: serde_json (a `Codec` parameter with a round-trip hypothesis where needed), httparse (its documented
  header grammar), ropey (a list of characters with ropey's documented line breaks), lsp-types (the JSON shapes used),
  crossbeam channels (FIFO queues; threads are interleaved step by step).
