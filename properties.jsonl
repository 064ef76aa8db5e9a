{"id": "C01", "title": "Tokenisation is lossless and tiles the source", "statement": "For every source text, repeatedly calling Lexer::advance() from Lexer::new(src) yields, after finitely many calls, tokens whose byte ranges are contiguous from 0 to src.len(); concatenating the source slices of the tokens in order gives back src exactly.", "quantifier": "every source text, every feature set", "why_tests_cant": "the set of source texts is infinite; tests sample a few dozen strings", "anchors": ["crates/css_lexer/src/lib.rs: Lexer::advance", "crates/css_lexer/src/private.rs: read_next_token"]}
{"id": "C02", "title": "Every advance makes progress until the end", "statement": "If the lexer is not at the end of the source, advance() returns a token that is not EOF, with len() >= 1, and moves offset() forward by exactly len() without passing the end of the source.", "quantifier": "every source text and every offset the lexer can be at", "why_tests_cant": "the set of source texts is infinite; tests sample a few dozen strings; a zero-length token is an infinite loop in every caller", "anchors": ["crates/css_lexer/src/lib.rs: Lexer::advance", "crates/css_lexer/src/private.rs: read_next_token"]}
{"id": "C03", "title": "EOF exactly at the end, and forever after", "statement": "advance() returns Kind::Eof if and only if offset() is the end of the source; it then leaves offset() unchanged, so every later call returns EOF as well. A NUL character in the text is never mistaken for end of input by the token stream.", "quantifier": "every source text, any number of further calls", "why_tests_cant": "the set of source texts is infinite; tests sample a few dozen strings and all call counts", "anchors": ["crates/css_lexer/src/private.rs: read_next_token", "crates/css_lexer/src/syntax/mod.rs: EOF"]}
{"id": "C04", "title": "Lexing never panics and never splits a character", "statement": "For every source text advance() never panics, and after it offset() is on a UTF-8 character boundary, so the token's source slice is always a valid str slice.", "quantifier": "every source text, every feature set", "why_tests_cant": "the set of source texts is infinite; tests sample a few dozen strings; the failing inputs need a non-ASCII character after a backslash or inside a // comment", "anchors": ["crates/css_lexer/src/private.rs: consume_escape_sequence", "crates/css_lexer/src/private.rs: consume_ident_sequence_finding_url_keyword"]}
{"id": "C05", "title": "A token depends only on the text from its start", "statement": "The token advance() returns at an offset is a function of the remaining text and the feature flags only: any two lexers positioned before the same remaining text return the same token. Hence rewinding to a checkpoint and lexing again reproduces the same tokens.", "quantifier": "every pair of sources sharing a suffix, every checkpoint", "why_tests_cant": "needs all prefixes and all histories", "anchors": ["crates/css_lexer/src/lib.rs: Lexer::rewind, checkpoint", "crates/css_lexer/src/private.rs: read_next_token"]}
{"id": "C06", "title": "Whitespace tokens are maximal runs with the right style", "statement": "With default features a Whitespace token is exactly a maximal non-empty run of space, tab, LF, CR, FF, and its style has the Space/Tab/Newline flag exactly when such a character occurs. With SeparateWhitespace each whitespace token is a maximal run of one class (spaces, tabs, or newlines) and carries exactly that flag.", "quantifier": "every source text and both feature settings", "why_tests_cant": "the set of source texts is infinite; tests sample a few dozen strings", "anchors": ["crates/css_lexer/src/private.rs: consume_whitespace, consume_same, read_next_token", "crates/css_lexer/src/whitespace_style.rs"]}
{"id": "C07", "title": "Block comments end at the first */ and are classified by their opener", "statement": "A text starting with /* lexes to one Comment token ending right after the first */ that follows the opener, or at the end of the text when there is none; its CommentStyle is determined by the character after /* as documented.", "quantifier": "every text starting with /*", "why_tests_cant": "the set of source texts is infinite; tests sample a few dozen strings", "anchors": ["crates/css_lexer/src/private.rs: read_next_token", "crates/css_lexer/src/comment_style.rs"]}
{"id": "C08", "title": "Single-line comments stop at the end of the line", "statement": "With SingleLineComments, a text starting with // lexes to one Comment token ending just before the first LF, CR or FF (or at the end of the text); without the feature // is two '/' delims.", "quantifier": "every text starting with //", "why_tests_cant": "the set of source texts is infinite; tests sample a few dozen strings", "anchors": ["crates/css_lexer/src/private.rs: read_next_token"]}
{"id": "C09", "title": "String tokens follow the CSS string grammar", "statement": "A text starting with a quote lexes to a String token that ends at the first matching unescaped quote (or at end of input, with has_close_quote() false), or, when an unescaped newline comes first, to a BadString ending just before that newline. quote_style() reports the quote character that opened the string.", "quantifier": "every text starting with a quote", "why_tests_cant": "the set of source texts is infinite; tests sample a few dozen strings", "anchors": ["crates/css_lexer/src/private.rs: consume_string_token", "crates/css_lexer/src/token.rs: new_string, quote_style, has_close_quote"]}
{"id": "C10", "title": "Identifier-like tokens are maximal CSS identifiers", "statement": "When the text starts an identifier, the Ident/Function/AtKeyword/Hash token covers exactly the longest sequence of CSS identifier code points and escapes (plus the @, #, ( affix); nothing that continues the identifier is left out.", "quantifier": "every text starting an identifier", "why_tests_cant": "the set of source texts is infinite; tests sample a few dozen strings", "anchors": ["crates/css_lexer/src/private.rs: consume_ident_sequence, consume_ident_sequence_finding_url_keyword, consume_hash_token"]}
{"id": "C11", "title": "Identifier facts are truthful", "statement": "For Ident, Function and AtKeyword tokens is_dashed_ident() holds exactly when the name starts with two hyphens, contains_escape_chars() exactly when the name's text contains a backslash escape or NUL, and is_lower_case() implies the name has no upper-case ASCII letter.", "quantifier": "every identifier-like token of every text", "why_tests_cant": "the set of source texts is infinite; tests sample a few dozen strings", "anchors": ["crates/css_lexer/src/private.rs: consume_ident_sequence, consume_ident_sequence_finding_url_keyword", "crates/css_lexer/src/token.rs: is_dashed_ident, is_lower_case, contains_escape_chars"]}
{"id": "C12", "title": "Number tokens follow the CSS number grammar", "statement": "When the text starts a number, the numeric part of the Number/Dimension token is the longest prefix matching [+-]? (digits | digits . digits | . digits) ([eE][+-]?digits)?; is_float() holds exactly when it has a fraction or exponent, has_sign() exactly when it starts with + or -, numeric_len() is its length.", "quantifier": "every text starting a number", "why_tests_cant": "the set of source texts is infinite; tests sample a few dozen strings", "anchors": ["crates/css_lexer/src/private.rs: consume_numeric_token, is_number_start"]}
{"id": "C13", "title": "Known dimension units are recognised case-insensitively", "statement": "A dimension token reports dimension_unit() = U for a known unit U exactly when the unit text, compared ASCII case-insensitively, is the CSS name of U; otherwise it reports Unknown; in both cases the token covers the whole unit text.", "quantifier": "every number followed by every unit text", "why_tests_cant": "61 unit names times all case variants times all non-unit identifiers sharing a prefix with one", "anchors": ["crates/css_lexer/src/private.rs: consume_ident_sequence_finding_known_dimension, consume_numeric_token", "crates/css_lexer/src/dimension_unit.rs"]}
{"id": "C14", "title": "Dimension unit tables agree", "statement": "For each DimensionUnit the number code, len(), and the string written for it agree with each other and with the CSS name of the unit: decoding the code gives the unit back, and the string is the CSS name.", "quantifier": "all 64 DimensionUnit values", "why_tests_cant": "existing tests touch only a few variants of the table", "anchors": ["crates/css_lexer/src/dimension_unit.rs"]}
{"id": "C15", "title": "Only url( introduces a url token", "statement": "A Function-shaped token is lexed as Url or BadUrl exactly when its name, after decoding escapes, equals url ASCII case-insensitively and the first non-whitespace character after the parenthesis is not a quote.", "quantifier": "every function-shaped text", "why_tests_cant": "the set of source texts is infinite; tests sample a few dozen strings", "anchors": ["crates/css_lexer/src/private.rs: consume_ident_sequence_finding_url_keyword, consume_ident_like_token"]}
{"id": "C16", "title": "Unquoted URL tokens follow the CSS url grammar", "statement": "Once a url token has started, it ends at the first unescaped ')' (or end of input) with Kind::Url if in between there is only optional leading/trailing whitespace and no quote, '(', non-printable character or bad escape; otherwise it is BadUrl and extends to the first unescaped ')' or the end of input. leading_len(), trailing_len() and len() delimit the value.", "quantifier": "every text after url(", "why_tests_cant": "the set of source texts is infinite; tests sample a few dozen strings", "anchors": ["crates/css_lexer/src/private.rs: consume_url_sequence, consume_remnants_of_bad_url", "crates/css_lexer/src/token.rs: new_url"]}
{"id": "C17", "title": "Packing token facts is loss-free within the documented limits", "statement": "Every fact a token constructor is given (kind, flags, lengths, value bits, unit, char) is returned unchanged by the corresponding accessor, for all values within the documented limits (24-bit number length, 12-bit number and unit lengths of a dimension, 12-bit url affixes).", "quantifier": "all flag combinations and all lengths/values in range", "why_tests_cant": "2^60 packed states", "anchors": ["crates/css_lexer/src/token.rs: Token::new_*, kind, len, value, char, numeric_len, leading_len, trailing_len"]}
{"id": "C18", "title": "Kind predicates mean what they document", "statement": "is_bad() holds exactly for BadString and BadUrl, is_trivia() exactly for Comment, Whitespace and Eof, is_int/is_float/has_sign only for Number and Dimension tokens, is_cdc() exactly for -->; PartialEq<Kind> agrees with kind().", "quantifier": "all token bit patterns", "why_tests_cant": "2^64 tokens; existing tests check single values", "anchors": ["crates/css_lexer/src/token.rs: is_bad, is_trivia, is_int, is_float, has_sign, is_cdc"]}
{"id": "C19", "title": "KindSet behaves as a set of kinds", "statement": "KindSet::new(kinds).contains(k) iff k is in kinds; add(k) adds exactly k; NONE is empty, ANY contains every kind; comparing a token with a KindSet is membership of its kind.", "quantifier": "every list of kinds and every kind", "why_tests_cant": "2^24 sets", "anchors": ["crates/css_lexer/src/kindset.rs"]}
{"id": "C20", "title": "Named tokens equal the lexed tokens", "statement": "Lexing the text of one of the single-character tokens yields a token equal (==) to the corresponding public constant Token::X, so matching against the constant works.", "quantifier": "all public single-character token constants", "why_tests_cant": "equality is structural over packed bits; tests compare kinds or chars", "anchors": ["crates/css_lexer/src/token.rs: Token constants, new_delim", "crates/css_lexer/src/constants.rs: SINGLE_CHAR_TOKENS", "crates/css_lexer/src/private.rs: read_next_token"]}
{"id": "C21", "title": "Token affixes never exceed the token", "statement": "For every lexed token leading_len() + trailing_len() <= len(), so extracting the inner text (parse_str) is always a valid slice.", "quantifier": "every token of every source text", "why_tests_cant": "the set of source texts is infinite; tests sample a few dozen strings", "anchors": ["crates/css_lexer/src/token.rs: leading_len, trailing_len", "crates/css_lexer/src/cursor.rs: parse_str"]}
{"id": "C22", "title": "parse_str decodes escapes as CSS prescribes", "statement": "For an identifier-like, string or dimension token, parse_str() returns the name/content with every escape replaced by its code point (hex escapes of 1-6 digits with optional whitespace; 0, surrogates and out-of-range become U+FFFD), NUL replaced by U+FFFD, and, in strings, escaped newlines removed.", "quantifier": "every token text", "why_tests_cant": "the set of source texts is infinite; tests sample a few dozen strings", "anchors": ["crates/css_lexer/src/cursor.rs: parse_str", "crates/css_lexer/src/syntax/parse_escape.rs: parse_escape_sequence"]}
{"id": "C23", "title": "parse_str_lower is the ASCII-lowercase of parse_str", "statement": "For every identifier-like token parse_str_lower() equals parse_str() with ASCII upper-case letters lowered.", "quantifier": "every token text", "why_tests_cant": "the set of source texts is infinite; tests sample a few dozen strings", "anchors": ["crates/css_lexer/src/cursor.rs: parse_str_lower"]}
{"id": "C24", "title": "eq_ignore_ascii_case decides case-insensitive equality of the decoded text", "statement": "For every lower-case keyword k and identifier-like cursor c, c.eq_ignore_ascii_case(src, k) iff parse_str_lower of c equals k.", "quantifier": "every token text and every keyword", "why_tests_cant": "the set of source texts is infinite; tests sample a few dozen strings", "anchors": ["crates/css_lexer/src/cursor.rs: eq_ignore_ascii_case"]}
{"id": "C25", "title": "Lexer and decoder agree on where an escape ends", "statement": "For every text after a backslash that is a valid escape, the number of bytes the lexer consumes for the escape equals the number of bytes the decoder consumes for it, and the decoded character is never NUL or a surrogate.", "quantifier": "every text after a backslash", "why_tests_cant": "the set of source texts is infinite; tests sample a few dozen strings", "anchors": ["crates/css_lexer/src/private.rs: consume_escape_sequence", "crates/css_lexer/src/syntax/parse_escape.rs: parse_escape_sequence"]}
{"id": "C26", "title": "Span addition is the smallest enclosing span", "statement": "For all spans a, b: a + b contains both and is contained in every span that contains both; it is associative, commutative and idempotent.", "quantifier": "all pairs and triples of spans", "why_tests_cant": "infinitely many spans", "anchors": ["crates/css_lexer/src/span.rs: Span::add, contains"]}
{"id": "C27", "title": "line_and_column inverts to the byte offset", "statement": "For a span starting on a character boundary, line_and_column() returns the number of line feeds before it and the number of characters since the last one; it never panics, and two boundaries with the same result are equal.", "quantifier": "every source text and every character boundary", "why_tests_cant": "the set of source texts is infinite; tests sample a few dozen strings", "anchors": ["crates/css_lexer/src/span.rs: SpanContents::line_and_column"]}
{"id": "C28", "title": "Separator insertion keeps tokens apart", "statement": "If needs_separator_for(a, b) is false, then writing the text of a immediately followed by the text of b re-lexes to a token with the same kind and length as a followed by one starting where b starts.", "quantifier": "all pairs of lexed tokens and their texts", "why_tests_cant": "pairs of arbitrary texts", "anchors": ["crates/css_lexer/src/token.rs: needs_separator_for", "crates/css_parse/src/cursor_fmt_sink.rs"]}
{"id": "C29", "title": "Separator table matches the CSS serialisation table", "statement": "needs_separator_for(a, b) is true for every pair of token classes the CSS Syntax serialisation table (reproduced in the documentation) marks, except signed positive numbers after identifiers which cannot merge.", "quantifier": "all pairs of token bit patterns", "why_tests_cant": "2^128 pairs", "anchors": ["crates/css_lexer/src/token.rs: needs_separator_for"]}
{"id": "C30", "title": "The formatting sink writes each cursor once, in order", "statement": "Appending cursors to CursorFmtSink writes exactly the text of each cursor in order, with one space between two adjacent cursors iff needs_separator_for holds; after the first write error nothing further is written.", "quantifier": "every cursor sequence and every point of write failure", "why_tests_cant": "all sequences and all failure points", "anchors": ["crates/css_parse/src/cursor_fmt_sink.rs: append"]}
{"id": "C31", "title": "The vector sink never leaves two mergeable cursors adjacent", "statement": "After any sequence of appends to CursorVecSink the stored cursors minus inserted separators are the appended ones in order, and no two adjacent stored cursors need a separator.", "quantifier": "every cursor sequence", "why_tests_cant": "all sequences", "anchors": ["crates/css_parse/src/cursor_vec_sink.rs: append"]}
{"id": "C32", "title": "Peeking has no effect and predicts next()", "statement": "Parser::peek_next() does not change the parser and returns exactly the cursor next() returns afterwards; peek_n(1) agrees with it and peek_n(k) returns the k-th next() result (or EOF).", "quantifier": "every parser state, source, skip set and k >= 1", "why_tests_cant": "all states", "anchors": ["crates/css_parse/src/parser.rs: peek_next, peek_n, next"]}
{"id": "C33", "title": "No token is lost: returned or recorded as trivia exactly once", "statement": "For every sequence of next()/consume_trivia() calls, the cursors returned by next() together with the cursors added to trivia are exactly the tokens of the consumed source range, in order, each exactly once.", "quantifier": "every source, skip set and call sequence", "why_tests_cant": "all call sequences", "anchors": ["crates/css_parse/src/parser.rs: next, consume_trivia"]}
{"id": "C34", "title": "Rewind restores the parser", "statement": "Rewinding to a checkpoint restores position, errors and trivia to what they were when the checkpoint was taken, provided the parser only moved forward since.", "quantifier": "every parser state and every forward history", "why_tests_cant": "all histories; needs more than 255 errors or 65535 trivia to fail", "anchors": ["crates/css_parse/src/parser.rs: checkpoint, rewind", "crates/css_parse/src/parser_checkpoint.rs"]}
{"id": "C35", "title": "A failed try_parse leaves no trace", "statement": "If try_parse::<T>() returns an error, the parser's position, errors and trivia are as before the call and the following tokens are the same as if it had not been called.", "quantifier": "every T, every state", "why_tests_cant": "all parse functions and states", "anchors": ["crates/css_parse/src/traits/parse.rs: try_parse", "crates/css_parse/src/parser.rs: rewind"]}
{"id": "C36", "title": "parse_entirely consumes everything or reports", "statement": "After parse_entirely, either every token the grammar left unconsumed is one the parser skips (trailing trivia) and no error is added, or the whole source is consumed, the rest is recorded as trivia and an ExpectedEnd error covering exactly the rest is added; so a result with no errors means the grammar succeeded and everything but trailing trivia was parsed. If the grammar returns, parse_entirely returns (on texts the lexer handles).", "quantifier": "every source and every grammar T", "why_tests_cant": "all sources", "anchors": ["crates/css_parse/src/parser.rs: parse_entirely"]}
{"id": "C37", "title": "Specificity addition sums components", "statement": "Adding specificities adds the a, b, c counts component-wise, so the specificity of a compound selector counts its simple selectors.", "quantifier": "all pairs and all lists of specificities", "why_tests_cant": "tests only add distinct components", "anchors": ["crates/css_ast/src/specificity.rs"]}
{"id": "C38", "title": "An+B values follow the CSS An+B grammar", "statement": "Parsing An+B notation yields the step and offset the CSS An+B microsyntax assigns, including the sign of B, and rejects everything else.", "quantifier": "every token sequence", "why_tests_cant": "tests only check that the text is written back, not the values", "anchors": ["crates/css_ast/src/selector/nth.rs: Nth::parse"]}
{"id": "C39", "title": "Component values re-emit what they consumed", "statement": "Parsing component values from a source shorter than 64 KiB and re-emitting the cursors of the result gives back exactly the consumed tokens that are not in the parser's trivia, in the same order and none twice; tokens other than brackets also come back at their position.", "quantifier": "every source shorter than 64 KiB, every feature set and stop set, any nesting depth", "why_tests_cant": "unbounded nesting", "anchors": ["crates/css_parse/src/syntax/component_value.rs", "crates/css_parse/src/syntax/simple_block.rs", "crates/css_parse/src/syntax/function_block.rs", "crates/css_parse/src/syntax/component_values.rs"]}
{"id": "C40", "title": "Conditions combine with and/or/not in any length", "statement": "Parsing a feature condition accepts chains of any length of 'and' (or of 'or'), and 'not x', keeping every operand.", "quantifier": "every chain length", "why_tests_cant": "tests use chains of at most two or three", "anchors": ["crates/css_parse/src/traits/lists/feature_condition_list.rs"]}
{"id": "C41", "title": "LSP error codes round-trip", "statement": "Converting an i32 to ErrorCode and back is the identity; converting a named ErrorCode to i32 and back gives the same code.", "quantifier": "all 2^32 codes and all variants", "why_tests_cant": "2^32 values", "anchors": ["crates/csskit_lsp/src/jsonrpc/error_code.rs"]}
{"id": "C42", "title": "Messages round-trip through the wire format", "statement": "Writing a message and reading it back yields the same message and leaves the stream positioned after it, so any sequence of messages written to a stream is read back in order.", "quantifier": "every message and every sequence of messages", "why_tests_cant": "all messages and sequences", "anchors": ["crates/csskit_lsp/src/jsonrpc/message.rs: read, write", "crates/csskit_lsp/src/jsonrpc/response.rs", "crates/csskit_lsp/src/jsonrpc/request.rs", "crates/csskit_lsp/src/jsonrpc/notification.rs"]}
{"id": "C43", "title": "Exactly one reply per request, none per notification", "statement": "For every handled request exactly one response with the request's id is sent; notifications and responses are never replied to.", "quantifier": "every message sequence and every handler behaviour", "why_tests_cant": "all methods, ids and histories", "anchors": ["crates/csskit_lsp/src/server/handler.rs: Handler::handle", "crates/csskit_lsp/src/server.rs: Server::new"]}
{"id": "C44", "title": "Nothing is served before initialize", "statement": "Before an initialize request has been handled no handler method other than initialize runs and requests get an error response; once initialised the server stays initialised.", "quantifier": "every message history", "why_tests_cant": "all histories", "anchors": ["crates/csskit_lsp/src/server/handler.rs: Handler::handle", "crates/csskit_lsp/src/service.rs: LSPService::initialize, initialized"]}
{"id": "C45", "title": "Semantic token deltas decode to the true positions", "statement": "For every set of highlights, decoding the returned delta-encoded semantic tokens as the LSP prescribes gives the line/column of every highlight in document order, without arithmetic underflow.", "quantifier": "every document and every set of spans", "why_tests_cant": "all documents and span sets", "anchors": ["crates/csskit_lsp/src/service.rs: File::new", "crates/css_lexer/src/span.rs: line_and_column"]}
{"id": "C46", "title": "Incremental edits keep server and client documents equal", "statement": "After any sequence of didOpen/didChange notifications the server's document text equals the client's text obtained by applying the edits as the LSP prescribes.", "quantifier": "every document and every edit sequence", "why_tests_cant": "all edit histories", "anchors": ["crates/csskit_lsp/src/service.rs: on_did_change_text_document, on_did_open_text_document"]}
{"id": "C47", "title": "A highlight request is always answered from the latest text", "statement": "get_highlights() always returns, and returns highlights computed from the most recently committed text.", "quantifier": "every interleaving of commits and highlight requests", "why_tests_cant": "all schedules of the document thread", "anchors": ["crates/csskit_lsp/src/service.rs: File::new, commit, get_highlights"]}
{"id": "C48", "title": "Blocks are closed by their own bracket", "statement": "In the component values parsed from a source, every block is closed by the bracket that mirrors the one that opened it and every function by `)`, or by the end of input; a well-bracketed source is parsed completely and without errors.", "quantifier": "every source, any nesting depth", "why_tests_cant": "unbounded nesting and arbitrary bracket sequences", "anchors": ["crates/css_parse/src/syntax/simple_block.rs", "crates/css_parse/src/syntax/function_block.rs", "crates/css_parse/src/token_macros.rs PairWiseStart::end"]}
{"id": "C49", "title": "Bracket pairs", "statement": "to_pairwise gives a token the pair of its own kind of bracket (parentheses for a function) and nothing to any other token; the start and end of a pair mirror each other and lead back to the pair.", "quantifier": "every token value (all 2^64 bit patterns) and every pair", "why_tests_cant": "Tokens are packed bit patterns; a test covers a few of them.", "anchors": ["crates/css_lexer/src/pairwise.rs: PairWise::from_token, start, end", "crates/css_lexer/src/token.rs: to_pairwise"]}
{"id": "C50", "title": "Highlights follow the last commit", "statement": "Whatever way the caller and the worker thread interleave, the replies to highlight requests are, in order, the highlights of the text committed last before each request, and after a bounded number of steps nothing is left to do.", "quantifier": "every sequence of commits and requests and every interleaving of the two threads", "why_tests_cant": "Thread schedules cannot be enumerated by tests.", "anchors": ["crates/csskit_lsp/src/service.rs: File::new, commit, get_highlights"]}
{"id": "C51", "title": "Semantic token deltas decode", "statement": "For highlights that start on character boundaries, in any order, computing the relative line and column never underflows, and summing the deltas gives back, in document order, the line-feed count and the character count since the last line feed of each highlight.", "quantifier": "every text and every set of highlights on character boundaries", "why_tests_cant": "Depends on arbitrary texts, line structures and highlight sets.", "anchors": ["crates/csskit_lsp/src/service.rs: semantic_tokens_full_request"]}
{"id": "C52", "title": "An+B is written back unchanged", "statement": "A parsed An+B writes out exactly the tokens that were consumed for it, in the order they were read.", "quantifier": "every source, every parser state and every accepted An+B", "why_tests_cant": "Must hold for every combination of tokens, signs and whitespace the parser accepts.", "anchors": ["crates/css_ast/src/selector/nth.rs: Nth::parse, ToCursors for Nth"]}
{"id": "C53", "title": "Whole-document changes and isolation of documents", "statement": "A change without a range replaces the whole text; changes to a document that was never opened are ignored; an event for one document leaves the text of every other document alone.", "quantifier": "every text, every sequence of open and change notifications, every URI", "why_tests_cant": "Ranges over all histories of notifications.", "anchors": ["crates/csskit_lsp/src/service.rs: did_open, did_change"]}
{"id": "C54", "title": "Responses are ignored and initialisation is permanent", "statement": "A response received from the client changes nothing and gets no reply; once the server is initialised it stays so whatever messages follow.", "quantifier": "every handler, every state, every sequence of messages", "why_tests_cant": "Ranges over all message histories.", "anchors": ["crates/csskit_lsp/src/server/handler.rs: Handler", "crates/csskit_lsp/src/service.rs: initialized"]}
{"id": "C55", "title": "Error numbers survive", "statement": "Reading an error code from any 32-bit number and writing it gives the same number.", "quantifier": "all 32-bit integers", "why_tests_cant": "2^32 cases, with a fallback variant for the unnamed ones.", "anchors": ["crates/csskit_lsp/src/jsonrpc/error_code.rs"]}
{"id": "C56", "title": "Specificity ordering", "statement": "Specificities compare lexicographically by their three counts; a sum does not depend on the order of its parts; adding never makes a specificity smaller.", "quantifier": "all specificities and all lists of them", "why_tests_cant": "Ranges over all triples and all permutations.", "anchors": ["crates/css_ast/src/specificity.rs"]}
{"id": "C57", "title": "Unit codes are distinct", "statement": "Two different dimension units have different stored codes, decoding a stored code gives back the unit, and the length a stored unit implies is that of its name.", "quantifier": "all dimension units", "why_tests_cant": "The table is written by hand in several places that must agree pairwise.", "anchors": ["crates/css_lexer/src/dimension_unit.rs"]}
{"id": "C58", "title": "Media and container features are written back exactly as they were read", "statement": "Parsing a boolean, discrete or ranged feature (with any feature name, any legacy-prefix convention, and any value parser that itself writes back what it read) and writing the result to a cursor sink yields exactly the tokens consumed, in source order: no parenthesis, name, colon, comparison operator or value is lost, duplicated or reordered, whatever comments and whitespace lie in between.", "quantifier": "every source below 64 KiB, every lexer feature set, every feature name list and every value parser with the write-back property", "why_tests_cant": "A test exercises a handful of spellings; the four ranged forms share look-ahead and only an argument over all token sequences shows no form drops a token.", "anchors": ["crates/css_parse/src/macros", "crates/css_parse/src/traits/discrete_feature.rs", "crates/css_parse/src/traits/ranged_feature.rs", "crates/css_parse/src/traits/boolean_feature.rs"]}
{"id": "C59", "title": "Comparison operators are recognised exactly", "statement": "At any position the comparison parser succeeds if and only if the next tokens spell one of =, <, >, <= or >= (two-character forms only when the two delimiters are adjacent), it returns the operator spelled there, choosing the two-character form whenever it is present, and consumes exactly its delimiters.", "quantifier": "every token sequence ahead of the parser", "why_tests_cant": "The longest-match rule and the rejection side quantify over every continuation of the input.", "anchors": ["crates/css_parse/src/comparison.rs"]}
{"id": "C60", "title": "A parsed style sheet accounts for every token of the source", "statement": "When the generic grammar parses a style sheet successfully from a source, the tree that is returned, written to a cursor sink, consists of exactly the tokens of that source other than whitespace, comments, and the separators the grammar is entitled to drop (surplus semicolons and the CDO/CDC tokens at the top level): no name, value, prelude, brace, semicolon or !important is lost or invented. The tokens of a rule's declarations come before its nested rules, so a tree in which no rule mixes the two is written in source order; one that does mix them is not.", "quantifier": "every source text of at most 64 KiB whose tokens respect the documented length limits, every set of lexer features", "why_tests_cant": "The tree is built by mutually recursive rules of unbounded nesting; a snapshot shows one tree, while this is a statement about every source the grammar accepts.", "anchors": ["crates/css_parse/src/syntax/stylesheet.rs", "crates/css_parse/src/syntax/rule.rs", "crates/css_parse/src/syntax/block.rs", "crates/css_parse/src/syntax/declaration.rs", "crates/css_parse/src/syntax/at_rule.rs", "crates/css_parse/src/syntax/qualified_rule.rs", "crates/css_parse/src/traits/rules.rs", "crates/css_parse/src/traits/stylesheet.rs"]}
{"id": "C61", "title": "Parsing a node leaves the parser's modes as it found them", "statement": "Parsing any node of the generic grammar (component values, declaration, bad declaration, block, qualified rule, at-rule, rule, style sheet, nth expression, condition, discrete or ranged feature) leaves the set of kinds that are skipped, the set of kinds that stop a run of values, and the nesting state equal to what they were before the call, whether the parse succeeded or returned an error.", "quantifier": "every parser state, every source, every outcome of the parse, every choice of the sub-parsers that themselves respect the modes", "why_tests_cant": "A leaked mode only shows in whatever happens to be parsed next; the claim is about all exits, including every error exit inside nested rules.", "anchors": ["crates/css_parse/src/parser.rs", "crates/css_parse/src/traits/rules.rs", "crates/css_parse/src/syntax/component_values.rs", "crates/css_parse/src/syntax/at_rule.rs", "crates/css_parse/src/syntax/block.rs"]}
{"id": "C62", "title": "Single-token nodes consume exactly one token and report the offending one", "statement": "Parsing a single-token node from any position consumes exactly the next significant token: if it fits, the node built from that token is returned; otherwise the error that is returned spans exactly that token. Parsing the node only if it fits leaves the parser entirely untouched when it does not, and is the same as parsing it when it does.", "quantifier": "every parser state, every kind of single-token node", "why_tests_cant": "It relates peeking and consuming for every state of the lexer and the skip set, including skipped trivia between the cursor and the token.", "anchors": ["crates/css_parse/src/traits/parse.rs", "crates/css_parse/src/traits/peek.rs", "crates/css_parse/src/parser.rs"]}
{"id": "C63", "title": "What lies ahead decides what is parsed", "statement": "The look-ahead for a declaration answers yes exactly when the next two significant tokens are an identifier and a colon, and a parsed declaration starts with those two tokens; the look-ahead for !important answers yes exactly when the next two significant tokens are the delimiter ! and an identifier equal to important ignoring ASCII case, which is also exactly when parsing it succeeds; a parsed rule is an at-rule, named by the next token, exactly when the next significant token is an at-keyword; an at-rule that requires a name is parsed only when that at-keyword has the name ignoring ASCII case and otherwise fails after that single token; inside a block, a declaration that is skipped extends to the end, to just before a closing curly bracket or to a semicolon, and nothing in it is lost.", "quantifier": "every parser state and every source, whatever comments and whitespace lie between the tokens", "why_tests_cant": "Look-ahead and parsing are separate code paths that have to agree on every continuation of the input.", "anchors": ["crates/css_parse/src/syntax/declaration.rs", "crates/css_parse/src/syntax/bang_important.rs", "crates/css_parse/src/syntax/rule.rs", "crates/css_parse/src/syntax/bad_declaration.rs", "crates/css_parse/src/traits/rules/at_rule.rs"]}
{"id": "C64", "title": "The language server writes JSON-RPC 2.0 objects", "statement": "Every message the server writes is a JSON-RPC 2.0 object: it carries the version 2.0; a request carries its id, method and parameters (left out if there are none); a notification has no id; a response repeats the id of the request and carries exactly one of a result and an error object with code, message and data.", "quantifier": "every message, with any id, method, parameters, result, error code and data", "why_tests_cant": "Conformance is a statement about every message that can be constructed.", "anchors": ["crates/csskit_lsp/src/jsonrpc/message.rs", "crates/csskit_lsp/src/jsonrpc/request.rs", "crates/csskit_lsp/src/jsonrpc/response.rs", "crates/csskit_lsp/src/jsonrpc/notification.rs"]}
{"id": "C65", "title": "The language server only reads well-formed messages, and exactly their bytes", "statement": "When a message is read from a byte stream, the stream started with a header part made of Content-Length and Content-Type fields only, followed by exactly as many bytes as the last Content-Length says (not zero), and those bytes are the message; nothing beyond them is consumed. A stream with an unknown header field, without a length, or cut short is not read as a message. An object is read as a response only if it has an id and exactly one of a non-null result and an error.", "quantifier": "every byte stream and every JSON codec", "why_tests_cant": "It is about every stream that is accepted, including adversarial header parts.", "anchors": ["crates/csskit_lsp/src/jsonrpc/message.rs", "crates/csskit_lsp/src/jsonrpc/response.rs"]}
{"id": "C66", "title": "The value of a number token is the nearest f32", "statement": "The value of a number or dimension token is the IEEE single nearest to the decimal number its text shows, ties going to the even one, infinity from half way beyond the largest finite value, with the sign bit set exactly if the text starts with a minus sign. In particular an integer of at most 24 bits has exactly its own value.", "quantifier": "every number text, with any number of digits and any exponent, followed by anything", "why_tests_cant": "Rounding errors show only for rare decimal expansions near half-way points; the domain is infinite.", "anchors": ["crates/css_lexer/src/private.rs: consume_numeric_token", "crates/css_lexer/src/token.rs: value"]}
{"id": "C67", "title": "The text of every token can be read", "statement": "For every source and every token the lexer produces from it that is an identifier, function, at-keyword, hash, number or dimension, asking the cursor for its text (parse_str), for its lower-cased text (parse_str_lower) and comparing it with any string (eq_ignore_ascii_case) returns; none of the three panics.", "quantifier": "every source text, feature set, token in it, and string compared with", "why_tests_cant": "The methods slice the source at byte positions computed from lengths packed into the token; a test exercises only some texts, escapes and lengths.", "anchors": ["crates/css_lexer/src/cursor.rs: Cursor::parse_str, parse_str_lower, eq_ignore_ascii_case", "crates/css_lexer/src/private.rs", "crates/css_lexer/src/token.rs: Token::leading_len, trailing_len"]}
{"id": "C68", "title": "Parsing returns", "statement": "For every source text, parsing it as a style sheet (or any part of it as a rule, a declaration, component values, An+B, a boolean, discrete or ranged feature, or a condition) comes to an end, with a node or with a diagnostic: it does not panic and does not loop for ever.", "quantifier": "every source text, feature set, position between tokens, stop set and nesting state", "why_tests_cant": "Termination and the absence of panics over all inputs: the grammar is recursive, backtracks, and has loops that end only because every turn consumes a token.", "anchors": ["crates/css_parse/src/parser.rs: Parser::parse_entirely, try_parse", "crates/css_parse/src/syntax/*.rs: Parse", "crates/css_parse/src/traits/{block,style_sheet}.rs", "crates/css_parse/src/traits/rules/*.rs", "crates/css_ast/src/selector/nth.rs"]}
{"id": "C69", "title": "A parsed selector list writes back its tokens", "statement": "When a selector list parses, the cursors the resulting node writes are exactly the tokens of the source from where parsing began to where the parser stands, in order and each once, except the whitespace and comments that went to the parser's trivia. The same holds for a compound selector, a combinator, an attribute, a class, a pseudo-class, a pseudo-element and a namespace prefix parsed by themselves.", "quantifier": "every source of less than 64 KiB, feature set, and nesting depth of functional pseudo-classes and -elements", "why_tests_cant": "The parser backtracks over vendor sets, switches what it skips and stores some tokens itself; a token lost or doubled in one alternative shows only on the inputs that take it.", "anchors": ["crates/css_parse/src/traits/selectors.rs: parse_selector_list, parse_compound_selector, parse_selector_component", "crates/css_ast/src/selector/*.rs: Parse, ToCursors"]}
{"id": "C70", "title": "Parsing a selector list returns", "statement": "For every source text, parsing it (or any part of it) as a selector list comes to an end, with a node or a diagnostic: it neither panics nor loops for ever.", "quantifier": "every source text, feature set, start position between tokens and nesting depth", "why_tests_cant": "Termination over all inputs: the loops end only because every turn consumes a token, and selectors nest without bound.", "anchors": ["crates/css_parse/src/traits/selectors.rs: parse_selector_list, parse_compound_selector, parse_selector_component", "crates/css_ast/src/selector/*.rs: Parse, ToCursors"]}
{"id": "C71", "title": "A selector that parses leaves the parser's modes as they were", "statement": "Parsing a selector list changes what the parser skips (whitespace, comments) many times on the way; whenever it succeeds the skip set, stop set and nesting state are those from before.", "quantifier": "every parser state that skips whitespace and comments, and every nesting depth", "why_tests_cant": "A mode that is not put back in one branch changes how everything after it is tokenised; a test sees it only if it goes on parsing after that branch.", "anchors": ["crates/css_parse/src/traits/selectors.rs: parse_selector_list, parse_compound_selector, parse_selector_component", "crates/css_ast/src/selector/*.rs: Parse, ToCursors"]}
{"id": "C72", "title": "Where a selector ends", "statement": "A selector list that parses ends at the end of the source or just before a `{`, `)` or `;`; a compound selector ends at the end of the source or just before one of these or a comma. Nothing else ends a selector.", "quantifier": "every parser state and every nesting depth", "why_tests_cant": "It must hold for every input that is accepted.", "anchors": ["crates/css_parse/src/traits/selectors.rs: parse_selector_list, parse_compound_selector, parse_selector_component", "crates/css_ast/src/selector/*.rs: Parse, ToCursors"]}
{"id": "C73", "title": "The pieces of a parsed selector are what they are labelled as", "statement": "In every selector list that parses, at every depth: an Id holds a hash token, a Class a dot and an identifier, a combinator its own delimiter (or whitespace), an attribute its brackets, name, operator, value (an identifier or string, present exactly if the operator is) and an `i`/`s` flag that agrees with its text; a pseudo-class or -element is a colon or two and an identifier whose lower-cased text is its name, which is one of the vendor's names; a functional one is named like its function and has the sort of argument that goes with the name; an element name is classed as HTML, SVG, MathML, custom, non-conforming, non-standard or unknown as its lower-cased text says, custom meaning the HTML standard's valid custom element name.", "quantifier": "every source, feature set and nesting depth", "why_tests_cant": "There are several hundred names and five vendors, tried with backtracking; tests sample a few.", "anchors": ["crates/css_parse/src/traits/selectors.rs: parse_selector_list, parse_compound_selector, parse_selector_component", "crates/css_ast/src/selector/*.rs: Parse, ToCursors", "crates/css_ast/src/selector/tag.rs", "crates/css_parse/src/macros/pseudo_class.rs, pseudo_element.rs"]}
{"id": "C74", "title": "A selector list is selectors with commas between them", "statement": "In a selector list that parses, every selector but the last is followed by a comma, no selector is empty, and there is no comma after the last.", "quantifier": "every source and parser state", "why_tests_cant": "It must hold of every accepted input.", "anchors": ["crates/css_parse/src/traits/selectors.rs: parse_selector_list, parse_compound_selector, parse_selector_component", "crates/css_ast/src/selector/*.rs: Parse, ToCursors"]}
{"id": "C75", "title": "Whitespace and comments around selectors and combinators do not matter", "statement": "A selector does not begin or end with a descendant combinator, whitespace around another combinator is not read as a descendant combinator, and a comment between components changes nothing.", "quantifier": "every source and parser state", "why_tests_cant": "It must hold for every placement of whitespace and comments.", "anchors": ["crates/css_parse/src/traits/selectors.rs: parse_selector_list, parse_compound_selector, parse_selector_component", "crates/css_ast/src/selector/*.rs: Parse, ToCursors"]}
{"id": "C76", "title": "Selectors of the grammar are accepted", "statement": "A sequence of tokens that is a complex selector in the Selectors grammar is accepted and gives one component for each simple selector and combinator, in order.", "quantifier": "every sequence of simple selectors and combinators, of any length", "why_tests_cant": "There are infinitely many selectors.", "anchors": ["crates/css_parse/src/traits/selectors.rs: parse_selector_list, parse_compound_selector, parse_selector_component", "crates/css_ast/src/selector/*.rs: Parse, ToCursors"]}
{"id": "C77", "title": "The AST of a style sheet loses no token", "statement": "When css_ast parses a style sheet, every token of the source is in the tree (and so written back by it), or is trivia, whitespace, a semicolon, `<!--` or `-->`.", "quantifier": "every source, feature set, rule kind and depth of nesting, whichever rules fall back to unknown ones", "why_tests_cant": "Rules nest without bound, each with backtracking; a test sees one source.", "anchors": ["crates/css_ast/src/stylesheet.rs: Parse for StyleSheet, Rule", "crates/css_ast/src/stylerule.rs: Parse for StyleRule, NestedGroupRule", "crates/css_ast/src/rules/*.rs: Parse, ToCursors", "crates/css_ast/src/properties/mod.rs: Property, StyleValue"]}
{"id": "C79", "title": "A typed property value is a value of the property", "statement": "When css_ast gives a declaration a typed value, the declaration's name reads as a property name, and the tokens behind its colon match that property's definition in the CSS value definition syntax.", "quantifier": "every source, every declaration at any depth of nesting, all 341 property definitions; for the macro, every definition", "why_tests_cant": "There are infinitely many values, and 341 definitions with their referenced types.", "anchors": ["crates/csskit_proc_macro/src/def.rs: GenerateParseImpl, Def, DefType, DefRange", "crates/css_ast/src/values/*/mod.rs: style_value", "crates/css_ast/src/properties/mod.rs: Parse for StyleValue", "crates/css_ast/src/types/*.rs: Parse"]}
{"id": "C80", "title": "The parts of a rule are what they are labelled as", "statement": "In every style sheet that css_ast parses, whatever the source, each rule of the tree (at every depth of nesting) is what its label says: an at-rule has the at-keyword of its label, `{` and an optional `}`; the parts of its prelude - media queries with their types, features, ranges, comparisons and conditions, container conditions, layer names, keyframe names and selectors with percentages from 0 to 100, page selectors, document matchers, @supports conditions - are tokens of the kind and name that their labels say, the label of a media feature belongs to a feature of the media queries specification with values of its type; the tags, pseudo-classes and functions in the selectors of style rules have the names that their labels say; declarations have an ident, a colon and perhaps `!important`; descriptors of @font-face, @property and margin at-rules are of the known names.", "quantifier": "every source text, every parser state the parse starts from, every table of property value parsers, and every rule of the result at any depth", "why_tests_cant": "The tree is built by about forty parsers that peek, rewind and fall back to other parsers; a label that is wrong for some source only shows for that source.", "anchors": ["crates/css_ast/src/stylesheet.rs: Rule, StyleSheet", "crates/css_ast/src/stylerule.rs: StyleRule, NestedGroupRule", "crates/css_ast/src/rules/*.rs", "crates/css_ast/src/rules/media/mod.rs: MediaQuery, MediaFeature", "crates/css_ast/src/rules/container/mod.rs", "crates/css_parse/src/traits/ranged_feature.rs", "crates/css_parse/src/traits/discrete_feature.rs", "crates/css_parse/src/traits/conditional.rs"]}
{"id": "C81", "title": "The form of a declaration's value follows from its name, its first token and the grammar of the property", "statement": "The value of a declaration is parsed as a custom value exactly if its name begins with two dashes; otherwise as a CSS-wide keyword exactly if the next token is one of initial, inherit, unset, revert, revert-layer in any case (and then the keyword recorded is that of the token); otherwise as a computed value if the next token opens var() or one of the listed math functions; otherwise as a typed value exactly if the name is that of a known property whose grammar takes a value that is followed by the end of the source, a }, a ; or a !; and otherwise as an unknown value, or as a computed one if var() or a math function follows where the grammar of the property stopped. In a whole style sheet no declaration, however deep, has a value that is labelled otherwise.", "quantifier": "every source, every parser state, every set of property grammars (and in particular those of css_ast), every declaration at any depth of any rule", "why_tests_cant": "There are hundreds of properties, and the decision depends on what any of their grammars does with any text; a test can only try some of them.", "anchors": ["crates/css_ast/src/properties/mod.rs: parse_declaration_value", "crates/css_ast/src/properties/mod.rs: Peek for Computed", "crates/css_ast/src/properties/mod.rs: CSSWideKeyword"]}
{"id": "C82", "title": "Values that the grammar of their property takes are typed", "statement": "The converse of C79: if the tokens of a declaration's value match the definition of its property (as CSS defines the notation: all of them in order, in any order with &&, some of them in any order with ||, one of them with |, repetitions, ranges, the hand-written types), and `}`, `;` or `!important` follows, the declaration is parsed with a typed value, not as an unknown one; the typed value has exactly the tokens of the value, each once, its `!important` is recorded, and parsing goes on right after it. Not so for 21 of the 341 properties, nor for images with functions.", "quantifier": "all sources, all states of the parser at a declaration, all values of 320 properties, whatever follows", "why_tests_cant": "the values of a property are infinitely many (repetitions, orders, comments and whitespace between any two tokens, any numbers and names), and the macro's parsers are deterministic loops that commit on one token of lookahead: whether they ever commit wrongly depends on every pair of alternatives of every definition", "anchors": ["crates/css_ast/src/properties/mod.rs (parse_declaration_value, Property)", "crates/csskit_proc_macro/src/def.rs", "crates/css_ast/src/values/*/mod.rs (value! definitions)", "crates/css_ast/src/types/*.rs", "crates/css_parse/src/traits/declaration.rs"]}
{"id": "C78", "title": "Value definitions are read as the CSS notation prescribes", "statement": "The text of every value definition in css_ast (the argument of every #[value] attribute) is read by the macro as the definition that the notation of CSS Values gives it: juxtaposition binds most tightly, then &&, ||, and | least; brackets, functions, multipliers (? * + # {a,b} #{a,b} !), ranges and types stand for what they say. In general the reader is not right: with three combinators of decreasing tightness, or one twice before a looser one, it groups wrongly.", "quantifier": "all 341 definitions of css_ast (the whole domain of the macro in this code base), any blanks between their tokens as they stand", "why_tests_cant": "the unit tests of the macro compare a handful of definitions; the grouping of each of the hundreds of definitions decides which values the property takes (C79, C82)", "anchors": ["crates/csskit_proc_macro/src/def.rs (Parse for Def, DefType, DefRange, DefMultiplierStyle)", "crates/css_ast/src/values/*/mod.rs"]}
{"id": "C83", "title": "A grammatical style sheet is parsed into its rules", "statement": "A style sheet made of style rules - lists of selectors of the grammar of C76, a block with declarations whose values are of the grammar of C82, or are CSS-wide keywords, or are any balanced tokens (of custom properties, of unknown properties, or after `var(`, `calc(` and the like), perhaps with `!important`, stray semicolons, nested rules to any depth that do not begin like a declaration - and of the at-rules `@media` and `@container` with the queries of C84, `@layer`, `@document`, `@font-face`, `@keyframes`, `@page` and `@property`, with whitespace and comments where CSS allows them, and `<!--` and `-->` between the rules - is parsed to the end without any error, into exactly one rule for each rule in the source, of its kind, in order, each with its selectors or query or names, its declarations (name, colon, value, importance, semicolon) and its nested rules.", "quantifier": "all sources and all trees of style rules, at-rules, declarations and nested rules, of any size and depth, whose tokens are those of the source", "why_tests_cant": "Style sheets nest without bound, and every combination of selectors, gaps, values and semicolons must be read as written; a test fixes a few sheets.", "anchors": ["crates/css_ast/src/stylesheet.rs: StyleSheet::parse, Rule::parse", "crates/css_ast/src/stylerule.rs: StyleRule, Style, StyleDeclaration", "crates/css_parse/src/traits/rules/qualified_rule.rs: QualifiedRule", "crates/css_parse/src/traits/lists/block.rs: Block", "crates/css_ast/src/properties/mod.rs: Property", "crates/css_parse/src/traits/rules/at_rule.rs: AtRule", "crates/css_ast/src/rules: MediaRule, ContainerRule, LayerRule, DocumentRule, FontFaceRule, KeyframesRule, PageRule, PropertyRule"]}
{"id": "C84", "title": "Media queries and container conditions are read as they are written", "statement": "The converse of C80 for conditions: after `@media`, a media query up to `{` - a condition, or a media type (known or not) with `not` or `only` before it and `and` and a condition after it; a condition being one feature or two with `and` or `or` between; a feature being any of the table of media features with its keywords, its ranges in all forms (`a < v`, `v < a`, `v <= a <= v`, `a: v`, `min-`/`max-`) - is read without an error into exactly that query: every part holds the very tokens that were written, none is lost or added, and `{` is next. The same after `@container` for a name, a condition of container features, or both.", "quantifier": "all sources, all states of the parser after the at-keyword, all queries of that grammar over the tokens ahead, with any whitespace and comments between, whatever follows `{`", "why_tests_cant": "the queries combine 47 features, five forms of ranges, comparisons of one or two tokens, any numbers and units, and any gaps; which form is read is decided by looking two, three, four or five tokens ahead, so that a wrong decision depends on what comes later.", "anchors": ["crates/css_ast/src/rules/media/mod.rs: MediaQuery, MediaFeature", "crates/css_ast/src/rules/media/features/*.rs", "crates/css_ast/src/rules/container/mod.rs: ContainerCondition, ContainerFeature", "crates/css_parse/src/traits/{ranged_feature,discrete_feature,boolean_feature,condition}.rs", "crates/css_parse/src/syntax/comparison.rs", "crates/css_parse/src/traits/lists/prelude_list.rs"]}
{"id": "C85", "title": "Parsing a style sheet returns", "statement": "For every source text, parsing it as a CSS style sheet (StyleSheet::parse over a fresh parser, with every property value, selector, at-rule and media query of css_ast) returns a sheet or a diagnostic: it neither panics nor runs for ever.", "quantifier": "every source text", "why_tests_cant": "The parser is a mutually recursive family of peeks and parses which share mutable skip, stop and state fields; whether a loop makes progress and whether a token's text can be sliced depends on everything parsed before.", "anchors": ["crates/css_ast/src/stylesheet.rs: StyleSheet, Rule", "crates/css_ast/src/stylerule.rs", "crates/css_ast/src/properties/mod.rs: StyleValue", "crates/css_ast/src/selector", "crates/css_parse/src/parser.rs"]}
{"id": "C86", "title": "What an editor highlights is what it says", "statement": "For every style sheet the highlighter is given, each highlight - read by the legend that the server announces - covers exactly one token of the source (for a pseudo-class: a colon and the ident directly after it), and that token is what the highlight says: a tag is an ident whose name is in the list of elements that its modifiers say (obsolete elements Deprecated, non-standard ones Experimental, custom element names Custom, all others Unknown); a pseudo-class is a known name, Deprecated exactly if it has a vendor prefix; a declaration is an ident, Custom exactly if it begins with two dashes; punctuation is a brace or a colon.", "quantifier": "every source text and every table of property value parsers, every highlight of the result", "why_tests_cant": "Type and modifiers are numbers that only mean something by their place in a legend; the span is that of whatever cursors the parser kept. One wrong cursor or index only shows for the sources that take that path.", "anchors": ["crates/csskit_highlight/src/lib.rs: SemanticKind, SemanticModifier, TokenHighlighter, Highlight", "crates/csskit_highlight/src/css.rs: impl Visit for TokenHighlighter", "crates/csskit_lsp/src/service.rs: SemanticTokensLegend"]}
{"id": "C87", "title": "Highlights do not overlap and none is lost", "statement": "The highlights of a style sheet are not empty, lie in the source and no two have a character in common; two calls of `insert` never have the same span, so that no highlight replaces another one in the hash map.", "quantifier": "every source text, every table of property value parsers, every pair of highlights", "why_tests_cant": "The map is keyed by spans, so a rule or declaration that is visited twice, or a span that is too long, silently loses or overlaps highlights; whether that happens depends on the tree.", "anchors": ["crates/csskit_highlight/src/lib.rs: TokenHighlighter::insert, highlights", "crates/csskit_highlight/src/css.rs", "crates/css_ast/src/visit/mod.rs"]}
{"id": "C88", "title": "Highlighting a parsed style sheet does not panic", "statement": "Walking the tree of a style sheet to highlight it returns for every tree.", "quantifier": "every style sheet tree, any depth", "why_tests_cant": "A todo!() in a visit is met only by trees with that rule, at any depth of nesting.", "anchors": ["crates/css_ast/src/stylesheet.rs: Visitable for StyleSheet, Rule", "crates/css_ast/src/rules/media/mod.rs: Visitable", "crates/css_ast/src/rules/keyframes.rs", "crates/css_ast/src/rules/webkit.rs", "crates/css_ast/src/rules/document.rs"]}
{"id": "C89", "title": "All tags, pseudo-classes, declarations and braces of the rules are highlighted", "statement": "The highlights are exactly - each once - the tags and pseudo-classes of the selectors of style rules and of selector() in @supports, the braces of style rules, the name and the colon of each declaration of style rules, keyframes, @page and its margin at-rules, of @supports conditions and of @property rules, and the name of a @property rule; those whose value hdx does not know are marked Unknown. This holds at every depth of nesting.", "quantifier": "every source text, every table of property value parsers, every rule at any depth", "why_tests_cant": "Visits are written by hand for each node; one that does not go on to its children only shows for sources with that node in that place.", "anchors": ["crates/csskit_highlight/src/css.rs", "crates/css_ast/src/visit/mod.rs", "crates/css_ast/src/stylerule.rs: Visitable", "crates/css_ast/src/rules/*.rs: Visitable", "crates/css_ast/src/properties/mod.rs: Visitable"]}
{"id": "C90", "title": "The semantic tokens that the server sends are what is to be shown, in place", "statement": "When a client asks for the semantic tokens of a document, the reply has one token for each part that is to be shown, in the order of the source, without overlap; decoding the deltas as the protocol says gives the position of each part, its length is that of the part, and its type and modifiers are those of the legend. The reply does not depend on the order in which the hash map gives its entries.", "quantifier": "every document text, every order of the entries of the hash map", "why_tests_cant": "Positions are relative to the previous token, so that one wrong delta moves all that follow; it depends on the lines and characters before every token.", "anchors": ["crates/csskit_lsp/src/service.rs:54-104", "crates/csskit_lsp/src/service.rs: get_semantic_tokens", "crates/csskit_highlight/src/lib.rs"]}
{"id": "C91", "title": "What css_ast's tree writes is in the order of the source", "statement": "For every source shorter than 64 KiB that parses as a style sheet (css_ast's StyleSheet, with its 341 properties), if in every block the declarations come before the nested rules, no `@charset` lacks its semicolon, no condition is negated, and the parts of every value of a known property are in the order of the property's definition, then the cursors written by ToCursors are a subsequence of the tokens of the source, in their order: nothing is moved, repeated or invented, and the only tokens left out are trivia, whitespace, semicolons, `<!--` and `-->`. Without the conditions this fails: `a{b{}color:red}` is written as `a{color:red b{}}` and `border-top:red solid 1px` as `border-top:1px solid red`.", "quantifier": "every source shorter than 64 KiB, every feature set, every tree the parser returns", "why_tests_cant": "The order in which each node writes its fields must agree with the order in which its parser reads them for every node type and every nesting; a test shows one tree.", "anchors": ["crates/css_parse/src/parser_return.rs: ParserReturn::to_cursors", "crates/css_parse/src/traits/to_cursors.rs: ToCursors", "crates/css_ast/src/stylerule.rs", "crates/css_ast/src/stylesheet.rs", "crates/csskit_proc_macro/src/def.rs", "crates/csskit/src/main.rs: Commands::Build"]}
{"id": "C92", "title": "What csskit build writes is the style sheet that was read", "statement": "For a file that parses to a style sheet, `csskit build` does not panic; it writes every token of the file that is not whitespace, a comment, a semicolon, `<!--` or `-->` exactly once, as it stands in the file (numbers and dimensions from their value), with at most one space between two tokens and nothing else; in the order of the file where the tree keeps the order; and, where no block is left open, with a space exactly where needs_separator_for asks for one. The text it writes is read as the same style sheet.", "quantifier": "every source text, every style sheet it parses to, and every way to format f32s", "why_tests_cant": "every source text and every nesting of rules, values and unknown at-rules", "anchors": ["crates/csskit/src/main.rs: Commands::Build", "crates/css_parse/src/cursor_fmt_sink.rs: append", "crates/css_parse/src/parser.rs: parse_entirely", "crates/css_ast/src/stylesheet.rs: ToCursors for StyleSheet"]}
{"id": "C93", "title": "The WebAssembly function lex returns the tokens of the source", "statement": "lex(source) returns; it gives the tokens of the source in order, whose lengths cut it into pieces that are not empty and cover it, and after them exactly one Eof token of length 0. Each is sent with its kind, its length and, for a dimension, its unit; different kinds have different names.", "quantifier": "every source text", "why_tests_cant": "every source text; a loop that ends only at Eof", "anchors": ["crates/csskit_wasm/src/lib.rs: lex", "crates/css_lexer/src/token.rs: Serialize for Token", "crates/css_lexer/src/kind.rs: as_str"]}
{"id": "C94", "title": "The WebAssembly function minify is all or nothing, and agrees with csskit build", "statement": "minify(source) returns an error exactly for the sources for which parse(source) has diagnostics, and otherwise the same text as csskit build; it never returns a part of the source after an error.", "quantifier": "every source text and every way to format f32s", "why_tests_cant": "every source text: errors of any rule at any depth", "anchors": ["crates/csskit_wasm/src/lib.rs: minify", "crates/csskit/src/main.rs: Commands::Build", "crates/css_parse/src/parser.rs: parse_entirely", "crates/css_parse/src/traits/style_sheet.rs: parse_stylesheet"]}
{"id": "C95", "title": "The diagnostics of the WebAssembly function parse say where the source is wrong", "statement": "parse(source) never fails in silence: the ast is null exactly if there are diagnostics. Each diagnostic begins between two characters of the source, where a token begins; it ends at the end of that token, or at the end of the source for content that was ignored; it selects no text only at the end of the source.", "quantifier": "every source text", "why_tests_cant": "every source text: errors of any rule at any depth, after any attempt that was undone", "anchors": ["crates/csskit_wasm/src/lib.rs: parse", "crates/css_parse/src/diagnostics.rs", "crates/css_parse/src/traits/rules/qualified_rule.rs: parse_qualified_rule", "crates/css_parse/src/parser.rs: parse_entirely"]}
{"id": "C96", "title": "A session with the language server: what is answered, and how it ends", "statement": "Whatever way the message handler and the document threads interleave: the replies to requests for semantic tokens are, in order, what a server without threads would reply (the highlights of the latest text of the document; an error for a document that is not open; no tokens if the highlighter panics), and the session ends as such a server would (all messages handled; waiting for ever; handler panicked), after at most five steps per message. If no text makes the parser or the highlighter panic and every text gives a style sheet, every request is answered with tokens that show, at the positions of the protocol, the text that the client had when it sent the request.", "quantifier": "every sequence of didOpen, didChange and semanticTokens/full messages about any number of documents, every interleaving of the handler and all document threads, and every place where a thread panics or does not come back", "why_tests_cant": "All schedules of any number of threads, and all histories of messages.", "anchors": ["crates/csskit_lsp/src/service.rs: File::new, commit, get_highlights, semantic_tokens_full_request, on_did_open_text_document, on_did_change_text_document", "crates/csskit_lsp/src/server.rs: Server::new"]}
{"id": "C97", "title": "The process csskit lsp: what it writes, and when it ends", "statement": "Whatever way the reader, handler and writer threads are scheduled: the responses written to stdout are at every moment a prefix of the replies to the messages read, in order; anything else written is a log notification, and only after a $/setTrace that asks for it ($/logTrace only after `verbose`). When the process ends, stdin was closed, no message followed `exit`, and at most two replies are lost (one if `exit` was the last message). When nothing happens any more although the process has not ended and stdout can be written, every reply was written, and either stdin is still open or a message followed `exit`. The threads take at most five steps per message and one per log notification. A client that closes stdin at once may lose replies, and `exit` alone does not end the process.", "quantifier": "every handler, every sequence of messages, every schedule of the threads (including the log events of any thread and a failing stdout), and every point of it", "why_tests_cant": "All interleavings of three threads over rendezvous channels, and every moment at which the process may be ended.", "anchors": ["crates/csskit_lsp/src/server.rs: Server::new, Server::listen_stdio", "crates/csskit_lsp/src/jsonrpc/tracing_layer.rs: TracingLayer::on_event", "crates/csskit/src/main.rs: Commands::Lsp"]}
{"id": "C98", "title": "Counter styles, symbols() and stripes(): exactly what is written is read", "statement": "Parsing a <counter-style> from any position accepts only a name or symbols( <symbols-type>? [<string>|<image>]* ), calls a name predefined only if it is one of the predefined ones, keeps every token it took, and comes to an end; a name, symbols() of strings and urls, and stripes( <color-stripe># ) with color and thickness in either order are all taken, whole, and what follows them is left.", "quantifier": "every source, every position of the parser, every list of symbols and stripes of any length", "why_tests_cant": "The lists are unbounded and the colors, lengths and names range over infinite sets; termination must hold for every source.", "anchors": ["crates/css_ast/src/types/counter_style.rs: CounterStyle, PredefinedCounter", "crates/css_ast/src/types/symbols.rs: Symbols, SymbolsType", "crates/css_ast/src/types/image_1d.rs: Image1D, ColorStripe"]}
{"id": "C99", "title": "Numbers with units keep the unit and the number that are written", "statement": "Parsing a length, length-percentage, time, angle, resolution, frequency or flex takes exactly one token; the variant of the value is the unit written in the source (case-insensitively) and is one of that type's units, or Zero for a bare 0 in the types that allow it; every token that is such a value is accepted, what `Peek` accepts `Build` never panics on, and the value's f32, is_negative, is_positive and is_zero are those of the written number.", "quantifier": "every type of number with a unit, every source and every token at which the value is parsed, every number", "why_tests_cant": "There are some fifty units, each tested twice (in the Peek chain and in the Build chain, in different orders and partly through strings that are written three times), over all spellings and all floats; the tests try a few of each type.", "anchors": ["crates/css_ast/src/units/length.rs: Length, LengthPercentage", "crates/css_ast/src/units/{angles,time,resolution,frequency,flex}.rs", "crates/css_ast/src/units/mod.rs: Unit", "crates/css_parse/src/token_macros.rs: custom_dimension!"]}
{"id": "C100", "title": "Unknown at-rules do not affect the rules around them", "statement": "In a style sheet made of rules of the grammar of C83 (with `<!--`, `-->`, whitespace and comments) and, anywhere between them, of at-rules whose name has no parser in css_ast (`@foo`, but also `@import`, `@namespace` and the other names whose parser is still a stub), each being the at-keyword, any well-bracketed tokens without `;` and `{` outside brackets, and `;` or a block of declarations that each end in `;`: the whole sheet is parsed without errors; every unknown at-rule becomes one unknown rule that keeps its at-keyword, the tokens of its prelude and its semicolon or the declarations of its block; and the other rules are, in order, what the sheet without the unknown at-rules becomes. A prelude with a closing bracket too many, or with a string broken off at the end of a line, is different: nothing of the whole sheet is returned.", "quantifier": "every source shorter than 65536 bytes (within the lexical limits of C83), every number, order and nesting of rules and of brackets in the preludes, with any whitespace and comments", "why_tests_cant": "Error recovery has to work for every rule before and after, for every name and every prelude; tests try a few.", "anchors": ["crates/css_ast/src/stylesheet.rs: Rule::parse, UnknownAtRule", "crates/css_parse/src/syntax/at_rule.rs: AtRule, OptionalBlock", "crates/css_parse/src/traits/rules/at_rule.rs: parse_at_rule", "crates/css_parse/src/syntax/component_values.rs: ComponentValues", "crates/css_parse/src/traits/style_sheet.rs: parse_stylesheet"]}
