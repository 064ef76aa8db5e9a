{
 "claims": [
  {
   "property": "C01",
   "status": "partial",
   "theorems": [
    "Hdx.C01_partial"
   ],
   "note": "Proved for texts in Tame (documented size limits, no backslash before a non-ASCII character, ASCII // comments); C04_counterexample_* show the code violates the property outside it."
  },
  {
   "property": "C02",
   "status": "partial",
   "theorems": [
    "Hdx.C02_partial"
   ],
   "note": "Proved for texts in Tame."
  },
  {
   "property": "C03",
   "status": "proved",
   "theorems": [
    "Hdx.C03_eof_iff_at_end",
    "Hdx.C03_eof_forever"
   ],
   "note": "Every lexer state and history."
  },
  {
   "property": "C04",
   "status": "partial",
   "theorems": [
    "Hdx.C04_partial",
    "Hdx.C04_counterexample_panic",
    "Hdx.C04_counterexample_escape",
    "Hdx.C04_counterexample_comment"
   ],
   "note": "Proved for texts in Tame; C04_counterexample_* are inputs on which the code panics or leaves the character boundary."
  },
  {
   "property": "C05",
   "status": "proved",
   "theorems": [
    "Hdx.C05_suffix",
    "Hdx.C05_rewind"
   ],
   "note": "Every lexer state and every number of advances."
  },
  {
   "property": "C06",
   "status": "proved",
   "theorems": [
    "Hdx.C06_collapsed",
    "Hdx.C06_separate",
    "Hdx.C06_only"
   ],
   "note": "Both whitespace features; C06_only is the converse."
  },
  {
   "property": "C07",
   "status": "proved",
   "theorems": [
    "Hdx.C07_closed",
    "Hdx.C07_unclosed",
    "Hdx.C07_total",
    "Hdx.C07_only"
   ],
   "note": "All block comments, closed or not."
  },
  {
   "property": "C08",
   "status": "partial",
   "theorems": [
    "Hdx.C08_partial",
    "Hdx.C08_disabled",
    "Hdx.C08_counterexample"
   ],
   "note": "Proved for comments that are ASCII and NUL-free; C08_counterexample shows the code is wrong beyond that."
  },
  {
   "property": "C09",
   "status": "partial",
   "theorems": [
    "Hdx.C09_partial",
    "Hdx.C09_total",
    "Hdx.C09_counterexample",
    "Hdx.C09_only"
   ],
   "note": "All strings without a backslash directly followed by a non-ASCII character or NUL; counterexample: quote_style of an unclosed single-quoted string."
  },
  {
   "property": "C10",
   "status": "partial",
   "theorems": [
    "Hdx.C10_longest",
    "Hdx.C10_total",
    "Hdx.C10_ident_partial",
    "Hdx.C10_function_partial",
    "Hdx.C10_atKeyword_partial",
    "Hdx.C10_hash_partial",
    "Hdx.C10_only"
   ],
   "note": "All names without a backslash before a non-ASCII character; function names other than url-like ones."
  },
  {
   "property": "C11",
   "status": "partial",
   "theorems": [
    "Hdx.C11_counterexample",
    "Hdx.C11_lower_unescaped"
   ],
   "note": "The full claim is false (C11_counterexample: escapes never count as upper-case); proved for names without escapes."
  },
  {
   "property": "C12",
   "status": "partial",
   "theorems": [
    "Hdx.C12_partial",
    "Hdx.C12_total",
    "Hdx.C12_only"
   ],
   "note": "All number texts; value stated through the model's correctly rounded decimal conversion."
  },
  {
   "property": "C13",
   "status": "partial",
   "theorems": [
    "Hdx.C13_percent",
    "Hdx.C13_partial",
    "Hdx.C13_counterexample"
   ],
   "note": "Proved except the unit-recognition bugs in C13_counterexample."
  },
  {
   "property": "C14",
   "status": "partial",
   "theorems": [
    "Hdx.C14_partial",
    "Hdx.C14_counterexample"
   ],
   "note": "Proved except svmax/svmin, whose strings are swapped in the code."
  },
  {
   "property": "C15",
   "status": "partial",
   "theorems": [
    "Hdx.C15_partial",
    "Hdx.C15_counterexample"
   ],
   "note": "Proved except the keyword-recognition bugs in C15_counterexample."
  },
  {
   "property": "C16",
   "status": "partial",
   "theorems": [
    "Hdx.C16_url",
    "Hdx.C16_bad_partial",
    "Hdx.C16_total",
    "Hdx.C16_counterexample"
   ],
   "note": "Proved except the bugs in C16_counterexample."
  },
  {
   "property": "C17",
   "status": "partial",
   "theorems": [
    "Hdx.C17_whitespace",
    "Hdx.C17_comment",
    "Hdx.C17_number",
    "Hdx.C17_dimension_unknown",
    "Hdx.C17_dimension_known",
    "Hdx.C17_badString",
    "Hdx.C17_badUrl",
    "Hdx.C17_ident",
    "Hdx.C17_function",
    "Hdx.C17_atKeyword",
    "Hdx.C17_hash",
    "Hdx.C17_string",
    "Hdx.C17_string_counterexample",
    "Hdx.C17_url",
    "Hdx.C17_delim",
    "Hdx.C17_char_constant",
    "Hdx.C17_NUMBER_ZERO_counterexample",
    "Hdx.C17_limit_is_needed"
   ],
   "note": "Every constructor, every argument within the documented limits; NUMBER_ZERO is a counterexample."
  },
  {
   "property": "C18",
   "status": "partial",
   "theorems": [
    "Hdx.C18_eq_kind",
    "Hdx.C18_eq_kindset",
    "Hdx.C18_is_cdc",
    "Hdx.C18_cdc_cdo",
    "Hdx.C18_is_bad_partial",
    "Hdx.C18_is_bad_exact",
    "Hdx.C18_is_bad_counterexample",
    "Hdx.C18_is_trivia_partial",
    "Hdx.C18_is_trivia_counterexample",
    "Hdx.C18_numeric_partial",
    "Hdx.C18_numeric_counterexample",
    "Hdx.C18_is_ident_like_exact",
    "Hdx.C18_is_delim_like"
   ],
   "note": "Every token bit pattern; is_bad, is_trivia, is_int are false claims in the code, exact characterisations proved instead."
  },
  {
   "property": "C19",
   "status": "proved",
   "theorems": [
    "Hdx.C19_add",
    "Hdx.C19_new",
    "Hdx.C19_none",
    "Hdx.C19_any",
    "Hdx.C19_named",
    "Hdx.C19_token"
   ],
   "note": "Every KindSet and kind list."
  },
  {
   "property": "C20",
   "status": "partial",
   "theorems": [
    "Hdx.C20_partial",
    "Hdx.C20_anywhere",
    "Hdx.C20_alone",
    "Hdx.C20_backslash",
    "Hdx.C20_counterexample",
    "Hdx.C20_delims"
   ],
   "note": "All but PERIOD, PLUS, UNDERSCORE, for which it is false."
  },
  {
   "property": "C21",
   "status": "partial",
   "theorems": [
    "Hdx.C21_partial",
    "Hdx.C21_negation"
   ],
   "note": "Every token except unclosed comments shorter than 4 bytes, for which C21_negation shows it false."
  },
  {
   "property": "C22",
   "status": "partial",
   "theorems": [
    "Hdx.C22_ident_partial",
    "Hdx.C22_function_partial",
    "Hdx.C22_atKeyword_partial",
    "Hdx.C22_hash_partial",
    "Hdx.C22_dimension_partial",
    "Hdx.C22_url_partial",
    "Hdx.C22_string_partial",
    "Hdx.C22_counterexample"
   ],
   "note": "Every name, string and url of the grammar, without a backslash before a non-ASCII character."
  },
  {
   "property": "C23",
   "status": "partial",
   "theorems": [
    "Hdx.C23_partial",
    "Hdx.C23_not_lower",
    "Hdx.C23_counterexample"
   ],
   "note": "False when an escape decodes to an upper-case letter (C23_counterexample)."
  },
  {
   "property": "C24",
   "status": "partial",
   "theorems": [
    "Hdx.C24_partial",
    "Hdx.C24_escaped_partial",
    "Hdx.C24_counterexample"
   ],
   "note": "Proved for values without NUL escapes; C24_counterexample otherwise."
  },
  {
   "property": "C25",
   "status": "partial",
   "theorems": [
    "Hdx.C25_partial",
    "Hdx.C25_decoder",
    "Hdx.C25_counterexample"
   ],
   "note": "Proved unless the escape is a single non-ASCII character (C25_counterexample)."
  },
  {
   "property": "C26",
   "status": "proved",
   "theorems": [
    "Hdx.C26_hull",
    "Hdx.C26_comm",
    "Hdx.C26_assoc",
    "Hdx.C26_idem",
    "Hdx.C26_contains"
   ],
   "note": "All spans."
  },
  {
   "property": "C27",
   "status": "proved",
   "theorems": [
    "Hdx.C27_value",
    "Hdx.C27_injective",
    "Hdx.C27_off_boundary"
   ],
   "note": "All sources and offsets on a character boundary; C27_off_boundary is what happens otherwise."
  },
  {
   "property": "C28",
   "status": "partial",
   "theorems": [
    "Hdx.C28_partial",
    "Hdx.C28_whole_partial",
    "Hdx.C28_counterexample",
    "Hdx.C28_written_partial"
   ],
   "note": "Two texts (C28_partial), whole texts (C28_whole_partial) and the writer sink's own output (C28_written_partial): where no separator is asked for the texts re-lex to exactly the same tokens; where one is asked for, to one whitespace token. Excepted: the pairs listed in Spec.Merges, each shown to merge in C28_counterexample, and texts outside Tame."
  },
  {
   "property": "C29",
   "status": "partial",
   "theorems": [
    "Hdx.C29_partial",
    "Hdx.C29_only",
    "Hdx.C29_counterexample"
   ],
   "note": "Proved except '-' and -0 after a name (C29_counterexample); C29_only is the converse."
  },
  {
   "property": "C30",
   "status": "partial",
   "theorems": [
    "Hdx.C30_infallible",
    "Hdx.C30_fallible",
    "Hdx.C30_after_error",
    "Hdx.C30_text_partial",
    "Hdx.C30_number_partial",
    "Hdx.C30_counterexample"
   ],
   "note": "Order, separators and failure points are proved for all cursor sequences and writers; that the text is the source text is proved except for numbers and known dimensions."
  },
  {
   "property": "C31",
   "status": "proved",
   "theorems": [
    "Hdx.C31_appends"
   ],
   "note": "All cursor sequences."
  },
  {
   "property": "C32",
   "status": "proved",
   "theorems": [
    "Hdx.Parser.C32_peek_next",
    "Hdx.Parser.C32_peek_n",
    "Hdx.Parser.C32_peek_0"
   ],
   "note": "Every parser state, skip set and k>=1; peek_n(0) underflows (C32_peek_0)."
  },
  {
   "property": "C33",
   "status": "proved",
   "theorems": [
    "Hdx.C33_calls",
    "Hdx.C33_programs"
   ],
   "note": "Every source, every interleaving of next()/consume_trivia()/set_skip, and every grammar program (Prog: any adaptive sequence of parser calls, including nested try_parse)."
  },
  {
   "property": "C34",
   "status": "partial",
   "theorems": [
    "Hdx.C34_errors_partial",
    "Hdx.C34_errors_counterexample",
    "Hdx.C34_partial",
    "Hdx.C34_programs_partial",
    "Hdx.C34_counterexample"
   ],
   "note": "Proved for parsers with fewer than 256 errors and 65536 trivia when the checkpoint is taken; C34_counterexample: 65536 comments."
  },
  {
   "property": "C35",
   "status": "partial",
   "theorems": [
    "Hdx.C35_no_trace",
    "Hdx.C35_rule",
    "Hdx.C35_partial",
    "Hdx.C35_counterexample"
   ],
   "note": "Proved for every grammar program that leaves skip/stop/state as it found them; C35_counterexample: a failing parser that changed skip leaks it."
  },
  {
   "property": "C36",
   "status": "proved",
   "theorems": [
    "Hdx.C36_rest",
    "Hdx.C36_no_errors",
    "Hdx.C36_total",
    "Hdx.C36_trailing_trivia"
   ],
   "note": "Every grammar program and source under 64KiB; C36_trailing_trivia: trailing trivia is neither consumed nor recorded."
  },
  {
   "property": "C37",
   "status": "partial",
   "theorems": [
    "Hdx.C37_partial",
    "Hdx.C37_counterexample",
    "Hdx.C37_add_assign",
    "Hdx.C37_sum_partial",
    "Hdx.C37_page_partial",
    "Hdx.C37_page_counterexample"
   ],
   "note": "Exactly when adding two specificities adds the counts (the code ORs the bytes: iff no bit is shared), the order of sums is irrelevant, the order is lexicographic, page selectors. Missing: the general claim is false, C37_counterexample, C37_page_counterexample."
  },
  {
   "property": "C38",
   "status": "partial",
   "theorems": [
    "Hdx.C38_odd",
    "Hdx.C38_even",
    "Hdx.C38_integer",
    "Hdx.C38_step",
    "Hdx.C38_digits",
    "Hdx.C38_signed_partial",
    "Hdx.C38_dash_partial",
    "Hdx.C38_plus",
    "Hdx.C38_minus",
    "Hdx.C38_only_partial",
    "Hdx.C38_start",
    "Hdx.C38_counterexample",
    "Hdx.C38_comment_counterexample"
   ],
   "note": "Every production of the An+B grammar, over all token streams with trivia anywhere the grammar allows it, is read with the right A and B, except negative signed numbers after n and -n- forms (C38_signed_partial, C38_dash_partial); everything accepted is an An+B or one of the malformed shapes listed in Spec.Malformed (C38_only_partial); C52_cursors: accepted tokens are written back unchanged. False in general: C38_counterexample (2n -1 is read as 2n+1, ...)."
  },
  {
   "property": "C39",
   "status": "proved",
   "theorems": [
    "Hdx.C39_round_trip",
    "Hdx.C39_bracket_positions"
   ],
   "note": "Exact for every source shorter than 64 KiB. C39_bracket_positions shows that bracket positions do not come back (offset taken before trivia; dummy offset for closing brackets)."
  },
  {
   "property": "C40",
   "status": "partial",
   "theorems": [
    "Hdx.C40_single_partial",
    "Hdx.C40_and_partial",
    "Hdx.C40_or_partial",
    "Hdx.C40_written_partial",
    "Hdx.C40_length_counterexample",
    "Hdx.C40_not_counterexample",
    "Hdx.C40_chain_counterexample",
    "Hdx.C40_or_counterexample",
    "Hdx.C40_dropped_counterexample",
    "Hdx.C40_counterexample"
   ],
   "note": "Proved for every feature parser whose features start with a bracket: a single feature, `f and g`, `f or g` are read as conditions of these features and written back token for token. Refuted: no condition has more than two features; `f and g and ...` is always an error; after `f or g` a second `or` is left unread; `not f` is always an error; `f not g` loses f. Nothing is missing beyond what the counterexamples exclude."
  },
  {
   "property": "C41",
   "status": "partial",
   "theorems": [
    "Hdx.Lsp.C41_code_partial",
    "Hdx.Lsp.C41_counterexample"
   ],
   "note": "From i32 to code and back for all numbers; from code to i32 and back for all codes but the one whose arms disagree (C41_counterexample)."
  },
  {
   "property": "C42",
   "status": "partial",
   "theorems": [
    "Hdx.Lsp.C42_message_partial",
    "Hdx.Lsp.C42_sequence_partial",
    "Hdx.Lsp.C42_exact",
    "Hdx.Lsp.C42_counterexample_null",
    "Hdx.Lsp.C42_counterexample_code"
   ],
   "note": "For every message the code reads back (C42_exact says which), alone and in sequence, given that JSON text round-trips (Codec). Counterexamples: `result: null`, and error codes that do not come back."
  },
  {
   "property": "C43",
   "status": "partial",
   "theorems": [
    "Hdx.Lsp.C43_request_partial",
    "Hdx.Lsp.C43_notification_partial",
    "Hdx.Lsp.C43_history_partial",
    "Hdx.Lsp.C43_counterexample_notification",
    "Hdx.Lsp.C43_counterexample_request"
   ],
   "note": "Missing: messages whose method belongs to the other group (a notification with a request method is answered; a request with a notification method never is), and messages before initialisation."
  },
  {
   "property": "C44",
   "status": "partial",
   "theorems": [
    "Hdx.Lsp.C44_before_partial",
    "Hdx.Lsp.C44_counterexample"
   ],
   "note": "Missing: early requests get no error reply (C44_counterexample); the initialised flag is set by initialize."
  },
  {
   "property": "C45",
   "status": "partial",
   "theorems": [
    "Hdx.Lsp.C45_partial",
    "Hdx.Lsp.C45_counterexample",
    "Hdx.Lsp.C45_off_boundary"
   ],
   "note": "No underflow for all texts and highlights; decodes to the protocol's positions in texts without characters outside the BMP and lone carriage returns."
  },
  {
   "property": "C46",
   "status": "partial",
   "theorems": [
    "Hdx.Lsp.C46_partial",
    "Hdx.Lsp.C46_edit_partial",
    "Hdx.Lsp.C46_counterexample_utf16",
    "Hdx.Lsp.C46_counterexample_breaks",
    "Hdx.Lsp.C46_counterexample_line",
    "Hdx.Lsp.C46_counterexample_end"
   ],
   "note": "For every history of notifications on texts without characters outside the BMP and without the line breaks only ropey knows; counterexamples for the rest and for positions beyond the end of a line or text."
  },
  {
   "property": "C47",
   "status": "partial",
   "theorems": [
    "Hdx.Lsp.C47_answered_partial",
    "Hdx.Lsp.C47_counterexample"
   ],
   "note": "Every interleaving of the two threads; always the latest text, at most three steps per operation; a text that parses to no style sheet at all leaves both threads waiting (C47_counterexample)."
  },
  {
   "property": "C48",
   "status": "partial",
   "theorems": [
    "Hdx.C48_balanced_partial",
    "Hdx.C48_counterexample"
   ],
   "note": "Proved for well-bracketed sources of any depth; the code closes a block with any closing bracket (C48_counterexample), so the full property is false."
  },
  {
   "property": "C49",
   "status": "proved",
   "theorems": [
    "Hdx.C49_pair",
    "Hdx.C49_mirror",
    "Hdx.C49_back",
    "Hdx.C49_same"
   ],
   "note": "Every token and every pair; finite case analysis over kinds, with the kind read from arbitrary token bits."
  },
  {
   "property": "C50",
   "status": "proved",
   "theorems": [
    "Hdx.Lsp.C50_latest",
    "Hdx.Lsp.C50_terminates"
   ],
   "note": "Every interleaving of the caller and the worker thread and every sequence of operations whose texts all parse to a style sheet (C47_counterexample is the remaining case)."
  },
  {
   "property": "C51",
   "status": "proved",
   "theorems": [
    "Hdx.Lsp.C51_deltas"
   ],
   "note": "Every text and every list of highlights that start on a character boundary, any length."
  },
  {
   "property": "C52",
   "status": "proved",
   "theorems": [
    "Hdx.C52_cursors"
   ],
   "note": "Every token stream, every accepted An+B."
  },
  {
   "property": "C53",
   "status": "proved",
   "theorems": [
    "Hdx.Lsp.C53_full",
    "Hdx.Lsp.C53_unopened",
    "Hdx.Lsp.C53_others"
   ],
   "note": "Every server state and change event."
  },
  {
   "property": "C54",
   "status": "proved",
   "theorems": [
    "Hdx.Lsp.C54_response",
    "Hdx.Lsp.C54_stays"
   ],
   "note": "Every server state, every further message sequence."
  },
  {
   "property": "C55",
   "status": "proved",
   "theorems": [
    "Hdx.Lsp.C55_number"
   ],
   "note": "All 32-bit integers."
  },
  {
   "property": "C56",
   "status": "proved",
   "theorems": [
    "Hdx.C56_sum_order",
    "Hdx.C56_order",
    "Hdx.C56_add_not_less"
   ],
   "note": "All specificities representable in three bytes."
  },
  {
   "property": "C57",
   "status": "proved",
   "theorems": [
    "Hdx.C57_code_len",
    "Hdx.C57_code_injective"
   ],
   "note": "All units (finite), all stored codes."
  },
  {
   "property": "C58",
   "status": "proved",
   "theorems": [
    "Hdx.C58_boolean",
    "Hdx.C58_discrete",
    "Hdx.C58_ranged"
   ],
   "note": "Every source, start position, feature name, legacy-prefix convention and value parser that writes back what it reads."
  },
  {
   "property": "C59",
   "status": "proved",
   "theorems": [
    "Hdx.C59_accepts",
    "Hdx.C59_rejects"
   ],
   "note": "Every parser position of every source: acceptance and rejection are characterised exactly."
  },
  {
   "property": "C60",
   "status": "partial",
   "theorems": [
    "Hdx.C60_source",
    "Hdx.C60_nothing_lost",
    "Hdx.C60_in_order_partial",
    "Hdx.C60_order_counterexample"
   ],
   "note": "Every source under 64 KiB that parses. Missing: source order for rules mixing declarations and nested rules, for which it is false (C60_order_counterexample)."
  },
  {
   "property": "C61",
   "status": "proved",
   "theorems": [
    "Hdx.C61_component_values",
    "Hdx.C61_declaration",
    "Hdx.C61_bad_declaration",
    "Hdx.C61_rule",
    "Hdx.C61_style_sheet",
    "Hdx.C61_nth",
    "Hdx.C61_block",
    "Hdx.C61_qualified_rule",
    "Hdx.C61_at_rule",
    "Hdx.C61_ranged_feature",
    "Hdx.C61_discrete_feature",
    "Hdx.C61_condition"
   ],
   "note": "Every source and position, success or error, every nesting depth."
  },
  {
   "property": "C62",
   "status": "proved",
   "theorems": [
    "Hdx.C62_node",
    "Hdx.C62_token",
    "Hdx.C62_if_peek_no",
    "Hdx.C62_if_peek_yes",
    "Hdx.C62_optional"
   ],
   "note": "Every parser position, every single-token node."
  },
  {
   "property": "C63",
   "status": "partial",
   "theorems": [
    "Hdx.C63_declaration",
    "Hdx.C63_declaration_parsed",
    "Hdx.C63_important",
    "Hdx.C63_important_parsed",
    "Hdx.C63_at_name",
    "Hdx.C63_at_other_name",
    "Hdx.C63_rule",
    "Hdx.C63_bad_declaration",
    "Hdx.C63_bad_declaration_counterexample",
    "Hdx.C63_bad_declaration_semicolon_counterexample"
   ],
   "note": "Every parser position. False outside: a skipped declaration starting at a closing curly bracket or semicolon (the two counterexamples)."
  },
  {
   "property": "C64",
   "status": "partial",
   "theorems": [
    "Hdx.Lsp.C64_request",
    "Hdx.Lsp.C64_notification",
    "Hdx.Lsp.C64_result_partial",
    "Hdx.Lsp.C64_error_partial",
    "Hdx.Lsp.C64_counterexample"
   ],
   "note": "All messages. Missing: exactly one of result and error, which the code violates on every response (C64_counterexample)."
  },
  {
   "property": "C65",
   "status": "proved",
   "theorems": [
    "Hdx.Lsp.C65_response",
    "Hdx.Lsp.C65_frame",
    "Hdx.Lsp.C65_unknown_field"
   ],
   "note": "All byte streams, given the JSON codec as a parameter; httparse is modelled by its documented header grammar."
  },
  {
   "property": "C66",
   "status": "partial",
   "theorems": [
    "Hdx.C66_parse",
    "Hdx.C66_value_partial",
    "Hdx.C66_exact",
    "Hdx.C66_integer",
    "Hdx.C66_integer_value_partial"
   ],
   "note": "Every decimal text (C66_parse, C66_exact) and every number token of up to the documented length (C66_value_partial). Missing: the token value is the value of the text read by str::parse::<f32>, whose correct rounding is specified, not the algorithm of the standard library."
  },
  {
   "property": "C67",
   "status": "partial",
   "theorems": [
    "Hdx.C67_readable_partial",
    "Hdx.C67_strings_partial",
    "Hdx.C67_counterexample_comment",
    "Hdx.C67_counterexample_backslash",
    "Hdx.C67_decodable_partial",
    "Hdx.C67_punctuation_partial",
    "Hdx.C67_counterexample"
   ],
   "note": "Proved for all sources inside Tame (escapes of ASCII characters only, token lengths that fit their bit fields). C67_decodable_partial: names and numbers. C67_punctuation_partial: colons, commas, brackets, delimiters. C67_strings_partial: strings. C67_readable_partial: the text of every token of every kind, except comments that are not closed (C67_counterexample_comment) and urls whose whitespace does not fit its bit field. False outside Tame: C67_counterexample, C67_counterexample_backslash."
  },
  {
   "property": "C68",
   "status": "partial",
   "theorems": [
    "Hdx.C68_componentValues_partial",
    "Hdx.C68_declaration_partial",
    "Hdx.C68_rule_partial",
    "Hdx.C68_styleSheet_partial",
    "Hdx.C68_entirely_partial",
    "Hdx.C68_nth_partial",
    "Hdx.C68_boolean_partial",
    "Hdx.C68_discrete_partial",
    "Hdx.C68_ranged_partial",
    "Hdx.C68_condition_partial",
    "Hdx.C68_counterexample"
   ],
   "note": "Proved for all Tame sources, from any position between tokens, with any stop set and nesting state. Outside Tame the lexer itself panics: C68_counterexample. Discrete and ranged features are proved for values that are words or single tokens (the framework EatsIf covers any value parser that returns)."
  },
  {
   "property": "C69",
   "status": "proved",
   "theorems": [
    "Hdx.C69_selector_list",
    "Hdx.C69_compound_selector",
    "Hdx.C69_parts",
    "Hdx.C69_counterexample"
   ],
   "note": "Proved for whole lists, compound selectors and the parts. Beyond the statement: a Namespace node (not the prefix) parsed by itself loses the identifier of `a*` (C69_counterexample); inside a selector that case does not arise."
  },
  {
   "property": "C70",
   "status": "partial",
   "theorems": [
    "Hdx.C70_selector_list_partial",
    "Hdx.C70_source_partial",
    "Hdx.C70_any_skip_partial"
   ],
   "note": "Proved for all Tame sources from any position between tokens with the default skip set, and (C70_any_skip_partial) with any skip set without EOF and delimiters if every comment is closed. Missing: sources on which the lexer itself panics (C68_counterexample)."
  },
  {
   "property": "C71",
   "status": "proved",
   "theorems": [
    "Hdx.C71_selector_list",
    "Hdx.C71_counterexample"
   ],
   "note": "Proved for success. After an error the skip set can be left changed: C71_counterexample; the property is stated for success only, but the counterexample is kept as a caution."
  },
  {
   "property": "C72",
   "status": "proved",
   "theorems": [
    "Hdx.C72_list_stops",
    "Hdx.C72_compound_stops"
   ],
   "note": "Proved in full."
  },
  {
   "property": "C73",
   "status": "proved",
   "theorems": [
    "Hdx.C73_selector_list"
   ],
   "note": "Proved in full. The names themselves are tables transcribed from the macros' keys."
  },
  {
   "property": "C74",
   "status": "partial",
   "theorems": [
    "Hdx.C74_commas_partial",
    "Hdx.C74_counterexample"
   ],
   "note": "The commas are proved; that no selector is empty and none follows the last comma is false: C74_counterexample."
  },
  {
   "property": "C75",
   "status": "partial",
   "theorems": [
    "Hdx.C75_leading_partial",
    "Hdx.C75_counterexample"
   ],
   "note": "Proved: no leading descendant combinator. The rest is false: C75_counterexample."
  },
  {
   "property": "C76",
   "status": "partial",
   "theorems": [
    "Hdx.C76_accepts_partial",
    "Hdx.C76_counterexample"
   ],
   "note": "See the theorem for the part of the grammar that is proved; C76_counterexample: `a||b`, `|b` and `[|a]` are rejected, `:lang(en` is rejected at the end of the source."
  },
  {
   "property": "C77",
   "status": "partial",
   "theorems": [
    "Hdx.C77_trivia",
    "Hdx.C77_nothing_lost",
    "Hdx.C77_charset_counterexample",
    "Hdx.C77_not_counterexample",
    "Hdx.C77_values",
    "Hdx.C77_real_values",
    "Hdx.C77_circle_counterexample"
   ],
   "note": "Every source under 64 KiB, with the 341 property definitions css_ast has (C77_real_values), and with any set of property values that keep what they parse (C77_nothing_lost). Missing: sources with a `@charset` without semicolon, with a negated condition, or with a circular `<radial-size>`, for which it is false (C77_charset_counterexample, C77_not_counterexample, C77_circle_counterexample). C77_trivia: the trivia of a style sheet are whitespace and comments only."
  },
  {
   "property": "C79",
   "status": "partial",
   "theorems": [
    "Hdx.C79_style_sheet_partial",
    "Hdx.C79_value_partial",
    "Hdx.C79_definitions_partial",
    "Hdx.C79_types_partial",
    "Hdx.C79_counterexample_radius",
    "Hdx.C79_counterexample_margin",
    "Hdx.C79_counterexample_percentage",
    "Hdx.C79_counterexample_string",
    "Hdx.C79_counterexample_time",
    "Hdx.C79_counterexample_word",
    "Hdx.C79_counterexample_width",
    "Hdx.C79_counterexample_color",
    "Hdx.C79_counterexample_unclosed"
   ],
   "note": "Soundness. Proved for every declaration of every source under 64 KiB and 315 of the 341 properties, against the definitions in css_ast's own text and, for hand-written types, against Spec/CssValues.lean, which marks where hdx accepts more than CSS (as does Spec/ValueSyntax.lean for a <time> without unit). For the macro: for every definition that is Faithful (C79_definitions_partial). Missing: the 26 misreadProperties, and the marked types, for which it is false (C79_counterexample_*); what is inside gradients and stripes() is not specified."
  },
  {
   "property": "C80",
   "status": "partial",
   "theorems": [
    "Hdx.C80_style_sheet",
    "Hdx.C80_counterexample_domain",
    "Hdx.C80_counterexample_keyframes",
    "Hdx.C80_counterexample_layer",
    "Hdx.C80_counterexample_not",
    "Hdx.C80_counterexample_comma",
    "Hdx.C80_counterexample_three",
    "Hdx.C80_counterexample_boolean",
    "Hdx.C80_counterexample_property"
   ],
   "note": "Proved for every source and every rule against Spec/RuleLabels.lean, which marks where hdx accepts more than CSS. Missing: the stricter grammar of CSS at the marked places, for which it is false (C80_counterexample_*); the full grammar of the selectors of style rules is C73 (here: their tags, pseudo-classes and functions), values of declarations C79."
  },
  {
   "property": "C81",
   "status": "proved",
   "theorems": [
    "Hdx.C81_value",
    "Hdx.C81_style_sheet",
    "Hdx.C81_css",
    "Hdx.C81_counterexample_leak",
    "Hdx.C81_counterexample_wide",
    "Hdx.C81_counterexample_important",
    "Hdx.C81_counterexample_acos",
    "Hdx.C81_counterexample_later",
    "Hdx.C81_counterexample_blank"
   ],
   "note": "C81_value characterises all five forms for every parser state and every set of property grammars; C81_style_sheet and C81_css say it for all declarations of a style sheet by the tokens of their values (only the first component value: after a selector that fails, white space is no longer skipped and becomes part of the values, C81_counterexample_leak). The counterexamples show where this decision is not that of CSS: a wide keyword followed by more, !important that becomes part of a value, acos(), a blank at the end of the source."
  },
  {
   "property": "C82",
   "status": "partial",
   "theorems": [
    "Hdx.C82_declaration_partial",
    "Hdx.C82_plain_partial",
    "Hdx.C82_names",
    "Hdx.C82_counterexample_number",
    "Hdx.C82_counterexample_percentage",
    "Hdx.C82_counterexample_options",
    "Hdx.C82_counterexample_lists",
    "Hdx.C82_counterexample_functions",
    "Hdx.C82_counterexample_order"
   ],
   "note": "Proved for 320 of the 341 definitions: for all of them it is computed (in the kernel, over the table) which tokens the parsers may commit on (`infoAt`), and proved once for all definitions that a parser whose alternatives are apart takes all of the language of the definition. Missing: the 21 properties in `narrowProperties` (counterexamples for most), image functions, calc-size(), stripes(), values at the end of the source, and names with escapes whose two readings differ (Clear; C82_plain_partial shows that sources without escapes and capitals in units have none)."
  },
  {
   "property": "C78",
   "status": "proved",
   "theorems": [
    "Hdx.C78_definitions",
    "Hdx.C78_lookup",
    "Hdx.C78_counterexample_three",
    "Hdx.C78_counterexample_twice"
   ],
   "note": "Proved for all definitions of css_ast. C78_counterexample_* show that the reader is wrong for other texts, which css_ast does not contain."
  },
  {
   "property": "C83",
   "status": "partial",
   "theorems": [
    "Hdx.C83_sheet_run_partial",
    "Hdx.C83_sheet_partial",
    "Hdx.C83_counterexample_nested",
    "Hdx.C83_counterexample_dashed",
    "Hdx.C83_counterexample_semicolons",
    "Hdx.C83_counterexample_initial"
   ],
   "note": "Style rules with selectors of C76, declarations with values of C82, CSS-wide keywords, custom properties, computed values (`var()`, `calc()`, ...) or unknown properties with any balanced tokens, and the at-rules `@media` (queries of C84), `@container`, `@layer` (statement and block), `@document`, `@font-face`, `@keyframes`, `@page` with margin rules, and `@property` with `syntax` and `inherits`, nested to any depth: the sheet is parsed without errors into the rules of the tree. Missing: `@supports`, `initial-value` in `@property` (counterexample), `@charset`, the at-rules that hdx does not parse, and the selectors, values and queries that C76, C82 and C84 leave out; nested rules that begin with an ident and a colon, rules that begin with a dashed ident, and at-rules with two semicolons together are read in another way (counterexamples)."
  },
  {
   "property": "C84",
   "status": "partial",
   "theorems": [
    "Hdx.C84_media_partial",
    "Hdx.C84_container_partial",
    "Hdx.C84_counterexample_prefix",
    "Hdx.C84_counterexample_number",
    "Hdx.C84_counterexample_fourth",
    "Hdx.C84_counterexample_apart",
    "Hdx.C84_counterexample_moz",
    "Hdx.C84_counterexample_chain"
   ],
   "note": "All features of the table, ranges, one or two features in a condition, types with `not`/`only`. Missing because hdx does not read them (counterexamples here and in C80, C40): commas between queries, chains of three, `not` before a feature, vendor features with `min`/`max`, four -moz- features whose table entry names the wrong parser (C84_counterexample_moz), numbers without a fraction, container features named after `<=`. Names must be clear (no escapes)."
  },
  {
   "property": "C85",
   "status": "partial",
   "theorems": [
    "Hdx.C85_returns_partial",
    "Hdx.C85_source_partial",
    "Hdx.C85_values_partial",
    "Hdx.C85_counterexample",
    "Hdx.C85_counterexample_unfinished"
   ],
   "note": "False as stated: C85_counterexample is a source on which parsing the sheet panics. Proved (C85_returns_partial, C85_source_partial) for every Tame source, from any position between tokens and with any skip set without delimiters and EOF, in which every comment is closed, urls are short, and no token is one of the four names that lead to unfinished parsers (@page, @container, font-tech(, font-format(): C85_counterexample_unfinished shows that each of the four does make parsing panic or loop. In particular the todo!() of calc-size() is never reached. The statement's hypotheses are Spec.Ready, Spec.Quiet (Props/Returns.lean) and Spec.Calm (Lemmas/Returns.lean)."
  },
  {
   "property": "C86",
   "status": "partial",
   "theorems": [
    "Hdx.C86_truth_partial",
    "Hdx.C86_counterexample_obsolete"
   ],
   "note": "Proved for every Tame source (within the lexer's documented limits, no backslash before a non-ASCII character, // comments ASCII) shorter than 64 KiB. Missing: other sources; and that every obsolete element is shown as Deprecated, which is false (C86_counterexample_obsolete: names that are in two lists, like marquee)."
  },
  {
   "property": "C87",
   "status": "partial",
   "theorems": [
    "Hdx.C87_map",
    "Hdx.C87_apart_partial"
   ],
   "note": "Proved for every Tame source (within the lexer's documented limits, no backslash before a non-ASCII character, // comments ASCII) shorter than 64 KiB. Missing: other sources."
  },
  {
   "property": "C88",
   "status": "partial",
   "theorems": [
    "Hdx.C88_panics",
    "Hdx.C88_counterexample"
   ],
   "note": "False as stated (C88_counterexample: @media and @-webkit-keyframes). Proved for every tree: it panics if and only if the walk comes to one of these two rules, at any depth, and with no other panic; in @-moz-document nothing is walked."
  },
  {
   "property": "C89",
   "status": "partial",
   "theorems": [
    "Hdx.C89_all_partial",
    "Hdx.C89_counterexample"
   ],
   "note": "Proved for every Tame source (within the lexer's documented limits, no backslash before a non-ASCII character, // comments ASCII) shorter than 64 KiB, when the walk returns (C88). ruleShows and walked in Spec/Highlight.lean say what is shown. Missing: other sources, and what is never shown (C89_counterexample: namespaced tags, arguments of pseudo-classes, @font-face, rules in @-moz-document)."
  },
  {
   "property": "C90",
   "status": "partial",
   "theorems": [
    "Hdx.C90_reply_partial",
    "Hdx.C90_protocol_partial",
    "Hdx.C90_any_order_partial",
    "Hdx.C90_counterexample_length",
    "Hdx.C90_counterexample_silent"
   ],
   "note": "Proved for every Tame source (within the lexer's documented limits, no backslash before a non-ASCII character, // comments ASCII) shorter than 64 KiB when there is a style sheet and the walk returns; that positions and lengths are those of the protocol only for ASCII sources without lone carriage returns (C90_protocol_partial); for others false (C90_counterexample_length, C45_counterexample). C90_counterexample_silent: a source to which there is no reply."
  },
  {
   "property": "C91",
   "status": "partial",
   "theorems": [
    "Hdx.C91_in_order_partial",
    "Hdx.C91_values",
    "Hdx.C91_real_values_partial",
    "Hdx.C91_counterexample_declaration_after_rule",
    "Hdx.C91_counterexample_any_order"
   ],
   "note": "C91_in_order_partial (any values that keep their order) and C91_real_values_partial (the 341 properties of css_ast, with C91_values proved for all of them). Partial because the property fails for declarations after rules and for values written in the definition's order (two counterexample theorems), and the hypotheses exclude exactly those, besides C77's exclusions; brackets are compared up to position, since a block's closing bracket is stored without one."
  },
  {
   "property": "C92",
   "status": "partial",
   "theorems": [
    "Hdx.C92_build_partial",
    "Hdx.C92_in_order_partial",
    "Hdx.C92_counterexample",
    "Hdx.C92_again_partial",
    "Hdx.C92_again_in_order_partial"
   ],
   "note": "Proved for texts under 64 KiB within the lexer's limits (Tame) and style sheets whose tree keeps its tokens (WholeAll NoCircle; in order: WholeAll keepsOrder and InOrderAll). The last sentence is false: C92_counterexample (a declaration after a nested rule is moved before it with no semicolon between them; `1px -0` is written `1px-0`). C92_again_partial and C92_again_in_order_partial: where no two neighbours meet one of C28's exceptions and numbers are written as they stood, the text that is written is lexed to the same tokens, with a whitespace token where a space was put in."
  },
  {
   "property": "C93",
   "status": "partial",
   "theorems": [
    "Hdx.C93_lex_partial",
    "Hdx.C93_unit",
    "Hdx.C93_names"
   ],
   "note": "Proved for sources within the lexer's limits (Tame); the conversion to JavaScript values is not modelled."
  },
  {
   "property": "C94",
   "status": "partial",
   "theorems": [
    "Hdx.C94_minify_partial",
    "Hdx.C94_refused"
   ],
   "note": "Proved for sources under 64 KiB."
  },
  {
   "property": "C95",
   "status": "partial",
   "theorems": [
    "Hdx.C95_not_silent",
    "Hdx.C95_points_partial",
    "Hdx.C95_counterexample"
   ],
   "note": "Proved for sources under 64 KiB within the lexer's limits (Tame). The end of a BadDeclaration is wrong: it is the place of the custom property plus the length of the token before it, and may lie behind the end of the source (C95_counterexample). The errors without a label (UnexpectedEnd, UnexpectedCloseCurly) are shown never to be the only ones."
  },
  {
   "property": "C96",
   "status": "partial",
   "theorems": [
    "Hdx.C96_answered_partial",
    "Hdx.C96_counterexample",
    "Hdx.Lsp.C96_replies",
    "Hdx.Lsp.C96_ending",
    "Hdx.Lsp.C96_terminates"
   ],
   "note": "C96_replies, C96_ending and C96_terminates are complete: any parser, any highlighter, any interleaving. C96_answered_partial puts C46, C90 and the threads together, for ASCII texts that can be highlighted; C96_counterexample shows the sessions that end early (@media is answered with nothing and then ends the session for all documents; a text without a style sheet makes the server wait for ever). Endless loops of the parser are modelled as threads that never come back."
  },
  {
   "property": "C97",
   "status": "partial",
   "theorems": [
    "Hdx.Lsp.C97_in_order",
    "Hdx.Lsp.C97_quiet",
    "Hdx.Lsp.C97_trace_values",
    "Hdx.Lsp.C97_level",
    "Hdx.Lsp.C97_lost_partial",
    "Hdx.Lsp.C97_rest",
    "Hdx.Lsp.C97_terminates",
    "Hdx.Lsp.C97_exit",
    "Hdx.Lsp.C97_lost_exit_partial",
    "Hdx.Lsp.C97_counterexample_lost",
    "Hdx.Lsp.C97_counterexample_exit"
   ],
   "note": "Proved: the order of the responses, what else is written, the trace level, how the threads come to rest, the bound on their steps, and when the process is over. Partial: replies may be lost at the end of the process (C97_lost_partial bounds them by two, C97_lost_exit_partial by one after `exit`; C97_counterexample_lost loses two), and `exit` does not end the process (C97_counterexample_exit). Panics of the handler are in C96, not here."
  },
  {
   "property": "C98",
   "status": "partial",
   "theorems": [
    "Hdx.C98_sound",
    "Hdx.C98_kept",
    "Hdx.C98_returns_partial",
    "Hdx.C98_stripes_partial",
    "Hdx.C98_symbols_partial",
    "Hdx.C98_names_partial",
    "Hdx.C98_counterexample"
   ],
   "note": "Proved for all positions of all sources: what is accepted (C98_sound), and that the tree keeps the tokens (C98_kept). Partial: it returns on the sources of C85 (C98_returns_partial); all of stripes(), symbols() of strings and urls, and names are taken when names are clear (C98_stripes_partial, C98_symbols_partial, C98_names_partial). C98_counterexample: predefined styles that are misspelt or missing in the code's list, and an empty symbols()."
  },
  {
   "property": "C99",
   "status": "partial",
   "theorems": [
    "Hdx.C99_variant",
    "Hdx.C99_builds",
    "Hdx.C99_number",
    "Hdx.C99_sign",
    "Hdx.C99_as_i32",
    "Hdx.C99_zero_partial",
    "Hdx.C99_accepts_partial",
    "Hdx.C99_counterexample_zero",
    "Hdx.C99_counterexample_x"
   ],
   "note": "C99_variant, C99_builds, C99_number and C99_sign are whole, for tokens whose name is read as written (Clear). C99_accepts_partial: every unit but `x` of resolutions. Counterexamples: is_zero is true of 5px (it compares with >=), and 1x is not a resolution. C99_as_i32: the conversion of a number token to i32 truncates and saturates."
  },
  {
   "property": "C100",
   "status": "partial",
   "theorems": [
    "Hdx.C100_sheet_partial",
    "Hdx.C100_apart_partial",
    "Hdx.C100_counterexample_bracket"
   ],
   "note": "The theorems are for whole style sheets. Missing: blocks of unknown at-rules with rules in them or with a last declaration without semicolon, at-rules of a known name that are broken, broken qualified rules, and preludes that end with the source. C100_counterexample_bracket: an unmatched closing bracket, or a broken string, in the prelude of an unknown at-rule loses the whole sheet."
  }
 ]
}