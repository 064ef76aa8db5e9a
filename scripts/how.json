{
 "C01": {
  "model": "Lexer",
  "how": "induction over the text for every sub-consumer, then over the number of tokens"
 },
 "C02": {
  "model": "Lexer",
  "how": "case analysis of the dispatcher; each branch consumes at least one character"
 },
 "C03": {
  "model": "Lexer",
  "how": "invariant of the lexer state"
 },
 "C04": {
  "model": "Lexer",
  "how": "every slice offset shown to be a sum of character lengths; counterexamples by evaluation"
 },
 "C05": {
  "model": "Lexer",
  "how": "simulation between two lexers whose remaining texts agree; induction over advances"
 },
 "C06": {
  "model": "Lexer",
  "how": "induction over the run of whitespace"
 },
 "C07": {
  "model": "Lexer",
  "how": "induction over the comment text against a first-occurrence specification"
 },
 "C08": {
  "model": "Lexer",
  "how": "induction over the line"
 },
 "C09": {
  "model": "Lexer",
  "how": "induction against an inductive string grammar (Spec/Lexical)"
 },
 "C10": {
  "model": "Lexer",
  "how": "induction against an inductive name grammar; maximality by the grammar's follow condition"
 },
 "C11": {
  "model": "Lexer",
  "how": "induction over the name with the flags as accumulated state"
 },
 "C12": {
  "model": "Lexer, F32",
  "how": "induction over digit runs; number grammar as an inductive predicate"
 },
 "C13": {
  "model": "UnitTrie, DimensionUnit",
  "how": "exhaustive evaluation of the trie (kernel) lifted to all letter cases and all other texts"
 },
 "C14": {
  "model": "DimensionUnit",
  "how": "finite case analysis over all units"
 },
 "C15": {
  "model": "Lexer",
  "how": "case analysis of the keyword scan over all texts"
 },
 "C16": {
  "model": "Lexer",
  "how": "induction over the url body against an inductive grammar"
 },
 "C17": {
  "model": "Token",
  "how": "BitVec/Nat shift and mask lemmas, per constructor"
 },
 "C18": {
  "model": "Token",
  "how": "bit lemmas for arbitrary tokens, then case analysis over kinds"
 },
 "C19": {
  "model": "Token (kindset)",
  "how": "bitwise extensionality; induction over kind lists"
 },
 "C20": {
  "model": "Token, Lexer",
  "how": "evaluation of the lexer on the token's text, in every continuation"
 },
 "C21": {
  "model": "Token",
  "how": "per-kind case analysis over arbitrary lengths"
 },
 "C22": {
  "model": "Cursor",
  "how": "induction over the text against a direct recursive decoder (Spec/Decode)"
 },
 "C23": {
  "model": "Cursor",
  "how": "simulation of the two decoders"
 },
 "C24": {
  "model": "Cursor",
  "how": "induction over the text and the literal in step"
 },
 "C25": {
  "model": "Cursor, Lexer",
  "how": "case analysis of both escape readers on the same text"
 },
 "C26": {
  "model": "Cursor (span.rs)",
  "how": "order reasoning"
 },
 "C27": {
  "model": "Cursor (span.rs, source_offset.rs)",
  "how": "induction over the text"
 },
 "C28": {
  "model": "Token, Lexer, Sink",
  "how": "first-token relation; each pair of neighbours analysed, then induction over the sequence"
 },
 "C29": {
  "model": "Token",
  "how": "decision table over token classes, both directions"
 },
 "C30": {
  "model": "Sink",
  "how": "induction over the appended cursors with a failing writer as a parameter"
 },
 "C31": {
  "model": "Sink",
  "how": "invariant of the vector under append"
 },
 "C32": {
  "model": "Parser",
  "how": "the peek is the same run of the lexer as the step; induction over skipped tokens"
 },
 "C33": {
  "model": "Parser, Prog",
  "how": "invariant: returned ++ trivia is a prefix of the token stream; induction over programs"
 },
 "C34": {
  "model": "Parser",
  "how": "state equality after rewind; arithmetic of the truncated counters"
 },
 "C35": {
  "model": "Parser, Prog",
  "how": "induction over programs"
 },
 "C36": {
  "model": "Parser, Prog",
  "how": "induction over programs and the remaining tokens"
 },
 "C37": {
  "model": "Specificity",
  "how": "bit lemmas; induction over sums"
 },
 "C38": {
  "model": "Nth",
  "how": "symbolic execution over streams of arbitrary content (Ahead), both directions"
 },
 "C39": {
  "model": "Grammar",
  "how": "induction over fuel/tree: written tokens = consumed tokens"
 },
 "C40": {
  "model": "Features",
  "how": "symbolic execution with the feature parser as a parameter"
 },
 "C41": {
  "model": "Lsp/ErrorCode",
  "how": "case analysis, all integers"
 },
 "C42": {
  "model": "Lsp/Message",
  "how": "codec law; induction over the message sequence; JSON text codec is a parameter with a round-trip hypothesis"
 },
 "C43": {
  "model": "Lsp/Server",
  "how": "induction over the message sequence"
 },
 "C44": {
  "model": "Lsp/Server",
  "how": "invariant of the initialised flag"
 },
 "C45": {
  "model": "Lsp/Document",
  "how": "induction over highlights and text"
 },
 "C46": {
  "model": "Lsp/Document",
  "how": "simulation between rope and protocol text; induction over the history"
 },
 "C47": {
  "model": "Lsp/Server",
  "how": "labelled transition system; invariant and a decreasing measure"
 },
 "C48": {
  "model": "Grammar",
  "how": "induction over well-bracketed token trees"
 },
 "C49": {
  "model": "Token",
  "how": "case analysis"
 },
 "C50": {
  "model": "Lsp/Server",
  "how": "invariant over the transition system, decreasing measure"
 },
 "C51": {
  "model": "Lsp/Document",
  "how": "induction over highlights"
 },
 "C52": {
  "model": "Nth",
  "how": "symbolic execution"
 },
 "C53": {
  "model": "Lsp/Document, Lsp/Server",
  "how": "case analysis of the handler"
 },
 "C54": {
  "model": "Lsp/Server",
  "how": "induction over messages"
 },
 "C55": {
  "model": "Lsp/ErrorCode",
  "how": "case analysis"
 },
 "C56": {
  "model": "Specificity",
  "how": "lexicographic order; bit lemmas"
 },
 "C57": {
  "model": "DimensionUnit",
  "how": "finite case analysis"
 },
 "C58": {
  "model": "Features",
  "how": "symbolic execution; `Writes` predicate composed along the program"
 },
 "C59": {
  "model": "Features",
  "how": "symbolic execution"
 },
 "C60": {
  "model": "Rules",
  "how": "mutual induction over fuel: written ++ dropped is the token stream"
 },
 "C61": {
  "model": "Grammar, Rules, Nth, Features",
  "how": "compositional `KeepsModes` predicate"
 },
 "C62": {
  "model": "Parser, Prog",
  "how": "symbolic execution, all token predicates"
 },
 "C63": {
  "model": "Rules, Grammar",
  "how": "symbolic execution; exactness in both directions"
 },
 "C64": {
  "model": "Lsp/Message",
  "how": "case analysis of the encoder"
 },
 "C65": {
  "model": "Lsp/Message",
  "how": "induction over header lines; byte accounting"
 },
 "C66": {
  "model": "F32",
  "how": "rational arithmetic: nearest representable, ties to even; induction over digits"
 },
 "C67": {
  "model": "Model/Cursor.lean (parse_str, parse_str_lower, eq_ignore_ascii_case with their slices as checked operations), Model/Lexer.lean",
  "how": "Each scanner's result is decomposed (name, number, unit) and shown to give an `Inner` split of the source at character boundaries; the three loops are total on any text made of units (`inner_total`)."
 },
 "C68": {
  "model": "Model/Grammar.lean, Model/Rules.lean, Model/Nth.lean, Model/Features.lean; loops take fuel and panic with `diverges` when it runs out",
  "how": "`EatsIf src n P x`: with fewer than n tokens left, x returns, never ends before where it began, and consumes a token when its result is in P; closed under every combinator, so each parser's fuel is shown to suffice by induction on the tokens left."
 },
 "C69": {
  "model": "Model/Selectors.lean, Model/SelectorNames.lean; every taken cursor is logged",
  "how": "`Sound`: induction on fuel, following each parser with a weakest-precondition calculus for successful runs (`Succ`, Lemmas/Wp.lean); backtracking drops the log of the abandoned part. The skip set of the state matters: what was seen with comments skipped is what is taken with trivia skipped (`next_skip`)."
 },
 "C70": {
  "model": "Model/Selectors.lean, Model/SelectorNames.lean",
  "how": "`Goes`/`EatsT`: as C68, extended by the skip set. The loop over the list makes progress because a compound selector that consumed nothing stands before a comma, which is then taken (`compoundSelector_stops`, `same_next`)."
 },
 "C71": {
  "model": "Model/Selectors.lean, Model/SelectorNames.lean",
  "how": "The second half of `Sound`."
 },
 "C72": {
  "model": "Model/Selectors.lean, Model/SelectorNames.lean",
  "how": "Induction on the fuel of the two loops: the only ways out."
 },
 "C73": {
  "model": "Model/Selectors.lean, Model/SelectorNames.lean",
  "how": "`Label`, `CompoundLabel`, `ListLabel` are the specification; `Says`/`SaysT` carries it through each parser, with induction on fuel for nesting."
 },
 "C74": {
  "model": "Model/Selectors.lean, Model/SelectorNames.lean",
  "how": "A selector without a comma stands where the list ends, by C72, so it is the last."
 },
 "C75": {
  "model": "Model/Selectors.lean, Model/SelectorNames.lean",
  "how": "After consume_trivia the lexer stands before a token outside the skip set (`consumeTriviaLoop_at`), so the first component cannot be whitespace."
 },
 "C76": {
  "model": "Model/Selectors.lean, Model/SelectorNames.lean",
  "how": "Evaluation of the parser along the token stream, by induction on the list of pieces."
 },
 "C77": {
  "model": "Model/AtRules.lean, Model/Lists.lean, Model/Properties.lean, Model/Media.lean, Model/ValueDef.lean, Model/Images.lean, Model/Definitions.lean",
  "how": "A calculus of what a parser takes and what its tree writes (Lemmas/Saves, Lemmas/Kept, Lemmas/ValueSaves), followed through every rule parser, every combinator of the value definitions and every hand-written type; induction on fuel for nesting."
 },
 "C79": {
  "model": "Model/ValueDef.lean, Model/Definitions.lean, Model/Images.lean, Model/Properties.lean, Model/AtRules.lean",
  "how": "Spec/ValueSyntax.lean states which token lists match a definition, from css-values-4; a calculus of the tokens a parser takes (Lemmas/Reads) follows every combinator of the macro; induction on how deep types refer to others; then Lemmas/EveryDeclaration carries it to every declaration of a style sheet, with its place in the token stream."
 },
 "C80": {
  "model": "Model/AtRules.lean, Model/Media.lean, Model/Features.lean, Model/Lists.lean",
  "how": "Spec/RuleLabels.lean states for each label what its tokens are, with its own table of media features; a calculus of what a parser's results say about the source (Says) follows every rule parser, by induction on fuel; the table in the code agrees row by row with that of the specification."
 },
 "C81": {
  "model": "Model/Properties.lean (styleValue, typedValue, valueEnds, rawValue), Model/Definitions.lean (realValues)",
  "how": "Inversion of the program; determinism of programs gives the negative part (no grammar would have taken a value); that value parsers keep the modes of the parser (Lemmas/ValueModes.lean) gives that the tokens of an unknown value begin where the typed attempt began."
 },
 "C82": {
  "model": "Model/ValueDef, Model/Definitions, Model/Images, Model/Properties (macro-generated and hand-written parsers of values), Model/Lists (declarations)",
  "how": "Spec/ValueSyntax defines what a list of tokens must be to match a definition. For every definition the sets of tokens it may begin with, and of tokens on which an optional part would go on, are computed (`defInfo`, Lemmas/CompleteDefs); if the sets of neighbouring parts are apart, the deterministic parser takes every matching list and stops after it (`defInfo_complete`, by induction on definitions and on the matching). `decide +kernel` over the table of 341 rows shows that this is so for 320 of them. Lemmas/ClearTokens: names of tokens of plain sources are clear."
 },
 "C78": {
  "model": "Model/Definitions (defTokens, readDef, Def.combine, the table of definitions)",
  "how": "Spec/DefSyntax is the grammar of the notation, on texts, with levels of tightness. A checker that goes through definition and text together is proved sound for the grammar (by induction on definitions), and evaluated by the kernel on all rows of the table."
 },
 "C83": {
  "model": "Model/AtRules `cssStyleSheet`, `cssRule`, `styleRule`, `knownAtRule` and the at-rules, Model/Rules `blockLoop`, `isDeclaration`, `atRule`, `qualifiedRule`, Model/Lists, Model/Properties `property`; grammar as trees over tokens in Spec/SheetSyntax, Spec/AtRuleSyntax, Spec/DeclSyntax, Spec/RawValues",
  "how": "Lemmas/Steps: a triple `Steps` that says how a program moves from one token list to another, with comments and whitespace in between; mutual induction on the tree of rules, blocks and lists; parse_entirely by C36. Raw values (Lemmas/Raw, Lemmas/Walks) by induction on the balanced tokens, with fuel for the rest of the source. At-rules without rules in them on token lists (Lemmas/ListWalks, Lemmas/AtRuleWalks), what is before a block in Lemmas/GroupWalks."
 },
 "C84": {
  "model": "Model/Features `comparison`, `discreteFeature`, `rangedFeature`, `condition`; Model/Media `MEDIA_FEATURES`, `mediaFeature`, `mediaQuery`, `containerFeature`, `containerCondition`; Model/Lists `preludeList`; grammar in Spec/MediaSyntax over the labels of Spec/RuleLabels",
  "how": "Lemmas/MediaYields: each parser yields the part whose tokens are ahead (`Yields`), by cases on the part; the lookahead by `On.peekN`, adjacent tokens by `On.touch` (Lemmas/Touch); the table of hdx is compared with the table of CSS by the kernel."
 },
 "C85": {
  "model": "Model/AtRules.lean (cssStyleSheet over realValues) and everything it uses: Properties, Lists, Media, ValueDef, Images, Definitions, Selectors, Nth, Grammar, Parser, Lexer",
  "how": "`EatsIf` (Lemmas/Returns.lean), a program logic for programs that return and use up tokens, over a `Text` that may be strict: in a strict text all tokens can be read. Lemmas/SelectorStrict.lean: selectors with any skip set; ValueStrict.lean to ValueStrict4.lean: a decidable check of the definitions (`Def.parserOk`), proved sound and evaluated on the table of 341; RuleStrict.lean: rules, at-rules, preludes, blocks (a block's loop stops at its `}` even where an item uses up nothing). The counterexamples are evaluated in the kernel."
 },
 "C86": {
  "model": "Model/Highlight.lean over the trees of Model/AtRules.lean",
  "how": "Lemmas/Marks.lean and VisitMarks.lean: the cursors that a visit keeps are cursors of the tree in order; with C80 (labels) and C77 (nothing lost) they are tokens of the source; Spec/Highlight.lean states what each type and modifier of the legend says about them."
 },
 "C87": {
  "model": "Model/Highlight.lean",
  "how": "the marks of a sheet are distinct tokens, in the order of the source within each part, hence their spans are apart; then insert never replaces an entry (SheetFacts.entries_eq)."
 },
 "C88": {
  "model": "Model/Highlight.lean (sheetVisits with the todo!() of Visitable)",
  "how": "mutual induction over rules and lists of rules."
 },
 "C89": {
  "model": "Model/Highlight.lean",
  "how": "mutual induction over rules: what is visited is, up to order, what Spec.walkedAll and Spec.ruleShows say (Lemmas/Visits.lean); with C87 no entry is lost."
 },
 "C90": {
  "model": "Model/Highlight.lean (highlightReply, semanticTokens), Lsp/Document",
  "how": "C51 on the highlights of C87, which start on character boundaries; order of a sorted list of distinct spans is unique; Understood states what a client makes of the reply."
 },
 "C91": {
  "model": "The css_ast tree of Model/AtRules.lean, Model/Lists.lean, Model/Definitions.lean and what it writes (CssRule.cursorsOf); the conditions are Spec/CssText.lean (WholeAll, InOrderAll) and Spec/ValueOrder.lean (Straight).",
  "how": "Induction over the parser programs: each relates the tokens it took to the tokens its result writes, and, when the taken tokens have increasing positions, that the written ones are a subsequence of them (Kept true). For `||`/`&&` definitions the values found are compared by position (Grown). The lexer gives increasing positions (LexedUntil_offsets)."
 },
 "C92": {
  "model": "Model/Build.lean over Model/AtRules.lean, Model/Definitions.lean and Model/Sink.lean; Spec/Build.lean; Spec/Separate.lean for what the output is lexed to",
  "how": "From nothing_lost (C77, C91), the fact that the loop over the rules only ends where nothing but tokens to skip is left, the fact that only whitespace and comments are ever skipped (class Tidy, inferred over the text of every parser), and what the sink writes for each token (C30). What the output is lexed to follows from C28 for whole texts (Props/BuildAgain.lean)."
 },
 "C93": {
  "model": "Model/Wasm.lean; Spec/Wasm.lean (Tiles)",
  "how": "Induction over the source with advance_tame (C01-C03)."
 },
 "C94": {
  "model": "Model/Wasm.lean, Model/Build.lean",
  "how": "From C36_rest, and the fact that the loop over the rules only succeeds where nothing but tokens to skip is left: then there are no errors."
 },
 "C95": {
  "model": "Model/Wasm.lean; Spec/Wasm.lean (OfSource)",
  "how": "Only the generic rules' errors reach the caller (the parsers for known rules are tried and undone). Lemmas/Blames.lean follows each of them: what a failing program says of its diagnostic and of the parser it leaves behind, with rules only begun before the end of the source."
 },
 "C96": {
  "model": "Model/Lsp/Session.lean (handler and all document threads with rendezvous channels, panics and endless loops), Model/Lsp/RealSession.lean; Spec/LspSession.lean (the server without threads)",
  "how": "An invariant over all interleavings: the replies sent and what the sequential server would still reply are together what it replies in all; the states without a step are the ends it names; a measure bounds the number of steps. Then induction over the messages, with C46 for the text and C90 for the tokens."
 },
 "C97": {
  "model": "Model/Lsp/Threads: the three threads, the two channels of capacity zero, the trace level, the main thread that joins the reader only; over the handler of Model/Lsp/Server",
  "how": "an invariant: the replies to all messages are the responses written, then what the writer holds, then what the handler holds, then the replies to the messages to come; a weight for the number of steps"
 },
 "C98": {
  "model": "Model/Counters (counter_style.rs, symbols.rs), Model/Images (image_1d.rs)",
  "how": "Reads, Saves, Eats and Yields: the program logics of the other values; induction on the list of stripes or symbols"
 },
 "C99": {
  "model": "Model/Quantities: Peek, Build, f32 and Cursor conversions and the sign tests of the types in css_ast/src/units; Model/Media isDimensionOf with the names of the macros. NaN does not occur: no number token has it.",
  "how": "Each test and each builder is characterised by the same predicate on the token, then the chains by induction; sign tests on the bits against the number that the bits stand for."
 },
 "C100": {
  "model": "Model/Rules atRule, optionalBlock, genericAtRule; Model/AtRules knownAtRule, atCssRule, unknownAtRule, cssStyleSheet.",
  "how": "Spec/UnknownRules: sheets of known rules (the trees of C83) and unknown at-rules, and what they become. The prelude is read with the loop of component values (Lemmas/Raw) under the stop set of at-rules; a name outside the table has no parser or one that fails at once and is undone; then induction over the sheet with the step lemmas of C83."
 }
}