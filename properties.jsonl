{"id": "C01", "title": "IntervalSet membership follows the add history", "statement": "After any sequence of add_one/add_range/add_interval/add_set calls on a fresh IntervalSet, contains(x) is true exactly when x lies in one of the (non-reversed) ranges that were added.", "quantifier": "every finite history of add calls with arbitrary integer bounds, and every queried integer x", "why_tests_cant": "Membership after merging depends on how each new range overlaps the whole list built so far; tests sample a handful of histories while the merging cases grow with the number of stored intervals.", "anchors": ["src/interval_set.rs:IntervalSet::add_interval", "src/interval_set.rs:IntervalSet::add_set", "src/interval_set.rs:IntervalSet::contains"]}
{"id": "C02", "title": "IntervalSet stays canonical, so length() counts elements", "statement": "After any sequence of adds the stored intervals are sorted, pairwise disjoint and non-adjacent; hence length() is the number of distinct integers in the set and two sets with the same elements compare equal.", "quantifier": "every finite history of add calls", "why_tests_cant": "It is an invariant over all histories; a single bad merge order is enough to break it and cannot be excluded by examples.", "anchors": ["src/interval_set.rs:IntervalSet::add_interval", "src/interval_set.rs:IntervalSet::length"]}
{"id": "C03", "title": "IntervalSet::substract is set difference", "statement": "For canonical sets a and b, after a.substract(&b) an integer is a member of a exactly when it was a member of a and is not a member of b, and a is still sorted and disjoint; the loop terminates.", "quantifier": "every pair of canonical interval sets and every integer", "why_tests_cant": "Two-cursor loop over unbounded lists with in-place insert/remove; correctness needs a loop invariant.", "anchors": ["src/interval_set.rs:IntervalSet::substract"]}
{"id": "C04", "title": "IntervalSet::complement", "statement": "s.complement(lo, hi) contains exactly the integers of lo..=hi that are not in s; complementing twice within the same bounds gives s restricted to the bounds.", "quantifier": "every canonical set, all bounds lo, hi, every integer", "why_tests_cant": "Quantifies over all sets and integers.", "anchors": ["src/interval_set.rs:IntervalSet::complement"]}
{"id": "C05", "title": "IntervalSet::remove_one removes exactly one element", "statement": "On a canonical non-read-only set, remove_one(e) makes e a non-member, leaves the membership of all other integers unchanged and keeps the set sorted and disjoint; on a read-only set it panics and never silently alters the set.", "quantifier": "every canonical set and every integer e", "why_tests_cant": "The loop edits the vector while iterating and calls add_range in the middle; only an inductive argument covers every position and set size.", "anchors": ["src/interval_set.rs:IntervalSet::remove_one"]}
{"id": "C06", "title": "IntervalSet queries agree with the mathematical set", "statement": "For a sorted disjoint set, contains (binary search) is true exactly for elements, get_min is the least element or None when empty, and to_token_string names every element exactly once in increasing order.", "quantifier": "every sorted disjoint interval list, every integer, every vocabulary", "why_tests_cant": "Binary search correctness for all lengths.", "anchors": ["src/interval_set.rs:IntervalSet::contains", "src/interval_set.rs:IntervalSet::get_min", "src/interval_set.rs:IntervalSet::to_token_string"]}
{"id": "C07", "title": "Code-unit input streams: lookahead reads the data at the cursor", "statement": "For slice-backed input streams, at index i, la(k) for k>0 is data[i+k-1] or EOF past the end; la(-k) is data[i-k] or EOF before the start; consume advances by one and makes the old la(1) the new la(-1); consume at the end panics; no la call changes the stream.", "quantifier": "all data of any length, all indices, all offsets", "why_tests_cant": "Universal over data, position and offset.", "anchors": ["src/input_stream.rs:InputStream::la", "src/input_stream.rs:InputStream::consume", "src/char_stream.rs:InputData for [T]"]}
{"id": "C08", "title": "str input streams walk whole characters", "statement": "For str-backed input streams positioned at a character boundary, la(k) is the k-th character ahead, la(-k) the k-th behind (EOF outside), consume moves exactly past one character, and repeated consume visits every character of the text once, in order, whatever their UTF-8 widths.", "quantifier": "every UTF-8 text, every character boundary, every offset", "why_tests_cant": "Multi-byte width combinations are unbounded; tests use one or two strings.", "anchors": ["src/char_stream.rs:InputData for str", "src/input_stream.rs:InputStream::la", "src/input_stream.rs:InputStream::consume"]}
{"id": "C09", "title": "get_text returns exactly the requested characters", "statement": "get_text(start, stop) on token-aligned positions returns precisely the characters from the one at start up to and including the one at stop; hence adjacent ranges concatenate to the enclosing range, and the EOF range (size, size-1) yields the empty text.", "quantifier": "every text, every pair of character positions start <= stop+1", "why_tests_cant": "Slicing depends on widths of the character at stop; universal over texts.", "anchors": ["src/input_stream.rs:InputStream::get_text_inner"]}
{"id": "C10", "title": "seek(index()) restores an input stream", "statement": "For any operations performed in between, seeking to a previously returned index puts the stream in the identical state, so all later lookahead answers coincide.", "quantifier": "every stream, every sequence of operations between index() and seek()", "why_tests_cant": "Quantifies over all operation sequences.", "anchors": ["src/input_stream.rs:InputStream::seek", "src/input_stream.rs:InputStream::index"]}
{"id": "C11", "title": "Iterating an IntStream ends with None", "statement": "Iterating a stream through its iterator wrapper yields every remaining symbol in order and then None.", "quantifier": "every stream content and position", "why_tests_cant": "A liveness/termination claim for all contents.", "anchors": ["src/int_stream.rs:IterWrapper::next"]}
{"id": "C12", "title": "Token stream is the token source, numbered consecutively, with one EOF at the end", "statement": "Whatever sequence of lookahead, consume, mark, release and seek calls is made, the tokens handed out by an unbuffered token stream are the tokens of the source in order, token number n carries token index n, nothing is fetched after the first EOF, and the EOF token is the last one.", "quantifier": "every token source and every sequence of stream operations", "why_tests_cant": "Invariant over all operation histories.", "anchors": ["src/token_stream.rs:UnbufferedTokenStream::fill", "src/token_stream.rs:UnbufferedTokenStream::sync"]}
{"id": "C13", "title": "Token lookahead is pure and consistent", "statement": "la/lt never change index(); lt(k) for k>0 is the token k-1 places after the current one (EOF once past the end) independently of what was looked at earlier; after consume, lt(-1) is the token that was lt(1).", "quantifier": "every source, every reachable stream state, every k", "why_tests_cant": "Depends on arbitrary earlier buffering history.", "anchors": ["src/token_stream.rs:UnbufferedTokenStream::lt", "src/token_stream.rs:UnbufferedTokenStream::consume"]}
{"id": "C14", "title": "mark/seek/release backtracking", "statement": "Between mark and release every position at or after the mark that has already been reached can be sought, and after seeking back the stream delivers exactly the same tokens again; releasing markers in LIFO order never panics.", "quantifier": "every source and every well-nested history of mark/consume/lookahead/seek/release", "why_tests_cant": "Speculative parsing histories are unbounded and interleave with buffer trimming.", "anchors": ["src/token_stream.rs:UnbufferedTokenStream::mark", "src/token_stream.rs:UnbufferedTokenStream::release", "src/token_stream.rs:UnbufferedTokenStream::seek"]}
{"id": "C15", "title": "Token stream text of an interval", "statement": "get_text_from_interval(a,b) inside the buffered window is the concatenation of the texts of the tokens a..=b up to (excluding) EOF; outside the window it panics rather than returning wrong text.", "quantifier": "every buffer window and every interval", "why_tests_cant": "Universal over windows and intervals.", "anchors": ["src/token_stream.rs:UnbufferedTokenStream::get_text_from_interval"]}
{"id": "C16", "title": "The parser sees only tokens of its channel", "statement": "For a CommonTokenStream on channel c, lt(1), and lt(k) for all k>=1, is always either EOF or a token whose channel is c, in every state reachable by consume, lookahead and seeking back to recorded positions.", "quantifier": "every token source and every reachable stream state", "why_tests_cant": "Hidden tokens may appear anywhere, in any number; the claim concerns all histories.", "anchors": ["src/common_token_stream.rs:CommonTokenStream::with_channel", "src/common_token_stream.rs:CommonTokenStream::consume", "src/common_token_stream.rs:CommonTokenStream::lt"]}
{"id": "C17", "title": "CommonTokenStream skips nothing", "statement": "Successive lt(1)/consume steps deliver all on-channel tokens of the source, each once and in source order, then EOF; lt(k) equals the lt(1) obtained after k-1 consumes; consume at EOF panics; index strictly increases.", "quantifier": "every token source, every k", "why_tests_cant": "Universally quantified over streams and lookahead depth.", "anchors": ["src/common_token_stream.rs:CommonTokenStream::lt_inner", "src/common_token_stream.rs:CommonTokenStream::next_token_on_channel", "src/common_token_stream.rs:CommonTokenStream::consume"]}
{"id": "C18", "title": "CommonTokenStream look-behind", "statement": "lt(-k) is the k-th previous on-channel token, and None if there are fewer than k of them; it never panics.", "quantifier": "every token source, reachable position and k>0", "why_tests_cant": "Boundary behaviour depends on the hidden-token pattern before the cursor.", "anchors": ["src/common_token_stream.rs:CommonTokenStream::lb"]}
{"id": "C19", "title": "CommonTokenStream backtracking is lossless", "statement": "Seeking a CommonTokenStream back to any earlier index() restores the state observable by later lookahead and consume, with or without markers; buffered tokens are never discarded.", "quantifier": "every source, every history of operations", "why_tests_cant": "History property.", "anchors": ["src/common_token_stream.rs:CommonTokenStream::seek", "src/common_token_stream.rs:CommonTokenStream::mark"]}
{"id": "C20", "title": "Lexer tokens tile the input", "statement": "The sequence of tokens, skipped matches and dropped error characters produced by the lexer covers the input exactly: each starts where the previous one stopped, none overlaps, the EOF token sits at the end with an empty range; and token text equals the input slice.", "quantifier": "every lexer grammar, every input", "why_tests_cant": "Requires an invariant over the next_token loop for all inputs and match outcomes (skip, more, errors).", "anchors": ["src/lexer.rs:BaseLexer::next_token", "src/lexer.rs:BaseLexer::recover", "src/lexer_atn_simulator.rs:LexerATNSimulator::accept"]}
{"id": "C21", "title": "Token line and column are right", "statement": "Every token's line is 1 plus the number of newlines before its first character and its column is the number of characters since the last newline, regardless of how far the lexer looked ahead and backed up.", "quantifier": "every lexer grammar and every input", "why_tests_cant": "Line/column are restored after failed longer matches; correctness needs an invariant over all backtracking.", "anchors": ["src/lexer_atn_simulator.rs:LexerATNSimulator::consume", "src/lexer_atn_simulator.rs:LexerATNSimulator::accept", "src/lexer.rs:BaseLexer::next_token"]}
{"id": "C22", "title": "Lexer reaches EOF and stays there", "statement": "For every input next_token eventually returns EOF provided every match consumes a character, no two consecutive failures happen at the same position, and after EOF every further next_token call returns EOF again at the same position.", "quantifier": "every input, every lexer whose matches are non-empty", "why_tests_cant": "Termination for all inputs.", "anchors": ["src/lexer.rs:BaseLexer::next_token", "src/lexer.rs:BaseLexer::recover"]}
{"id": "C23", "title": "Lexer mode stack is a stack", "statement": "push_mode/pop_mode/set_mode/mode behave like a stack with a current element: pop after push restores the mode, pop on an empty stack reports None and changes nothing, and the mode used for a match is the one set by the last action.", "quantifier": "every sequence of mode operations", "why_tests_cant": "History property.", "anchors": ["src/lexer.rs:BaseLexer::push_mode", "src/lexer.rs:BaseLexer::pop_mode"]}
{"id": "C24", "title": "skip and more", "statement": "A matched SKIP emits nothing and restarts at the next character; MORE extends the current token, so the emitted token spans from the first MORE match start through the last match; a token override set by an action is returned.", "quantifier": "every sequence of match results", "why_tests_cant": "Loop with two nested continuations over unbounded match sequences.", "anchors": ["src/lexer.rs:BaseLexer::next_token"]}
{"id": "C25", "title": "Longest match, then rule order", "statement": "For a lexer ATN without non-greedy decisions the match is the longest prefix accepted by any rule of the mode, and among the rules accepting that prefix the one listed first is chosen and gives the type; at the end of input EOF is returned if no rule matches; an error is reported exactly when no rule matches and input is left, after the longest prefix that some rule can begin with.", "quantifier": "every lexer ATN, every mode, every input", "why_tests_cant": "Language-level claim over all automata and inputs.", "anchors": ["src/lexer_atn_simulator.rs:LexerATNSimulator::exec_atn", "src/lexer_atn_simulator.rs:LexerATNSimulator::get_reachable_config_set", "src/lexer_atn_simulator.rs:LexerATNSimulator::closure", "src/lexer_atn_simulator.rs:LexerATNSimulator::fail_or_accept"]}
{"id": "C26", "title": "Lexer DFA cache is transparent", "statement": "Matching a token gives the same token type, end position and action list whether the DFA cache is cold or warmed by any earlier inputs (including those of other lexers sharing it).", "quantifier": "every lexer ATN, every history of earlier matches, every input", "why_tests_cant": "History property over a shared mutable cache.", "anchors": ["src/lexer_atn_simulator.rs:LexerATNSimulator::add_dfastate", "src/lexer_atn_simulator.rs:LexerATNSimulator::add_dfaedge", "src/lexer_atn_simulator.rs:LexerATNSimulator::get_existing_target_state", "src/lexer_action_executor.rs"]}
{"id": "C27", "title": "Lexer actions run in order, at their positions", "statement": "After a match, every action on the accepting path runs exactly once and in order; an action inside a rule runs with the input positioned where it was passed, actions at the end run at the token end, and the input ends up at the token end.", "quantifier": "every action list and offsets, every token start", "why_tests_cant": "Universal over action sequences and offsets.", "anchors": ["src/lexer_action_executor.rs:LexerActionExecutor::execute", "src/lexer_action_executor.rs:LexerActionExecutor::fix_offset_before_match"]}
{"id": "C28", "title": "Speculative lexer predicates leave no trace", "statement": "Evaluating a semantic predicate during matching leaves input index, line and column as they were, whatever the predicate reads.", "quantifier": "every lexer state and predicate", "why_tests_cant": "Universal over states.", "anchors": ["src/lexer_atn_simulator.rs:LexerATNSimulator::evaluate_predicate"]}
{"id": "C29", "title": "Merging call stacks is union of stacks", "statement": "In full-context mode merging two graph-structured stacks denotes exactly the union of the two sets of call stacks; in local-context mode it denotes the union when the empty stack is read as a wildcard for any caller (never losing a stack).", "quantifier": "every pair of well-formed prediction contexts of any size", "why_tests_cant": "Recursive merge over unbounded shared graphs.", "anchors": ["src/prediction_context.rs:PredictionContext::merge", "src/prediction_context.rs:PredictionContext::merge_arrays", "src/prediction_context.rs:PredictionContext::merge_singletons", "src/prediction_context.rs:PredictionContext::merge_root"]}
{"id": "C30", "title": "Merging preserves well-formedness and never panics", "statement": "Merging well-formed contexts (return states strictly increasing, only the empty marker without parent, marker last) yields a well-formed context and never hits an unwrap panic.", "quantifier": "every pair of well-formed contexts, both modes", "why_tests_cant": "Panic-freedom for all shapes.", "anchors": ["src/prediction_context.rs:PredictionContext::merge_arrays"]}
{"id": "C31", "title": "Merge cache is transparent", "statement": "Merging with a merge cache filled by any earlier merges of the same mode denotes the same stacks as merging without a cache.", "quantifier": "every cache reachable by merges, every pair of contexts", "why_tests_cant": "History property; cached under either argument order.", "anchors": ["src/prediction_context.rs:PredictionContext::merge"]}
{"id": "C32", "title": "Rule context converts to the exact call stack", "statement": "Converting the parser's rule invocation chain gives a prediction context denoting precisely one stack: the follow states of the invoking transitions, innermost first.", "quantifier": "every chain of rule invocations", "why_tests_cant": "Unbounded call depth.", "anchors": ["src/prediction_context.rs:PredictionContext::from_rule_context"]}
{"id": "C33", "title": "Configuration sets merge instead of duplicating", "statement": "After any sequence of adds to a parser configuration set there is at most one configuration per (state, alternative, predicate), its stacks are the union of those of all added ones, nothing added is lost, and the semantic-context and outer-context flags are set iff an added configuration warranted them; adding to a frozen set panics.", "quantifier": "every sequence of added configurations", "why_tests_cant": "History property.", "anchors": ["src/atn_config_set.rs:ATNConfigSet::add_cached"]}
{"id": "C34", "title": "Predicate conjunction and disjunction", "statement": "and(a,b) evaluates to the conjunction and or(a,b) to the disjunction of the operands in every parser state, including after the precedence-predicate reductions, and true is the identity of and and absorbing for or.", "quantifier": "every pair of predicate expressions and every parser state", "why_tests_cant": "Flattening and reduction over arbitrary nesting.", "anchors": ["src/semantic_context.rs:SemanticContext::and", "src/semantic_context.rs:SemanticContext::or", "src/semantic_context.rs:SemanticContext::new_and", "src/semantic_context.rs:SemanticContext::new_or", "src/semantic_context.rs:SemanticContext::evaluate"]}
{"id": "C35", "title": "Precedence pre-evaluation is sound", "statement": "Partially evaluating a predicate at the current precedence never changes its truth value: 'impossible' is returned only for predicates that are false, 'always true' only for true ones, and the residual predicate has the same value; it is also complete: a predicate made only of precedence tests is reduced to a constant.", "quantifier": "every predicate expression and parser state", "why_tests_cant": "Universal over nested expressions.", "anchors": ["src/semantic_context.rs:SemanticContext::eval_precedence"]}
{"id": "C36", "title": "Conflict detection matches its definition", "statement": "The conflicting-alternative subsets are exactly the sets of alternatives sharing a state and stack; SLL stops exactly when some such subset is ambiguous and no state is tied to one alternative (or all configurations are finished); the single viable alternative is reported exactly when all subsets have the same minimum.", "quantifier": "every configuration set", "why_tests_cant": "Universal over configuration sets.", "anchors": ["src/prediction_mode.rs:has_sll_conflict_terminating_prediction", "src/prediction_mode.rs:get_conflicting_alt_subsets", "src/prediction_mode.rs:get_single_viable_alt", "src/prediction_mode.rs:has_state_associated_with_one_alt"]}
{"id": "C37", "title": "DFA bookkeeping", "statement": "In any history of DFA updates: equal configuration sets get the same state number, distinct ones distinct numbers, existing states and edges to real states are found again unchanged, edges outside the token range are ignored, and precedence start states are returned exactly for the precedence they were stored under.", "quantifier": "every history of add-state, add-edge, set-precedence-start operations", "why_tests_cant": "History property on shared state.", "anchors": ["src/parser_atn_simulator.rs:ParserATNSimulator::add_dfastate", "src/parser_atn_simulator.rs:ParserATNSimulator::add_dfaedge", "src/dfa.rs:DFA::get_precedence_start_state", "src/dfa.rs:DFA::set_precedence_start_state"]}
{"id": "C38", "title": "Prediction never moves the input", "statement": "adaptive_predict leaves the token stream at the position where it was called, on success and on every error, however far it looked ahead. The start and offending tokens of a no-viable-alternative error are tokens of the stream's buffer at their own index, and the text between them can be fetched.", "quantifier": "every ATN, decision, token stream and cache state", "why_tests_cant": "All paths of an unbounded lookahead loop, including error returns.", "anchors": ["src/parser_atn_simulator.rs:ParserATNSimulator::adaptive_predict", "src/parser_atn_simulator.rs:ParserATNSimulator::exec_atn", "src/parser_atn_simulator.rs:ParserATNSimulator::exec_atn_with_full_context"]}
{"id": "C39", "title": "Parser DFA cache is transparent", "statement": "adaptive_predict returns the same alternative (or error) on the same input with an empty cache as with a cache filled by any earlier predictions.", "quantifier": "every ATN, every history of earlier predictions, every input", "why_tests_cant": "History property over a shared mutable cache.", "anchors": ["src/parser_atn_simulator.rs:ParserATNSimulator::exec_atn", "src/parser_atn_simulator.rs:ParserATNSimulator::get_existing_target_state", "src/parser_atn_simulator.rs:ParserATNSimulator::compute_target_state"]}
{"id": "C40", "title": "Prediction picks a viable alternative", "statement": "If adaptive_predict returns alternative k, then k is an alternative of the decision and the lookahead examined is a viable prefix of alternative k in the current calling context; if it reports no viable alternative then no alternative can match the lookahead.", "quantifier": "every ATN without predicates, decision, call stack and input", "why_tests_cant": "Language-level claim over all automata, stacks and inputs.", "anchors": ["src/parser_atn_simulator.rs:ParserATNSimulator::exec_atn", "src/parser_atn_simulator.rs:ParserATNSimulator::compute_reach_set", "src/parser_atn_simulator.rs:ParserATNSimulator::closure_work", "src/parser_atn_simulator.rs:ParserATNSimulator::compute_start_state"]}
{"id": "C41", "title": "Edge labels match their symbols", "statement": "An atom edge matches its symbol, a range edge the inclusive range, a set edge its elements, a negated set every vocabulary symbol not in it, and the wildcard every symbol of the vocabulary (not EOF); epsilon edges match nothing.", "quantifier": "every transition and every symbol", "why_tests_cant": "Universal over sets and symbols, in particular vocabulary bounds.", "anchors": ["src/transition.rs:Transition::matches", "src/transition.rs:WildcardTransition", "src/transition.rs:NotSetTransition"]}
{"id": "C42", "title": "Next-token sets are exact", "statement": "The set computed by next_tokens for an ATN state contains a token exactly when some path from the state through rule calls reaches an edge labelled with that token, and contains EPSILON exactly when the rule end can be reached without consuming.", "quantifier": "every (possibly left- or mutually recursive) ATN and state", "why_tests_cant": "Graph reachability with call stacks and a visited set; termination and completeness for all graphs.", "anchors": ["src/ll1_analyzer.rs:LL1Analyzer::look", "src/ll1_analyzer.rs:LL1Analyzer::look_work", "src/atn.rs:ATN::next_tokens"]}
{"id": "C43", "title": "Expected tokens follow the call stack", "statement": "The expected-token set in an error is the set of tokens that can be matched next from the current state in the current calling context, climbing to callers only while the inner rules can end; EOF is included exactly when every active rule can end.", "quantifier": "every ATN, state and call stack", "why_tests_cant": "Unbounded call stacks.", "anchors": ["src/atn.rs:ATN::get_expected_tokens"]}
{"id": "C44", "title": "One report per error episode", "statement": "From the first reported syntax error until the next successful token match no further error is reported, and a successful match re-enables reporting.", "quantifier": "every sequence of parser/error strategy events", "why_tests_cant": "History property.", "anchors": ["src/error_strategy.rs:DefaultErrorStrategy::report_error", "src/error_strategy.rs:DefaultErrorStrategy::report_match", "src/error_strategy.rs:DefaultErrorStrategy::begin_error_condition"]}
{"id": "C45", "title": "Recovery resynchronises and makes progress", "statement": "Recovery consumes exactly the tokens up to the first one in the recovery set or EOF, never consumes EOF, and a second recovery at the same position and state consumes at least one token unless at EOF, so a parser cannot loop forever on an error. The recovery set only holds tokens that can come right after one of the active rules.", "quantifier": "every input, recovery set and error history", "why_tests_cant": "Liveness over all inputs and error histories.", "anchors": ["src/error_strategy.rs:DefaultErrorStrategy::recover", "src/error_strategy.rs:DefaultErrorStrategy::consume_until"]}
{"id": "C46", "title": "Inline recovery", "statement": "On a mismatch, the wrong token is deleted and the next one matched exactly when the token after it is expected; otherwise a missing token is conjured exactly when the current token could follow the expected one, and nothing is consumed; otherwise an input mismatch error is raised and nothing is changed; at most one error is reported. A token is deleted or conjured only if parsing can go on with the token after it.", "quantifier": "every parser state and input", "why_tests_cant": "Decision logic over all inputs.", "anchors": ["src/error_strategy.rs:DefaultErrorStrategy::recover_inline", "src/error_strategy.rs:DefaultErrorStrategy::single_token_deletion", "src/error_strategy.rs:DefaultErrorStrategy::single_token_insertion"]}
{"id": "C47", "title": "sync before sub-rules", "statement": "sync does nothing when the next token is expected, when the decision can be skipped, or in recovery; at a loop entry or block start it deletes one token or errors; at a loop back it resynchronises to the follow set or the expected set.", "quantifier": "every parser state, ATN state kind and input", "why_tests_cant": "Decision logic over all states.", "anchors": ["src/error_strategy.rs:DefaultErrorStrategy::sync"]}
{"id": "C48", "title": "Bail strategy stops at the first error", "statement": "With the bail strategy the first syntax error is returned as an error, nothing is consumed, conjured or reported by recovery, and the exception is recorded on the contexts on the way out.", "quantifier": "every parser state and error", "why_tests_cant": "Universal.", "anchors": ["src/error_strategy.rs:BailErrorStrategy"]}
{"id": "C49", "title": "Parse tree leaves are the consumed tokens", "statement": "With tree building on, every consume adds exactly the consumed token as a leaf of the current rule node, flagged as error node iff the parser is recovering; so the leaves in order are the consumed tokens in order, EOF consumes nothing, and each parse listener is notified once per leaf.", "quantifier": "every sequence of parser operations", "why_tests_cant": "History property.", "anchors": ["src/parser.rs:BaseParser::consume", "src/parser.rs:BaseParser::match_token"]}
{"id": "C50", "title": "Rule entry and exit are balanced", "statement": "A well-nested sequence of enter_rule/exit_rule calls restores the caller's context and state; the context's start is the first token and the stop is the last token matched inside it; the tree nests exactly as the calls do.", "quantifier": "every well-nested call sequence", "why_tests_cant": "Unbounded nesting.", "anchors": ["src/parser.rs:BaseParser::enter_rule", "src/parser.rs:BaseParser::exit_rule", "src/parser.rs:BaseParser::enter_outer_alt"]}
{"id": "C51", "title": "Precedence stack discipline", "statement": "enter_recursion_rule / unroll_recursion_contexts keep the precedence stack balanced; precpred(p) is true exactly if p is at least the precedence of the innermost active left-recursive rule; unrolling reattaches the built tree to the caller.", "quantifier": "every nesting of left-recursive rule invocations", "why_tests_cant": "Unbounded nesting.", "anchors": ["src/parser.rs:BaseParser::enter_recursion_rule", "src/parser.rs:BaseParser::push_new_recursion_context", "src/parser.rs:BaseParser::unroll_recursion_contexts", "src/parser.rs:BaseParser::precpred"]}
{"id": "C52", "title": "Listener events are balanced and ordered", "statement": "Parse listeners receive enter in registration order and exit in reverse order, so every enter is matched by an exit and events nest; a removed listener gets no more events and the others keep theirs.", "quantifier": "every set of listeners and call nesting", "why_tests_cant": "History property.", "anchors": ["src/parser.rs:BaseParser::trigger_enter_rule_event", "src/parser.rs:BaseParser::trigger_exit_rule_event", "src/parser.rs:BaseParser::remove_parse_listener"]}
{"id": "C53", "title": "Error counting and dispatch", "statement": "get_number_of_syntax_errors equals the number of reported errors, and every registered error listener receives each of them once, in registration order.", "quantifier": "every history of reports and registrations", "why_tests_cant": "History property.", "anchors": ["src/parser.rs:BaseParser::notify_error_listeners", "src/error_listener.rs:ProxyErrorListener"]}
{"id": "C54", "title": "Tree walker visits everything once", "statement": "Walking a parse tree enters and exits every rule node exactly once around its children, visits every terminal exactly once, in left-to-right order.", "quantifier": "every tree", "why_tests_cant": "Structural induction over all trees.", "anchors": ["src/tree.rs:ParseTreeWalker::walk"]}
{"id": "C55", "title": "Tree text", "statement": "get_text of a node is the concatenation of its leaf token texts in order, hence equals the text of consumed tokens; the LISP-style string of a tree determines the tree shape.", "quantifier": "every tree", "why_tests_cant": "Structural induction.", "anchors": ["src/parser_rule_context.rs:get_text", "src/trees.rs:string_tree", "src/utils.rs:escape_whitespaces"]}
{"id": "C56", "title": "Visitor aggregation", "statement": "The default visitor visits children left to right, each once, stopping exactly when told to, and returns the aggregated results in order.", "quantifier": "every tree and visitor", "why_tests_cant": "Structural induction.", "anchors": ["src/tree.rs:VisitChildren"]}
{"id": "C57", "title": "Vocabulary names", "statement": "get_display_name returns the explicit display name, else the literal, else the symbolic name, else the decimal number; EOF is named EOF; a vocabulary from token names classifies quoted names as literals and upper-case names as symbolic; indices outside the tables never panic.", "quantifier": "every vocabulary and token type", "why_tests_cant": "Universal over tables and (negative) types.", "anchors": ["src/vocabulary.rs:VocabularyImpl"]}
{"id": "C58", "title": "Serialized ATN characters decode to their values", "statement": "Decoding the serialized character stream yields back every 16-bit value that the tool encoded (value+2 modulo 2^16).", "quantifier": "every 16-bit value and every sequence of them", "why_tests_cant": "All values incl. wrap-around ones.", "anchors": ["src/atn_deserializer.rs:ATNDeserializer::deserialize"]}
{"id": "C59", "title": "ATN deserialization reproduces the automaton", "statement": "Deserializing the serialization of an ATN yields the same states (kinds, rules), rules, modes, sets, edges, decisions and lexer actions.", "quantifier": "every well-formed serialized ATN", "why_tests_cant": "Round-trip law over all automata.", "anchors": ["src/atn_deserializer.rs:ATNDeserializer::deserialize", "src/atn_deserializer.rs:read_states", "src/atn_deserializer.rs:read_rules", "src/atn_deserializer.rs:read_sets", "src/atn_deserializer.rs:read_edges", "src/atn_deserializer.rs:read_decisions", "src/atn_deserializer.rs:read_lexer_actions"]}
{"id": "C60", "title": "Rule returns lead back to the callers", "statement": "After deserialization the stop state of each rule has an epsilon edge to the follow state of every invocation of the rule, and to nothing else; edges are not duplicated.", "quantifier": "every deserialized ATN", "why_tests_cant": "Universal over automata.", "anchors": ["src/atn_deserializer.rs:read_edges", "src/atn_state.rs:BaseATNState::add_transition"]}
{"id": "C61", "title": "Token text and construction", "statement": "A created token carries the type, channel, position given; its text is the override text if present, '<EOF>' past the end of input, and otherwise the slice start..=stop of the input.", "quantifier": "every input and token parameters", "why_tests_cant": "Universal.", "anchors": ["src/token_factory.rs:CommonTokenFactory::create", "src/token.rs:GenericToken"]}
{"id": "C62", "title": "Diagnostic listener only reports exact ambiguities when asked", "statement": "With exact_only the diagnostic error listener reports an ambiguity iff it is exact, else every one; and the reported alternatives are exactly those given or those occurring in the configurations.", "quantifier": "every ambiguity event", "why_tests_cant": "Decision logic.", "anchors": ["src/error_listener.rs:DiagnosticErrorListener"]}
{"id": "C63", "title": "One merge cache for local and full context", "statement": "The merge cache that one prediction uses for its local-context phase and then for its full-context phase does not change the stacks a full-context merge stands for.", "quantifier": "every cache reachable by merges in any mix of modes, every pair of contexts", "why_tests_cant": "History property; shows only when a local merge of a stack with the empty stack precedes the same full-context merge.", "anchors": ["src/parser_atn_simulator.rs:ParserATNSimulator::adaptive_predict", "src/prediction_context.rs:PredictionContext::merge"]}
{"id": "C64", "title": "Sharing contexts never changes them", "statement": "Replacing a prediction context by the shared one from the context cache gives an equal context, whatever was shared before.", "quantifier": "every history of shared contexts, every context", "why_tests_cant": "History property of a global cache.", "anchors": ["src/prediction_context.rs:PredictionContextCache::get_shared_context", "src/atn_config_set.rs:ATNConfigSet::optimize_configs"]}
{"id": "C65", "title": "Token accessors of a rule node", "statement": "get_tokens(t) returns exactly the direct, non-error token children of type t in order, and get_token(t, i) the i-th of them.", "quantifier": "every tree, token type and index", "why_tests_cant": "Universal over trees.", "anchors": ["src/parser_rule_context.rs:ParserRuleContext::get_token", "src/parser_rule_context.rs:ParserRuleContext::get_tokens"]}
{"id": "C66", "title": "A matched token is an ordinary leaf", "statement": "A token accepted by match_token becomes an ordinary terminal node, not an error node, whatever errors were reported or recovered from before.", "quantifier": "every error history, token and rule context, for both strategies", "why_tests_cant": "History property of the strategy's hidden recovery flag.", "anchors": ["src/parser.rs:BaseParser::match_token", "src/error_strategy.rs:DefaultErrorStrategy::report_match", "src/error_strategy.rs:BailErrorStrategy::report_match"]}
{"id": "C67", "title": "Lexer error reports describe exactly the dropped text", "statement": "The lexer reports exactly one error per stretch of input it drops, in input order; each report carries the line and column where the dropped text starts and its message quotes exactly the dropped text, including text collected by MORE.", "quantifier": "every lexer grammar, input and number of tokens requested", "why_tests_cant": "The dropped text depends on how far every failing match looked ahead and on pending MORE parts; inputs are unbounded.", "anchors": ["src/lexer.rs:BaseLexer::next_token", "src/lexer.rs:BaseLexer::notify_listeners", "src/lexer_atn_simulator.rs:LexerATNSimulator::fail_or_accept"]}
{"id": "C68", "title": "Every accepted ATN is consistently numbered", "statement": "Whatever data the deserializer accepts, it has version 3, every state of the resulting ATN carries its own position as number, its epsilon-only mark agrees with its edges, no edge is duplicated, every rule has a stop-state entry, and every listed decision state exists and carries the number of its listing.", "quantifier": "every input of the deserializer, well-formed or not", "why_tests_cant": "Universal over arbitrary data.", "anchors": ["src/atn_deserializer.rs:ATNDeserializer::deserialize", "src/atn_deserializer.rs:read_states", "src/atn_deserializer.rs:read_decisions", "src/atn_state.rs:BaseATNState::add_transition"]}
{"id": "C69", "title": "Lexing returns", "statement": "On a lexer automaton that refers to nothing missing and has no loop that needs not read, matching a token returns (neither panics nor runs for ever) within a recursion depth and a number of rounds proportional to the length of the input; if moreover no rule matches the empty string, every request for a token returns, and after at most one token per character the EOF token is returned for good.", "quantifier": "every such automaton (non-greedy loops, EOF edges, fragments included), input, position and state of the DFA cache", "why_tests_cant": "Termination and absence of panics over all grammars, inputs and cache histories.", "anchors": ["src/lexer_atn_simulator.rs:LexerATNSimulator::match_token", "src/lexer_atn_simulator.rs:LexerATNSimulator::closure", "src/lexer_atn_simulator.rs:LexerATNSimulator::exec_atn", "src/lexer.rs:BaseLexer::next_token"]}
{"id": "C70", "title": "Prediction returns", "statement": "On a parser automaton as ANTLR makes it (predicates, precedence predicates and left-recursive rules included), without loops that need not read, whose rules have one end each and whose states that call rules or have predicates do not read as well, adaptive_predict returns — neither panics nor runs for ever — whatever the input, the call stack, the prediction mode, the precedence, the answers of predicates, and the predictions made before; its two loops make at most two rounds per token and two more, and the DFA grows by at most the number of tokens and two.", "quantifier": "every such automaton, decision, token stream, call stack, mode and history of predictions that filled the DFA", "why_tests_cant": "Termination and absence of panics over all grammars, inputs and cache histories.", "anchors": ["src/parser_atn_simulator.rs:ParserATNSimulator::adaptive_predict", "src/parser_atn_simulator.rs:ParserATNSimulator::exec_atn", "src/parser_atn_simulator.rs:ParserATNSimulator::exec_atn_with_full_context", "src/parser_atn_simulator.rs:ParserATNSimulator::closure_work", "src/parser_atn_simulator.rs:ParserATNSimulator::apply_precedence_filter", "src/parser_atn_simulator.rs:ParserATNSimulator::predicate_dfa_state", "src/parser_atn_simulator.rs:ParserATNSimulator::pred_transition", "src/dfa.rs:DFA::set_precedence_start_state"]}
{"id": "C71", "title": "A parse without syntax errors is a derivation", "statement": "When a parser generated by the Rust templates returns from a rule without having reported a syntax error (with the bail strategy: whenever it returns Ok), the context it returns is the root of a tree of the grammar: every node has the children one of its rule's alternatives asks for, loops and options included, with the label of that alternative; operators of a left-recursive rule respect the precedence asked for; there are no error nodes; and the leaves are the tokens of the parser's channel from the start of the rule up to where the stream stands, in order and each exactly once (EOF can be matched repeatedly).", "quantifier": "every grammar (any nesting of alternatives, options, loops, sets, calls, predicates, left recursion), token stream, starting rule, precedence, semantic predicate, prediction mode, and any history of predictions that filled the DFAs", "why_tests_cant": "Universal over grammars, inputs and cache histories; prediction may go wrong (C39, C40), and this says that a wrong prediction can never yield a wrong tree silently.", "anchors": ["templates/Rust.stg:RuleFunction", "templates/Rust.stg:LeftRecursiveRuleFunction", "templates/Rust.stg:LL1AltBlock", "templates/Rust.stg:StarBlock", "src/parser.rs:BaseParser::enter_rule", "src/parser.rs:BaseParser::push_new_recursion_context", "src/parser.rs:BaseParser::unroll_recursion_context", "src/parser.rs:BaseParser::match_token", "src/error_strategy.rs:DefaultErrorStrategy", "src/parser_atn_simulator.rs:ParserATNSimulator::adaptive_predict"]}
{"id": "C72", "title": "Every sentence of the grammar is parsed without errors", "statement": "If the tokens from where the parser stands up to EOF are the leaves of some tree of the grammar (with the root at the rule started), a parser generated by the Rust templates returns Ok from that rule, reports no syntax error and stands at EOF. Together with C71: it accepts exactly the sentences of its grammar.", "quantifier": "every grammar without left recursion and predicates whose generated code mirrors its automaton, every sentence, token stream and state of the parser outside of rules, both error strategies; choices by tests of the next token, or by adaptive_predict with any DFAs filled before", "why_tests_cant": "Universal over grammars, sentences, nesting depth and cache histories.", "anchors": ["templates/Rust.stg:RuleFunction", "templates/Rust.stg:LL1AltBlock", "templates/Rust.stg:LL1StarBlockSingleAlt", "templates/Rust.stg:StarBlock", "src/error_strategy.rs:DefaultErrorStrategy::sync", "src/ll1_analyzer.rs:LL1Analyzer::look", "src/parser_atn_simulator.rs:ParserATNSimulator::adaptive_predict", "tests/gen/csvparser.rs:csvFile", "tests/gen/referencetoatnparser.rs:a"]}
{"id": "C73", "title": "Predictions name existing alternatives", "statement": "Whatever adaptive_predict answers is the number of one of the alternatives of the decision, counted from 1; the same holds for the answers, predicates and configurations stored in its DFA. (Generated code does nothing at all for other numbers.)", "quantifier": "every ATN (predicates, precedence rules, left recursion, silent loops), decision, mode, token stream, call stack, precedence, predicates and any history of predictions that filled the DFA", "why_tests_cant": "Universal over grammars, inputs, predicates and cache histories.", "anchors": ["src/parser_atn_simulator.rs:ParserATNSimulator::adaptive_predict", "src/parser_atn_simulator.rs:ParserATNSimulator::predicate_dfa_state", "src/parser_atn_simulator.rs:ParserATNSimulator::eval_semantic_context", "src/parser_atn_simulator.rs:ParserATNSimulator::apply_precedence_filter", "src/prediction_mode.rs:resolves_to_just_one_viable_alt"]}
{"id": "C74", "title": "Predictions and matches of threads that share DFAs are serial", "statement": "Parsers and lexers for one grammar share their DFAs behind locks. At any moment each DFA is what predictions and matches make of it that come one after the other, each having the DFA for itself from its start to its end and giving the answer its thread gets (or being cut off by a panic of its thread); and then perhaps the beginning of one more.", "quantifier": "every number of threads, every schedule of their lock operations and of their reads and writes of the DFAs, every panic of any thread at any point, every program of predictions, matches and looks at DFAs that may depend on earlier answers, callbacks in the middle of predictions that use other DFAs in a fixed order", "why_tests_cant": "Universal over schedules and crash points; tests see few interleavings.", "anchors": ["src/parser_atn_simulator.rs:ParserATNSimulator::adaptive_predict", "src/parser_atn_simulator.rs:ParserATNSimulator::compute_target_state", "src/lexer_atn_simulator.rs:LexerATNSimulator::match_token", "src/lexer_atn_simulator.rs:LexerATNSimulator::compute_target_state", "src/atn_simulator.rs:BaseATNSimulator"]}
{"id": "C75", "title": "Threads that share DFAs never wait for each other forever", "statement": "As long as a thread has something left to do some thread can take a step; no execution is infinite; and from every state all threads can be run to their end, whichever threads panicked before. (Provided what runs in the middle of a prediction uses only DFAs of lower levels, as the lexer below a parser does. A predicate, listener or token source that starts a prediction of the same decision waits for itself.)", "quantifier": "every number of threads, every schedule, every panic at any point, every assignment of levels to DFAs", "why_tests_cant": "Deadlocks depend on schedules; absence is a statement about all of them.", "anchors": ["src/parser_atn_simulator.rs:ParserATNSimulator::adaptive_predict", "src/parser_atn_simulator.rs:ParserATNSimulator::compute_target_state", "src/lexer_atn_simulator.rs:LexerATNSimulator::match_token", "src/parser.rs:BaseParser::dump_dfa"]}
{"id": "C76", "title": "Answers are right whatever other threads do or fail to do", "statement": "A prediction in any thread names an alternative of its decision, and if it ends without a look at the context it is right about the decision in all contexts; a match in any thread finds the token it finds alone with unused DFAs; although other threads change the DFAs and some of them panic in the middle of a change, which leaves the DFA unlocked and unpoisoned.", "quantifier": "every number of threads, schedule, panic at any point, grammar and inputs", "why_tests_cant": "Universal over schedules and crash points.", "anchors": ["src/parser_atn_simulator.rs:ParserATNSimulator::adaptive_predict", "src/parser_atn_simulator.rs:ParserATNSimulator::add_dfa_state", "src/lexer_atn_simulator.rs:LexerATNSimulator::match_token", "src/lexer_atn_simulator.rs:LexerATNSimulator::add_dfa_state", "src/atn_simulator.rs:BaseATNSimulator"]}
{"id": "C77", "title": "A generated parser returns on every input", "statement": "A call of a rule function of a generated parser returns, whatever the tokens are: with the default error strategy it returns Ok after having reported and recovered from all errors, without a panic, and leaves the parser ready for further calls; with the bail strategy it returns Ok or the error. (Provided no piece of the generated code can go round a loop or call itself again without reading a token. `(A | EOF)*` can, and loops forever. False, too, for left-recursive rules: with the default strategy a parse that recovers inside one may panic, and after one has been called from outside, the next error panics with either strategy.)", "quantifier": "every generated parser, every token sequence, every rule called, every history of earlier parses with the same parser, both error strategies", "why_tests_cant": "Universal over wrong inputs: error recovery has to make progress from every state at every token; a test sees only finitely many inputs and cannot tell a long run from an infinite one.", "anchors": ["templates/Rust.stg:RuleFunction", "templates/Rust.stg:LL1StarBlockSingleAlt", "src/error_strategy.rs:DefaultErrorStrategy::recover", "src/error_strategy.rs:DefaultErrorStrategy::sync", "src/error_strategy.rs:DefaultErrorStrategy::recover_inline", "src/error_strategy.rs:BailErrorStrategy", "src/parser.rs:BaseParser::match_token", "src/parser.rs:BaseParser::push_new_recursion_context", "src/parser.rs:BaseParser::unroll_recursion_context", "tests/gen/visitorcalcparser.rs", "tests/gen/labelsparser.rs", "tests/gen/simplelrparser.rs", "tests/gen/visitorbasicparser.rs"]}
{"id": "C78", "title": "Parsing a text returns", "statement": "Lexer, token stream and generated parser together: for every text, the lexer answers the requests of the token stream with finitely many tokens and then EOF, whose types and channels are among those the grammar sets, and a rule function of the parser called on these tokens returns. (False for grammars with hidden tokens: the CSV parser of the repository panics on a file that begins with a blank.)", "quantifier": "every text, every state of the lexer's DFAs earlier lexers leave behind, both error strategies", "why_tests_cant": "Universal over texts, also ill-formed ones, and over the histories of the caches; needs the lexer's guarantee to be exactly what the parser assumes.", "anchors": ["src/lexer.rs:BaseLexer::next_token", "src/lexer_atn_simulator.rs:LexerATNSimulator::match_token", "src/token_stream.rs:UnbufferedTokenStream::fill", "src/common_token_stream.rs:CommonTokenStream::next_token_on_channel", "src/parser.rs:BaseParser::exit_rule", "tests/gen/csvlexer.rs", "tests/gen/referencetoatnlexer.rs", "tests/gen/csvparser.rs", "tests/gen/referencetoatnparser.rs", "tests/gen/labelslexer.rs", "tests/gen/simplelrlexer.rs", "tests/gen/visitorbasiclexer.rs", "tests/gen/visitorcalclexer.rs"]}
{"id": "C79", "title": "A token of a rule OPEN .*? CLOSE ends at the first CLOSE", "statement": "A token of a lexer rule of the form OPEN .*? CLOSE, like a comment or a CDATA section, begins with OPEN and ends with CLOSE, and CLOSE does not occur earlier after OPEN. Conversely, where OPEN, a body and the first CLOSE after it stand in the text, and no other rule of the mode takes more, nor an earlier rule as much, the match is a token of the rule and ends there. A text made of character data, XML comments, CDATA sections and declarations is lexed by the generated XML lexer into exactly the tokens of the character data, comments and CDATA sections, in order, and EOF.", "quantifier": "every automaton with such a rule, whatever its other rules, every text and position, every cache earlier matches can have left", "why_tests_cant": "Universal over texts, rules and histories of the cache; the loop goes on beside the way that leaves it, and which one wins depends on the order of configurations in every set computed on the way.", "anchors": ["src/lexer_atn_simulator.rs:LexerATNSimulator::get_reachable_config_set", "src/lexer_atn_simulator.rs:LexerATNSimulator::closure", "src/atn_config.rs:check_non_greedy_decision", "tests/gen/xmllexer.rs"]}
{"id": "C80", "title": "A printed DFA lists its arrows", "statement": "Printing a DFA (`to_string`, `to_lexer_string`) returns. The text has one line for each edge the simulator would follow, by source state and label, with the prediction at accepting states; from the text of a lexer DFA the edges, accepting states and token types can be read back, from that of a parser DFA too if the display names of its tokens can be told apart.", "quantifier": "every DFA of a lexer mode or parser decision, after any history of matches and predictions, interrupted ones included; any two such DFAs for reading back", "why_tests_cant": "Universal over grammars and histories; whether a line can be printed depends on states left by any earlier use, and unambiguous reading is a statement about all pairs of DFAs.", "anchors": ["src/dfa_serializer.rs:DFASerializer::fmt", "src/dfa_serializer.rs:DFASerializer::get_state_string", "src/dfa.rs:DFA::to_string", "src/dfa.rs:DFA::to_lexer_string"]}
{"id": "C81", "title": "The XML lexer enters a tag at `<`", "statement": "Outside of tags, where `<` stands and neither `!` nor `?` after it, the next token of the generated XML lexer is OPEN, this one character with its line and column. The lexer then is in the mode for the inside of a tag and has the mode it came from on its stack. Comments, CDATA sections, declarations and processing instructions, which begin with `<` too, do not interfere.", "quantifier": "every text, every position in it, every lexer state in the default mode with any mode stack, every cache left by earlier matches", "why_tests_cant": "What follows `<`, how far the input goes and what the cache holds are unbounded; longest match must be excluded for four other rules at once.", "anchors": ["tests/gen/xmllexer.rs", "src/lexer.rs:BaseLexer::push_mode", "src/lexer.rs:BaseLexer::next_token", "src/lexer_atn_simulator.rs:LexerATNSimulator::match_token"]}
{"id": "C82", "title": "The XML lexer leaves a tag at `>`, `/>` and `?>`", "statement": "Inside of a tag, where `>`, `?>` or `/>` stands, the next token of the generated XML lexer is CLOSE, SPECIAL_CLOSE or SLASH_CLOSE, exactly this word. The lexer then is in the mode on top of its mode stack, which is taken off; with an empty stack it stays inside. This holds alike for the embedded action of CLOSE and the command popMode of the others.", "quantifier": "every text, every position in it, every lexer state in mode INSIDE with any mode stack, every cache left by earlier matches", "why_tests_cant": "What follows, the mode stack and the cache are unbounded; seven other rules, one of which calls fragment rules, must be excluded.", "anchors": ["tests/gen/xmllexer.rs", "src/lexer.rs:BaseLexer::pop_mode", "src/lexer.rs:BaseLexer::next_token", "src/lexer_action_executor.rs:LexerActionExecutor::execute"]}
{"id": "C83", "title": "Attribute values are tokens up to the closing quote", "statement": "Inside of a tag, where a quote, characters other than this quote and `<`, and the same quote stand, the next token of the generated XML lexer is STRING with exactly this text; the other quote may occur in it, and whatever stands behind does not matter. Mode and mode stack stay as they are.", "quantifier": "every text, both quotes, every value of any length, every lexer state in mode INSIDE, every cache left by earlier matches", "why_tests_cant": "The length and content of the value, the text after it and the cache are unbounded.", "anchors": ["tests/gen/xmllexer.rs", "src/lexer.rs:BaseLexer::next_token", "src/lexer_atn_simulator.rs:LexerATNSimulator::match_token"]}
