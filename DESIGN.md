# Formal model of the antlr4rust runtime: design

Source: `/repo` (rrevenantt/antlr4rust at the pinned commit), read as text.
Model and proofs: Lean 4.33.0 in `/verif/lean`, Mathlib imported one module at a time.

## Method

* Each Rust function that a property talks about is transcribed into a small,
  total, computable Lean function, with a comment citing file and lines.
* Rust panics (`unwrap`, index out of range, `panic!`, `assert!`) are explicit:
  model functions that can panic return `Except`/`Option`, so "does not panic"
  is a provable statement and nothing becomes true through a default value.
* Unbounded loops become structural recursion when there is a structural
  measure, otherwise well-founded recursion, otherwise a fuelled loop together
  with a theorem that some fuel suffices, or an inductive step relation.
* Specifications (`Verif/*/Spec.lean` or the head of a props file) are written
  without reference to model helpers: sets of integers, lists of tokens, sets of
  call stacks, paths in a graph.
* When the code violates the English property, the negation is proved on a
  concrete witness computed by the model, and the strongest true restriction is
  proved under a name ending in `_partial`.

`isize`/`usize` arithmetic is modelled by unbounded `Int`/`Nat` (overflow is out
of scope unless stated); `usize` underflow where it matters is made explicit.

## Trusted base

* Lean's kernel.  Allowed axioms: `propext`, `Classical.choice`, `Quot.sound`.
  No own axioms, no `sorry`, no `native_decide`, no `bv_decide`.
  (`tools/axioms.txt`, produced by `#print axioms`, lists them per theorem.)
* The transcription from Rust to Lean (by hand; each definition cites its
  source so it can be compared line by line).
* Rust semantics of std collections (`Vec`, `HashMap`, `HashSet`, slices, `str`)
  as modelled by `List`, association lists and finite functions.
* For C74–C76: parking_lot's `RwLock` as documented (`Concurrency/Model.lean`), and Rust's
  guarantee that data behind a lock is used through guards only, so that memory is sequentially
  consistent.

Not modelled: the end of parse-tree contexts (the model keeps all of them, as the code does while trees are built and kept by
the caller; what happens otherwise: `C77_false_freed`), memory safety and `unsafe` casts, lifetimes, `Arc` sharing
(pointer equality is modelled as structural equality or as "don't care", see
the individual notes), locks and thread interleavings except for C74–C76, hashing (murmur3) except
where a hash *decides* something (then it is an arbitrary function), printing to
stderr, generated parser code except for C71, C72, C77 and C78 (elsewhere arbitrary sequences of
runtime calls), tokenstream_rewriter.rs, trace_listener.rs (unimplemented stubs).

## Plan per property

| id | model | proof idea |
|----|-------|-----------|
| C01 | `IntervalSet` as list of intervals; `add_interval` with its real inner loop | FALSE as stated: merge loop skips every second swallowed interval, after which binary search may miss. Witness + partial: true if each add merges with at most one following interval; "nothing is lost" by linear membership for all histories |
| C02 | same | FALSE in general (same bug), witness; invariant for histories of the restricted form |
| C03 | two-cursor loop with cursor = list zipper | loop invariant, membership + sorted/disjoint |
| C04 | `complement` | from C03; double complement |
| C05 | `remove_one` incl. nested `add_range` | induction on list |
| C06 | Rust's `binary_search_by` as an arbitrary search tree satisfying the std contract, plus the concrete halving loop | invariant of the halving loop |
| C07 | `InputStream` over list of code units | arithmetic |
| C08 | UTF-8 text as list of characters with widths 1..4; byte-wise `offset` loop | induction; boundary set = prefix sums |
| C09 | `get_text_inner` on both | slices of lists |
| C10 | op sequences | state equality |
| C11 | `IterWrapper::next` | FALSE: consume at EOF panics before None. Witness for *every* stream; partial: symbols before that are right |
| C12–C15 | `UnbufferedTokenStream` over an arbitrary (infinite) token source | invariant over op histories; forward-seek panic recorded |
| C16–C19 | `CommonTokenStream` | C16 FALSE at the very start (first token hidden), C18 FALSE (returns first token / panics); partials |
| C20–C22, C24, C67 | `next_token` with the whole simulator below it (`match_token`, `exec_atn`, closure, DFA cache, actions); positions counted in characters through `Reads` | loop invariant over ghost `pieces` (one per match); termination measure; C20 FALSE for MORE at EOF, C24 FALSE for the override token |
| C23 | mode stack | history induction |
| C25 | lexer ATN, `closure`, `get_reachable_config_set`, `exec_atn`, `fail_or_accept`, with the DFA cache | refinement to a path semantics of the ATN (`Live`: threads with a call stack, silent and reading steps). Lists of configurations = threads, both ways (`Inv`), by induction on the closure and on the loop; hash without collisions; automata without non-greedy decisions, and in general for the threads that came to none (`Eager`). With non-greedy decisions: an ordered semantics (`Lexer/OrderSpec.lean`: `Way` = thread with its choices, `Before`, `Cut`, `Reached`, `Preferred`); the configuration list is the list of the ways in their order (`Ways`), so the token is the one preferred way (`C25_preferred_partial`); `line_token` reads it for `'<' .*? '>'`: the token ends with the first `>` |
| C26 | DFA cache for lexer with hash an arbitrary function | FALSE: states are identified by hash only and the hash leaves out actions; action offsets baked into edges (two witnesses). Partial: the DFA is a cache of a pure machine on blurred configuration lists (`DInv`, `loop_spec`, `match_spec`), by induction over the history of matches |
| C27 | `LexerActionExecutor` | induction on actions; the executed list is that of the preferred way of C25, up to offsets; FALSE for offsets (witness: an edge made earlier in the same match is used again) |
| C28 | `evaluate_predicate` | state equality |
| C29–C32 | `PredictionContext` as tree, denotation = set of stacks | well-founded induction on merge |
| C33 | `add_cached` | history induction |
| C34, C35 | `SemanticContext` | structural induction; C35 completeness FALSE (witness) |
| C36 | `prediction_mode` functions on lists of configs | list reasoning against set-builder definitions |
| C37 | DFA tables | history induction |
| C38 | the whole parser ATN simulator over any token stream | invariant of the loops (`Rewinds`): every exit is behind a seek; the tokens of an error come from the buffer (`Told`) |
| C39 | same, with the DFA | FALSE: the merge cache of the SLL phase misleads the full-context phase, and the fallback on wrong input depends on the states merged in the cache (witnesses). Partial: merging without full context is a pure function (`merge_pure`), so are closure and reach up to the counts of rule ends (`Pair`, `computeReach_pair`); hence every DFA is a partial copy of one fixed machine (`TInv`), kept by every prediction (`predict_tinv`), and two runs go in lockstep (`predict_pair`); bounds on the loops do not matter (`predict_below`) |
| C40 | same, on automata without predicates | refinement to threads with a call stack (`Live`): configuration sets = threads, both ways (`SoundK`, `Covers`; `computeReach_spec`), DFA states right after every input that leads to them (`DInv`), invariants of both loops (`fullLoop_spec`, `execLoop_spec`), induction over the history of the cache (`Later`). An alternative that is answered can begin with the next token, or can end without reading (`C40_begins`; `Humble`, `Begin.lean`). FALSE in the current context (witnesses): SLL looks at all callers. Partial: all contexts together (threads that end before EOF included), and exactly the current one once a conflict is cached |
| C41 | `matches` for each transition kind | C41 FALSE for wildcard (strict bounds), witness + partial |
| C42, C43 | LL1 analysis over a finite ATN | reachability with visited set |
| C44–C48 | `DefaultErrorStrategy`/`BailErrorStrategy` over an abstract parser state | history induction; C48 FALSE for "exception recorded" |
| C49–C53 | `BaseParser` state machine (contexts as a heap/zipper of nodes) | history induction |
| C54–C56 | trees | structural induction |
| C57 | vocabulary tables | case analysis |
| C58 | decoding of characters | FALSE for 0xFFFE/0xFFFF; arithmetic |
| C59, C60 | the whole deserializer as reading functions on lists of numbers; the tool's serializer as specification | round-trip law: each segment reads back (`ReadsAs`), each phase is a map over the source states (`updAll_build`); C59 FALSE for the label 0xFFFF and for a set beside its complement |
| C68 | deserializer | invariants of the phases, for arbitrary data |
| C69 | the whole lexer, as for C25; tests/gen/xmllexer.rs as instance (`C69_xml`) | potential argument: the number of silent steps from a state is bounded (`Chain`), so stacks grow by a bounded amount per character; the traversals and the loop then return. Necessity: `C69_false_loop` (never returns), `C69_false_empty` (never reaches EOF). Certificates (`loopCheck`, `emptyCheck`, `wholeCheck`) make the conditions checkable |
| C70 | the whole of `adaptive_predict`, as for C38–C41 | silent chains are bounded (`NoLoop`), so `closure` ends: a measure on the chains left and on the follow edges the busy set has not seen; reach sets, start states, and then both loops by induction on the distance to EOF. With context all threads at EOF stand at the end of one outermost rule (`OneStop`), so the loop decides there. Necessity of `NoLoop`: `C70_false_loop` (never returns). Certificates for examples in `TotalCheck`. With predicates of the user, precedence predicates and left-recursive rules (`C70_returns_pred`, `Prediction/Sem*.lean`): the semantic contexts a local closure can note are finitely many (`stays_ex`: predicates of the automaton, each at most once in a conjunction), with context the stream can go back to the start of the decision to ask a predicate and return; the DFA invariant `SInv` covers the start states per precedence. `Tried` is the history of the DFA, of predictions that returned; instance: the loop of `expr` in visitorcalc |
| C71 | code the templates generate (`templates/Rust.stg`) as an inductive type `Code` with an interpreter (`Gen/Model.lean`) over the parser, error strategy and predictor of the other modules; the grammar is read off the code (`Gen/Erase.lean`) | grammar trees specified by themselves (`Gen/Spec.lean`: `Yields`, `Builds`); by induction on the fuel every generated function appends to the heap a tree in `Yields` of its code, or reports an error (`all_ok`); the bail strategy never counts errors (`still_all`); predictors in range only while their memory is in order are replaced by filtered ones (`agree_all`), which C73 lets us do for the real simulator |
| C72 | as C71; the automaton beside the code | the code mirrors the automaton (`Mirror` in `Gen/PathSpec.lean`, a relation between a rule's code and the paths of its submachine; checked for the parsers of the repository by `rulesB`, `Gen/Check.lean`). A tree of the grammar is a path of the automaton that ends at EOF (`tree_wins`, `Gen/Derive.lean`); code that stands at the start of such a path follows it to its end without an error, if every choice names an alternative on such a path (`Sure`, `Gen/Complete.lean`). Tests of the next token do so if they separate the alternatives (`Tells`); `adaptive_predict` by C40 while it needs no context. `sync` of the default strategy lets sentences pass because C42's sets are right (`C72_sync`). Partial for predictions that need the context (C40 is false there), and for left-recursive rules and predicates (not covered by `Mirror`). Examples: the CSV parser accepts exactly its sentences, for all inputs |
| C73 | the whole of `adaptive_predict`, as for C38–C41, with predicates and precedence | an invariant of sets, states and DFAs (`Good`, `GoodState`, `GoodDfa`): only alternatives of the decision are mentioned |
| C74 | threads as trees of lock operations and of uses and changes of DFAs (`Concurrency/Model.lean`), interleaved in any way, with panics anywhere; `adaptive_predict` and `match_token` again as such programs (`Programs.lean`); `Session`: what a thread does, depending on the answers, with sessions again in the middle of predictions (callbacks, the lexer). Simplified: callbacks do not change the token stream of the prediction they run in | an invariant of executions: guards agree with locks (`Fits`), and for each DFA the rest of the visit that goes on will do what its task does alone (`Told`), by weakest preconditions of programs (`Safe`, `Visit`, `Faithful`). That the programs do what `adaptivePredict` and `matchToken` do: `predict_visit`, `match_visit`. That the continuation of a thread is given the answers of the log (`C74_thread`): one more invariant, of what each thread will say (`Outs`) |
| C75 | same | levels of locks: the thread that holds the lowest lock can go on (`Fits.progress`); steps go down in the tree of the program, so there is no infinite execution; FALSE for callbacks that predict the same decision (`C75_false_nested`) |
| C76 | same; `Interrupted`: what a DFA can look like when a prediction or match is cut off (`Prediction/Interrupt.lean`, `Lexer/Interrupt.lean`) | interrupted visits keep the invariants of the DFA (`interrupted_good`, `interrupted_spec`, `interrupted_warm`), so by C74 every answer is one that C73, C40 and C26 speak about; `Predicted`, `Later` and `Reached` of those include interrupted predictions |
| C77 | as C71, with the text of intervals of `CommonTokenStream` as in C15 | the condition on the code is `Prompt` (`Gen/ReturnSpec.lean`): for each type of the next token, each piece of code gets to its end, to a token it reads or to an error, with boundedly many calls nested in each other, and bodies of loops do not end without reading; `promptB` computes it (`Gen/ReturnCheck.lean`). A rank of the parser goes down whenever a token is read and whenever an error is recovered from (tokens left, then states at which recovery has not yet been tried here, C45); main induction on rank and `Settles` (`Gen/ReturnMain.lean`). No panic: an invariant of contexts, state numbers and the strategy's memory (`Sane`), so that all expected and recovery sets exist (C42, C43) and every error can be reported. FALSE without the condition: `a : (A \| EOF)* B ;` on an empty file loops forever, with either strategy, and the tree grows (`C77_false_eof_loop`, `Stuck.rounds`). Choices by `adaptive_predict` (`Gen/ReturnPredict.lean`): predictions return (C70), answer an alternative that can begin with the next token (`C40_begins`; `firstsB`, `answers` in `Gen/PredictCheck.lean` compute these), and their errors name tokens of the buffer (`C38_offending`). They need room in the DFA, state numbers being `usize`: the parser that gives up at more than `B` states returns, and if none has more in the end, its result is that of the parser without a limit (`Gen/Only.lean`). With predicates or left-recursive rules (`Gen/ReturnTame.lean`, `C77_tame_partial`) predictions return by `C70_returns_pred` and of their answers only the range is known (C73). Left-recursive rules (`Gen/ReturnRec.lean`) with the bail strategy, where a wrong token ends the parse: primaries and operators read something. Partial: with the default strategy no left recursion (FALSE: `C77_false_leftrec`); nothing after a call of a left-recursive rule from outside (FALSE: `C77_false_twice`). Examples: the CSV parser and the parser of referencetoatnparser.rs return on every input, and so do those of visitorbasicparser.rs (`C77_basic`) and, with the bail strategy, visitorcalcparser.rs, labelsparser.rs and simplelrparser.rs (`C77_calc`, `C77_labels`, `C77_slr`; automata and code in `Gen/Parsers.lean`) |
| C78 | the lexer of C22–C25 and C69 on the automata of tests/gen/csvlexer.rs, referencetoatnlexer.rs, labelslexer.rs, simplelrlexer.rs, visitorbasiclexer.rs and visitorcalclexer.rs (`Gen/Lexers.lean`), the parsers of C77 | an invariant of the lexer's DFAs (`Lexer/Types.lean`: predictions are types of rules, executors hold actions of the grammar, whatever the hash and also after interrupted matches) gives types and channels of tokens; with C69 the tokens of a text form a `Source` (`C78_source`; `Lexed` in `Lexer/SourceSpec.lean`; the stream asks no further, C15), to which C77 applies: `C78_ref`, `C78_basic` (both strategies), `C78_labels`, `C78_slr` (bail strategy) without a condition on the text, `C78_csv_partial`, `C78_calc_partial` (bail) if the text does not begin with a hidden token. FALSE otherwise: `C78_false_blank` (kernel computation with symbolic fuel) |
| C79 | the ordered semantics of C25 (`Lexer/OrderSpec.lean`); rules `OPEN .*? CLOSE` as lines of states around a non-greedy loop (`Lexer/LazySpec.lean`); tests/gen/xmllexer.rs with its predicate and action (`Gen/XmlLexer.lean`) | at the first CLOSE the way that leaves the loop stands before every way that goes on, and every later way of the rule has one of those as ancestor, so none survives; until then nothing is cut. The XML lexer by computation (`xml_checks`), which also gives C69 for it (`C69_xml`); that its other rules stay behind by sets of states (`Lexer/Dead.lean`). The tokens: states that carry no action (`Lexer/Quiet.lean`) leave channel, mode and type alone, DTD's end carries `skip`; character data by the symbols the edges of `TEXT` and `SEA_WS` read and a way along given states (`Gen/XmlText.lean`); texts of such pieces (`Gen/XmlDocSpec.lean`) by induction on the pieces (`Gen/XmlDoc.lean`) |
| C80 | `DFASerializer` and the two functions that use it (`DFA/Serializer.lean`), on the DFAs of C26 and C73 with any history | an invariant of the numbers and edges of DFA states (`Lexer/Print.lean`, `Prediction/Print.lean`); the lines are read in one way (unique reading of digits, as C62; for parsers display names must be told apart before `->`, `Apart`); FALSE for parsers: predicates make it panic, precedences are printed as token types |
| C81 | the XML lexer of C79, with its mode stack (`Gen/XmlOpen.lean`) | after `<` the states of all ten rules are computed; only `!` and `?` can be read from them, and only `OPEN` has matched (`open_checks`); its one action is performed at the end (`ends_match`, as for skipped declarations) |
| C82 | the same lexer in mode `INSIDE`, with the embedded action of `CLOSE` (`Gen/XmlClose.lean`) | as C81 (`close_checks`); `Name` calls fragment rules, so for it the first symbol is bounded over all states of the called rules (`callsB`, `reads_first_calls`) |
| C83 | the same lexer, rule `STRING` (`Gen/XmlString.lean`) | no other rule of the mode reads a quote (`reads_first_calls`); an invariant of the ways of `STRING`: between the quotes no closing quote was read, after it nothing can be read (`string_reached`) |
| C61 | decision logic | case analysis |
| C62 | error listeners of the parser model; messages as texts | case analysis, induction on the listeners; kind of event, decision and alternatives are readable from the message (unique reading of the digits); it ends with the text of the interval and names the rule |
| C63 | merge cache shared between local and full context phases | FALSE: the key ignores the mode; witness; partial |
| C64 | context sharing (`combine_common_parents`, `PredictionContextCache`) | denotation unchanged |
| C65 | token accessors of rule nodes | list reasoning |
| C66 | `match_token` and the recovery flag | history induction; FALSE for the bail strategy |

## Findings

Each entry is a theorem about the model (names as in MANIFEST.json); the code's lines are cited at the
model definitions.

* **C01/C02** `IntervalSet::add_interval` swallows only every second interval bridged by the new one and
  loses data (`C01_false_lost`), after which the set is unsorted and binary search misses members.
* **C11** `IterWrapper::next` consumes before it tests for EOF, so iterating any stream to its end
  panics.
* **C13** The unbuffered token stream answers `None`/type 0 beyond EOF instead of EOF; `lt(-2)` is off.
* **C16** `CommonTokenStream` starts at index 0 even if that token is off-channel.
* **C18** Looking back past the first on-channel token answers token 0 or panics.
* **C20** If the input ends while MORE is collecting, a token of type EOF with a non-empty range is
  returned first.
* **C24** A token stored by a lexer action (`lexer.token = …`) is discarded and the matched text yields no
  token at all.
* **C26** Lexer DFA states are identified by a 64-bit hash that ignores the action executor, and the
  offsets of actions inside a rule are baked into cached edges: `WS: ' ' -> skip | '\t' -> channel(1)`
  skips a tab once a blank was seen (`C26_false_executors`); in `'a'+ {x} 'b'` the action runs at the
  offset of an earlier match (`C26_false_offsets`).
* **C27** In `('ab')* 'a' {x} 'bd'` on `ababd` the action runs at offset 1 instead of 3 even with an empty
  cache: the edge made for the first `ab` is used again for the second (`C27_false_offset`).
* **C28** A speculatively evaluated predicate at the end of input panics ("cannot consume EOF").
* **C35** `eval_precedence` compares the wrong way round when simplifying nested precedence tests.
* **C38** A failed prediction does not release its mark: an unbuffered stream keeps all later tokens, and
  releasing a mark taken earlier panics.
* **C39** In `a : ('w' 'x' (a 'y')??)* ;` on `w x y y` the first prediction of `(a 'y')??` answers 1 and
  reports an ambiguity, the second answers 2, the only alternative that matches (`C39_false`).  In
  `r : ( ('a' | 'd' r) 'c' | 'b' ) | ('a'..'b') 'd'? ;` on the wrong input `a a` the prediction falls back on
  alternative 2 with an empty cache, and on alternative 1 after a prediction on `b a`
  (`C39_false_fallback`): equality and hash of configurations ignore `reaches_into_outer_context`.
* **C40** A unique alternative of the SLL phase is answered even if only another caller's context allows it.
  In `s : ('a' | 'a' 'b'?) EOF ; o : s 'x' ;` the rule `s`, started on its sentence `a`, is refused with "no
  viable alternative" because `o` calls it (`C40_false_error`).
* **C41** Wildcard edges use strict bounds, so the smallest and largest token types do not match.
* **C42/C43** Next-token sets inherit the data loss of C01; joins of follow sets lose tokens.
* **C44** A deleted token re-enables reporting although nothing was matched.
* **C48** `set_exception` is empty: the bail strategy's exception is not recorded in the contexts.
* **C50** A left-recursive rule that matched EOF does not stop at the EOF token.
* **C52** enter/exit events are unbalanced when a rule fails before its alternative is chosen or inside an
  operator loop; listeners with equal addresses are confused on removal.
* **C55** The LISP form of a tree is ambiguous when token texts contain blanks or parentheses.
* **C58** Serialized values 0xFFFE/0xFFFF decode to -2/-1.
* **C59** A lexer rule for the character U+FFFF is read back as one for EOF (`C59_label_FFFF_witness`); an
  edge for a set swallows one for the complement with the same target (`C59_complement_witness`).
* **C63** One `MergeCache` serves SLL and LL merges; a result cached in one mode is wrong in the other.
* **C66** The bail strategy's recovery flag is never cleared, so later matched tokens become error nodes.
* **C75** Predicates, error listeners, actions and the lexer run while the DFA of the decision is locked.  One that
  starts a prediction of the same decision, for instance with a second parser for the same grammar, waits for
  itself forever (`C75_false_nested`).
* **C77** A loop over EOF never ends: `match_token` on EOF consumes nothing.  The parser of `a : (A | EOF)* B ;` hangs on an
  empty file and adds EOF leaves to the tree until memory is exhausted (`C77_false_eof_loop`).
* **C77** With a left-recursive rule the default strategy may panic: `push_new_recursion_context` overwrites parent and invoking
  state of a context that `next_tokens_ctx` may still lead to; a later mismatch reports the tokens expected there, and
  `get_expected_tokens` casts an epsilon transition to a `RuleTransition`.  `s : e EOF ; e : e '*' q | NUM ; q : 'x' ('a' | ) ;` on
  `1 * x 1 * 1` (`C77_false_leftrec`).
* **C77** `unroll_recursion_context` leaves the state number as it is.  After a left-recursive rule called from outside, the
  context of the next call has an invoking state and no parent, and its first error panics in `states_stack`: `expr` twice
  on the input `1`, calculator of tests/gen, either strategy (`C77_false_twice`).
* **C77** Parents are `Weak`: without `build_parse_trees`, or if the tree of an earlier parse has been dropped, the parent of
  `next_tokens_ctx` may be gone, and `states_stack` unwraps `None`.  `s : o 'z' ; o : i ; i : 'a' 'b'? ;` on `a a` without trees
  (`C77_false_freed`).
* **C78** A CSV file that begins with a blank makes the CSV parser of the repository panic with the default error strategy
  (`C78_false_blank`): the hidden token is the first of the stream (C16), is skipped as an error, and `exit_rule` then looks
  back beyond it (C18): `tokens[-1 as usize]`, src/common_token_stream.rs:178.

* **C80** `DFA::to_string` panics (`unimplemented!()`, src/dfa_serializer.rs:53) as soon as the DFA has an edge to an accepting
  state with predicates: `s : ( {p}? 'a' | {q}? 'a' ) EOF ;` after one prediction (`C80_parser_panics` and example).
* **C80** The start state of the DFA of a left-recursive rule is printed like any other state, so precedences appear as token
  types: after `+` with precedence 0 the loop of the calculator of tests/gen prints `s0-EOF->s1` (`C80_precedence_label`).

## Further observations

Read in the code; the model follows it, but no theorem has this as its subject.

* A token that `match_set`'s inline recovery conjures up is not added to the tree, unlike `match_token`'s.
* The offending token of a "no viable alternative" error of the full-context phase is the start token, not the
  token the phase stopped at (parser_atn_simulator.rs:478-486).
* Popping a context drops `precedence_filter_suppressed` (parser_atn_simulator.rs:1023-1029), and the
  configurations `apply_precedence_filter` makes lose `reaches_into_outer_context`.
* Leaves of parse trees have no parent.
* A conjured-up token at EOF takes line and column from the raw previous token, on whatever channel.
* `match … { _ => {} }` in generated blocks: an answer out of range is skipped silently (C73: there is none).
* Not modelled with the locks of C74–C76: the standard library's `RwLock` around the map of
  `PredictionContextCache` (prediction_context.rs:605-656), which is held for one lookup or insertion each.
* `LexerATNSimulator::set_line` sets the column (lexer_atn_simulator.rs:118-120).
* `UnbufferedTokenStream::lt(-k)` is off by one for k ≥ 2 (see C13); `get_all_text` of a buffered stream is the text of the
  tokens fetched so far.
* `look_to_end_of_rule` (parser_atn_simulator.rs:572-577, 663) is set only if the token is not EOF and used only if it is: the
  code it guards is dead.
* `TestSetInline` computes `1usize << _la` and so assumes 64-bit words.
* Wide labels make next-token sets wrong (`C42_false_wide`); then `sync` of the default strategy can reject sentences,
  hence `Narrow` in `C72_sync`.
* In the SLL phase ends of rules that are called elsewhere are not kept as ends of the input (`Worth`), hence
  `Uncalled` in `C72_predict_partial`.

## How to read the mutation log

`seeded/LOG.jsonl` has one line per wrong program. `theorems_failed` lists what no longer compiled, which may be
a helper lemma: then the property theorems behind it (`theorems_not_reached`) were not checked, and a broken proof
does not by itself show that their statements became false. Lines with `invalid` are edits after which the model
itself does not compile; they test nothing and were redone. `examples_failed` counts examples that were taken out to
get at the theorems behind them.
