# Formal model of html-extract/hext: design

Everything lives in `/verif/lean/Verif`. The model is written from the text of
`/repo`; no C++ is compiled or run.

* `Base.lean`, `Model/*`: the code, function by function. Every definition cites
  the file and lines it models and says where it simplifies.
* `Spec/*`: what the properties are stated with. Small, declarative, does not
  use helpers of the model (except its data types: trees, rules, strings).
* `Props/*`: the theorems listed in `MANIFEST.json`, one file per area, each with
  an example beside it that meets its hypotheses. The files `Props/Applied.lean`,
  `Props/AppliedMore.lean`, `Props/AppliedPrograms.lean` and `Props/AppliedRest.lean` apply theorems to concrete cases, so that all
  hypotheses are met at once.
* `Proofs/*`: everything in between.

## 1. Trusted base

* Lean 4.33.0's kernel. Every theorem depends on at most the three standard
  axioms `propext`, `Classical.choice`, `Quot.sound`. No axioms are added; no
  `sorry`, `native_decide`, `bv_decide`, `implemented_by`, `unsafe`. Kernel
  evaluation (`decide +kernel`) is used on closed terms: examples, witnesses, and
  the finite tables of the parser's automaton (whose result is then lifted to all
  inputs by induction, see section 2).
* The transcription from C++ to Lean.
* `Model/ParserTables.lean` is copied from `libhext/src/Parser.cpp` (the code that
  Ragel generated and that is checked in) by `tools/gen_tables.py`.
  `Proofs/ParserData.lean` was generated by `tools/gen_residual.lean.txt`; nothing
  rests on the generator, the data is checked by the kernel.
* Assumptions on code outside the repository. They are parameters or hypotheses
  of the theorems, never axioms:
  - Gumbo: `IsDocument` says that the node graph is a finite tree, `parent` and
    `index_within_parent` are right, and nodes have at most a given number of
    children. `every_tree_is_a_document` shows that trees of every shape meet it.
    The text of names and attributes has no NUL where `Heap.NoNul` is assumed.
    `gumbo_parse` returns no null pointer. What Gumbo makes of a text is open.
  - Boost.Regex: `RxEngine`, any deterministic engine: a pattern compiles or not,
    search and replace are functions of pattern and subject. Searches that give up
    with an exception (complexity limit) are treated in C67.
  - Boost.Program_options: for C43 to C65 its outcome (`Except Str Opts`) is a
    parameter. For C70 and C71 its functions are modelled for the default style and
    for options with no value or one value (`Model/Options.lean`); the texts of its
    messages are open.
  - RapidJSON: `Writer`, `PrettyWriter`, `AddMember`, `FindMember` are modelled
    from their documented behaviour in `Model/Json.lean`, with byte strings that
    are copied as they are (no validation, the default).
  - SWIG, the C API of Python, Ruby and PHP, N-API: the calls that the bindings
    make, with their documented behaviour (`Model/Bindings.lean`).
  - Files: any state machine that answers reads (`World.files`).
  - `std::` containers, strings, streams: their documented meaning. Addresses are
    not reused, so each use after free is noticed.
  - C locale: `isprint`, `to_lower`, `to_upper`, `isspace` act on ASCII only.
  - `MatchFunction`, `CaptureFunction` of users: functions of the node; that they
    throw is treated in C67;
    that captures keep data between calls, and throw, in C83

## 2. Method

Undefined behaviour (`ub`), failed assertions (`assertFail`) and C++ exceptions
are different outcomes of the monad `E`; divergence is a further one (`none`).
Loops and recursion whose end is not obvious are `partial_fixpoint` definitions,
so that they end is proved, not assumed.

* Extraction. `Model/Matching.lean` is the literal engine: a heap of nodes, rules
  with pointers to parts of rules, loops and out-parameters as written.
  `Proofs/Pure.lean` is a structural engine on trees that counts searches.
  `Proofs/Refine.lean`: for every heap that stores a document, the literal engine
  with budget `m` is the pure engine with its count charged against `m`. So it
  ends, has no undefined behaviour, and the budget is exact. `Proofs/Group`,
  `Run`, `Sound`, `Complete`, `Once`, `Unique` relate the pure engine to
  `Spec/Extract.lean`, which says what a match, a group and a result are, and show
  that this determines the result.
* Parser. `Model/Parser.lean` runs the generated tables literally: binary search
  over key ranges, action lists, actions at the end of the input, the stacks of
  `Parser.cpp.rl`. `Spec/Grammar.lean` and `Spec/Syntax.lean` say which texts are
  hexts and which rule they mean. That the automaton accepts the words of the
  grammar and nothing else is an induction over inputs with a relation between
  states and residual expressions; that this relation is kept is checked for all
  states and byte ranges by kernel evaluation. Then actions are executed on the
  words (`ParserExec`, `ParserHead`, `ParserNest`).
* Memory. `Model/RuleMemory.lean` has rules as objects at addresses, with the
  constructors, assignments, appends and destructors as they are. Programs
  (`Spec/History.lean`) have a meaning on values; that execution in memory agrees
  with it is an induction over programs with an ownership invariant
  (`Spec/Memory.lean`). The same for documents in `Model/Html.lean`.
* Command line program and bindings: total functions, related to JSON texts
  (RFC 8259, `Spec/Json.lean`, proved unambiguous) and to one notion of
  presenting a result map (`Presents`).

Where the code violates a property, the negation is proved with a concrete
witness, and the part that holds is proved with the suffix `_partial`.

## 3. Plan per property

| id | modelled | proof |
|----|----------|-------|
| C01 | RuleMatching.cpp, NextNode, Rule::matches/extract, all Match/Capture classes | refinement of the literal engine by the pure one, which is total; hypotheses: document, int ranges |
| C02, C03 | the same | budget law of the refinement, UInt64 decrement |
| C04 | pairs collected by the engine | induction over the pure engine |
| C05 | RuleMatchesNodeRecursive | greedy scan = existence of an embedding (exchange argument) |
| C06, C07, C08, C10 | MatchRuleGroup, MatchRange | invariants of the group loop over positions; `Spec/ResultGroups.lean` for the groups of a result |
| C09 | the same | greedy rules elsewhere proved; the general claim refuted by witnesses, and the exact limit (`waitingAfter`: is a rule waiting when this one is reached?) |
| C11 | SaveMatchingNodesRecursive | induction over trees |
| C12 | RuleMatchesNodeRecursive | induction over rule trees |
| C13 | the same | characterisation by embeddings; witness: childless node, and exactly when a node is blocked |
| C14, C15 | Rule::extract, multimap | stable insertion sort |
| C16 | the meaning of hexts + extraction | each capture of a hext has its match; induction over groups |
| C17, C18 | NthChildMatch with int overflow as UB | arithmetic on counted positions |
| C19, C20 | OnlyChildMatch, counts | equivalence of counting loops |
| C21, C22, C23 | AttributeMatch, NegateMatch, NegateTest, tests | case analysis, list lemmas |
| C24 | ContainsWord with std::string find | scan invariant |
| C25 | Rule::matches | case analysis |
| C26, C27, C28, C29 | StringUtil, pipes | loop invariants |
| C30, C31 | NodeUtil | induction over trees; witness: not injective |
| C32, C33, C47, C48 | Rule copy, move, assign, append, destroy in memory | programs against values, ownership invariant, moves from any rule or sub-rule; for every program: moving a part to the whole is undefined behaviour, moving the whole to a part leaks, moving a rule to itself loses parts |
| C34, C35, C36, C40 | Parser.cpp tables + actions | automaton = grammar; execution of words; witnesses: isprint, stoi; for the exact condition of std::out_of_range (C35): the states in which numbers are read, checked over all transitions, and the completion of what was read |
| C37 | the same | a printer of rules, proved to write what means the rule, and to be complete |
| C38 | the same | meaning does not depend on filler |
| C39 | print_error_location, CharPosition, PrintNumberedLines | list arithmetic; residuals for the first bad byte |
| C41 | regex_flag handling | witness of the leak; hexts with options of their own; for every hext, the same hext with all options spelled out (`Spec/Spelled.lean`), by induction on the nesting |
| C42 | Json.cpp, pyhext.i, rbhext.i, phphext.i, nodejs Rule.cpp | each loop makes the entries of `Presents`; witnesses; `Spec/EveryMap.lean`: names that NUL bytes make equal |
| C43, C44, C50, C51, C52, C53 | main.cpp, ProgramOptions, File.cpp, ErrorOutput.cpp, Json.cpp | case analysis along the program, JSON writer lemmas |
| C45 | limits in the bindings | arithmetic; witness and exact condition |
| C46 | Html.h, Html.cpp, vectors in main.cpp, wrapper/Html.cpp | invariant over programs; a program fails exactly if it moves |
| C49 | copy and move assignment of captures | case analysis in memory; witness; exact condition |
| C54 | main.cpp | from C34 and C01; witness; `C54_crash_iff` from C36, C35 and C34 by induction over the hext files and strings |
| C55 | wrapper/Rule.cpp, exception handlers, nodejs Rule.cpp | from C35, C36, C01 and the loops of C42; witness |
| C56, C57, C58, C59, C60 | Rule.cpp, RuleMatching.cpp, NodeUtil.cpp on two inputs | the engine maps related inputs to related outputs (relational induction, `Proofs/Param.lean`); witnesses for C58 |
| C61 | Rule::extract | induction over groups; for the texts of hexts (C57, C60, C61) `Spec/HextCaptures.lean` |
| C62 | parser, matching and capture together | from C36, C05 and C21 |
| C63 | parser, matching, captures and pipes together | `Spec/Meaning.lean` defines the outcome of a hext on a document tree; both directions from C36, the refinement of the engine and the uniqueness of groups |
| C64 | the search counter of the engine (one search for each list of sibling nodes that a rule is searched in) | `Spec/Size.lean` defines the sizes; the cost of each part of the reference engine is bounded by induction on the rule tree, and the refinement carries the bound to the literal engine |
| C65 | `main` of htmlext with the parser and the engine | `Spec/CliMeaning.lean` defines what has to be computed from the texts; follows from C50, C63 and the search limit theorem |
| C66 | the matching functions with a number of free stack frames (`Model/Stack.lean`) | equality with the engine without a bound, by induction on the height of the document; a tower of elements for the other direction |
| C67 | the engine, conditions, tests, pipes and captures with calls that throw (`Model/Throwing.lean`) | fixpoint induction over the engine: each step throws or is the step of the engine that always gets an answer; engines that agree on the other calls are not distinguished |
| C68 | copy constructors and destructors in memory with a number of free stack frames (`Model/RuleStack.lean`) | induction over rules: with `depth` frames each step is the step without a bound, with fewer it overflows; objects of a hext counted along its syntax |
| C69 | text extraction and serialisation with a number of free stack frames (`Model/TextStack.lean`) | induction over documents, exact number of frames |
| C70, C71 | ProgramOptions.cpp, with `cmdline::run`, `finish_option`, `find_nothrow` and `store` of Boost.Program_options (`Model/Options.lean`) | `Spec/Options.lean` is a grammar of command lines; the parser accepts exactly its words (induction over the arguments), storing is an invariant over the items; witness for C71 |
| C72 | the assignment operators, `append` and `append_match` of `StringPipe`, `NegateTest`, `AttributeMatch`, `FunctionValueMatch` and `NegateMatch` on the memory of C48 (`Model/Assign.lean`) | one lemma for copy-and-swap, used for tests and matches; chains by induction; the two bad overlaps of chains are theorems |
| C73 | the same operations again with a number of allocations that succeed; the next one throws, and unwinding destroys what was completed (`Model/Failing.lean`) | a Hoare-style triple with two postconditions and the number of requests, composed along each function; copying by induction over rules; programs that catch the exception by the ownership invariant of C47 |
| C74 | main.cpp again, printing to streams whose devices may refuse bytes (`Model/Sink.lean`) | the run equals the run of C50 followed by printing; witness for every truncated length |
| C75 | htmlext.py, htmlext.php, htmlext.js, htmlext.rb (`Model/Scripts.lean`) | C63 gives the outcome, C55 and C42 the objects; UTF-8 keeps the order of names (`sort_keys`); JSON encoders are parameters with their promises; witnesses |
| C76 | the same scripts: exit codes | inversion of the runs that end with 0 (`Props/ScriptExit.lean`): the wrapper returned a rule and a result, all lines were printed; C55 for the rejected hexts; witnesses |
| C77 | the matching functions once more, in a monad that counts steps instead of searches (`Model/Work.lean`) | refinement to the pure engine with costs (`Proofs/WorkRefine.lean`), equality of the values with those of `extract` (`Proofs/WorkCost.lean`), weights of nodes and induction over levels for the bounds (`Proofs/WorkBound.lean`), induction over d for the doubling |
| C78 | nothing new | the relational framework of C58 (`Proofs/Param.lean`) for a relation that drops nodes (`Proofs/Trim.lean`): dropped nodes match no rule, all other nodes match the same rules; hexts by the grammar of C63; witnesses for the restrictions |
| C79 | nothing new | weights of matches on the pure engine: a group weighs at most what the nodes it consumes allow (`Proofs/Amount.lean`); summed over the document, each node is the child of one node and below at most as many nodes as the document is high; then captures give at most one value each |
| C80 | nothing new | on the pure engine, the search below an element is the search of its list of children, which is a part of the whole search (`Proofs/Part.lean`); for a sole rule, the searched nodes are a sublist of the searched nodes |
| C81 | nothing new | the relational framework of C57 for rules that differ in names, and captures give the renamed pairs |
| C82 | nothing new | a sole rule gives one map for every searched node that it matches (C11); with a further condition these are the nodes that also satisfy it |
| C83 | the second half of `Rule::extract` with data that the functions of the user read and change, and that may throw (`Model/Stateful.lean`) | the captures of the groups found are carried out in order (`Makes`, `Fails`, `MakesMaps` in `Spec/Stateful.lean`), by induction over captures, matches and groups |
| C84 | libhext/examples/extract-href.cpp after reading the input, with Poco::URI as a parameter (`Model/ExtractHref.lean`) | what a leaf rule finds (C11, C62) and C83's way of carrying out captures |
| C85 | the constructors and methods of the Node binding with their checks of arguments, any sequence of calls and collections (`Model/NodeObjects.lean`) | an invariant: what the program knows is what the memory holds; replies are compared with `Right` in `Spec/NodeObjects.lean` by induction over the calls |
| C86 | pyhext.i with its checks of arguments and the wrapper classes, any sequence of calls (`Model/PyObjects.lean`) | as C85; `pyDict_exact` says exactly which maps can be converted |
| C87 | `extract` of a rule before and after a nested or a first child rule was appended (`Spec/Compose.lean`) | one run of the rule is compared with and without the added rule (`runRule_nested`, `runRule_child`); where a rule is stored makes no difference to what it finds (`save_addr`, by the relation of C57) |
| C88 | `ParseHext` of texts that are put together, `append_next`, `append_child`, `append_nested` (`Spec/Concat.lean`) | the items of the parts (C36) are the items of the whole text; meanings of item lists are put together (`Seq.append`). Partial: false after `:type-matches`, whose options leak (`C88_type_matches`). Converse: in its accepting states the automaton goes on like at the beginning (`final_states`, evaluated on the tables) |
| C89 | every function that reads the document, in a monad where each access waits for the turn of the thread and reads a memory that the other threads write to (`Model/Threads.lean`) | fixpoint inductions over the engine, `StripTags` and `SerializeNode`: each step comes to the step of the sequential model, if that is defined, after a number of turns that is the same in all runs; the memory of the document is an invariant of the turns |
| C90 | `main` of htmlext, `ReadFileOrThrow`, `ErrorOutput::print` (`Model/Cli.lean`) | `Spec/CliFailure.lean` lists the faults and their messages; each loop fails exactly at the first fault, by induction over the lists |
| C91 | `Parser::parse`, its code blocks, `PatternValues` and `ParseHext` on memory, with requests that may fail (`Model/ParserMemory.lean`) | every step is simulated by the parser on values (`Sim`), while the objects of the stacks and of `PatternValues` stay exactly those that were added to the memory (`Own`, a small separation logic); by induction over the hext. Partial: the constructor of `SyntaxError` is `noexcept` but copies the message |
| C92 | the parser with its messages (`Model/Parser.lean`); the spec reads the items once, keeping for each level of braces the open tags as written and whether there is a complete rule (`Spec/Complaint.lean`) | induction over the items: the stacks fit the levels (`Fit`), every action that throws does so with the text of the fault; faults come first whatever follows because the automaton's word up to a byte depends on the input up to that byte only |
| C93 | the two writers (`Model/Json.lean`); the spec is a reader that passes by strings and counts brackets (`Spec/Pretty.lean`) | structural induction over the value: each piece leads from one state of the reader to the next, is squeezed to the compact piece and has lines as they should be; then over results with `C50_success` |
| C94 | `Model/Scarce.lean`: the engine, matches, tests, pipes and captures again, with a number of requests for memory that succeed and an arbitrary cost for every step that can request memory; the `noexcept` constructor of `MaxSearchError` | simulation of the engine with enough memory (fixpoint induction over its eleven functions, `Proofs/Scarce.lean`); only the engine throws `MaxSearchError` (`Proofs/NoMax.lean`); what is in a result was requested (`Proofs/ScarcePaid.lean`) |
| C95 | sequences of the statements of C47 and of calls of `ParseHext` in memory (`Spec/Programs.lean`); libhext/examples/chaining.cpp and mixed.cpp after parsing the document (`Model/Examples.lean`) | the invariant of C47, kept by parsing because of C91's simulation; for mixed.cpp C57's comparison of two searches and C83's way of carrying out captures |
| C96 | the engine; the spec lists the nodes in the order of the document (`Spec/Order.lean`) | structural induction over siblings: with equal lengths the two lists can be compared part by part, and if a later sibling and something below are both looked for then the lists differ at once, because no node is searched twice (C11) |
| C97 | the parser, the engine and htmlext as in C01, C42, C50; the spec says what UTF-8 is and when a pipe leaves characters whole (`Spec/Utf8.lean`) | a text in UTF-8 may be cut before and after ASCII and wherever no continuation byte follows; `:trim` keeps UTF-8 iff the bytes beyond ASCII in its argument cannot take part of a character, for every kind of part; structural induction over parse trees and over the relation `IsResult` |
| C98 | the parser and the engine as in C01, C39; the spec says when two rules or two hexts differ only in the order of conditions and of captures with different names (`Spec/Reorder.lean`) | a conjunction depends on the set of its members only; results are maps that keep the order of equal names; by induction over rules and over derivations of the grammar, with witnesses for options and overflow |
| C99 | the wrapper classes with the handlers and conversions of rbhext.i and phphext.i, for every sequence of calls; the argument conversions of SWIG are parameters (`Model/SwigObjects.lean`) | invariant: what a program knows about its objects (the texts) is what the C++ objects hold; induction over the calls; meaning by C63 and C42 |
| C100 | as C98; the spec says what a condition and a pattern demand (a word list demands each of its words, a test of an attribute also the attribute), when two demands are synonyms, and which captures differ in their quotes only (`Spec/Synonyms.lean`) | each condition holds exactly if its demands are met (C12); synonyms have the same declarative meaning; then as C98 |
| C101 | as C98; the spec renames tags and attributes (`Spec/Case.lean`) | lookups of attributes and tags depend on names up to case only; so conditions and captures are the same functions; induction over the grammar |
| C102 | as C62; the spec follows a path through the tree (`Spec/Paths.lean`) | a chain of one unmarked rule has one group per match (induction over the groups); induction over the path gives the values of a match; the text is parsed by induction over the path |
| C103 | as C06; the spec is a function that scans from left to right (`Spec/Records.lean`) | the groups of a chain without marks are the records of the scan (induction over the groups); induction over the rule tree for what a rule finds at a place |
| C104, C105, C106, C107 | as C58; the spec relates two documents (`Spec/Reformat.lean`) | the relational framework of C58 with relations between trees: the words of the texts below related nodes are the same (induction over the tree, with any text in front and behind); witnesses for C105 and C107 |
| C108 | as C62 and C36; `Spec/Asked.lean` says which texts fit into quotes and what each comparison asks for | the hext as a syntax tree (C36), the result as for C62; conversely, each comparison in an accepted rule comes from a text in quotes (by induction over the patterns of the tag) |
| C109 | `ReadFileOrThrow` with its two streams and their error states, on a system where reading can fail after any byte (`Model/FileRead.lean`); the rest of htmlext as in C50 | induction over the copying loop; then the files that the program meets are those that end where reading stops, and C50 applies |
| C110 | both `ParseHext` functions and how htmlext and the bindings call them; the spec is the grammar (`Spec/Syntax.lean`) | C36; if a text is a hext and goes on to another one, the part behind it consists of items (by a check of all states of the machine, as for C88), and no item begins with a NUL byte |
| C111 | `main` of htmlext (`Model/Cli.lean`); `Spec/Batch.lean` says what the single runs are | C50 for the whole run and for each single run; with repeatable reading, texts, rules and results are functions of the paths |
| C112 | `Rule::extract` as in C103; `Spec/Wrap.lean` says which documents differ by enclosing elements only | C103 for both documents; by induction on the document the sibling lists correspond, apart from lists of one further element, in which no record begins; by induction on the rule so do the values of braces |
| C113 | nothing new; `Spec/Unnamed.lean` says which attributes a rule names and which documents agree in them | the relational framework of C58 (`Proofs/Param.lean`) for nodes that agree in the named attributes (`Proofs/Unnamed.lean`); the names in a rule occur in its hext by the grammar of C63 |
| C114 | nothing new; `Spec/Retag.lean` says which documents differ only in tags that a rule does not name | the relational framework of C58 (`Proofs/Param.lean`): elements with another tag match no rule in either document, and a rule counts elements of its own type or all of them; the types that rules name occur in the hext by the grammar of C63 |

## 4. What is modelled and what is not

Modelled: `libhext/src` and `libhext/include/hext` except what is listed below;
`libhext/ragel/*.rl` through the generated `libhext/src/Parser.cpp`;
`htmlext/main.cpp`, `htmlext/htmlext/{Json,File,ErrorOutput}.cpp` and the checks
and options of `ProgramOptions.cpp`; the conversion of results, limits,
constructors and extraction of the Python, Ruby, PHP and Node bindings, and
the scripts `htmlext.{py,rb,php,js}`; the example programs `extract-href`, `chaining` and `mixed`
of `libhext/examples`.

Not modelled:

* running out of memory elsewhere than in building rules (C73), parsing hexts (C91) and extracting (C94), and the size of stack frames (C66, C68 and C69 count
  frames);
* `Version.cpp`, the text of `--help`, the build system, and the code that SWIG generates for Ruby and
  PHP (its checks and conversions of arguments are parameters in C99; those of Node and Python are in C85 and C86);
* names of tags other than as strings: Gumbo's table of tags is a parameter;
* threads, other than in C89: no code in the repository starts threads. C89 takes for granted that threads that
  extract do not write to rules (`extract` is `const`, and there is no mutable member and no static variable) and that
  Boost's regular expressions can be searched from several threads at once;
* `operator==`-like helpers, iterators and templates that are not used by the
  library itself.

## 5. Validation of the transcription

The model is computable, so it was run (outside the build, as a test, not as a
proof) on the test cases of the repository. `tools/conformance` has the scripts:
a small HTML tree builder stands in for Gumbo, Python's `re` for Boost.Regex, and
`Cli.main` is run with the options of `test/blackbox.sh`. All 97 cases of
`test/case` give the expected output. The hexts of `parse-hext.cpp` are rejected
with `SyntaxError`, and the groups, sizes and remaining searches of
`rule-matching.cpp` and the texts of `builtins/*.cpp` are as expected there.

Theorems were tested against wrong programs: `seeded/LOG.jsonl`.

## 6. Deviations found

Each is a theorem with a concrete witness: greedy rules that match once (C09),
optional children that block childless nodes (C13), overflow in nth-child (C18),
`isprint` on negative values (C34), `std::out_of_range` instead of `SyntaxError`
(C35, C54, C55), options of regular expressions that apply to later ones (C41),
`__proto__` and numbers as names in Node (C42), line breaks with `--filter`
(C43), `--array` without output (C44), limits modulo 2^32 (C45), documents that
are freed twice after a move (C46), move-assignments between a rule and its parts
(C48), assignment of captures without a pipe (C49), comments that influence the
result (C58), spellings of `--lint` (C71), assignment of overlapping chains of
transformations (C72), assignments that run out of memory and the `noexcept`
constructors of rules (C73), of `SyntaxError` (C91) and of `MaxSearchError` (C94), exit code 0 although the output could not be written
(C74), limits of searches and lists instead of objects in the scripts (C75),
empty lines and exit code 0 for results that are not UTF-8 in PHP (C76),
exponentially many tests of rules within few searches, by the "wasteful" second evaluation in `MatchRuleGroup` (C77),
one malformed link that suppresses all output of extract-href, and a base that is not the first of the document (C84),
matches that are found before others that stand before them in the document (C96),
`:trim` that cuts UTF-8 characters apart (C97),
conditions whose order decides what an option applies to, or about undefined behaviour (C98),
`:nth-child(2n)` matching the root element, which `:nth-child(2n+2)` does not (C100),
close tags of custom tags whose case matters (C101),
backslashes in front of quotes that become a part of the text, and texts that no hext can ask for (C108),
files that cannot be read on and are taken for files that end there (C109),
hexts with NUL bytes, which are cut off by some programs and accepted as a whole by others (C110).
