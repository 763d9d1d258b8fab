{"id": "C01", "title": "Extraction always finishes and never touches invalid memory", "statement": "For every document produced by the HTML parser and every rule tree, Rule::extract(html) returns a result (or throws MaxSearchError when a limit is set); it never loops forever, never dereferences a null or dangling node, never trips an assertion and never overflows a signed integer, provided the numeric arguments of nth-child style matches stay inside the stated range.", "quantifier": "every finite document tree, every rule tree (any depth, width, number of nested rules), every max_searches value", "why_tests_cant": "The engine mutually recurses over two unbounded trees with hand-written pointer loops; tests only run finitely many shapes.", "anchors": ["libhext/src/RuleMatching.cpp: SaveMatchingNodesRecursive, MatchRuleGroup, RuleMatchesNodeRecursive, MatchRuleOnce, MatchRange", "libhext/src/NodeUtil.cpp: NextNode", "libhext/src/Rule.cpp: Rule::extract"]}
{"id": "C02", "title": "max_searches = 0 means no limit", "statement": "Rule::extract(html, 0) never throws MaxSearchError.", "quantifier": "every document and rule", "why_tests_cant": "Would need a run of every document/rule pair.", "anchors": ["libhext/src/RuleMatching.cpp: SaveMatchingNodesRecursive", "libhext/include/hext/Rule.h: extract"]}
{"id": "C03", "title": "max_searches is an exact threshold and does not change results", "statement": "For every document and rule there is a number N of searches the unlimited extraction performs, such that extract(html, m) with m > 0 throws MaxSearchError exactly when m <= N and otherwise returns exactly what extract(html, 0) returns. In particular raising the limit never changes a returned result and never turns success into failure.", "quantifier": "every document, rule and every limit in 0..2^64-1", "why_tests_cant": "Relates all executions with different limits to each other.", "anchors": ["libhext/src/RuleMatching.cpp: SaveMatchingNodesRecursive", "libhext/src/Rule.cpp: Rule::extract"]}
{"id": "C04", "title": "Soundness: every captured value comes from a node that satisfies its rule", "statement": "Every (rule, node) pair that contributes captures to a result is such that the node is a node of the searched document and the rule's tag and all of its match conditions hold for that node.", "quantifier": "every document, rule tree and result", "why_tests_cant": "Quantifies over all results of all extractions.", "anchors": ["libhext/src/RuleMatching.cpp: RuleMatchesNodeRecursive, MatchRuleOnce, MatchRuleGroup", "libhext/src/Rule.cpp: Rule::matches, Rule::capture"]}
{"id": "C05", "title": "A rule matches a node exactly when its children rules embed in order", "statement": "A rule matches a node iff its own tag/conditions hold and, if it has sibling child rules or nested rules, the node is an element with at least one child, the mandatory child rules can be assigned, in order, to strictly increasing children of the node which they (recursively) match, and every nested rule group that has a mandatory rule matches a run of siblings somewhere below the node.", "quantifier": "every rule tree and every node", "why_tests_cant": "The matcher is a greedy left-to-right scan without backtracking; that it finds a match whenever one exists is a statement over all trees.", "anchors": ["libhext/src/RuleMatching.cpp: RuleMatchesNodeRecursive, MatchRuleGroup, MatchRuleOnce, FindMandatoryRule"]}
{"id": "C06", "title": "Sibling rules match siblings in document order", "statement": "Within one result group the nodes matched by a chain of sibling rules are pairwise distinct siblings; listed in rule order their positions strictly increase.", "quantifier": "every chain of sibling rules, every sibling list", "why_tests_cant": "Ordering invariant of the scan loops for unbounded chains.", "anchors": ["libhext/src/RuleMatching.cpp: MatchRuleGroup, MatchRange"]}
{"id": "C07", "title": "A group is all-or-nothing for mandatory rules", "statement": "A result group of a chain of sibling rules contains a match for every mandatory rule of the chain; when some mandatory rule cannot be matched the group contributes no captures at all, not even those of sibling rules that had already matched.", "quantifier": "every chain, every sibling list", "why_tests_cant": "Would need all failure points.", "anchors": ["libhext/src/RuleMatching.cpp: MatchRuleGroup, RuleMatchesNodeRecursive"]}
{"id": "C08", "title": "A rule that is not greedy matches at most once per group", "statement": "In one group each non-greedy rule of the chain is matched to at most one sibling, and no sibling is matched by two rules of the chain.", "quantifier": "every chain, every sibling list", "why_tests_cant": "Multiplicity bound over unbounded inputs.", "anchors": ["libhext/src/RuleMatching.cpp: MatchRuleGroup, MatchRange"]}
{"id": "C09", "title": "A greedy rule matches repeatedly", "statement": "A greedy rule <+tag> placed anywhere in a chain matches consecutive repetitions: after its first match in a group it also takes every later sibling it matches before the next mandatory rule's match (or until the group ends).", "quantifier": "every chain containing a greedy rule, every sibling list", "why_tests_cant": "Universal statement about maximality of repetition.", "anchors": ["libhext/src/RuleMatching.cpp: MatchRuleGroup, MatchRange"]}
{"id": "C10", "title": "Groups do not share siblings", "statement": "Two different result groups produced from one list of siblings never match the same sibling, and appear in the result in document order.", "quantifier": "every chain, every sibling list", "why_tests_cant": "Invariant across loop iterations.", "anchors": ["libhext/src/RuleMatching.cpp: SaveMatchingNodesRecursive, MatchRuleGroup"]}
{"id": "C11", "title": "A single rule finds every matching element exactly once", "statement": "Extracting with one non-greedy rule (any children, any nested rules) yields exactly one group for every node of the document subtree that the rule matches, and no others, ordered level by level along the recursive descent.", "quantifier": "every document and every single top-level rule", "why_tests_cant": "Completeness over all documents.", "anchors": ["libhext/src/RuleMatching.cpp: SaveMatchingNodesRecursive, MatchRuleGroup, MatchRange"]}
{"id": "C12", "title": "Child rules look at children only, nested rules at any depth", "statement": "Every node matched by a sibling child rule is a direct child of the node its parent rule matched; every node matched by a rule in { } is a proper descendant of it.", "quantifier": "every rule tree, document and result", "why_tests_cant": "Structural invariant over all recursion depths.", "anchors": ["libhext/src/RuleMatching.cpp: RuleMatchesNodeRecursive"]}
{"id": "C13", "title": "Optional rules never prevent a match", "statement": "Adding or removing optional rules <?tag> from a chain of child rules does not change whether the parent rule matches a node.", "quantifier": "every rule, every node", "why_tests_cant": "Relates the behaviour of two different programs on every document.", "anchors": ["libhext/src/RuleMatching.cpp: MatchRuleGroup, RuleMatchesNodeRecursive, FindMandatoryRule"]}
{"id": "C14", "title": "extract returns no empty result maps and keeps group order", "statement": "The vector returned by extract contains one map per group that captured something, in group order, and never an empty map.", "quantifier": "every document and rule", "why_tests_cant": "Over all inputs.", "anchors": ["libhext/src/Rule.cpp: Rule::extract"]}
{"id": "C15", "title": "Result maps are grouped by name and keep capture order", "statement": "Each returned map lists its (name, value) pairs sorted by name; the values of one name appear in the order in which they were captured, and nothing is lost or duplicated.", "quantifier": "every sequence of captures", "why_tests_cant": "Stability/permutation property of unbounded inserts.", "anchors": ["libhext/src/Rule.cpp: Rule::extract", "libhext/include/hext/Result.h"]}
{"id": "C16", "title": "A mandatory attribute capture always produces its name", "statement": "If a hext rule contains a mandatory capture attr:name (no ?), every result group in which that rule matched contains an entry for name.", "quantifier": "every hext source, document and result", "why_tests_cant": "Connects parser output to extraction for all programs.", "anchors": ["libhext/ragel/hext-machine.rl", "libhext/src/AttributeCapture.cpp", "libhext/src/AttributeMatch.cpp"]}
{"id": "C17", "title": "nth-child family has the CSS meaning", "statement": ":nth-child(an+b), :nth-last-child, :nth-of-type, :nth-last-of-type match a node with an element parent iff its 1-based position from the stated end, counting element siblings (of the same tag for of-type), equals a*n+b for some integer n >= 0.", "quantifier": "every sibling list, every node, all a, b in the safe integer range", "why_tests_cant": "Arithmetic over all positions and coefficients.", "anchors": ["libhext/src/NthChildMatch.cpp: NthChildMatch::matches, matches_formula"]}
{"id": "C18", "title": "nth-child arithmetic never overflows", "statement": "Evaluating an nth-child style match performs no signed overflow and no division by zero.", "quantifier": "all int step/shift values, all sibling counts", "why_tests_cant": "Undefined behaviour for boundary values only.", "anchors": ["libhext/src/NthChildMatch.cpp"]}
{"id": "C19", "title": "only-child equals first-child and last-child", "statement": "For a node with an element parent, :only-child matches iff both :nth-child(1) and :nth-last-child(1) match; likewise the of-type variants.", "quantifier": "every sibling list and node", "why_tests_cant": "Equivalence of independent implementations.", "anchors": ["libhext/src/OnlyChildMatch.cpp", "libhext/src/NthChildMatch.cpp"]}
{"id": "C20", "title": "Counting matches count exactly", "statement": ":child-count(n)/:empty match iff the node has exactly n element children (0 for :empty); :attribute-count(n) iff it has exactly n attributes.", "quantifier": "every node, every n", "why_tests_cant": "Over all nodes.", "anchors": ["libhext/src/ChildCountMatch.cpp", "libhext/src/AttributeCountMatch.cpp"]}
{"id": "C21", "title": "Attribute conditions", "statement": "attr matches iff the attribute is present; attr! iff it is missing; attr<test> iff it is present and its value passes the test; attr<test>! iff the attribute is missing or its value fails the test.", "quantifier": "every node, attribute name and test", "why_tests_cant": "Over all nodes and test combinations.", "anchors": ["libhext/src/AttributeMatch.cpp", "libhext/src/NegateTest.cpp", "libhext/src/NegateMatch.cpp"]}
{"id": "C22", "title": ":not(...) matches iff none of its conditions matches", "statement": "A negated list of conditions holds iff every listed condition fails, and negating twice restores the original meaning.", "quantifier": "every list of conditions, every node", "why_tests_cant": "Over all condition lists.", "anchors": ["libhext/src/NegateMatch.cpp", "libhext/src/NegateTest.cpp"]}
{"id": "C23", "title": "String tests mean prefix, suffix, substring, equality", "statement": "^= holds iff the literal is a prefix of the value, $= iff a suffix, *= iff a contiguous substring, == iff identical.", "quantifier": "all byte strings", "why_tests_cant": "Over all strings.", "anchors": ["libhext/src/BeginsWithTest.cpp", "libhext/src/EndsWithTest.cpp", "libhext/src/ContainsTest.cpp", "libhext/src/EqualsTest.cpp"]}
{"id": "C24", "title": "attr=\"words\" tests word membership", "statement": "attr=\"w1 ... wk\" holds iff k >= 1 and each listed word occurs in the value as a maximal run of non-space characters.", "quantifier": "all byte strings", "why_tests_cant": "Scan with manual boundary checks over all strings.", "anchors": ["libhext/src/ContainsWordsTest.cpp", "libhext/src/StringUtil.cpp: ContainsWord"]}
{"id": "C25", "title": "Tag matching is by element type; custom tags ignore case", "statement": "A rule with a known tag matches exactly elements of that tag; <*> matches anything; a rule with a custom tag matches exactly unknown elements whose written name equals it up to ASCII case.", "quantifier": "every rule tag and node", "why_tests_cant": "Over all names.", "anchors": ["libhext/src/Rule.cpp: Rule::matches"]}
{"id": "C26", "title": "Whitespace collapsing yields the normal form", "statement": "collapsews (and @text) returns the value's words separated by single spaces: no leading, trailing or repeated whitespace, same sequence of words, and applying it twice changes nothing.", "quantifier": "all byte strings", "why_tests_cant": "Over all strings.", "anchors": ["libhext/src/StringUtil.cpp: TrimAndCollapseWs, IsSpace", "libhext/src/CollapseWsPipe.cpp"]}
{"id": "C27", "title": "trim removes exactly the listed characters at the ends", "statement": "trim('chars') returns the value without its maximal prefix and suffix made of the listed characters; the result starts and ends with an unlisted character or is empty, and trimming twice changes nothing.", "quantifier": "all byte strings", "why_tests_cant": "Over all strings.", "anchors": ["libhext/src/TrimPipe.cpp"]}
{"id": "C28", "title": "Pipes compose left to right", "statement": "value | p1 | p2 | ... | pn is pn(...p2(p1(value))); appending a pipe to a chain adds it at the end; prepend/append/tolower/toupper do what their names say, and case pipes keep length and leave non-letters alone.", "quantifier": "every chain length, every string", "why_tests_cant": "Over unbounded chains.", "anchors": ["libhext/src/StringPipe.cpp", "libhext/src/PrependPipe.cpp", "libhext/src/AppendPipe.cpp", "libhext/src/CasePipe.cpp"]}
{"id": "C29", "title": "Regex captures select group 1", "statement": "A regex pipe returns the first capture group if the regex has one and matched, the whole match if it has no group, and the empty string if it did not match; a regex test holds iff the regex matches somewhere.", "quantifier": "every regex and string, for any regex engine", "why_tests_cant": "Over all engines and strings.", "anchors": ["libhext/src/RegexPipe.cpp", "libhext/src/RegexTest.cpp", "libhext/src/RegexReplacePipe.cpp"]}
{"id": "C30", "title": "Text extraction sees exactly the text nodes, in order", "statement": "strip-tags returns the concatenation, in document order, of all text and whitespace leaves below the node (CDATA sections and the contents of templates are skipped); @text returns the same leaves' words in the same order, where block-level tags may only add word breaks.", "quantifier": "every subtree", "why_tests_cant": "Over all trees.", "anchors": ["libhext/src/NodeUtil.cpp: StripTags, NodeText, TagWrapsText"]}
{"id": "C31", "title": "inner-html serialises attributes reversibly", "statement": "Each attribute value in the serialised HTML can be read back: undoing the quoting returns the original value; the serialised tags are balanced.", "quantifier": "every subtree", "why_tests_cant": "Over all trees and byte strings.", "anchors": ["libhext/src/NodeUtil.cpp: SerializeNode, SerializeAttribute, SerializeElement, SerializeDocument"]}
{"id": "C32", "title": "Copies of rules behave like the original", "statement": "A copy of a Rule (copy constructor or assignment) extracts the same results as the original from every document.", "quantifier": "every rule and document", "why_tests_cant": "Over all rules.", "anchors": ["libhext/src/Rule.cpp: Rule(const Rule&), operator=, swap", "libhext/include/hext/Cloneable.h"]}
{"id": "C33", "title": "append_child/append_next keep order", "statement": "After appending children (siblings) c1..ck to a rule, its child chain (its sibling chain) is the previous chain followed by c1..ck.", "quantifier": "every rule and number of appends", "why_tests_cant": "Over unbounded sequences of appends.", "anchors": ["libhext/src/Rule.cpp: append_child, append_next, append_nested"]}
{"id": "C34", "title": "ParseHext is total and memory safe", "statement": "For every byte string, ParseHext terminates and either returns a rule or throws; it never reads outside the input, never uses an unset token start, an empty stack or a missing value, and never trips an assertion.", "quantifier": "every byte string", "why_tests_cant": "The generated automaton has hundreds of states and 89 actions; safety needs an invariant for all inputs.", "anchors": ["libhext/ragel/hext-machine.rl", "libhext/ragel/Parser.cpp.rl: Parser::parse", "libhext/src/Parser.cpp"]}
{"id": "C35", "title": "ParseHext only throws SyntaxError", "statement": "Whatever the input, the only exception ParseHext reports for a malformed hext is SyntaxError.", "quantifier": "every byte string", "why_tests_cant": "Over all inputs.", "anchors": ["libhext/ragel/hext-machine.rl: stoi actions", "libhext/ragel/Parser.cpp.rl", "libhext/src/ParseHext.cpp"]}
{"id": "C36", "title": "Accepted hext is balanced and yields the written tree", "statement": "If ParseHext accepts, every open tag was closed by a matching close tag in stack order, every { } is balanced and holds one rule chain, and the returned rule tree has the written nesting. Unclosed or mismatched tags are always rejected.", "quantifier": "every byte string", "why_tests_cant": "Stack discipline over unbounded nesting.", "anchors": ["libhext/ragel/Parser.cpp.rl: push_rule, pop_rule, push_nested, pop_nested, validate_close_tag_or_throw"]}
{"id": "C37", "title": "Printing a rule as hext and parsing it gives the rule back", "statement": "For every rule expressible in the language (any nesting, any conditions and captures), parsing its canonical textual form succeeds and returns exactly that rule.", "quantifier": "every expressible rule tree", "why_tests_cant": "Round trip over an infinite set of programs.", "anchors": ["libhext/ragel/hext-machine.rl", "libhext/src/Parser.cpp"]}
{"id": "C38", "title": "Whitespace and comments between tokens do not matter", "statement": "Inserting whitespace or a #-comment line between rules does not change what ParseHext returns.", "quantifier": "every accepted hext and every insertion", "why_tests_cant": "Over all programs.", "anchors": ["libhext/ragel/hext-machine.rl"]}
{"id": "C39", "title": "Error messages point into the input", "statement": "The position reported by a SyntaxError is a position of the input; the reported line and column are those of that byte; the caret line points at the reported column.", "quantifier": "every rejected input", "why_tests_cant": "Over all inputs.", "anchors": ["libhext/ragel/Parser.cpp.rl: print_error_location, throw_unexpected", "libhext/src/StringUtil.cpp: CharPosition, PrintNumberedLines, DecimalWidth, CharName"]}
{"id": "C40", "title": "Parsing does not depend on char signedness", "statement": "The automaton takes the same path whether the platform's char is signed or unsigned.", "quantifier": "every byte string", "why_tests_cant": "Over all inputs and both platforms.", "anchors": ["libhext/src/Parser.cpp"]}
{"id": "C41", "title": "Regex options apply only to the regex they are written on", "statement": "The i option of one regex literal does not affect any other regex literal.", "quantifier": "every hext source", "why_tests_cant": "Relates all pairs of literals.", "anchors": ["libhext/ragel/hext-machine.rl: regex_mod", "libhext/src/PatternValues.cpp: reset"]}
{"id": "C42", "title": "JSON output and bindings present the same result", "statement": "For each result map, the CLI's JSON object, the Node binding's object and the Python binding's dict have the same keys with the same values in the same order: a single value as a string, several values as an array in capture order.", "quantifier": "every result map", "why_tests_cant": "Three separate grouping loops over unbounded maps.", "anchors": ["htmlext/htmlext/Json.cpp", "libhext/bindings/nodejs/src/Rule.cpp", "libhext/bindings/python/pyhext.i", "libhext/bindings/ruby/rbhext.i", "libhext/bindings/php/phphext.i"]}
{"id": "C43", "title": "--filter prints exactly the values of the key", "statement": "With --filter key the CLI prints one line per captured value of that key, in result order, and nothing else.", "quantifier": "every result", "why_tests_cant": "Over all results.", "anchors": ["htmlext/main.cpp"]}
{"id": "C44", "title": "JSON array output is well bracketed", "statement": "With --array the CLI output is one JSON array containing every result object once, in order.", "quantifier": "every list of results", "why_tests_cant": "Over all lengths.", "anchors": ["htmlext/htmlext/Json.cpp"]}
{"id": "C45", "title": "Node binding honours max_searches", "statement": "The limit given to the Node binding is the limit applied by the engine for every non-negative integer.", "quantifier": "every non-negative integer", "why_tests_cant": "Boundary values beyond 2^32.", "anchors": ["libhext/bindings/nodejs/src/Rule.cpp"]}
{"id": "C46", "title": "Documents live as long as their Html", "statement": "Any program that constructs, moves, reads and destroys Html objects, and keeps each buffer alive as long as its Html, has no use after free and no double free; each Html gives the document of the text it was made from; no document is left when all are destroyed. In particular this holds for htmlext with any number of files and for the bindings.", "quantifier": "every finite sequence of operations on any number of documents", "why_tests_cant": "Over all histories.", "anchors": ["libhext/include/hext/Html.h", "libhext/src/Html.cpp", "htmlext/main.cpp", "libhext/bindings/wrapper/Html.cpp"]}
{"id": "C47", "title": "Rules behave like values, without memory errors or leaks", "statement": "Any sequence of API calls that construct, copy, move, assign, append to, change and destroy rules, reaching sub-rules through child(), next() and nested(), has no use after free, double free or null dereference; every rule that can be reached extracts what it would extract if rules were plain values; when the last rule is destroyed no object is left.", "quantifier": "every finite sequence of API calls on any number of rules that uses only rules that exist and moves no rule into a part of itself", "why_tests_cant": "Over all histories of calls and all shapes of rule graphs.", "anchors": ["libhext/src/Rule.cpp", "libhext/include/hext/Rule.h: Rule(Rule&&), operator=(Rule&&), ~Rule", "libhext/include/hext/Cloneable.h"]}
{"id": "C48", "title": "Moving a rule moves what it extracts", "statement": "A rule that is move-constructed or move-assigned from another rule extracts what the other rule extracted before the move.", "quantifier": "every rule, document and history of calls, any two rules", "why_tests_cant": "Over all rules and aliasing situations.", "anchors": ["libhext/include/hext/Rule.h: Rule(Rule&&), operator=(Rule&&)"]}
{"id": "C49", "title": "Assigned captures capture the same", "statement": "After one AttributeCapture (FunctionCapture) is assigned to another, both capture the same values.", "quantifier": "every two captures", "why_tests_cant": "Over all captures with and without pipes.", "anchors": ["libhext/src/AttributeCapture.cpp: operator=", "libhext/src/FunctionCapture.cpp: operator="]}
{"id": "C50", "title": "Exit code 0 means that everything was read, accepted and extracted", "statement": "With hexts and HTML files given, htmlext exits with 0 if and only if every file can be read, every hext is accepted and every extraction returns a result; what it prints to standard output is then exactly the rendering of the result of every rule on every document, in order, and it prints nothing to standard error. (Whether the operating system takes what is printed is the subject of C74, whether a file is read to its end that of C109.)", "quantifier": "every list of hext files, hext strings, HTML files and their contents, every option", "why_tests_cant": "Over all argument lists and file contents.", "anchors": ["htmlext/main.cpp"]}
{"id": "C51", "title": "Failure is reported, and never as a complete result", "statement": "If htmlext exits with a code other than 0, the code is 1 and an error message is printed. Nothing is on standard output unless all files were read and all hexts accepted: then it holds the results before the first failed extraction. A rejected hext file is named in the message.", "quantifier": "every invocation that ends with an exit code", "why_tests_cant": "Over all argument lists and file contents.", "anchors": ["htmlext/main.cpp", "htmlext/htmlext/ErrorOutput.cpp", "htmlext/htmlext/File.cpp"]}
{"id": "C52", "title": "--lint decides acceptance", "statement": "With --lint htmlext exits with 0 if and only if all hext files are readable and all hexts are accepted; it prints nothing, and HTML files make no difference.", "quantifier": "every invocation with --lint", "why_tests_cant": "Over all hexts.", "anchors": ["htmlext/main.cpp"]}
{"id": "C53", "title": "One JSON object per line", "statement": "Without --array, --filter and --pretty, output to a file or pipe has exactly one line for each group of captures, and this line is a JSON object that presents the group.", "quantifier": "every successful invocation", "why_tests_cant": "Over all results, including values with line breaks, quotes and control characters.", "anchors": ["htmlext/htmlext/Json.cpp", "htmlext/main.cpp"]}
{"id": "C54", "title": "htmlext always ends with an exit code", "statement": "Whatever the arguments, hexts and documents are, htmlext ends with an exit code: no undefined behaviour, no failed assertion, no endless loop.", "quantifier": "every invocation", "why_tests_cant": "Over all hexts and documents.", "anchors": ["htmlext/main.cpp", "libhext/ragel/Parser.cpp.rl", "libhext/src/RuleMatching.cpp"]}
{"id": "C55", "title": "Bindings turn errors into exceptions", "statement": "In Python, Ruby, PHP and Node, constructing a rule returns the rule that the hext means or raises an exception if it means none; extracting returns an object for every map of the result or raises an exception if the limit of searches is reached. The process never ends abnormally.", "quantifier": "every hext, document and limit", "why_tests_cant": "Over all hexts, documents and limits.", "anchors": ["libhext/bindings/wrapper/Rule.cpp", "libhext/bindings/python/pyhext.i", "libhext/bindings/ruby/rbhext.i", "libhext/bindings/php/phphext.i", "libhext/bindings/nodejs/src/Rule.cpp"]}
{"id": "C56", "title": "Results depend on the content only", "statement": "Two copies of a document, wherever they are stored, give the same result for a hext, and extraction throws MaxSearchError for the same limits.", "quantifier": "every hext, pair of equal documents and limit", "why_tests_cant": "Over all documents and addresses; a test has one memory layout per run.", "anchors": ["libhext/src/Rule.cpp", "libhext/src/RuleMatching.cpp", "libhext/src/NodeUtil.cpp"]}
{"id": "C57", "title": "Captures do not influence matching", "statement": "If two rules differ only in what they capture, then they match the same nodes: adding, removing or renaming captures of a rule changes neither the values of the other captures nor when MaxSearchError is thrown.", "quantifier": "every pair of rules that differ only in captures, document and limit", "why_tests_cant": "Over all rules and documents.", "anchors": ["libhext/src/Rule.cpp", "libhext/src/RuleMatching.cpp", "libhext/src/NodeUtil.cpp"]}
{"id": "C58", "title": "Comments do not matter", "statement": "Removing all comments from a document does not change the result of a hext.", "quantifier": "every hext and document", "why_tests_cant": "Over all hexts and documents.", "anchors": ["libhext/src/Rule.cpp", "libhext/src/RuleMatching.cpp", "libhext/src/NodeUtil.cpp"]}
{"id": "C59", "title": "The order of attributes does not matter", "statement": "Listing the attributes of elements in another order does not change the result of a hext that does not use @inner-html, provided that the attributes of each element have different names.", "quantifier": "every hext without @inner-html, every document and permutation of attributes, every limit", "why_tests_cant": "Over all hexts, documents and permutations.", "anchors": ["libhext/src/Rule.cpp", "libhext/src/RuleMatching.cpp", "libhext/src/NodeUtil.cpp", "libhext/src/AttributeMatch.cpp", "libhext/src/AttributeCapture.cpp"]}
{"id": "C60", "title": "Optional makes no difference for a sole rule", "statement": "If a hext has a single top-level rule, marking that rule as optional or not does not change the result, nor when MaxSearchError is thrown.", "quantifier": "every rule, document and limit", "why_tests_cant": "Over all rules and documents.", "anchors": ["libhext/src/Rule.cpp", "libhext/src/RuleMatching.cpp", "libhext/src/NodeUtil.cpp"]}
{"id": "C61", "title": "Without captures there are no results", "statement": "A hext that captures nothing yields an empty result, whatever it matches.", "quantifier": "every hext without captures, every document", "why_tests_cant": "Over all hexts and documents.", "anchors": ["libhext/src/Rule.cpp", "libhext/src/RuleMatching.cpp", "libhext/src/NodeUtil.cpp"]}
{"id": "C62", "title": "A hext for an attribute lists its values", "statement": "For all names, <tag attr:key/> is a valid hext, and its result on a document is one map for each element with this tag and this attribute, which has the value of the attribute under key and nothing else. Elements next to each other come before the elements inside of them.", "quantifier": "every tag name, attribute name, key and document", "why_tests_cant": "Over all names and documents; ties the parser, the matching and the captures together.", "anchors": ["libhext/src/Rule.cpp", "libhext/src/RuleMatching.cpp", "libhext/src/NodeUtil.cpp", "libhext/ragel/hext-machine.rl", "libhext/src/Parser.cpp"]}
{"id": "C63", "title": "A hext and a document determine the result", "statement": "Whether a text is an accepted hext, and what extracting with it from a document returns, is given by the grammar and by the documented meaning of tags, conditions, captures, pipes and sibling rules: the result lists the maps of all groups of matching nodes, with the captured and piped values, and nothing else. Every accepted hext has exactly one result on every document.", "quantifier": "every text without ten digits in a row, every document", "why_tests_cant": "The statement ties the whole pipeline from the text of a hext to the result to one definition, for all hexts and documents.", "anchors": ["libhext/src/Parser.cpp", "libhext/ragel/hext-machine.rl", "libhext/src/Rule.cpp", "libhext/src/RuleMatching.cpp", "libhext/src/AttributeCapture.cpp", "libhext/src/FunctionCapture.cpp", "libhext/src/StringPipe.cpp"]}
{"id": "C64", "title": "A large enough search limit never throws", "statement": "The number of searches an extraction makes is at most (3 * R * N^2)^L, where R is the number of rules of the hext, L how deep they are nested and N the number of nodes of the document. So for a fixed hext it is polynomial in the size of the document, and extract with a max_searches above this number never throws MaxSearchError and returns what the unlimited extraction returns.", "quantifier": "every rule tree (every accepted hext), every document, every limit above the bound", "why_tests_cant": "A worst-case bound ranges over all documents and rules; tests can only time some of them.", "anchors": ["libhext/src/Rule.cpp", "libhext/src/RuleMatching.cpp"]}
{"id": "C65", "title": "What htmlext prints is determined by the texts it reads", "statement": "htmlext with hexts and HTML files exits with code 0 exactly if the files can be read and the hexts are accepted by the grammar (with a search limit: only if). It has then printed, for each hext in order and for each HTML file in order, the outcome that the hext has on the document of that file, as C63 defines it: as values with --filter, as one JSON object for each group, in one line each, without.", "quantifier": "every set of options with hexts and HTML files, every content of the files, every document Gumbo makes of them", "why_tests_cant": "It is an equivalence between the whole program and a definition, for all inputs.", "anchors": ["htmlext/main.cpp", "htmlext/htmlext/ProgramOptions.cpp", "htmlext/htmlext/Json.cpp", "htmlext/htmlext/File.cpp", "libhext/src/Rule.cpp", "libhext/src/Parser.cpp"]}
{"id": "C66", "title": "The stack an extraction needs grows with the depth of the document only", "statement": "An extraction needs at most five nested calls of the matching functions for each level of the document, whatever the rule and however many nodes and results there are. It also needs at least one for each level, so that for every size of the stack there is a document that overflows it.", "quantifier": "every rule tree (every accepted hext), every document, every search limit, every number of free stack frames", "why_tests_cant": "The bound ranges over all documents and rules; a test overflows or not on some documents.", "anchors": ["libhext/src/RuleMatching.cpp", "libhext/src/Rule.cpp"]}
{"id": "C67", "title": "A regular expression or function that throws is never mistaken for an answer", "statement": "If the search of a regular expression gives up (Boost throws when a search becomes too expensive) or a MatchFunction or CaptureFunction throws during an extraction, the extraction throws, unless what that call would have returned makes no difference. An extraction that returns has returned the result that it returns if all calls answer. htmlext reports the exception with exit code 1.", "quantifier": "every rule tree (every accepted hext), every document, every search limit, every set of searches and calls that throw, every regex engine", "why_tests_cant": "Which searches give up depends on pattern, text and version of the regex engine; tests use patterns that do not give up.", "anchors": ["libhext/src/RegexTest.cpp", "libhext/src/RegexPipe.cpp", "libhext/src/RegexReplacePipe.cpp", "libhext/src/TypeRegexMatch.cpp", "libhext/src/FunctionMatch.cpp", "libhext/src/FunctionCapture.cpp", "libhext/src/FunctionValueMatch.cpp", "libhext/src/RuleMatching.cpp", "libhext/src/Rule.cpp", "htmlext/main.cpp"]}
{"id": "C68", "title": "Copying and destroying a rule needs as much stack as the rule is deep, siblings included", "statement": "Copying or destroying a rule needs exactly as many nested constructor or destructor calls as the longest chain of owners in it has objects, where the next sibling counts as owned by the rule before it. With a stack for so many calls it succeeds, with a smaller one it overflows. A hext of n bytes becomes at most n+1 objects, so n+1 calls are enough; but for each stack size there is an accepted hext, a plain list of sibling rules, whose rule cannot be copied or destroyed on it.", "quantifier": "every rule tree however it was built, every place of it in memory, every stack size, every accepted hext", "why_tests_cant": "Rules in tests have a few siblings; the stack is large enough for them.", "anchors": ["libhext/src/Rule.cpp", "libhext/include/hext/Rule.h", "libhext/src/StringPipe.cpp", "libhext/include/hext/StringPipe.h", "libhext/src/NegateMatch.cpp", "libhext/src/NegateTest.cpp", "libhext/src/AttributeMatch.cpp", "libhext/src/FunctionValueMatch.cpp", "libhext/src/AttributeCapture.cpp", "libhext/src/FunctionCapture.cpp"]}
{"id": "C69", "title": "The builtin functions need as much stack as the document is deep below the node", "statement": "@text, @inner-html and @strip-tags on a node call themselves once (inner-html: twice) for each level of the document that they visit. With a stack for so many calls, at most two for each level below the node, they return what they return without a bound; with a smaller one the stack overflows. For each stack size and each of the functions there is a document on which it overflows.", "quantifier": "every document, every node of it, every stack size", "why_tests_cant": "Documents in tests are shallow.", "anchors": ["libhext/src/NodeUtil.cpp", "libhext/src/Builtins.cpp"]}
{"id": "C70", "title": "htmlext does what its command line says", "statement": "Options can be written with their name, an unambiguous beginning of it, or their letter; letters can be joined; values are separate or attached; everything after -- is an argument. The first argument is a hext file and the others are HTML files. htmlext works with exactly the options that are written in this way, in their order; whatever else is refused with an error message, no output and exit code 1. A command line has only one meaning. The order of different options does not matter. Together with the meaning of hexts this determines the output from the command line and the files.", "quantifier": "every list of arguments, every file system, every document", "why_tests_cant": "Test scripts use a few spellings; the claim is about all lists of strings.", "anchors": ["htmlext/htmlext/ProgramOptions.cpp", "htmlext/htmlext/ProgramOptions.h", "htmlext/main.cpp"]}
{"id": "C71", "title": "The way in which options are written has no influence", "statement": "Two command lines that consist of the same options, values and arguments, written differently, have the same effect.", "quantifier": "every pair of command lines that spell the same items", "why_tests_cant": "The claim is about pairs of arbitrary command lines.", "anchors": ["htmlext/htmlext/ProgramOptions.cpp", "htmlext/htmlext/ProgramOptions.h", "htmlext/main.cpp"]}
{"id": "C72", "title": "Assigning a match, a value test or a string transformation makes an independent copy", "statement": "x = y for two matches, two value tests or two transformations of the same class is defined, wherever y is. Afterwards x is what y was before, made of objects of its own, the old parts of x are freed exactly once, and nothing else has changed. Moving and appending hand objects over without copying, losing or freeing any.", "quantifier": "every memory, every two objects of the same class, also if one is a part of the other", "why_tests_cant": "The claim is about all object graphs and all ways in which source and target overlap.", "anchors": ["libhext/src/StringPipe.cpp", "libhext/src/NegateMatch.cpp", "libhext/src/NegateTest.cpp", "libhext/src/AttributeMatch.cpp", "libhext/src/FunctionValueMatch.cpp", "libhext/include/hext/StringPipe.h", "libhext/include/hext/NegateMatch.h", "libhext/include/hext/NegateTest.h"]}
{"id": "C73", "title": "Running out of memory while rules are built leaves every rule usable", "statement": "If an allocation fails while a rule or one of its parts is constructed, copied, assigned or appended to, std::bad_alloc reaches the caller; every rule is what it was before the statement (apart from a variable that was passed by std::move), no object is left behind and none is used after it was freed. A program may catch the exception and go on. With enough memory the statement does what it always does.", "quantifier": "every program over rules, every choice of allocations that fail, every rule", "why_tests_cant": "There is one schedule for every allocation that can fail in every program, and rules are of unbounded size.", "anchors": ["libhext/src/Rule.cpp", "libhext/include/hext/Rule.h", "libhext/include/hext/Cloneable.h", "libhext/src/StringPipe.cpp", "libhext/src/NegateMatch.cpp", "libhext/src/NegateTest.cpp", "libhext/src/AttributeMatch.cpp", "libhext/src/FunctionValueMatch.cpp", "libhext/src/AttributeCapture.cpp", "libhext/src/FunctionCapture.cpp"]}
{"id": "C74", "title": "Exit code 0 means that the output was written", "statement": "Whatever the devices behind standard output and standard error do, what they have taken when htmlext exits is a prefix of what it prints. If the exit code is 0, it is all of it.", "quantifier": "every invocation, every behaviour of the devices (which bytes they refuse)", "why_tests_cant": "A device can fail at any byte of any output.", "anchors": ["htmlext/main.cpp", "htmlext/htmlext/Json.cpp", "htmlext/htmlext/ErrorOutput.cpp"]}
{"id": "C75", "title": "The scripts htmlext.py, htmlext.php, htmlext.js and htmlext.rb print the same objects as htmlext", "statement": "Given the file of an accepted hext and the file of an HTML document, each of the four scripts exits with code 0 and prints one line for each group of the outcome of the rule on the document: a JSON object that presents the group. These are the objects that htmlext prints for the same files.", "quantifier": "every hext, every document, every script, every JSON encoder that writes correct JSON", "why_tests_cant": "Four programs, unbounded inputs, and agreement needs arguments about encodings, sorting and JSON texts.", "anchors": ["libhext/bindings/python/htmlext.py", "libhext/bindings/php/htmlext.php", "libhext/bindings/nodejs/htmlext.js", "libhext/bindings/ruby/htmlext.rb"]}
{"id": "C76", "title": "Exit code 0 of a script means that the whole outcome was printed", "statement": "If htmlext.py, htmlext.php, htmlext.js or htmlext.rb, called with the names of two files, exits with code 0, then both files could be read, the first one is a valid hext, and the script printed the whole outcome of the rule on the document, one JSON object per line. If a file is missing or the hext is not valid, the script prints nothing and reports a failure.", "quantifier": "every pair of files, every script, every JSON encoder that writes correct JSON", "why_tests_cant": "It is about every way a run can fail, on unbounded inputs; a test sees single failures.", "anchors": ["libhext/bindings/python/htmlext.py", "libhext/bindings/php/htmlext.php", "libhext/bindings/nodejs/htmlext.js", "libhext/bindings/ruby/htmlext.rb"]}
{"id": "C77", "title": "The work of an extraction", "statement": "An extraction ends after a number of steps that is bounded by a polynomial in the size of the document, for each hext; a step is a search or a test of one rule on one node. For hexts without ?, + and braces the number of steps is at most linear in the size of the document, and for a single rule it is exactly the number of searched lists of siblings plus the number of nodes in them. The argument max_searches does not bound the number of steps: there are hexts of length 16d+6 and documents of at most (d+1)^2 nodes where every limit above (d+1)^2 returns the result normally, after at least 2^d steps.", "quantifier": "every document, every hext, every search limit, every d", "why_tests_cant": "It is a statement about how the work grows, for documents and hexts of any size; a test measures single inputs.", "anchors": ["libhext/src/RuleMatching.cpp:SaveMatchingNodesRecursive", "libhext/src/RuleMatching.cpp:MatchRuleGroup", "libhext/src/RuleMatching.cpp:RuleMatchesNodeRecursive", "libhext/include/hext/Rule.h:extract"]}
{"id": "C78", "title": "Irrelevant parts of a document do not matter", "statement": "Parts of a document in which no node is admitted by the tag and the conditions of any rule have no influence on an extraction: removing them from the document gives the same result.", "quantifier": "every rule, every document and every choice of irrelevant parts", "why_tests_cant": "It compares extractions from all pairs of documents that differ in irrelevant markup; tests use single documents.", "anchors": ["libhext/src/RuleMatching.cpp:MatchRuleGroup", "libhext/src/RuleMatching.cpp:SaveMatchingNodesRecursive", "libhext/src/Rule.cpp:Rule::matches"]}
{"id": "C79", "title": "How much a result can contain", "statement": "An extraction returns at most as many maps as the document has nodes. A capture outside of braces gives at most one value per node; a capture in j pairs of braces, at most one value per node and j-tuple of levels of the document. So a result cannot be larger than the hext and the document allow, whatever the rules are.", "quantifier": "every rule (and every hext that the parser accepts), every document, every limit and every set of result names", "why_tests_cant": "An upper bound on results over all hexts and documents; a test gives the size of one result.", "anchors": ["libhext/src/RuleMatching.cpp:MatchRuleGroup", "libhext/src/RuleMatching.cpp:SaveMatchingNodesRecursive", "libhext/src/Rule.cpp:Rule::extract", "libhext/src/Rule.cpp:Rule::capture"]}
{"id": "C80", "title": "Extracting from a part of a document gives a part of the result", "statement": "If an extraction from a node passes by an element, then an extraction with the same rule and limit from the first child of that element returns a contiguous part of the result of the first. With a sole rule that is not greedy, an extraction from any node that the first one passed by returns a part of its result, in the same order.", "quantifier": "every rule, every document, every start node, every element below it and every limit", "why_tests_cant": "It relates two extractions for all rules, documents and start nodes; tests check single extractions, mostly from the root.", "anchors": ["libhext/src/RuleMatching.cpp:MatchRuleGroup", "libhext/src/RuleMatching.cpp:SaveMatchingNodesRecursive", "libhext/src/Rule.cpp:Rule::extract"]}
{"id": "C81", "title": "Names only name", "statement": "The names given to captures have no influence on anything but the names in the result: after renaming, an extraction throws for the same limits, returns as many maps, and each map contains the captured pairs of the original map under the new names, in the order in which they were captured.", "quantifier": "every rule, every function on names (also ones that merge names), every document, every limit", "why_tests_cant": "It compares extractions by all pairs of rules that differ in names.", "anchors": ["libhext/src/RuleMatching.cpp:MatchRuleGroup", "libhext/src/RuleMatching.cpp:SaveMatchingNodesRecursive", "libhext/src/Rule.cpp:Rule::extract", "libhext/src/Rule.cpp:Rule::capture", "libhext/src/AttributeCapture.cpp:AttributeCapture::capture", "libhext/src/FunctionCapture.cpp:FunctionCapture::capture"]}
{"id": "C82", "title": "A further condition on a sole rule only filters", "statement": "Adding a condition to a rule without sibling rules that is not greedy can only remove maps from its result, and keeps the order of the rest. What the condition removes is exactly what its negation leaves.", "quantifier": "every rule without siblings that is not greedy, with any child rules, every condition, every document and start node", "why_tests_cant": "It compares the results of three rules for all rules, conditions and documents.", "anchors": ["libhext/src/RuleMatching.cpp:MatchRuleGroup", "libhext/src/RuleMatching.cpp:SaveMatchingNodesRecursive", "libhext/src/Rule.cpp:Rule::extract", "libhext/src/Rule.cpp:Rule::matches", "libhext/src/NegateMatch.cpp:NegateMatch::matches"]}
{"id": "C83", "title": "Capture functions are called once for each match, in the order of the result", "statement": "A function given to a FunctionCapture may keep data between calls, like a counter, and may throw. It is called exactly once for each match of its rule that is part of the result: map after map in the order of the result, match after match within a map, and only after the whole search is over. If the limit on searches is exceeded then it has not been called at all. If it throws, then extract throws, and no further function is called. So the values of a counter are consecutive numbers in the order of the result, and functions whose answers do not depend on their data do not change the result.", "quantifier": "every rule, every document, every limit, every behaviour of the functions and every type and initial value of their data", "why_tests_cant": "The order and number of calls must be right for all rules and documents; a test with a counter checks one document.", "anchors": ["libhext/src/Rule.cpp:Rule::extract", "libhext/src/Rule.cpp:Rule::capture", "libhext/src/FunctionCapture.cpp:FunctionCapture::capture", "libhext/examples/mixed.cpp:main"]}
{"id": "C84", "title": "extract-href prints every useful link once", "statement": "The example program extract-href prints, for each a element whose href is not empty and begins neither with # nor with javascript:, its href resolved against the base, one per line, in the order of the search. The base is the argument, else the href of the first base element that has one, else empty. If the base or one of the links is malformed then the program prints nothing and is terminated.", "quantifier": "every document, every argument and every URI library (which texts it accepts, how it resolves and prints them)", "why_tests_cant": "The output must be complete and in order for all documents, and nothing may be printed before a malformed link has been noticed.", "anchors": ["libhext/examples/extract-href.cpp:main", "libhext/examples/extract-href.cpp:BaseUri", "libhext/examples/extract-href.cpp:has_useful_href", "libhext/examples/extract-href.cpp:HrefCapture::capture"]}
{"id": "C85", "title": "Node programs get the reply that their texts determine", "statement": "A JavaScript program may make any number of Html and Rule objects, call extract on them in any order and with any arguments, and let objects be collected in between. Every call is answered correctly: wrong arguments are refused with an exception and change nothing, text that is not a hext is refused with an Error, and extract replies with exactly what the text of the rule and the text of the document determine, whatever happened before. Apart from the hexts that end the process (C55), the program goes on after every call.", "quantifier": "every finite sequence of constructor calls, extract calls and collections, with every list of arguments", "why_tests_cant": "Histories of calls are unbounded, and the reply must not depend on the history.", "anchors": ["libhext/bindings/nodejs/src/Html.cpp:Html::Html", "libhext/bindings/nodejs/src/Rule.cpp:Rule::Rule", "libhext/bindings/nodejs/src/Rule.cpp:Rule::extract", "libhext/bindings/nodejs/src/Html.h:Html::root"]}
{"id": "C86", "title": "Python programs get the reply that their texts determine", "statement": "A Python program may make any number of Html and Rule objects, call extract on them in any order and with any arguments, and drop objects in between. Every call is answered correctly: wrong arguments raise TypeError, a limit that does not fit into 64 bits raises OverflowError, text that is not a hext raises ValueError, and extract replies with what the text of the rule and the text of the document determine, whatever happened before: one dict for each map, with values up to their first NUL byte, or RuntimeError exactly if something is not UTF-8 (or the limit is exceeded). Apart from the hexts that end the process (C55), the program goes on after every call.", "quantifier": "every finite sequence of constructor calls, extract calls and drops, with every list of arguments", "why_tests_cant": "Histories of calls are unbounded, and the reply must not depend on the history.", "anchors": ["libhext/bindings/python/pyhext.i:Html::Html", "libhext/bindings/python/pyhext.i:Rule::Rule", "libhext/bindings/python/pyhext.i:Rule::extract", "libhext/bindings/wrapper/Html.cpp:Html::Html", "libhext/bindings/wrapper/Rule.cpp:Rule::Rule", "libhext/bindings/wrapper/Rule.cpp:Rule::extract"]}
{"id": "C87", "title": "Rules inside of a rule contribute what they find below the match", "statement": "Add a nested rule {d} to a sole, not greedy rule r. A node that r matched is still matched exactly if it is an element with children and the rules of d occur somewhere below it. The map of such a match then has the values it had before and, between those of the rules inside of r and those that r itself captures, everything that d extracts when its extraction is started at the first child of the node. The order of the matches stays the same. A first child rule likewise contributes the values of its groups among the children. If the added rule captures nothing, it only filters the result.", "quantifier": "every rule without siblings that is not greedy, every rule that is added to it, every document and every node where the extraction starts, and all limits under which both extractions return", "why_tests_cant": "Ranges over all pairs of rules of unbounded size and all documents.", "anchors": ["libhext/src/RuleMatching.cpp:RuleMatchesNodeRecursive", "libhext/src/RuleMatching.cpp:SaveMatchingNodesRecursive", "libhext/src/Rule.cpp:Rule::extract", "libhext/src/Rule.cpp:Rule::append_nested", "libhext/src/Rule.cpp:Rule::append_child"]}
{"id": "C88", "title": "Hexts can be put together as texts", "statement": "Parsing the concatenation of two hexts that are accepted on their own yields the first rule with the second one appended as its sibling. Hexts put between an open tag and its close tag become child rules of that tag, and hexts in braces become its nested rules, in the order in which they are written. What follows an accepted hext is accepted behind it exactly if it is accepted on its own. Whitespace and comments around a hext change nothing. No name, literal, comment or tag of one part can run into the next part.", "quantifier": "all pairs of accepted hexts, all tags and all lists of accepted hexts inside of them, every regex engine", "why_tests_cant": "Ranges over all pairs and lists of texts of unbounded length.", "anchors": ["libhext/ragel/hext-machine.rl", "libhext/src/Parser.cpp:Parser::parse", "libhext/src/Rule.cpp:Rule::append_next", "libhext/src/Rule.cpp:Rule::append_child", "libhext/src/Rule.cpp:Rule::append_nested"]}
{"id": "C89", "title": "Threads can share rules and documents", "statement": "Several threads may call Rule::extract at the same time, with the same rule or different ones, on the same document or different ones. As long as no thread writes to the nodes of the documents that are in use, each call ends, without undefined behaviour, with the result or the MaxSearchError that the same call ends with when nothing else runs, whatever the other threads do with the rest of the memory and in whatever order the threads get their turns. How many turns a call needs does not depend on the other threads.", "quantifier": "all numbers of threads, all schedules, all writes of the other threads outside of the document, all rules, documents and limits", "why_tests_cant": "A test sees one schedule per run; the property ranges over all interleavings of an unbounded number of accesses.", "anchors": ["libhext/src/Rule.cpp:Rule::extract", "libhext/src/RuleMatching.cpp", "libhext/src/NodeUtil.cpp", "libhext/include/hext/Rule.h:Rule::extract"]}
{"id": "C90", "title": "htmlext fails only for a stated reason, and says which", "statement": "htmlext ends with exit code 1 exactly if the arguments are wrong, or else at the first of these, in this order: a hext file that cannot be read or is rejected, a hext string that is rejected, an HTML file that cannot be read, an extraction that exceeds --max-searches. It has then printed nothing, or in the last case the results before. The message on standard error names the program, the kind of error, the file or <hext-string> for a syntax error, and the reason; wrong arguments without any option also print the help text. Other exit codes than 0 and 1 do not occur, and with exit code 0 there is no message.", "quantifier": "all options, all files and file system states, all hexts and documents", "why_tests_cant": "A test tries a few combinations of faults; which of several faults is reported, and what was printed before, ranges over all lists of files, strings and documents.", "anchors": ["htmlext/htmlext/main.cpp:main", "htmlext/htmlext/ErrorOutput.cpp:ErrorOutput::print", "htmlext/htmlext/File.cpp:ReadFileOrThrow", "htmlext/htmlext/ProgramOptions.cpp:ProgramOptions::store_and_validate_or_throw"]}
{"id": "C91", "title": "Parsing a hext owns what it builds, also when it fails or memory runs out", "statement": "ParseHext returns a rule whose parts are all new objects with exactly one owner, and adds no other object to memory. If it throws, be it a SyntaxError, std::out_of_range or a std::bad_alloc from any of its requests for memory, every object it had created is gone, each was deleted once, and the caller's objects are unchanged. Running out of memory changes nothing else: with enough memory the result is the one that the grammar gives.", "quantifier": "all hexts, all states of memory before, every number of requests for memory that succeed, every way in which vectors reallocate", "why_tests_cant": "A leak or a double delete depends on which of the many requests fails, and on which values are pending in the parser at that point of the input; both range over all hexts.", "anchors": ["libhext/ragel/Parser.cpp.rl:Parser::parse", "libhext/ragel/Parser.cpp.rl:Parser::pop_rule", "libhext/ragel/Parser.cpp.rl:Parser::pop_nested", "libhext/ragel/hext-machine.rl", "libhext/src/PatternValues.h:PatternValues", "libhext/src/ParseHext.cpp:ParseHext", "libhext/src/Rule.cpp:Rule::append_child"]}
{"id": "C92", "title": "A rejected hext is rejected with the message for its first fault", "statement": "A hext that consists of well-formed tags, braces, whitespace and comments is accepted if every tag is closed in order and every pair of braces stands inside of an open tag and contains a rule. Otherwise a SyntaxError is thrown whose message is the one for the first fault from left to right: an unexpected closing tag with the tag that was expected, braces without a parent, empty braces, a closing brace that does not fit, an unclosed brace or a missing closing tag, with the names of the tags involved and the place of the fault; what follows does not change it. Where the text stops being a hext, the message names the byte, or says that the input ended prematurely.", "quantifier": "every hext of at most 2147483645 bytes, every engine for regular expressions, both kinds of char", "why_tests_cant": "Over all hexts: which of several faults is reported and what the message says depends on everything before it.", "anchors": ["libhext/ragel/Parser.cpp.rl: Parser::validate_close_tag_or_throw, Parser::push_nested, Parser::pop_nested, Parser::parse, throw_unexpected, throw_unexpected_tag, throw_missing_tag, throw_error_message, throw_regex_error", "libhext/src/StringUtil.cpp: CharName"]}
{"id": "C93", "title": "--pretty changes the layout only", "statement": "htmlext succeeds with --pretty exactly if it does with --compact, and the outputs are equal if blanks and line breaks outside of strings are removed; the compact output has no blanks there. In the pretty output line breaks are outside of strings, no line is empty, and every line begins with four blanks for each bracket that is open, not counting the one that it closes first. With neither option the output is pretty exactly if standard output is a terminal.", "quantifier": "every set of hexts and HTML files, every content of the files, with and without --array, every limit", "why_tests_cant": "Over all results: names and values may contain quotation marks, backslashes, brackets, blanks and line breaks, and the layout must not be confused by them.", "anchors": ["htmlext/htmlext/Json.cpp: PrintJson, PrintJsonValue", "htmlext/htmlext/ProgramOptions.cpp: ProgramOptions::get_json_options", "htmlext/main.cpp: main"]}
{"id": "C94", "title": "An extraction that runs out of memory says so", "statement": "If memory runs out during an extraction, at whatever point, the extraction throws std::bad_alloc. It never returns a result from which something is missing, and never reports an exceeded limit that was not exceeded. There is a number of requests for memory from which on it does exactly what it does with unlimited memory.", "quantifier": "every rule tree (every accepted hext), every document, every search limit, every number of requests for memory that succeed, and every way in which the standard library, Boost and the functions of the user request memory", "why_tests_cant": "Running out of memory at every single request of every extraction cannot be tried out, and how many requests there are depends on the library.", "anchors": ["libhext/src/RuleMatching.cpp: SaveMatchingNodesRecursive, MatchRuleGroup, RuleMatchesNodeRecursive, MatchRange", "libhext/src/Rule.cpp: Rule::extract, Rule::capture", "libhext/include/hext/MaxSearchError.h", "libhext/src/AttributeCapture.cpp", "libhext/src/FunctionCapture.cpp", "libhext/src/StringPipe.cpp"]}
{"id": "C95", "title": "Programs can parse hexts, change the rules they get and put them together as if rules were plain values", "statement": "A program that constructs rules, parses hexts, changes the rules it gets, copies and moves them and puts them together, in any order, has the rules that it would have if rules were plain values, and they extract accordingly. It throws the exception of the first hext that is not accepted, and none otherwise, and no object is left behind once the variables are gone. In particular the example program chaining prints what the hext for its rule captures, and the example program mixed prints what the hext in its comment captures, with a running number for each span.", "quantifier": "every sequence of such statements, every hext, every regular expression engine, every document", "why_tests_cant": "There are infinitely many programs and documents; ownership of parts of rules is lost or doubled only in particular sequences of copies, moves and parses.", "anchors": ["libhext/examples/chaining.cpp: main", "libhext/examples/mixed.cpp: main", "libhext/src/Rule.cpp: Rule, append_child, append_next, append_capture, append_match, child, next", "libhext/src/ParseHext.cpp: ParseHext"]}
{"id": "C96", "title": "Results come in the order of the document", "statement": "The maps that a rule without sibling rules that is not greedy extracts come in the order in which the nodes that it matches stand in the document: a node before what is below it, and that before the next sibling.", "quantifier": "every such rule, with any child rules and nested rules, every document and start node, every limit", "why_tests_cant": "Documents with a different order at different depths of nesting are infinitely many; a test with a list of siblings, or with one match in each element, does not tell the order of the search from the order of the document.", "anchors": ["libhext/src/RuleMatching.cpp: SaveMatchingNodesRecursive", "libhext/src/Rule.cpp: Rule::extract"]}
{"id": "C97", "title": "UTF-8 in, UTF-8 out", "statement": "If the document and the hext are valid UTF-8 then so are all names and values of the result, and everything that htmlext prints; so that no binding fails to convert a result to the strings of its language.", "quantifier": "every hext and every document in UTF-8, every regular expression engine, every limit", "why_tests_cant": "Built-ins, captures and pipes work on bytes, and cut texts at white space, at collapsed runs, at matches of regular expressions and at arbitrary sets of bytes; whether a cut falls within a character depends on every byte of every text and pattern.", "anchors": ["libhext/src/TrimPipe.cpp: TrimPipe::transform", "libhext/src/CasePipe.cpp: CasePipe::transform", "libhext/src/RegexPipe.cpp: RegexPipe::transform", "libhext/src/RegexReplacePipe.cpp: RegexReplacePipe::transform", "libhext/src/StringUtil.cpp", "libhext/src/NodeUtil.cpp", "libhext/bindings/python/pyhext.i"]}
{"id": "C98", "title": "The order of conditions and captures in a tag does not matter", "statement": "Writing the conditions of a tag in another order, or repeating one, also within :not, changes neither whether the hext is accepted nor what it gives; the same for attributes, built-ins and captures, as long as captures with the same name keep their order.", "quantifier": "every hext, every rearrangement of the conditions and of the captures of its tags, every document, every limit", "why_tests_cant": "The conditions are evaluated one after another until one fails, and the captures are put into the result one after another; there are as many orders as permutations, and every condition could depend on what was evaluated before it.", "anchors": ["libhext/src/Rule.cpp: Rule::matches, Rule::capture", "libhext/src/NegateMatch.cpp: NegateMatch::matches", "libhext/ragel/hext-machine.rl", "libhext/src/RuleMatching.cpp: CaptureNode"]}
{"id": "C99", "title": "Ruby and PHP programs get the reply that their texts determine", "statement": "Whatever sequence of calls a program of Ruby or PHP makes, with whatever arguments and whenever objects are collected: a rule or a document is made exactly if the argument is a text (and a hext), extracting gives what the hext means on the text of the document, in the form of the language, the limit is exact, and everything else raises an exception.", "quantifier": "every sequence of calls, all arguments, every order in which unused objects are destroyed, every document and hext", "why_tests_cant": "A program can make, use and drop any number of objects in any order; an error would show only in some history, e.g. when a document is collected before an extraction.", "anchors": ["libhext/bindings/ruby/rbhext.i", "libhext/bindings/php/phphext.i", "libhext/bindings/wrapper/Html.cpp: Html::Html", "libhext/bindings/wrapper/Rule.cpp: Rule::Rule, Rule::extract"]}
{"id": "C100", "title": "Different ways of writing the same conditions give the same results", "statement": "Replace conditions of a hext by others that demand the same, e.g. :empty by :child-count(0), :only-child by :first-child:last-child, :nth-child(odd) by :nth-child(2n-1), :not(A B) by :not(A):not(B), a capture href:x by href href:x?, class=\"a b\" by class='b' class=\"a\", href href*=\"x\" by href*=\"x\", :trim by :trim(' '), or one kind of quotes by another. Then the hext is still accepted and gives the same results on every document and for every limit.", "quantifier": "all hexts without options of :type-matches, all ways of rewriting them, all documents, all limits", "why_tests_cant": "There are infinitely many pairs of synonymous hexts; that each pair agrees on each document cannot be tried out.", "anchors": ["libhext/ragel/hext-machine.rl", "libhext/src/NthChildMatch.cpp: NthChildMatch::matches", "libhext/src/OnlyChildMatch.cpp: OnlyChildMatch::matches", "libhext/src/ChildCountMatch.cpp: ChildCountMatch::matches", "libhext/src/NegateMatch.cpp: NegateMatch::matches", "libhext/src/AttributeCapture.cpp: AttributeCapture::capture"]}
{"id": "C101", "title": "The case of tag names and attribute names in a hext does not matter", "statement": "Write names of tags and attributes in a hext in other case, e.g. <A HREF:x/> instead of <a href:x/>. Then the hext is still accepted and gives the same results on every document and for every limit. (Names of results and all quoted texts keep their case.)", "quantifier": "all hexts, all ways of writing names in other case, all documents, all limits", "why_tests_cant": "Names appear in many places of a hext, for known and for custom tags, in conditions, captures and close tags; that case is ignored in all of them consistently has to be shown for all combinations and documents.", "anchors": ["libhext/ragel/hext-machine.rl", "libhext/src/Parser.cpp: set_open_tag_or_throw, validate_close_tag_or_throw", "libhext/src/Rule.cpp: Rule::matches", "libhext/src/AttributeMatch.cpp: AttributeMatch::matches", "libhext/src/AttributeCapture.cpp: AttributeCapture::capture"]}
{"id": "C102", "title": "Tags inside of tags select like a path", "statement": "In a hext each tag contains one other tag, directly or in braces, and the innermost one captures an attribute: <t1><t2>{<t3 attr:key/>}</t2></t1>, for any depth. Such a hext is valid. A tag that is directly inside of another one stands for the children of an element, a tag in braces for all nodes inside of it. The result has one group for each element at which such a path begins, if there is a value at the end of at least one path from there. The group contains the values at the ends of all paths from that element under key, in order, each path once, and nothing else.", "quantifier": "all names of tags, attributes and results, all depths, all choices of braces, all documents", "why_tests_cant": "Every level of the hext repeats the search below each match of the level above. That no path is lost, counted twice or attributed to another element has to be shown for every depth and every shape of the document.", "anchors": ["libhext/src/Rule.cpp: Rule::extract, Rule::matches, Rule::capture", "libhext/src/RuleMatching.cpp", "libhext/ragel/hext-machine.rl", "libhext/src/Parser.cpp"]}
{"id": "C103", "title": "A hext without marks is a scan from left to right", "statement": "No tag of a hext has the mark ? or +, and no number in it has ten digits. Then the result is that of the following scan. In each list of siblings (that of the root first, then the children of each element, depth first) look for the first node that the first tag matches, behind it for the first node that the second tag matches, and so on; if all tags are found, this is one group, and the search for the next group starts behind it; otherwise the list is done. A tag with tags inside of it matches an element if its own conditions hold, if this scan finds at least one group of the inner tags among the children, and at least one group of the tags in each pair of braces somewhere inside. It then contributes everything found by these scans, first from the children, then from the braces in order, then its own captures. Each group of the outermost tags gives one map; empty maps are left out.", "quantifier": "all hexts without marks, all regular expression engines, all documents", "why_tests_cant": "The search for groups goes back and forth between rules and nodes, with special cases for optional and greedy rules. That nothing of this is visible without marks has to hold for every nesting of tags and every document.", "anchors": ["libhext/src/RuleMatching.cpp: SaveMatchingNodesRecursive, MatchRuleGroup, MatchRuleOnce, MatchRange, RuleMatchesNodeRecursive", "libhext/src/Rule.cpp: Rule::extract, Rule::matches, Rule::capture"]}
{"id": "C104", "title": "Whitespace within texts does not matter", "statement": "Take a document and replace any gaps in its texts (runs of whitespace, including line breaks) with other gaps. For a hext that uses neither @inner-html nor @strip-tags the result stays the same, and the same limits on the number of searches are exceeded.", "quantifier": "all such hexts and rule trees, all documents, all ways to choose the gaps, all limits", "why_tests_cant": "The claim is about pairs of documents. @text joins the texts of all nodes below a node and collapses whitespace afterwards; that every gap, in every position, is collapsed to the same has to hold for all nestings.", "anchors": ["libhext/src/NodeUtil.cpp: NodeText, StripTags, TagWrapsText, NodeInnerHtml", "libhext/src/StringUtil.cpp: TrimAndCollapseWs", "libhext/src/RuleMatching.cpp: SaveMatchingNodesRecursive, MatchRuleGroup", "libhext/src/Rule.cpp: Rule::extract, Rule::matches"]}
{"id": "C105", "title": "Indentation does not matter", "statement": "Take a document and remove whitespace that is next to a block-level element, or at the beginning or the end of one. For a hext that uses neither @inner-html nor @strip-tags the result stays the same.", "quantifier": "all such hexts and rule trees, all documents, all choices of whitespace to remove", "why_tests_cant": "The claim is about pairs of documents. It depends on which elements @text puts line breaks around, on the search skipping nodes that no rule matches, and on counting children without regard to texts.", "anchors": ["libhext/src/NodeUtil.cpp: NodeText, StripTags, TagWrapsText, NodeInnerHtml", "libhext/src/StringUtil.cpp: TrimAndCollapseWs", "libhext/src/RuleMatching.cpp: SaveMatchingNodesRecursive, MatchRuleGroup", "libhext/src/Rule.cpp: Rule::extract, Rule::matches"]}
{"id": "C106", "title": "A hext without functions looks at elements only", "statement": "Take a document and replace any of its texts, comments and other nodes that are not elements with other such nodes. For a hext that uses no function the result stays the same, and the same limits are exceeded.", "quantifier": "all hexts and rule trees without functions, all documents, all replacements, all limits", "why_tests_cant": "The claim is about pairs of documents and every condition, trait and capture of the language.", "anchors": ["libhext/src/NodeUtil.cpp: NodeText, StripTags, TagWrapsText, NodeInnerHtml", "libhext/src/StringUtil.cpp: TrimAndCollapseWs", "libhext/src/RuleMatching.cpp: SaveMatchingNodesRecursive, MatchRuleGroup", "libhext/src/Rule.cpp: Rule::extract, Rule::matches"]}
{"id": "C107", "title": "A hext without functions does not notice texts", "statement": "Take a document and remove everything from it but the elements. For a hext that uses no function the result stays the same.", "quantifier": "all hexts and rule trees without functions, all documents", "why_tests_cant": "The claim is about pairs of documents of different shapes: positions of siblings, counts of children and the order of groups must not depend on the removed nodes.", "anchors": ["libhext/src/NodeUtil.cpp: NodeText, StripTags, TagWrapsText, NodeInnerHtml", "libhext/src/StringUtil.cpp: TrimAndCollapseWs", "libhext/src/RuleMatching.cpp: SaveMatchingNodesRecursive, MatchRuleGroup", "libhext/src/Rule.cpp: Rule::extract, Rule::matches"]}
{"id": "C108", "title": "Every text can be asked for", "statement": "For every text v and all names there is a hext <tag attr==\"v\" attr2:key/>, with v in quotes, that is valid and whose result has one map for each element with this tag whose attribute attr has exactly the value v: the value of its attribute attr2 under key, and nothing else. Likewise for ^=, *=, $= and =. A text that a program puts between the quotes cannot change what the rest of the hext means.", "quantifier": "all texts, names, comparisons, quotes and documents", "why_tests_cant": "A program that puts texts from elsewhere into a hext relies on it for all texts, including those with quotes and backslashes at any position.", "anchors": ["libhext/ragel/hext-machine.rl: opt_quoted, quoted, attribute tests", "libhext/ragel/Parser.cpp.rl: tk_start, tk_stop", "libhext/src/AttributeMatch.cpp: AttributeMatch::matches", "libhext/src/EqualsTest.cpp: EqualsTest::test"]}
{"id": "C109", "title": "Exit code 0 means that the files were read to their ends", "statement": "If htmlext exits with code 0, every file it was given was read to its end, and what it prints is what the whole files ask for. If reading a file fails, or there is not enough memory for its bytes, htmlext says that it cannot read the file and exits with another code.", "quantifier": "all files, options and points at which reading can fail", "why_tests_cant": "Reading can fail after any number of bytes, for reasons that a test cannot bring about; the result then looks like that of a shorter file.", "anchors": ["htmlext/htmlext/File.cpp: ReadFileOrThrow", "htmlext/main.cpp: main"]}
{"id": "C110", "title": "A text is a hext for all programs or for none", "statement": "Whether a text is a hext does not depend on the program that reads it: the library, htmlext and the bindings for Python, Ruby, PHP and Node accept the same texts, and a text that two of them accept means the same rule for both. htmlext --lint accepts a file if and only if its whole text is a hext.", "quantifier": "all texts, all programs", "why_tests_cant": "Texts are unbounded, and the programs hand them to the parser in different ways.", "anchors": ["libhext/src/ParseHext.cpp: ParseHext", "htmlext/main.cpp: main", "libhext/bindings/wrapper/Rule.cpp: Rule::Rule", "libhext/bindings/nodejs/src/Rule.cpp: Rule::Rule"]}
{"id": "C111", "title": "One run with many hexts and pages is like many runs with one of each", "statement": "As long as reading a file twice gives the same bytes, a run of htmlext with several hexts and several HTML files succeeds if and only if the runs with one of the hexts and one of the files succeed, with the same options. It prints what they print: first the first hext with each file, then the second hext, and so on. So pages, or hexts, can be given in one lot or in several. With --lint, several hexts are accepted if and only if each is.", "quantifier": "all lists of hext files, hext strings and HTML files, all contents and options", "why_tests_cant": "Lists are unbounded, and no hext or page may influence what is printed for another.", "anchors": ["htmlext/main.cpp: main", "htmlext/htmlext/ProgramOptions.cpp: ProgramOptions::get_hext_files, get_hext_input, get_html_input"]}
{"id": "C112", "title": "A further enclosing element does not matter", "statement": "If a page is changed by putting all children of some elements into a further element, perhaps repeatedly, and no tag of the hext matches the further elements, then extraction gives the same result. This holds for hexts without ? and +, with no tags directly inside of tags (tags in braces are allowed), whose conditions are about a node's tag, attributes and place among its siblings, and that capture attributes. With a tag directly inside of a tag, or with a condition about the content of a node, it does not hold.", "quantifier": "all such hexts, all documents, all sets of elements whose children are enclosed, any depth of enclosing elements", "why_tests_cant": "The hexts, the pages and the places where elements are inserted are unbounded.", "anchors": ["libhext/src/Rule.cpp: Rule::extract", "libhext/src/RuleMatching.cpp: MatchRuleGroup, SaveMatchingNodesRecursive"]}
{"id": "C113", "title": "Attributes that a hext does not name do not matter", "statement": "If two pages differ only in attributes whose names do not occur in the hext, up to case, then extraction gives the same result, and throws for the same values of max_searches. This holds for all hexts without :attribute-count and @inner-html, with or without marks, whatever they test or capture besides. With :attribute-count or @inner-html it does not hold.", "quantifier": "all such hexts, all documents, all sets of further attributes, all limits", "why_tests_cant": "The hexts, the pages and the attributes are unbounded.", "anchors": ["libhext/src/Rule.cpp: Rule::extract, Rule::matches, Rule::capture", "libhext/src/AttributeMatch.cpp: AttributeMatch::matches", "libhext/src/AttributeCapture.cpp: AttributeCapture::capture", "libhext/src/NodeUtil.cpp"]}
{"id": "C114", "title": "Tags that a hext does not name can be exchanged", "statement": "Let two pages differ only in the tags of some elements, whose types, in either page, no rule of the hext names. If the hext has no rule for any element (*) and uses neither @text nor @inner-html, extraction gives the same result from both pages, and throws for the same values of max_searches. This includes hexts with conditions about the place of an element, such as :nth-of-type. With @text it holds as long as inline elements are exchanged for inline elements and blocks for blocks. All custom elements are of one type. For elements of a named type, for rules with *, for @inner-html, and for @text with other exchanges it does not hold.", "quantifier": "all such hexts, all documents, all exchanges of tags, all limits", "why_tests_cant": "The hexts and the pages are unbounded, and so are the sets of elements with another tag.", "anchors": ["libhext/src/Rule.cpp: Rule::extract, Rule::matches, Rule::capture", "libhext/src/NthChildMatch.cpp: NthChildMatch::matches", "libhext/src/OnlyChildMatch.cpp: OnlyChildMatch::matches", "libhext/src/NodeUtil.cpp"]}
