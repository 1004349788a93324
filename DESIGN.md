# Formal model of rlayers/pawpaw in Lean 4 — design

## Layout
* `lean/Verif/Model/*.lean` — the model: total computable functions mirroring the Python, each citing `/repo/pawpaw/<file>:<lines>`.
* `lean/Verif/Spec/*.lean` — independent specifications: what Python's `str` methods do, what "complement", "well-formed tree", "document order", "the language of a pattern", "what a terminal does with a code", "an XML element as written" mean. They use data types of the model (`Span`, `Node`, …), never its algorithms. (The one exception, `Quiet` in `Spec/Xml.lean`, says "this call does not raise" of a model function; `C85_tree_partial` has no such hypothesis.)
* `lean/Verif/Lemmas/*.lean` — helper lemmas.
* `lean/Verif/Props/*.lean` — one theorem (or a few) per property `C..`, plus an `example` showing that the hypotheses are met by a concrete non-trivial case, plus, where the code violates the property, a theorem `..._violated` with a concrete witness (or for a whole class of inputs) and a `..._partial` theorem for the domain on which it does hold.

"Partial" always means: the property as stated in `properties.jsonl` is false of the code, which a `_violated` theorem shows, and the `_partial` theorem proves it on the stated domain.

## Conventions
* Python `int` = `Int`; exceptions are values (`Except PyErr`). Tests of dynamic types (`isinstance` guards raising `TypeError`) are not modelled, Lean's types play that part, except where a `TypeError` is the point (C61, C83).
* `str` is `List α` with decidable equality on `α` (code points) where the method does not care about particular characters, `List Char` where it does. The lone surrogates that Python strings may hold and `Char` cannot are outside the `List Char` models.
* An Ito without tree links (string, span, desc) is a record `FIto`. Trees are modelled twice: as an inductive type `Node` (pure operations) and as a heap of object identifiers with parent links and child lists (histories of mutations, identity, exceptions after partial effects, aliasing). Refinement theorems connect the two for `clone`, `from_match`, pickling and `Split`.
* The `regex` package is external. Where the pattern is the user's, a match is its list of (group key, spans) and `finditer` a list of matches with the documented contract (in range, ordered, disjoint), given as a hypothesis. Where the library itself writes the pattern (XML parser, `Version`, nlp, tables), `Model/Regex.lean` runs it: a backtracking matcher with greedy and lazy repetition, captures, backreferences and `finditer`; `Props`/`Lemmas/Regex` prove it sound and complete for the textbook language of the pattern. Character classes (`str.isspace`, `casefold`, …) are parameters.
* Generators are lists where nothing can happen between yields. Itorator pipelines (C51, C50, C76) use `Gen`, in which the consumer may change the heap between yields and stop at any point.
* Python's recursion limit and unbounded loops: fuel, with a theorem that enough fuel exists, or (C09, C25) that no fuel is enough.

## How each property is modelled and proved
| id | what is modelled | how it is proved |
|---|---|---|
| C01–C03 | `Span.from_indices`, `Span.offset`, `Ito.__init__` over `Int` | case analysis + `omega`; slices as `take/drop` against CPython's `PySlice_AdjustIndices` |
| C04–C06 | `str_find/rfind/index/rindex/count/startswith/endswith/eq`, on a specification of Python's `str` methods | windows: occurrences in `string[a:b]` shift to occurrences in the sub-window; empty needle separately |
| C07 | loops of `str_lstrip/rstrip` | induction on the loop against `dropWhile` |
| C08, C10, C12, C13 | loops of `str_split/rsplit/splitlines`, `partition`, `removeprefix/suffix` | induction on the remaining length against a recursive specification of Python's `split` |
| C09 | `_nearest_non_ws_sub` and the loops, with fuel | invariant of the loop at offset 0; witnesses (wrong result; no fuel suffices) |
| C11 | `split_iter` over a match list | induction on matches |
| C14, C15 | `__getitem__`, `__iter__`, `is…` helpers | case analysis |
| C16, C17, C53 | `from_gaps`, `invert_children`, `Invert` | invariant: yielded so far = complement up to `last.stop` |
| C18, C19, C60 | stack algorithm of `from_match` (pure and on the heap), `from_re`, `GroupKeys` | stack invariant over the sorted captures; exact forest by matching the traversal |
| C20–C23 | `from_substrings`, `join`, `strip_to_children`, `adopt`, `clone` | induction; `clone` also on the heap (new objects only, nothing else changes) |
| C24–C27, C31 | heap model of `ChildItos` | invariant over every operation, lifted to all histories by induction |
| C28–C30, C68 | pure and heap `add_hierarchical` | well-founded induction on tree size; the heap version is shown to follow the pure one on trees that carry object identities (Props/HierHeap), from which consistency, acyclicity and the objects below the parent follow (Props/HierObjects) |
| C32–C36 | tree walks and axes with paths as node identity | structural induction |
| C37–C40, C65–C67, C73–C75, C117, C125 | parsing and running of queries, from the query text on | induction on characters, tokens and phrases; grammar of expressions in `Spec/QueryParse` |
| C41–C43 | `util.py` | induction on characters |
| C44, C45 | encoders/decoders to documents | structural induction, using the C28–C30 machinery |
| C46 | key equality, reflected operands | case analysis |
| C47, C48, C126 | width rule and splicing loop of `__format__`; `__repr__` through it | arithmetic; induction over matches; for `repr` a prefix code (`Spec/Repr`) |
| C127, C128 | error messages as text; binary operators as CPython asks the operands | induction on the allowed types and on the chain |
| C129 | settings as a state machine, `regex.compile` a parameter | induction on the assignments |
| C130 | making of connectors and postorators, run by the pipeline model of C51 | induction on the table |
| C49 | `to_line_col` | greedy counting |
| C50–C52, C54, C55 | arborform: itorators, postorators, connectors as a graph with `Gen` streams on the heap | coinduction-free: streams consumed step by step, simulation over fuel |
| C56–C58, C64, C69, C78–C80 | `ascii_box`, `highlighter`, `pepo`, `sgr` | case analysis, induction; a terminal's state machine as specification |
| C59, C63, C70 | ontology | induction on the tree / token list against a grammar |
| C61, C62, C71, C72, C85 | XML names, byte offsets, Ito tree, tag contents | strings as `a ++ m ++ b` with known separators; runs of the matcher on what is written |
| C76, C77, C81, C82 | NLP pipeline and number settings | simulation of the pipeline; all histories of assignments |
| C83 | `type_magic.invoke_func` | induction over parameters |
| C84 | `Version.is_canonical` | language of the pattern |
| C86–C91 | `XmlHelper`: queries run from their text on the parsed tree | each query reduced to a filter over children/descendants/ancestors; then the first hit in the tree written by the document |
| C92 | `Ito.from_re` on the model of the backtracking matcher, for any expression | captures between two matcher states are nested or apart, by induction on the expression; then `from_match` (C30) applies to each match |
| C93 | the pattern of `Number` as an expression | its language is the specification's; its first way of matching is its longest (a small theory of `Best` expressions); `finditer` leaves no place out |
| C94, C95 | all patterns of `nlp.py` as expressions; lookbehind as a test of the text before the position | the contract of C76 discharged for them; the language of each pattern; `finditer` leaves no place out; `Sem` (matching with what stands before and after) for the sentence pattern, which is then exactly the specification's `Boundary` |
| C96 | `StyledTable._build_re` as an expression over the patterns of the style, `Extract` on the matcher | the best match read off: rows are split at the first separator that lets the rest match, and reach to the last one that can end the table; captures turned into the tree by the exact form of `from_match` (C18); `finditer` leaves no place out |
| C97 | `_re_equi_ident` (backreference: what follows a group depends on its text), `Delegate` connector | the greedy repetition goes on while a line of the block follows; a table within a block is found as for C96; for texts without blank lines, lines of a table and lines of its block aligned by induction |
| C98 | `unpack`, `isinstance_ex`, `issubclass_ex` over an abstract subclass relation | induction over type expressions; what is asked is which classes occur |
| C99 | `functoid_isinstance` with signature and type hints as inputs | exact characterisation, then its consequences |
| C100 | `parse_re` as an expression of `Model/Regex`; `from_match` on its captures | the first way of matching each part is the right one, by what may follow it; then the exact tree of C18 |
| C101 | the same; `Spec/VersionLoose` states the grammar of appendix B | captures tracked as texts along every way of matching (`CapLang`), each part decomposed; completeness from the language |
| C102 | `Paragraph.get_itor` on objects: trimmer, `Recurse`, splitter; `str_strip` on objects | the language of the pattern; its first match is its longest (`Best`, as for C93); edges of the parts between matches; the strip loops in closed form |
| C103, C104 | `slice.indices`, `range`, child lists read, deleted and assigned with a step (`Model/Step`) | arithmetic of the selected positions; `ok_delete`; the insertion loop in closed form (`setSliceLoop_exact`, also for C26) |
| C105 | `Ito.regex_…` (`Model/ItoRegex`) on the matcher of `Model/Regex` | the matcher commutes with moving the text (`out_moved`, induction on the pattern); captures bounded by induction; language by `out_sound`/`sem_out` |
| C106–C108 | the generators of `walk_descendants_levels` as stacks of frames, list iterators, loops and lazily read values (`Model/Lazy`), interleaved with any memories | invariant on the stack: what it has still to give of the unchanged part (`Todo`, `RTodo`), by induction on the schedule; `remove_spec`, C26_set_slice_exact |
| C109, C111 | `copy.deepcopy` as the protocol does it (`__reduce_ex__` with `__getstate__`/`__setstate__`, memo) and `copy.copy` with child collections that can be shared (`Model/Copy`) | deepcopy = unpickle of pickle, then C45; explicit heap after copy |
| C110 | `value_func`/`value`, setter, clone, load, itorator over histories (`Model/ValueFunc`); the bound function is an attribute of the object | invariant over histories: what is held is what was last accepted (`Spec/ValueFunc.current`) |
| C112–C114 | the whole table of box drawing characters (`Model/BoxTable`, generated from the source), `rotate`, `reflect`, `from_char`, `from_name`, `from_sides`, `from_corners` (`Model/BoxMake`) | kernel evaluation for the finite table; loops by cases on places, permutations by induction, minimality of the fuzzy look-up from C69 |
| C115 | `find_all` as the chain of generators it is, over objects in memory: the state kept between two `next` calls (`Model/LazyQuery`: walks, `filter`/`takewhile`/`dropwhile`, `to_ecs`, axes, phrases), loops with a body that changes the memory | simulation of the generators by the runs of `Model/Query` (`Gen`, `Comes`), phrase by phrase; for relabelling, axes read only child lists (`ecs_same`) and candidates are distinct (C28's `axisStep_spec`) |
| C116 | the pattern texts of the library (`Model/Patterns`) and a reader of the syntax of regular expressions (`Model/ReSyntax`), in which they are read and given their meaning | fixed texts are read by kernel evaluation; computed ones (numbers, character sets, paragraphs, tables of any style) by composing what each part adds to the reader's state (`Adds`, `Part`); equality of meaning by congruence and a normal form for sequences (`same_of_flat`) |
| C118 | the remaining fixed pattern texts (`Model/PatternsMore`), read and run as in C116, against the hand-written parsers of the model (`Query.parseAxis`, `Query.parseBracket`, `Format.reMatch`, `FIto.lineBreaks`, `Xml.etCut`) | the first way to match (`Lemmas/ReBest`) computed part by part, backtracking excluded by soundness of the matcher |
| C119 | `Extract` objects: attributes, setters, `_desc`, call (`Model/ExtractObj`); the regex engine is a parameter | induction over the assignments; what was given last is a separate specification (`Spec/ExtractObj`) |
| C120 | the itorators of a program with their classes and connections, `wrap`, `clone` (`Model/ItoratorClone`, over `Model/Pipeline`) | equal graphs of connections give equal generators, by induction over nesting |
| C121 | `escape`, `descape`, look-up of discoveries, `_Entity`, `_Mul` with its stack (`Model/OntoQuery`, over `Model/Ontology`, `Util.splitUnescaped`) | induction over the key and the path |
| C122 | `feed` piece by piece, `close`, expat's events as inputs (`Model/XmlFeed`, over `Model/Xml`) | reduction of one feed to C71/C85; a counter-example for every size of read |
| C123 | `findall('.//')`, `get_local_name`, the two finders (`Model/XmlFind`) | induction over the tree; specification: relation "below" and document order |
| C124 | `has_descendant` (`Model/Family`), `descends_from`, `get_root` (`Model/Heap`), the walk as a generator over the memory (`Model/Lazy`, `Model/LazyQuery`) | every object has a path from its root; ancestors are prefixes of paths |

## Status of each property
Generated by `tools/design.py` from the manifest.
<!-- status begin -->
| id | property | status | what is proved, what is missing |
|---|---|---|---|
| C01 | Span.from_indices agrees with Python slicing | proved (3 theorems) | For all lengths and all (also negative or None) indices. |
| C02 | Ito of an Ito selects the nested slice | proved (2 theorems) | For all strings, Itos and indices. |
| C03 | Span.offset is an exact, guarded shift | proved (3 theorems) | Exact shift or ValueError, additive, and undone by the opposite shift. |
| C04 | str_find / str_rfind / str_index / str_rindex equal Python's | partial (8 theorems) | Right exactly when the needle is non-empty or the window is not crossed (C04_find_exact, C04_index_exact, iff); elsewhere the window start is returned instead of -1 (C04_find_crossed). |
| C05 | str_count equals Python's | partial (3 theorems) | Right exactly on the same domain as C04 (C05_count_exact, iff); elsewhere 1 instead of 0. |
| C06 | str_startswith / str_endswith / str_eq equal Python's | partial (5 theorems) | Right exactly unless the tuple holds the empty string and the window is low (C06_affix_exact, iff), where it says False for True. |
| C07 | strip family equals Python's | partial (5 theorems) | Right for every chars but the empty string, which pawpaw treats as white space; C07_empty_chars says exactly when that case is right. |
| C08 | str_split / str_rsplit by separator equal Python's | proved (4 theorems) | For every string, Ito, non-empty separator and maxsplit; Python's split/rsplit are specified independently (Spec/PyStr). |
| C09 | whitespace str_split / str_rsplit equal Python's and terminate | partial (7 theorems) | Right at offset 0. Elsewhere: str_split() is right iff no gap between words is shorter than the offset (C09_split_exact); str_rsplit() never returns if there is a word (C09_rsplit_offset_violated, for all inputs). |
| C10 | str_splitlines equals Python's | proved (1 theorems) | For every string; keepends both ways. |
| C11 | split / split_iter by regex: exact tiling and max_split | partial (3 theorems) | Tiling proved for every ordered match list when max_split <= 0; for max_split > 0 the code makes no split at all (C11_max_split_violated, for all inputs). |
| C12 | str_partition / str_rpartition equal Python's | partial (5 theorems) | Raises iff the separator does not occur and a child begins before the end; otherwise Python's (C12_partition_exact, iff). |
| C13 | str_removeprefix / str_removesuffix equal Python's | partial (4 theorems) | removeprefix always; removesuffix for every non-empty suffix; the empty one empties the text, for every Ito (C13_removesuffix_empty). |
| C14 | indexing and slicing an Ito equal Python's | partial (6 theorems) | Slices, iteration and non-negative keys right everywhere; for negative keys C14_getitem_negative gives the text returned, for every Ito and key (right at offset 1 only in general). |
| C15 | character-class predicates equal Python's | partial (8 theorems) | The all-predicates right everywhere; isprintable right iff all or no characters are printable (C15_isprintable_exact); islower/isupper characterised exactly (C15_iscased_exact, C15_iscased_diff). |
| C16 | from_gaps returns exactly the uncovered space | partial (8 theorems) | Complement proved for non-gaps monotone in start and stop that do not lie before src; nested, preceding, or late unordered non-gaps break it (witnesses). C16_from_gaps_exact: for every start-ordered sequence the call ends normally, and the result is the complement IF AND ONLY IF every non-gap that opens a gap ends no earlier than the source start and all the non-gaps before it. |
| C17 | invert_children is the complement of the children | proved (1 theorems) | For every well-formed tree. |
| C18 | from_match builds a faithful forest of the groups | proved (4 theorems) | A match is any consistent group-span table (as re guarantees); the forest lists exactly the kept, participating groups, once each, and from_match succeeds on it; C18_from_match_exact says which forest it is. |
| C19 | from_re honours its limit and order | proved (3 theorems) | finditer's matches are an input; order and limit of the concatenation. |
| C20 | from_substrings finds ordered, disjoint, leftmost occurrences | proved (1 theorems) | For all strings and substrings. |
| C21 | join and strip_to_children give the tight enclosing span | proved (4 theorems) | For all non-empty inputs; empty or mixed-string inputs raise. |
| C22 | adopt collects every argument under a tight parent | proved (3 theorems) | For every iteration order of the Python set used by adopt; the raised cases are characterised. |
| C23 | clone is a faithful deep copy | proved (6 theorems) | On values (equality, arguments) and in memory: the copy consists of new objects only and no existing object changes; also for clone(start, stop, desc, clone_children): exactly when it raises, and what it makes (C23_clone_arguments, C23_clone_childless). Python's recursion limit appears as fuel, shown sufficient. |
| C24 | children stay ordered, disjoint and inside the parent | proved (4 theorems) | For every history of new/add/remove/pop/del/clear, slices without step, each call succeeding or raising; and for histories that contain successful add_hierarchical calls (C24_hierarchical_history), assignments to items and slices and slices with a step (C24_full_history). |
| C25 | parenthood is acyclic | partial (7 theorems) | False as stated: two Itos with the same span can be added to each other (C25_cycle_violated), after which get_root never ends (C25_get_root_loops_violated, for every fuel). Proved: histories in which no argument of add/set is an ancestor-or-self of the parent stay acyclic; get_root and descends_from are right on acyclic heaps; a cycle can only be among nodes of equal span. C25_add_exact: after a successful add on an acyclic heap the heap is acyclic if and only if the argument was not an ancestor of (or equal to) the parent. |
| C26 | item and slice assignment keep the children well-formed | partial (8 theorems) | Proved for positive-width children and fresh parentless arguments (normal or ValueError outcome characterised); atomicity is false (C26_*_violated). C26_set_int_exact, C26_set_slice_exact: for any values and widths, what is removed and inserted, when it raises, and exactly when the result is consistent. |
| C27 | failed mutations change nothing | partial (4 theorems) | Proved for children.add (one argument atomic; several arguments: exactly the prefix before the offending one was added). False for add_hierarchical (C27_add_hierarchical_violated); of add_hierarchical what holds is proved: a childless argument inside the parent's span is added or refused without a trace (C27_add_hierarchical_childless_partial). Missing: arguments with children or outside the parent, where it is false. |
| C28 | add_hierarchical keeps the tree well-formed | proved (7 theorems) | For every key function of (span, desc, value_func), every store and every argument tree, any number of arguments; plus a success criterion. In memory (parent pointers, stores, identities; any key function of objects): the call terminates, succeeds exactly when the argument is inside and nothing crosses, and leaves a consistent acyclic graph with exactly the expected objects below the parent (C28_add_hierarchical_objects, C28_add_hierarchical_all_objects). The statement is about calls that return: x.children.add_hierarchical(x) never ends when x has children (C28_self_argument_loops). |
| C29 | add_hierarchical loses and invents nothing | proved (2 theorems) | For every store, key and argument trees: the multiset of nodes is preserved; for objects in memory see the `below` and `data` parts of C28_add_hierarchical_objects. |
| C30 | add_hierarchical yields the nesting order whatever the insertion order | proved (4 theorems) | Also for argument trees of any shape (C30_order_independent_trees) and the nesting is exactly span nesting (C30_nesting; between objects in memory C30_nesting_objects). |
| C31 | membership and removal are by the node itself | partial (3 theorems) | remove proved; `in` only compares starts (C31_contains_violated), proved: it is true for every child and exactly when some child has the same start. |
| C32 | walk_descendants is pre-order, reverse walk is its reverse | proved (3 theorems) | For every tree. |
| C33 | .path leads back to the node | proved (2 theorems) | For every well-formed tree and every node of it; different nodes have different paths. |
| C34 | axes return exactly the documented nodes | proved (5 theorems) | Every axis but << >> streams of C35, from one and from several start nodes, at the level of query texts too. |
| C35 | preceding '<<<' and following '>>>' axes | partial (8 theorems) | Proved from one start node that is not of zero width (and has no descendant starting at its stop); false with zero-width nodes and with several start nodes (C35_*_violated: only the last start node counts). C35_following_exact / C35_preceding_exact: if and only if characterisations of when the axis is right. |
| C36 | the axes partition the tree | partial (4 theorems) | Proved for nodes as in C35_following_partial; false around zero-width nodes (C36_overlap_violated); C36_partition_exact: the exact condition. |
| C37 | boolean filter expressions | partial (8 theorems) | From the text of the query on: C37_find_all (exactly the results kept, for every expression that works), C37_find_all_plain, C37_find_all_late_violated, C37_missing_operator. Proved for every expression, of any depth and with any spacing, whose parenthesised groups hold at least two terms; a single term in parentheses drops the text before '(' (C37_violated_negation, C37_violated_operator). What every expression does, lone groups included, is C37_exact: with no filter to the left of a lone group the expression is read without the parentheses and negations up to it; otherwise it is refused or every evaluation raises TypeError. |
| C38 | a query is split into phrases only at top-level '/' | proved (3 theorems) | For every query text; joining the phrases gives the text back. |
| C39 | queries compose and find is the first of find_all | partial (5 theorems) | C39_compose: p/q runs q's phrases on p's results, for all texts with p balanced and not ending in a dangling escape. Node-wise composition proved for phrases that look at one node at a time; false for a position filter on '.' and for unbalanced braces (witnesses). |
| C40 | index filters select exactly the listed positions | proved (1 theorems) | For every list of index and slice items, written in any spacing the regex accepts. |
| C41 | escape / descape round-trip | proved (4 theorems) | For every text, alphabet and escape character. |
| C42 | find_unescaped / split_unescaped / find_escapes locate exactly the unescaped characters | proved (4 theorems) | For every text; note that find_escapes reports absolute and find_unescaped relative positions, as proved. |
| C43 | find_balanced yields exactly the outermost balanced segments | proved (2 theorems) | For every text; with and without quotes. |
| C44 | JSON round-trip | partial (7 theorems) | Proved for every non-root node of every tree without zero-width nodes and without equal spans; alone (no tree) for every node. False for the root (AttributeError), for equal spans and for zero-width nodes (witnesses). C44_wide_exact: for every tree without zero-width nodes, what is decoded has the same spans at the same paths, and is the original if and only if the descs of nested nodes of one span are palindromes wherever the path has an odd number of steps to non-first children (Mirrored). |
| C45 | pickle round-trip | partial (2 theorems) | Structure, strings, spans, descs, sharing and freshness proved for every tree in memory; value functions are not saved (C45_value_func_violated, for every object that has one). |
| C46 | equality is an equivalence consistent with hash | proved (3 theorems) | For Ito and subclasses, Python's reflected-operand rule included. |
| C47 | format width never exceeds the limit | proved (1 theorems) | Width rule of the shortening directives. |
| C48 | format substitution is simultaneous | proved (6 theorems) | For every format text and Ito. |
| C49 | to_line_col inverts line layout | partial (5 theorems) | Proved for markers that cannot overlap themselves and for patterns given by their matches; false for self-overlapping markers (C49_overlap_violated); C49_line_col_exact: the exact condition, for every non-empty marker and text. |
| C50 | arborform Split tiles its input | proved (7 theorems) | For every boundary retention, limit and desc; re's matches are an input. |
| C51 | itorator pipelines compose | proved (13 theorems) | For every graph of itorators (cyclic too), every transform and postorator that touches only what it is given (the built-in ones proved to be such), every consumer behaviour between yields and every stopping point. Recursion depth is fuel. AddHierarchical is covered by the no-modification theorem, not by C51_pipeline_consistent (add_hierarchical can leave memory inconsistent when it raises, C27). |
| C52 | Nuco returns the first non-empty result | proved (1 theorems) | For every list of itorator runs, with exceptions. |
| C53 | Invert yields the complement | partial (5 theorems) | Proved for childless Itos; with children the clones carry children that do not fit and Invert raises (C53_children_violated); C53_children_exact says, for every Ito, what is yielded and that it ends normally if and only if every gap contains every child. |
| C54 | WindowedJoin partitions its input stream | proved (4 theorems) | For every stream, window size, predicate and join. |
| C55 | StackedReduce partitions its input stream | proved (3 theorems) | For every stream, reduce and predicates. |
| C56 | box-drawing directions form the rotation group | proved (7 theorems) | All integers of degrees; group laws over all directions. |
| C57 | Highlighter preserves the text | proved (5 theorems) | Segments, text and neighbouring colours, for every tree and every palette. |
| C58 | boxed text is a rectangle containing every line | partial (7 theorems) | Rectangle proved for printable lines; an unprintable character is written but not counted in the width and breaks it (C58_unprintable_violated). Exact criteria: C58_rectangle_exact, C58_unprintable_exact. |
| C59 | ontology discovery results are complete | proved (4 theorems) | For every ontology tree and every family of rule results. |
| C60 | GroupKeys select each group at most once | proved (4 theorems) | For every regex group table and key list. |
| C61 | XML names split and rebuild | partial (5 theorems) | All clauses proved except that EtName.from_item of an Element with .ito uses the element's whole Ito, not its tag (C61_element_violated). The regex of EtName is transcribed, not interpreted. |
| C62 | XML byte offsets map to character offsets | proved (4 theorems) | For every per-character codec (UTF-8 shown to be one) and every text with LF, CR and CR LF breaks. Expat's reports are an input, specified by reportAt. |
| C63 | ontology query precedence | partial (4 theorems) | Proved for expressions of any length and nesting in which what follows \| or ^ is a factor or `a & f`; elsewhere the algorithm pops operators of lower precedence too (C63_violated). C63_reads says what the algorithm gives for every expression, and C63_exact_iff that it follows precedence for exactly those expressions. |
| C64 | pepo renders every node once in document order | partial (9 theorems) | Compact and tree dumps proved in full; JSON proved for children=True (false for children=False: C64_json_violated); XML: the elements are right if no desc has a double quote (C64_xml_quote_violated), but the document never is, its last line being <itos> (C64_xml_violated). |
| C65 | dedup axis | partial (3 theorems) | False for different but equal nodes (C65_equal_nodes_violated); proved: duplicates are removed by Ito equality, hence by identity when no two results are equal. |
| C66 | desc and string filters | partial (5 theorems) | Proved for values that can be written (non-empty, no leading space, no trailing backslash: Writable); the exceptions are witnessed. |
| C67 | query compilation is total up to ValueError | proved (1 theorems) | For every text. |
| C68 | equal spans in hierarchical add | proved (2 theorems) | For every key. |
| C69 | box character look-up | proved (2 theorems) | For every table and query. |
| C70 | ontology look-up by path | proved (1 theorems) | For every ontology and path. |
| C71 | the XML parser's Ito tree mirrors the document | partial (5 theorems) | Proved for elements with no > inside tags and no childless element whose text ends in /> or ?>; the code is wrong on both exceptions (C71_gt_violated, C71_self_closing_violated), and raises ValueError when a newline separates an element's name from its first attribute (C71_raises_violated; the hypothesis Quiet says the extraction within the start tags does not raise). What the patterns extract within tags and texts is C85. |
| C72 | tag Itos know their qualified name | partial (2 theorems) | False for every start tag with two tags of different text (C72_violated): all closures read the loop variable after the loop. Proved for a single tag. |
| C73 | text filters: starts with, ends with, ignoring case | proved (6 theorems) | All eleven keys and their negations, any axis and tree; folding abstract (structure Folds states what is assumed of str.casefold). Values must be writable as C66 says. |
| C74 | predicate and value filters | proved (4 theorems) | Predicates/values that return; findAll_asks is the general form with exceptions. |
| C75 | sub-queries are existential tests | proved (4 theorems) | Sub-query texts with matching braces (Braced); one filter or none before the sub-query; several sub-queries combined with operators go through C37. |
| C76 | SimpleNlp.from_text builds the document tree | proved (1 theorems) | Regex engine abstract: structure NlpSpec.Lawful is its contract. Paragraph().trim_ws is not used by SimpleNlp. |
| C77 | SimpleNlp(chars=True) adds the characters of words and numbers | partial (3 theorems) | The code violates the property: C77_chars_violated (every text with a number raises ValueError) and C77_chars_no_effect (otherwise no char is added) say exactly what happens instead; C77_library_violated is the first for the library's own patterns. |
| C78 | SGR codes mean what they say | proved (5 theorems) | The terminal is Spec/Sgr.lean. Colours with negative components are outside C78_from_color (no terminal meaning) but inside the injectivity theorems. |
| C79 | 24-bit colours | proved (2 theorems) |  |
| C80 | equality of Fore / Back objects | partial (3 theorems) | C80_all_equal: dataclass __eq__ ignores _value. The partial theorem says exactly when == holds and that the texts tell the objects apart. |
| C81 | assigning Number's properties takes effect | partial (3 theorems) | C81_frozen gives the exact behaviour for every history. |
| C82 | Number's keyword arguments | partial (3 theorems) | C82_kwargs_raise covers any acceptable arguments before the offending one. |
| C83 | invoke_func wires values to parameters by type | partial (7 theorems) | Violations: a parameter without a value shifts its successors' values onto itself; equal values are confused; greedy choice; left-over values with *args raise. Holds when every positional parameter gets a value and no two values are equal; order-independent when each parameter has one fitting value. |
| C84 | Version.is_canonical decides PEP 440 canonical versions | partial (4 theorems) | C84_exact: the set of accepted strings, exactly, through the textbook language of the pattern proved equal to what the backtracking matcher accepts. The property is false: a trailing newline is accepted (C84_newline_violated) and so are '-' and '_' in the local part (C84_canonical_violated). C84_canonical_partial: it holds for strings with neither. |
| C85 | XML tags, attributes, comments and processing instructions become Itos where they are written | partial (10 theorems) | Proved for whole elements whose attributes are in double quotes, non-empty, without >, each after a space, not ending in = after a colon, and whose CDATA sections hold nothing that looks like a comment or processing instruction; the code is wrong on each exception (C85_*_violated). The patterns are run by the matcher of Model/Regex. |
| C86 | XmlHelper.get_qualified_name gives prefix and local part as written | partial (5 theorems) | Proved for attributes without condition, and exactly characterised for start tags (C86_start_tag_exact): a start tag without prefix borrows that of its first prefixed attribute (C86_borrowed_violated), so the property itself holds only when the tag has a prefix or no attribute has one. |
| C87 | XmlHelper.get_xmlns gives exactly the namespace declarations of an element | partial (3 theorems) | C87_exact says exactly what is given: attributes whose name or value reads like the name of a declaration. So the property fails for a value such as xmlns (C87_value_violated) and holds when no value does. |
| C88 | XmlHelper.get_prefix_map maps the declared prefixes to their namespaces | partial (2 theorems) | Proved when no value of a prefixed attribute reads like the name of a declaration (C88_value_violated shows the failure) and no prefix is declared twice (not well-formed). |
| C89 | XmlHelper.get_default_namespace gives the default namespace in scope | partial (3 theorems) | Proved for documents in which no value of an attribute without prefix reads like the name of a declaration (C89_value_violated) and no attribute is empty (C89_undeclared_violated: xmlns="" is not seen). |
| C90 | XmlHelper.get_parent_element and reverse_find go to the nearest enclosing element | proved (3 theorems) | The predicate is any Boolean function of the element; evaluating ElementTree paths is not modelled. |
| C91 | XmlHelper.get_text_itos gives the texts directly within an element | proved (1 theorems) |  |
| C92 | Ito.from_re succeeds on every pattern without lookahead and gives a faithful forest | proved (2 theorems) | The matcher is Model/Regex (backtracking). False for a group within a lookahead (C92_lookahead_raises: ValueError); groups within lookbehind are not modelled. |
| C93 | What Number finds in a text | proved (8 theorems) | On the model of the backtracking matcher. The theorems C93_insane_settings and C93_run_split show the limits: with equal separator and point the longest number is not found, and 1,2345 is read as 1,234 and 5. |
| C94 | SimpleNlp reads every text: no character but white space is lost, every word character is in a word or number | proved (2 theorems) | The contract of C76 is discharged for the patterns themselves (patterns_lawful). |
| C95 | Sentences end exactly at sentence boundaries | partial (6 theorems) | C95_sentences (with C95_sound, C95_complete) is the exact characterisation of where the code splits; C95_longer_word_violated and C95_crlf_violated are texts on which that is not what the property says. |
| C96 | StyledTable finds exactly tables of its style, with a child per row and caption | partial (5 theorems) | Proved, but for the last claim: tables are not told apart (the first one reaches down to the last separator in the text), proved for every style without post caption in C96_one_table_violated. |
| C97 | Tables with equidistant indentation are found in blocks of equally indented lines | partial (10 theorems) | Blocks, order and nesting proved for all texts; a table may start in the middle of a line (lookbehind lost at table.py:40), blank lines join blocks ([^ \t] matches a newline), tables in a block merge, and an indented table after a blank line is lost; that tables are found is proved for texts without blank lines. |
| C98 | isinstance_ex and issubclass_ex understand unions and generics | partial (6 theorems) | isinstance_ex proved in full for classes, generics and \|; issubclass_ex proved exact, equal to the subtype relation for a single class; violated for unions on the left (any-any) and for typing.Union (TypeError). |
| C99 | functoid_isinstance accepts exactly the functions fit to be called so | partial (11 theorems) | Exact characterisation, undeclared and exactly declared functions proved; parameter direction, Callable[..., r] and Optional are violations. |
| C100 | Version.parse_re reads every canonical version, part by part | proved (3 theorems) | On the model of the backtracking matcher; what IGNORECASE folds outside ASCII is a parameter. For non-canonical spellings the groups may differ (1.0a.post1 gives pre 'a.'). |
| C101 | Version.parse_re matches exactly the version spellings of PEP 440, appendix B | proved (2 theorems) | Exact language by soundness and completeness of the matcher model, with captures as texts; which characters outside ASCII IGNORECASE folds to a letter is a parameter. |
| C102 | Paragraph splits a text at its breaks, and nowhere else | partial (9 theorems) | Proved but for trim_ws: only the whole text is trimmed, so a later paragraph may start with blanks (C102_trim_violated); a blank text gives an empty paragraph; min_separators=0 splits into characters. |
| C103 | reading and deleting slices with a step of child lists | proved (2 theorems) |  |
| C104 | assigning to slices with a step of child lists | partial (2 theorems) | C104_set_step_exact says exactly what happens: the values go, one after the other, to position a of the children that are left (IndexError if there are fewer), so that every s-th child can never be replaced in place (C104_in_place_violated, for all graphs and all s >= 2). |
| C105 | the regex_ methods match within the Ito | proved (8 theorems) | On the model of the backtracking matcher (no lookbehind, no \b). regex_findall gives texts, not matches as its annotation says. |
| C106 | walking while the tree changes | proved (5 theorems) | The generator is modelled by the frames CPython keeps (node and position of the list iterator). A reverse walk raises IndexError if a list it is in has become shorter (C106_reverse_raises). |
| C107 | removing children in a loop over them | partial (3 theorems) | True for loops over reversed(children) and over a copy; a loop over children itself leaves every second child, for all graphs (C107_for_remove_violated). |
| C108 | assigning filtered children to their own slice | partial (3 theorems) | True for a list (C108_list). With a generator over the children, or with the child list itself as the value, all children are lost: they are deleted before the values are read (C108_own_children_violated, for all graphs and predicates). |
| C109 | deepcopy copies the tree | proved (1 theorems) | For every object graph without cycles, given recursion enough (Python's limit is not modelled). As with pickling (C45), value functions are not copied; the statement does not claim them. |
| C110 | value() follows value_func | proved (3 theorems) | Functions are opaque; whether a signature fits is a parameter (the check of signatures itself: functoid_isinstance). |
| C111 | copy.copy leaves the original alone | partial (3 theorems) | False. C111_copy_exact says what happens for every graph: copy and original share one child collection, and every child of the original gets the copy as its parent (C111_copy_steals_children_violated, for every Ito with children; C111_copy_shares_children_violated, for every Ito). |
| C112 | box drawing characters | proved (9 theorems) | The table (128 characters) is finite; facts about it are evaluated by the kernel, everything over angles and compositions is proved for all. |
| C113 | boxes from their sides | partial (8 theorems) | Given sides kept, all edges filled, corners nearest to the arms pointing the same way (C113_from_sides_partial), right when both arms of each side are alike (C113_symmetric_sides, C113_one_side); false for str (C113_str_violated), for no sides (C113_no_side_violated) and for mixed sides (C113_touching_violated). When a corner or side can have exactly the given styles: C113_corner_exact, C113_side_exact. |
| C114 | boxes from their corners | proved (3 theorems) |  |
| C115 | A loop over find_all sees what a list of find_all has | partial (4 theorems) | Without changes: proved for all queries (C115_quiet), which also ties the heap model to the model of queries on trees. Setting descriptors: proved for one phrase with an axis other than ., ><, <<< and >>> (C115_relabel_partial); false with two phrases (C115_relabel_violated: **[d:a]/* goes on into what the loop has just named a). Removing: false even for * (C115_remove_violated). A filter is any function of memory, number and object. |
| C116 | The patterns in the source are the expressions the guarantees are about | proved (17 theorems) | The reader of the syntax (Model/ReSyntax) is a model of the documented syntax of the package regex; the texts (Model/Patterns) are those of the source, for computed patterns the computation. re.escape is any function that writes each character as itself or after a backslash, when the syntax needs one. |
| C117 | Filters and sub-queries combine within a phrase | partial (4 theorems) | Proved for F ending with a filter and S without a parenthesised single term after another sub-query. Otherwise false: after an F that ends with ')' every sub-query is refused with ValueError (C117_parenthesis_violated, for all such queries); lone parenthesised terms as in C37; operators between F and S are ignored except for negations, so `*[a] \| {q}` is read as `*[a]{q}` (C117_operator_violated). |
| C118 | Texts accepted by the library's own patterns are read exactly as those patterns say | proved (6 theorems) | The pattern texts are read by the regex reader of C116 and run by the backtracking semantics; the hand-written parsers of the model (parseAxis, parseBracket, reMatch, lineBreaks, etCut) are proved to return what that run returns, for every text. \d is taken as the ASCII digits in the format pattern; \s is exactly the Unicode White_Space list (C118_space). |
| C119 | An Extract runs with the settings given last | partial (6 theorems) | C119_run_partial: every Extract whose desc is a function or has been assigned. Violated: a str desc given to the constructor goes to another attribute, so every call raises AttributeError (C119_str_desc_violated); assigning re leaves the keys unchecked, so a call raises ValueError on every Ito (C119_stale_keys_violated). C119_make and C119_stale_keys say exactly when construction and such calls succeed. |
| C120 | A clone of an itorator does what the itorator does | partial (7 theorems) | C120_clone_partial: wrapped functions without connections and postorator. Violated: every class of the library raises TypeError, since type(self()) calls the itorator without an Ito (C120_builtin_violated); connections and postorator are not copied (C120_lost_violated). C120_others: nothing else changes. C120_bare: what any clone of a wrapped function does. |
| C121 | Entities of ontology queries find what the discoveries at their path hold | partial (10 theorems) | C121_entity_partial: keys without backslash, closing bracket and dot. Violated: _Entity looks the steps up without descape, so a key with one of those characters is never found (C121_special_violated). |
| C122 | A document read from a file gives the Itos of the document read from a string | partial (5 theorems) | C122_file_partial: documents that fit one read; C122_document_partial, C122_string_partial: what a document fed whole gives. Violated: feed keeps only the last piece as the text and counts lines from its start, so a document longer than one read raises ValueError (C122_long_violated). |
| C123 | Elements are found by local name, whatever their namespace | proved (2 theorems) | Names as expat makes them: it refuses a namespace that contains the character } that separates namespace and local name. |
| C124 | descends_from, has_descendant, walk_descendants and get_root agree | proved (2 theorems) | Where parenthood is cyclic (C25_cycle_violated) get_root never ends. |
| C125 | Malformed filter expressions are refused | partial (3 theorems) | Proved: two filters with only ~ and spaces between them (C125_gap_partial; with spaces only it is ValueError, C37_missing_operator), unequal numbers of parentheses (C125_unbalanced_partial). Violated: superfluous operators are accepted and all but the strongest operator between two filters is ignored (C125_superfluous_violated, for every such text without parentheses). |
| C126 | repr shows what an Ito is | partial (3 theorems) | Proved: C126_text_partial (the exact text, with repr(desc or '') in place of repr(desc)), C126_tells_partial (span, text and desc-or-empty can be told, with Python's repr of str as specified in Spec/Repr). Violated: a missing descriptor is shown as '' and so looks like an empty one (C126_violated). |
| C127 | An argument of the wrong type is refused with TypeError | partial (3 theorems) | Proved: arguments which are not callable or whose signature can be told (C127_message_partial, C127_kind_partial). Violated: for a callable without signature, as the classes str and dict, inspect.signature raises ValueError and that comes out instead (C127_signature_violated). |
| C128 | x \|op\| y is op(x, y) | partial (5 theorems) | Proved for left operands whose type has no \| and << of its own that accepts an Infix (C128_infix_partial, C128_chain_partial, C128_nuco_partial); misuse is a TypeError (C128_misuse_partial). Violated: Python asks the left operand first, so one with its own \| is combined with the Infix itself (C128_own_violated). |
| C129 | Assigning Paragraph's settings takes effect | partial (3 theorems) | Proved for sequences that assign no texts to separators (C129_settings_partial; C129_refused_partial for single assignments refused for their type). Violated: the setter of separators stores list[val], a generic type, instead of list(val), so the property never reads as what was assigned, and the pattern is the old one or no pattern of the texts (C129_separators_violated, for all texts). True and False as min_separators are not modelled. |
| C130 | Connectors route by desc, and postorators can be functions | partial (7 theorems) | Proved: routing (C130_route_partial, C130_skip_partial), what is accepted and how the rest is refused (C130_made_partial, C130_function_partial, C130_refused_partial), postorators (C130_postorator_partial). Violated: the setter of postorator refuses functions, although its type and its error message name them (C130_function_violated); they have to be wrapped with Postorator.wrap. |
<!-- status end -->

## What of the code is modelled
| file | modelled | not modelled |
|---|---|---|
| `span.py` | all | — |
| `ito.py` | constructors, `from_match`, `from_re`, `from_gaps`, `from_substrings`, `join`, `adopt`, `clone`, `split_iter`, `invert_children`, `strip_to_children`, equality/hash key, `__getitem__`, `__iter__`, `__format__` (width and substitution), `__repr__`, `to_line_col`, all `str_…` methods, `ChildItos` (add, add_hierarchical, remove, pop, del, get/set item and slice with or without step, clear, index, contains), walks, `path`, pickling, `copy.copy`, `copy.deepcopy`, `value_func`/`value` (functions are opaque), JSON encoder/decoder, `GroupKeys`, the `regex_…` methods (without `concurrent`, `timeout`) | `str_encode`/`str_expandtabs`-like delegations that call `str(self)` directly |
| `errors.py` | all | what `inspect`, `repr` and `typing` give |
| `infix.py` | all | an `Infix` as right operand of its own operators |
| `util.py` | all of escape/descape/find/split/balanced | — |
| `_type_magic.py` | `invoke_func`, `unpack`, `isinstance_ex`, `issubclass_ex`, `functoid_isinstance` | `inspect`, `typing` (inputs); `is_def`, `is_lambda`, parameter kinds |
| `query/_query.py` | tokenising, axes, filters, sub-queries, combination, compilation errors, `find`, `find_all` | caching and `__hash__` of compiled queries; `regex` flags in filters |
| `arborform/*` | all itorators and postorators, their setters and `clone` | checks of argument types |
| `visualization/*` | directions, the table of box drawing characters, box look-up, turning, mirroring, `from_sides`, `from_corners`, `Boxer`, `Highlighter`, `pepo` dumps, `sgr` | the palettes' particular colours; writing to streams |
| `ontology/*` | `Ontology`, discovery, look-up, shunting-yard of queries, `escape`, `descape`, `_Entity`, `_Mul` | `Query.__init__` (it calls `exit(0)`) |
| `nlp/nlp.py` | `SimpleNlp`, paragraph/sentence/word pipeline, settings of `Number`, all regular expressions of the pipeline | Unicode classes `\w`, `\d`, `\s` are parameters; `\L<…>` is taken to be an alternation, longest first; how far a lookbehind sees before the searched part is a parameter; `KeyedPrefix` |
| `xml/*` | names, offsets, the whole Ito tree, tag values, `XmlHelper` (qualified names, declarations, prefix map, default namespace, parent, `reverse_find`, texts), `feed` and `close` | expat and `ElementTree` (inputs); argument type checks |
| `_version.py` | `is_canonical`, `parse_re` (case folding outside ASCII is a parameter) | - |
| `table/table.py`, `table/styles/styles.py` | `TableStyle`, `StyledTable._build_re`, `_re_equi_ident`, `get_itor`, `TYPE_1`, `TYPE_2` | patterns of a style with groups, assertions or a `|` outside parentheses |

## Trusted base
* Lean 4.33.0's kernel, and the axioms printed for the theorems: at most `propext`, `Classical.choice`, `Quot.sound`. No axiom is added; no `native_decide`, `bv_decide`; witnesses use `decide` or `decide +kernel`, both checked by the kernel by evaluation.
* The reading of `/repo` embodied in the model (no code is run), and of CPython's documented `str`/`bisect`/`list` semantics embodied in `Spec`.
* For the patterns the library writes itself, that the package `regex` reads their texts as `Model/ReSyntax.lean` does (C116 then proves that these are the expressions the other theorems speak of) and behaves as `Model/Regex.lean` says (backtracking, leftmost, greedy/lazy, all captures kept; `finditer` goes on where the last match ended, and after an empty match looks for one at the same place that is not empty).

## Testing the theorems
`tools/mutate.py` applies one edit to a scratch copy of the model, rebuilds and records which theorems fail; results in `seeded/LOG.jsonl`, the edits in `tools/mutants*.py`. Edits that survived led to theorems being tightened (field `theorems_tightened`).
