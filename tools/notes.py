NOTES={
"C04":(None,"Right exactly when the needle is non-empty or the window is not crossed (C04_find_exact, C04_index_exact, iff); elsewhere the window start is returned instead of -1 (C04_find_crossed)."),
"C05":(None,"Right exactly on the same domain as C04 (C05_count_exact, iff); elsewhere 1 instead of 0."),
"C06":(None,"Right exactly unless the tuple holds the empty string and the window is low (C06_affix_exact, iff), where it says False for True."),
"C07":(None,"Right for every chars but the empty string, which pawpaw treats as white space; C07_empty_chars says exactly when that case is right."),
"C13":(None,"removeprefix always; removesuffix for every non-empty suffix; the empty one empties the text, for every Ito (C13_removesuffix_empty)."),
"C14":(None,"Slices, iteration and non-negative keys right everywhere; for negative keys C14_getitem_negative gives the text returned, for every Ito and key (right at offset 1 only in general)."),
"C15":(None,"The all-predicates right everywhere; isprintable right iff all or no characters are printable (C15_isprintable_exact); islower/isupper characterised exactly (C15_iscased_exact, C15_iscased_diff)."),
"C09":(None,"Right at offset 0. Elsewhere: str_split() is right iff no gap between words is shorter than the offset (C09_split_exact); str_rsplit() never returns if there is a word (C09_rsplit_offset_violated, for all inputs)."),
"C11":(None,"Tiling proved for every ordered match list when max_split <= 0; for max_split > 0 the code makes no split at all (C11_max_split_violated, for all inputs)."),
"C12":(None,"Raises iff the separator does not occur and a child begins before the end; otherwise Python's (C12_partition_exact, iff)."),
"C16":(None,"Complement proved for non-gaps monotone in start and stop that do not lie before src; nested, preceding, or late unordered non-gaps break it (witnesses). C16_from_gaps_exact: for every start-ordered sequence the call ends normally, and the result is the complement IF AND ONLY IF every non-gap that opens a gap ends no earlier than the source start and all the non-gaps before it."),
"C25":(None,"False as stated: two Itos with the same span can be added to each other (C25_cycle_violated), after which get_root never ends (C25_get_root_loops_violated, for every fuel). Proved: histories in which no argument of add/set is an ancestor-or-self of the parent stay acyclic; get_root and descends_from are right on acyclic heaps; a cycle can only be among nodes of equal span. C25_add_exact: after a successful add on an acyclic heap the heap is acyclic if and only if the argument was not an ancestor of (or equal to) the parent."),
"C26":(None,"Proved for positive-width children and fresh parentless arguments (normal or ValueError outcome characterised); atomicity is false (C26_*_violated). C26_set_int_exact, C26_set_slice_exact: for any values and widths, what is removed and inserted, when it raises, and exactly when the result is consistent."),
"C27":(None,"Proved for children.add (one argument atomic; several arguments: exactly the prefix before the offending one was added). False for add_hierarchical (C27_add_hierarchical_violated); of add_hierarchical what holds is proved: a childless argument inside the parent's span is added or refused without a trace (C27_add_hierarchical_childless_partial). Missing: arguments with children or outside the parent, where it is false."),
"C28":(None,"For every key function of (span, desc, value_func), every store and every argument tree, any number of arguments; plus a success criterion. In memory (parent pointers, stores, identities; any key function of objects): the call terminates, succeeds exactly when the argument is inside and nothing crosses, and leaves a consistent acyclic graph with exactly the expected objects below the parent (C28_add_hierarchical_objects, C28_add_hierarchical_all_objects). The statement is about calls that return: x.children.add_hierarchical(x) never ends when x has children (C28_self_argument_loops)."),
"C30":(None,"Also for argument trees of any shape (C30_order_independent_trees) and the nesting is exactly span nesting (C30_nesting; between objects in memory C30_nesting_objects)."),
"C31":(None,"remove proved; `in` only compares starts (C31_contains_violated), proved: it is true for every child and exactly when some child has the same start."),
"C24":(None,"For every history of new/add/remove/pop/del/clear, slices without step, each call succeeding or raising; and for histories that contain successful add_hierarchical calls (C24_hierarchical_history), assignments to items and slices and slices with a step (C24_full_history)."),
"C37":(None,"From the text of the query on: C37_find_all (exactly the results kept, for every expression that works), C37_find_all_plain, C37_find_all_late_violated, C37_missing_operator. Proved for every expression, of any depth and with any spacing, whose parenthesised groups hold at least two terms; a single term in parentheses drops the text before '(' (C37_violated_negation, C37_violated_operator). What every expression does, lone groups included, is C37_exact: with no filter to the left of a lone group the expression is read without the parentheses and negations up to it; otherwise it is refused or every evaluation raises TypeError."),
"C53":(None,"Proved for childless Itos; with children the clones carry children that do not fit and Invert raises (C53_children_violated); C53_children_exact says, for every Ito, what is yielded and that it ends normally if and only if every gap contains every child."),
"C47":(None,"Width rule of the shortening directives."),
"C57":(None,"Segments, text and neighbouring colours, for every tree and every palette."),
"C58":(None,"Rectangle proved for printable lines; an unprintable character is written but not counted in the width and breaks it (C58_unprintable_violated). Exact criteria: C58_rectangle_exact, C58_unprintable_exact."),
"C63":(None,"Proved for expressions of any length and nesting in which what follows | or ^ is a factor or `a & f`; elsewhere the algorithm pops operators of lower precedence too (C63_violated). C63_reads says what the algorithm gives for every expression, and C63_exact_iff that it follows precedence for exactly those expressions."),
"C61":("partial","All clauses proved except that EtName.from_item of an Element with .ito uses the element's whole Ito, not its tag (C61_element_violated). The regex of EtName is transcribed, not interpreted."),
"C62":(None,"For every per-character codec (UTF-8 shown to be one) and every text with LF, CR and CR LF breaks. Expat's reports are an input, specified by reportAt."),
"C71":(None,"Proved for elements with no > inside tags and no childless element whose text ends in /> or ?>; the code is wrong on both exceptions (C71_gt_violated, C71_self_closing_violated), and raises ValueError when a newline separates an element's name from its first attribute (C71_raises_violated; the hypothesis Quiet says the extraction within the start tags does not raise). What the patterns extract within tags and texts is C85."),
"C72":(None,"False for every start tag with two tags of different text (C72_violated): all closures read the loop variable after the loop. Proved for a single tag."),
"C64":("partial","Compact and tree dumps proved in full; JSON proved for children=True (false for children=False: C64_json_violated); XML: the elements are right if no desc has a double quote (C64_xml_quote_violated), but the document never is, its last line being <itos> (C64_xml_violated)."),
"C01":(None,'For all lengths and all (also negative or None) indices.'),
"C02":(None,'For all strings, Itos and indices.'),
"C03":(None,'Exact shift or ValueError, additive, and undone by the opposite shift.'),
"C08":(None,"For every string, Ito, non-empty separator and maxsplit; Python's split/rsplit are specified independently (Spec/PyStr)."),
"C10":(None,'For every string; keepends both ways.'),
"C17":(None,'For every well-formed tree.'),
"C18":(None,'A match is any consistent group-span table (as re guarantees); the forest lists exactly the kept, participating groups, once each, and from_match succeeds on it; C18_from_match_exact says which forest it is.'),
"C19":(None,"finditer's matches are an input; order and limit of the concatenation."),
"C20":(None,'For all strings and substrings.'),
"C21":(None,'For all non-empty inputs; empty or mixed-string inputs raise.'),
"C22":(None,'For every iteration order of the Python set used by adopt; the raised cases are characterised.'),
"C23":(None,"On values (equality, arguments) and in memory: the copy consists of new objects only and no existing object changes; also for clone(start, stop, desc, clone_children): exactly when it raises, and what it makes (C23_clone_arguments, C23_clone_childless). Python's recursion limit appears as fuel, shown sufficient."),
"C29":(None,'For every store, key and argument trees: the multiset of nodes is preserved; for objects in memory see the `below` and `data` parts of C28_add_hierarchical_objects.'),
"C32":(None,'For every tree.'),
"C33":(None,'For every well-formed tree and every node of it; different nodes have different paths.'),
"C34":(None,'Every axis but << >> streams of C35, from one and from several start nodes, at the level of query texts too.'),
"C35":(None,'Proved from one start node that is not of zero width (and has no descendant starting at its stop); false with zero-width nodes and with several start nodes (C35_*_violated: only the last start node counts). C35_following_exact / C35_preceding_exact: if and only if characterisations of when the axis is right.'),
"C36":(None,'Proved for nodes as in C35_following_partial; false around zero-width nodes (C36_overlap_violated); C36_partition_exact: the exact condition.'),
"C38":(None,'For every query text; joining the phrases gives the text back.'),
"C39":(None,"C39_compose: p/q runs q's phrases on p's results, for all texts with p balanced and not ending in a dangling escape. Node-wise composition proved for phrases that look at one node at a time; false for a position filter on '.' and for unbalanced braces (witnesses)."),
"C40":(None,'For every list of index and slice items, written in any spacing the regex accepts.'),
"C41":(None,'For every text, alphabet and escape character.'),
"C42":(None,'For every text; note that find_escapes reports absolute and find_unescaped relative positions, as proved.'),
"C43":(None,'For every text; with and without quotes.'),
"C44":(None,'Proved for every non-root node of every tree without zero-width nodes and without equal spans; alone (no tree) for every node. False for the root (AttributeError), for equal spans and for zero-width nodes (witnesses). C44_wide_exact: for every tree without zero-width nodes, what is decoded has the same spans at the same paths, and is the original if and only if the descs of nested nodes of one span are palindromes wherever the path has an odd number of steps to non-first children (Mirrored).'),
"C45":(None,'Structure, strings, spans, descs, sharing and freshness proved for every tree in memory; value functions are not saved (C45_value_func_violated, for every object that has one).'),
"C46":(None,"For Ito and subclasses, Python's reflected-operand rule included."),
"C48":(None,'For every format text and Ito.'),
"C49":(None,'Proved for markers that cannot overlap themselves and for patterns given by their matches; false for self-overlapping markers (C49_overlap_violated); C49_line_col_exact: the exact condition, for every non-empty marker and text.'),
"C50":(None,"For every boundary retention, limit and desc; re's matches are an input."),
"C51":(None,'For every graph of itorators (cyclic too), every transform and postorator that touches only what it is given (the built-in ones proved to be such), every consumer behaviour between yields and every stopping point. Recursion depth is fuel. AddHierarchical is covered by the no-modification theorem, not by C51_pipeline_consistent (add_hierarchical can leave memory inconsistent when it raises, C27).'),
"C52":(None,'For every list of itorator runs, with exceptions.'),
"C54":(None,'For every stream, window size, predicate and join.'),
"C55":(None,'For every stream, reduce and predicates.'),
"C56":(None,'All integers of degrees; group laws over all directions.'),
"C59":(None,'For every ontology tree and every family of rule results.'),
"C60":(None,'For every regex group table and key list.'),
"C65":(None,'False for different but equal nodes (C65_equal_nodes_violated); proved: duplicates are removed by Ito equality, hence by identity when no two results are equal.'),
"C66":(None,'Proved for values that can be written (non-empty, no leading space, no trailing backslash: Writable); the exceptions are witnessed.'),
"C67":(None,'For every text.'),
"C68":(None,'For every key.'),
"C69":(None,'For every table and query.'),
"C70":(None,'For every ontology and path.'),

"C73":(None,"All eleven keys and their negations, any axis and tree; folding abstract (structure Folds states what is assumed of str.casefold). Values must be writable as C66 says."),
"C74":(None,"Predicates/values that return; findAll_asks is the general form with exceptions."),
"C75":(None,"Sub-query texts with matching braces (Braced); one filter or none before the sub-query; several sub-queries combined with operators go through C37."),
"C76":(None,"Regex engine abstract: structure NlpSpec.Lawful is its contract. Paragraph().trim_ws is not used by SimpleNlp."),
"C77":("partial","The code violates the property: C77_chars_violated (every text with a number raises ValueError) and C77_chars_no_effect (otherwise no char is added) say exactly what happens instead; C77_library_violated is the first for the library's own patterns."),
"C78":(None,"The terminal is Spec/Sgr.lean. Colours with negative components are outside C78_from_color (no terminal meaning) but inside the injectivity theorems."),
"C79":(None,""),
"C80":(None,"C80_all_equal: dataclass __eq__ ignores _value. The partial theorem says exactly when == holds and that the texts tell the objects apart."),
"C81":(None,"C81_frozen gives the exact behaviour for every history."),
"C82":(None,"C82_kwargs_raise covers any acceptable arguments before the offending one."),
"C83":(None,"Violations: a parameter without a value shifts its successors' values onto itself; equal values are confused; greedy choice; left-over values with *args raise. Holds when every positional parameter gets a value and no two values are equal; order-independent when each parameter has one fitting value."),
"C84":(None,"C84_exact: the set of accepted strings, exactly, through the textbook language of the pattern proved equal to what the backtracking matcher accepts. The property is false: a trailing newline is accepted (C84_newline_violated) and so are '-' and '_' in the local part (C84_canonical_violated). C84_canonical_partial: it holds for strings with neither."),
"C85":(None,"Proved for whole elements whose attributes are in double quotes, non-empty, without >, each after a space, not ending in = after a colon, and whose CDATA sections hold nothing that looks like a comment or processing instruction; the code is wrong on each exception (C85_*_violated). The patterns are run by the matcher of Model/Regex."),
"C86":(None,"Proved for attributes without condition, and exactly characterised for start tags (C86_start_tag_exact): a start tag without prefix borrows that of its first prefixed attribute (C86_borrowed_violated), so the property itself holds only when the tag has a prefix or no attribute has one."),
"C87":(None,"C87_exact says exactly what is given: attributes whose name or value reads like the name of a declaration. So the property fails for a value such as xmlns (C87_value_violated) and holds when no value does."),
"C88":(None,"Proved when no value of a prefixed attribute reads like the name of a declaration (C88_value_violated shows the failure) and no prefix is declared twice (not well-formed)."),
"C89":(None,"Proved for documents in which no value of an attribute without prefix reads like the name of a declaration (C89_value_violated) and no attribute is empty (C89_undeclared_violated: xmlns=\"\" is not seen)."),
"C90":(None,"The predicate is any Boolean function of the element; evaluating ElementTree paths is not modelled."),
"C91":(None,""),
"C92":(None,"The matcher is Model/Regex (backtracking). False for a group within a lookahead (C92_lookahead_raises: ValueError); groups within lookbehind are not modelled."),
"C93":(None,"On the model of the backtracking matcher. The theorems C93_insane_settings and C93_run_split show the limits: with equal separator and point the longest number is not found, and 1,2345 is read as 1,234 and 5."),
"C94":(None,"The contract of C76 is discharged for the patterns themselves (patterns_lawful)."),
"C95":(None,"C95_sentences (with C95_sound, C95_complete) is the exact characterisation of where the code splits; C95_longer_word_violated and C95_crlf_violated are texts on which that is not what the property says."),
"C96":(None,"Proved, but for the last claim: tables are not told apart (the first one reaches down to the last separator in the text), proved for every style without post caption in C96_one_table_violated."),
"C97":(None,"Blocks, order and nesting proved for all texts; a table may start in the middle of a line (lookbehind lost at table.py:40), blank lines join blocks ([^ \\t] matches a newline), tables in a block merge, and an indented table after a blank line is lost; that tables are found is proved for texts without blank lines."),
"C98":(None,"isinstance_ex proved in full for classes, generics and |; issubclass_ex proved exact, equal to the subtype relation for a single class; violated for unions on the left (any-any) and for typing.Union (TypeError)."),
"C99":(None,"Exact characterisation, undeclared and exactly declared functions proved; parameter direction, Callable[..., r] and Optional are violations."),
"C100":(None,"On the model of the backtracking matcher; what IGNORECASE folds outside ASCII is a parameter. For non-canonical spellings the groups may differ (1.0a.post1 gives pre 'a.')."),
"C101":(None,"Exact language by soundness and completeness of the matcher model, with captures as texts; which characters outside ASCII IGNORECASE folds to a letter is a parameter."),
"C102":("partial","Proved but for trim_ws: only the whole text is trimmed, so a later paragraph may start with blanks (C102_trim_violated); a blank text gives an empty paragraph; min_separators=0 splits into characters."),
"C103":(None,""),
"C104":(None,"C104_set_step_exact says exactly what happens: the values go, one after the other, to position a of the children that are left (IndexError if there are fewer), so that every s-th child can never be replaced in place (C104_in_place_violated, for all graphs and all s >= 2)."),
"C105":(None,"On the model of the backtracking matcher (no lookbehind, no \\b). regex_findall gives texts, not matches as its annotation says."),
"C106":(None,"The generator is modelled by the frames CPython keeps (node and position of the list iterator). A reverse walk raises IndexError if a list it is in has become shorter (C106_reverse_raises)."),
"C107":(None,"True for loops over reversed(children) and over a copy; a loop over children itself leaves every second child, for all graphs (C107_for_remove_violated)."),
"C108":(None,"True for a list (C108_list). With a generator over the children, or with the child list itself as the value, all children are lost: they are deleted before the values are read (C108_own_children_violated, for all graphs and predicates)."),
"C109":(None,"For every object graph without cycles, given recursion enough (Python's limit is not modelled). As with pickling (C45), value functions are not copied; the statement does not claim them."),
"C110":(None,"Functions are opaque; whether a signature fits is a parameter (the check of signatures itself: functoid_isinstance)."),
"C111":(None,"False. C111_copy_exact says what happens for every graph: copy and original share one child collection, and every child of the original gets the copy as its parent (C111_copy_steals_children_violated, for every Ito with children; C111_copy_shares_children_violated, for every Ito)."),
"C112":(None,"The table (128 characters) is finite; facts about it are evaluated by the kernel, everything over angles and compositions is proved for all."),
"C113":(None,"Given sides kept, all edges filled, corners nearest to the arms pointing the same way (C113_from_sides_partial), right when both arms of each side are alike (C113_symmetric_sides, C113_one_side); false for str (C113_str_violated), for no sides (C113_no_side_violated) and for mixed sides (C113_touching_violated). When a corner or side can have exactly the given styles: C113_corner_exact, C113_side_exact."),
"C114":(None,""),
"C115":(None,"Without changes: proved for all queries (C115_quiet), which also ties the heap model to the model of queries on trees. Setting descriptors: proved for one phrase with an axis other than ., ><, <<< and >>> (C115_relabel_partial); false with two phrases (C115_relabel_violated: **[d:a]/* goes on into what the loop has just named a). Removing: false even for * (C115_remove_violated). A filter is any function of memory, number and object."),
"C116":(None,"The reader of the syntax (Model/ReSyntax) is a model of the documented syntax of the package regex; the texts (Model/Patterns) are those of the source, for computed patterns the computation. re.escape is any function that writes each character as itself or after a backslash, when the syntax needs one."),
"C117":(None,"Proved for F ending with a filter and S without a parenthesised single term after another sub-query. Otherwise false: after an F that ends with ')' every sub-query is refused with ValueError (C117_parenthesis_violated, for all such queries); lone parenthesised terms as in C37; operators between F and S are ignored except for negations, so `*[a] | {q}` is read as `*[a]{q}` (C117_operator_violated)."),
"C118":(None,"The pattern texts are read by the regex reader of C116 and run by the backtracking semantics; the hand-written parsers of the model (parseAxis, parseBracket, reMatch, lineBreaks, etCut) are proved to return what that run returns, for every text. \\d is taken as the ASCII digits in the format pattern; \\s is exactly the Unicode White_Space list (C118_space)."),
"C119":("partial","C119_run_partial: every Extract whose desc is a function or has been assigned. Violated: a str desc given to the constructor goes to another attribute, so every call raises AttributeError (C119_str_desc_violated); assigning re leaves the keys unchecked, so a call raises ValueError on every Ito (C119_stale_keys_violated). C119_make and C119_stale_keys say exactly when construction and such calls succeed."),
"C120":("partial","C120_clone_partial: wrapped functions without connections and postorator. Violated: every class of the library raises TypeError, since type(self()) calls the itorator without an Ito (C120_builtin_violated); connections and postorator are not copied (C120_lost_violated). C120_others: nothing else changes. C120_bare: what any clone of a wrapped function does."),
"C121":(None,"C121_entity_partial: keys without backslash, closing bracket and dot. Violated: _Entity looks the steps up without descape, so a key with one of those characters is never found (C121_special_violated)."),
"C122":(None,"C122_file_partial: documents that fit one read; C122_document_partial, C122_string_partial: what a document fed whole gives. Violated: feed keeps only the last piece as the text and counts lines from its start, so a document longer than one read raises ValueError (C122_long_violated)."),
"C123":(None,"Names as expat makes them: it refuses a namespace that contains the character } that separates namespace and local name."),
"C124":(None,"Where parenthood is cyclic (C25_cycle_violated) get_root never ends."),
"C125":(None,"Proved: two filters with only ~ and spaces between them (C125_gap_partial; with spaces only it is ValueError, C37_missing_operator), unequal numbers of parentheses (C125_unbalanced_partial). Violated: superfluous operators are accepted and all but the strongest operator between two filters is ignored (C125_superfluous_violated, for every such text without parentheses)."),
"C126":(None,"Proved: C126_text_partial (the exact text, with repr(desc or '') in place of repr(desc)), C126_tells_partial (span, text and desc-or-empty can be told, with Python's repr of str as specified in Spec/Repr). Violated: a missing descriptor is shown as '' and so looks like an empty one (C126_violated)."),
"C127":(None,"Proved: arguments which are not callable or whose signature can be told (C127_message_partial, C127_kind_partial). Violated: for a callable without signature, as the classes str and dict, inspect.signature raises ValueError and that comes out instead (C127_signature_violated)."),
"C128":(None,"Proved for left operands whose type has no | and << of its own that accepts an Infix (C128_infix_partial, C128_chain_partial, C128_nuco_partial); misuse is a TypeError (C128_misuse_partial). Violated: Python asks the left operand first, so one with its own | is combined with the Infix itself (C128_own_violated)."),
"C129":(None,"Proved for sequences that assign no texts to separators (C129_settings_partial; C129_refused_partial for single assignments refused for their type). Violated: the setter of separators stores list[val], a generic type, instead of list(val), so the property never reads as what was assigned, and the pattern is the old one or no pattern of the texts (C129_separators_violated, for all texts). True and False as min_separators are not modelled."),
"C130":(None,"Proved: routing (C130_route_partial, C130_skip_partial), what is accepted and how the rest is refused (C130_made_partial, C130_function_partial, C130_refused_partial), postorators (C130_postorator_partial). Violated: the setter of postorator refuses functions, although its type and its error message name them (C130_function_violated); they have to be wrapped with Postorator.wrap."),
}
