{
 "claims": [
  {
   "property": "C01",
   "status": "proved",
   "theorems": [
    "Pawpaw.Props.C01_ctor_valid",
    "Pawpaw.Props.C01_from_indices_bounds",
    "Pawpaw.Props.C01_ito_text_is_slice"
   ],
   "note": "For all lengths and all (also negative or None) indices."
  },
  {
   "property": "C02",
   "status": "proved",
   "theorems": [
    "Pawpaw.Props.C02_nested",
    "Pawpaw.Props.C02_nested_slices"
   ],
   "note": "For all strings, Itos and indices."
  },
  {
   "property": "C03",
   "status": "proved",
   "theorems": [
    "Pawpaw.Props.C03_offset",
    "Pawpaw.Props.C03_offset_add",
    "Pawpaw.Props.C03_offset_inverse"
   ],
   "note": "Exact shift or ValueError, additive, and undone by the opposite shift."
  },
  {
   "property": "C04",
   "status": "partial",
   "theorems": [
    "Pawpaw.Props.C04_find_crossed",
    "Pawpaw.Props.C04_find_empty_violated",
    "Pawpaw.Props.C04_find_exact",
    "Pawpaw.Props.C04_index_exact",
    "Pawpaw.Props.C04_str_find_partial",
    "Pawpaw.Props.C04_str_index_partial",
    "Pawpaw.Props.C04_str_rfind_partial",
    "Pawpaw.Props.C04_str_rindex_partial"
   ],
   "note": "Right exactly when the needle is non-empty or the window is not crossed (C04_find_exact, C04_index_exact, iff); elsewhere the window start is returned instead of -1 (C04_find_crossed)."
  },
  {
   "property": "C05",
   "status": "partial",
   "theorems": [
    "Pawpaw.Props.C05_count_empty_violated",
    "Pawpaw.Props.C05_count_exact",
    "Pawpaw.Props.C05_str_count_partial"
   ],
   "note": "Right exactly on the same domain as C04 (C05_count_exact, iff); elsewhere 1 instead of 0."
  },
  {
   "property": "C06",
   "status": "partial",
   "theorems": [
    "Pawpaw.Props.C06_affix_exact",
    "Pawpaw.Props.C06_startswith_empty_violated",
    "Pawpaw.Props.C06_str_endswith_partial",
    "Pawpaw.Props.C06_str_eq",
    "Pawpaw.Props.C06_str_startswith_partial"
   ],
   "note": "Right exactly unless the tuple holds the empty string and the window is low (C06_affix_exact, iff), where it says False for True."
  },
  {
   "property": "C07",
   "status": "partial",
   "theorems": [
    "Pawpaw.Props.C07_empty_chars",
    "Pawpaw.Props.C07_str_lstrip_partial",
    "Pawpaw.Props.C07_str_rstrip_partial",
    "Pawpaw.Props.C07_str_strip_partial",
    "Pawpaw.Props.C07_strip_empty_violated"
   ],
   "note": "Right for every chars but the empty string, which pawpaw treats as white space; C07_empty_chars says exactly when that case is right."
  },
  {
   "property": "C08",
   "status": "proved",
   "theorems": [
    "Pawpaw.Props.C08_empty_separator",
    "Pawpaw.Props.C08_split_rebuild",
    "Pawpaw.Props.C08_str_rsplit",
    "Pawpaw.Props.C08_str_split"
   ],
   "note": "For every string, Ito, non-empty separator and maxsplit; Python's split/rsplit are specified independently (Spec/PyStr)."
  },
  {
   "property": "C09",
   "status": "partial",
   "theorems": [
    "Pawpaw.Props.C09_rsplit_nontermination_violated",
    "Pawpaw.Props.C09_rsplit_offset_violated",
    "Pawpaw.Props.C09_split_any_offset",
    "Pawpaw.Props.C09_split_exact",
    "Pawpaw.Props.C09_split_offset_violated",
    "Pawpaw.Props.C09_str_rsplit_none_partial",
    "Pawpaw.Props.C09_str_split_none_partial"
   ],
   "note": "Right at offset 0. Elsewhere: str_split() is right iff no gap between words is shorter than the offset (C09_split_exact); str_rsplit() never returns if there is a word (C09_rsplit_offset_violated, for all inputs)."
  },
  {
   "property": "C10",
   "status": "proved",
   "theorems": [
    "Pawpaw.Props.C10_str_splitlines"
   ],
   "note": "For every string; keepends both ways."
  },
  {
   "property": "C11",
   "status": "partial",
   "theorems": [
    "Pawpaw.Props.C11_max_split_violated",
    "Pawpaw.Props.C11_split_drop_tiles_partial",
    "Pawpaw.Props.C11_split_keep_tiles_partial"
   ],
   "note": "Tiling proved for every ordered match list when max_split <= 0; for max_split > 0 the code makes no split at all (C11_max_split_violated, for all inputs)."
  },
  {
   "property": "C12",
   "status": "partial",
   "theorems": [
    "Pawpaw.Props.C12_children_violated",
    "Pawpaw.Props.C12_empty_sep",
    "Pawpaw.Props.C12_partition_exact",
    "Pawpaw.Props.C12_str_partition_partial",
    "Pawpaw.Props.C12_str_rpartition_partial"
   ],
   "note": "Raises iff the separator does not occur and a child begins before the end; otherwise Python's (C12_partition_exact, iff)."
  },
  {
   "property": "C13",
   "status": "partial",
   "theorems": [
    "Pawpaw.Props.C13_removesuffix_empty",
    "Pawpaw.Props.C13_removesuffix_empty_violated",
    "Pawpaw.Props.C13_str_removeprefix",
    "Pawpaw.Props.C13_str_removesuffix_partial"
   ],
   "note": "removeprefix always; removesuffix for every non-empty suffix; the empty one empties the text, for every Ito (C13_removesuffix_empty)."
  },
  {
   "property": "C14",
   "status": "partial",
   "theorems": [
    "Pawpaw.Props.C14_getitem_int_partial",
    "Pawpaw.Props.C14_getitem_negative",
    "Pawpaw.Props.C14_iter",
    "Pawpaw.Props.C14_negative_index_violated",
    "Pawpaw.Props.C14_negative_texts",
    "Pawpaw.Props.C14_slice"
   ],
   "note": "Slices, iteration and non-negative keys right everywhere; for negative keys C14_getitem_negative gives the text returned, for every Ito and key (right at offset 1 only in general)."
  },
  {
   "property": "C15",
   "status": "partial",
   "theorems": [
    "Pawpaw.Props.C15_is_all",
    "Pawpaw.Props.C15_iscased_diff",
    "Pawpaw.Props.C15_iscased_exact",
    "Pawpaw.Props.C15_islower_partial",
    "Pawpaw.Props.C15_islower_violated",
    "Pawpaw.Props.C15_isprintable_exact",
    "Pawpaw.Props.C15_isprintable_partial",
    "Pawpaw.Props.C15_isprintable_violated"
   ],
   "note": "The all-predicates right everywhere; isprintable right iff all or no characters are printable (C15_isprintable_exact); islower/isupper characterised exactly (C15_iscased_exact, C15_iscased_diff)."
  },
  {
   "property": "C16",
   "status": "partial",
   "theorems": [
    "Pawpaw.Props.C16_before_violated",
    "Pawpaw.Props.C16_empty_src_violated",
    "Pawpaw.Props.C16_from_gaps_exact",
    "Pawpaw.Props.C16_from_gaps_partial",
    "Pawpaw.Props.C16_nested_violated",
    "Pawpaw.Props.C16_unordered_partial",
    "Pawpaw.Props.C16_unordered_violated",
    "Pawpaw.Props.C16_zero_widths"
   ],
   "note": "Complement proved for non-gaps monotone in start and stop that do not lie before src; nested, preceding, or late unordered non-gaps break it (witnesses). C16_from_gaps_exact: for every start-ordered sequence the call ends normally, and the result is the complement IF AND ONLY IF every non-gap that opens a gap ends no earlier than the source start and all the non-gaps before it."
  },
  {
   "property": "C17",
   "status": "proved",
   "theorems": [
    "Pawpaw.Props.C17_invert_children"
   ],
   "note": "For every well-formed tree."
  },
  {
   "property": "C18",
   "status": "proved",
   "theorems": [
    "Pawpaw.Props.C18_from_match_exact",
    "Pawpaw.Props.C18_from_match_listing",
    "Pawpaw.Props.C18_from_match_objects",
    "Pawpaw.Props.C18_from_match_succeeds"
   ],
   "note": "A match is any consistent group-span table (as re guarantees); the forest lists exactly the kept, participating groups, once each, and from_match succeeds on it; C18_from_match_exact says which forest it is."
  },
  {
   "property": "C19",
   "status": "proved",
   "theorems": [
    "Pawpaw.Props.C19_from_re_concat",
    "Pawpaw.Props.C19_from_re_limit",
    "Pawpaw.Props.C19_from_re_objects"
   ],
   "note": "finditer's matches are an input; order and limit of the concatenation."
  },
  {
   "property": "C20",
   "status": "proved",
   "theorems": [
    "Pawpaw.Props.C20_from_substrings"
   ],
   "note": "For all strings and substrings."
  },
  {
   "property": "C21",
   "status": "proved",
   "theorems": [
    "Pawpaw.Props.C21_join",
    "Pawpaw.Props.C21_join_order",
    "Pawpaw.Props.C21_join_raises",
    "Pawpaw.Props.C21_strip_to_children"
   ],
   "note": "For all non-empty inputs; empty or mixed-string inputs raise."
  },
  {
   "property": "C22",
   "status": "proved",
   "theorems": [
    "Pawpaw.Props.C22_adopt",
    "Pawpaw.Props.C22_adopt_order",
    "Pawpaw.Props.C22_adopt_raises"
   ],
   "note": "For every iteration order of the Python set used by adopt; the raised cases are characterised."
  },
  {
   "property": "C23",
   "status": "proved",
   "theorems": [
    "Pawpaw.Props.C23_clone_arguments",
    "Pawpaw.Props.C23_clone_childless",
    "Pawpaw.Props.C23_clone_equal",
    "Pawpaw.Props.C23_clone_fresh",
    "Pawpaw.Props.C23_clone_with",
    "Pawpaw.Props.C23_clone_with_raises"
   ],
   "note": "On values (equality, arguments) and in memory: the copy consists of new objects only and no existing object changes; also for clone(start, stop, desc, clone_children): exactly when it raises, and what it makes (C23_clone_arguments, C23_clone_childless). Python's recursion limit appears as fuel, shown sufficient."
  },
  {
   "property": "C24",
   "status": "proved",
   "theorems": [
    "Pawpaw.Props.C24_children_invariant",
    "Pawpaw.Props.C24_exactly_one_parent",
    "Pawpaw.Props.C24_full_history",
    "Pawpaw.Props.C24_hierarchical_history"
   ],
   "note": "For every history of new/add/remove/pop/del/clear, slices without step, each call succeeding or raising; and for histories that contain successful add_hierarchical calls (C24_hierarchical_history), assignments to items and slices and slices with a step (C24_full_history)."
  },
  {
   "property": "C25",
   "status": "partial",
   "theorems": [
    "Pawpaw.Props.C25_acyclic_partial",
    "Pawpaw.Props.C25_add_exact",
    "Pawpaw.Props.C25_cycle_same_span",
    "Pawpaw.Props.C25_cycle_violated",
    "Pawpaw.Props.C25_descends_from",
    "Pawpaw.Props.C25_get_root",
    "Pawpaw.Props.C25_get_root_loops_violated"
   ],
   "note": "False as stated: two Itos with the same span can be added to each other (C25_cycle_violated), after which get_root never ends (C25_get_root_loops_violated, for every fuel). Proved: histories in which no argument of add/set is an ancestor-or-self of the parent stay acyclic; get_root and descends_from are right on acyclic heaps; a cycle can only be among nodes of equal span. C25_add_exact: after a successful add on an acyclic heap the heap is acyclic if and only if the argument was not an ancestor of (or equal to) the parent."
  },
  {
   "property": "C26",
   "status": "partial",
   "theorems": [
    "Pawpaw.Props.C26_set_int_exact",
    "Pawpaw.Props.C26_set_int_negative_violated",
    "Pawpaw.Props.C26_set_int_nonatomic_violated",
    "Pawpaw.Props.C26_set_int_partial",
    "Pawpaw.Props.C26_set_int_stolen_violated",
    "Pawpaw.Props.C26_set_int_zero_width_violated",
    "Pawpaw.Props.C26_set_slice_exact",
    "Pawpaw.Props.C26_set_slice_partial"
   ],
   "note": "Proved for positive-width children and fresh parentless arguments (normal or ValueError outcome characterised); atomicity is false (C26_*_violated). C26_set_int_exact, C26_set_slice_exact: for any values and widths, what is removed and inserted, when it raises, and exactly when the result is consistent."
  },
  {
   "property": "C27",
   "status": "partial",
   "theorems": [
    "Pawpaw.Props.C27_add_atomic",
    "Pawpaw.Props.C27_add_hierarchical_childless_partial",
    "Pawpaw.Props.C27_add_hierarchical_violated",
    "Pawpaw.Props.C27_add_prefix"
   ],
   "note": "Proved for children.add (one argument atomic; several arguments: exactly the prefix before the offending one was added). False for add_hierarchical (C27_add_hierarchical_violated); of add_hierarchical what holds is proved: a childless argument inside the parent's span is added or refused without a trace (C27_add_hierarchical_childless_partial). Missing: arguments with children or outside the parent, where it is false."
  },
  {
   "property": "C28",
   "status": "proved",
   "theorems": [
    "Pawpaw.Props.C28_add_hierarchical_all_objects",
    "Pawpaw.Props.C28_add_hierarchical_all_succeeds",
    "Pawpaw.Props.C28_add_hierarchical_all_wf",
    "Pawpaw.Props.C28_add_hierarchical_objects",
    "Pawpaw.Props.C28_add_hierarchical_succeeds",
    "Pawpaw.Props.C28_add_hierarchical_wf",
    "Pawpaw.Props.C28_self_argument_loops"
   ],
   "note": "For every key function of (span, desc, value_func), every store and every argument tree, any number of arguments; plus a success criterion. In memory (parent pointers, stores, identities; any key function of objects): the call terminates, succeeds exactly when the argument is inside and nothing crosses, and leaves a consistent acyclic graph with exactly the expected objects below the parent (C28_add_hierarchical_objects, C28_add_hierarchical_all_objects). The statement is about calls that return: x.children.add_hierarchical(x) never ends when x has children (C28_self_argument_loops)."
  },
  {
   "property": "C29",
   "status": "proved",
   "theorems": [
    "Pawpaw.Props.C29_add_hierarchical_all_nodes",
    "Pawpaw.Props.C29_add_hierarchical_nodes"
   ],
   "note": "For every store, key and argument trees: the multiset of nodes is preserved; for objects in memory see the `below` and `data` parts of C28_add_hierarchical_objects."
  },
  {
   "property": "C30",
   "status": "proved",
   "theorems": [
    "Pawpaw.Props.C30_nesting",
    "Pawpaw.Props.C30_nesting_objects",
    "Pawpaw.Props.C30_order_independent",
    "Pawpaw.Props.C30_order_independent_trees"
   ],
   "note": "Also for argument trees of any shape (C30_order_independent_trees) and the nesting is exactly span nesting (C30_nesting; between objects in memory C30_nesting_objects)."
  },
  {
   "property": "C31",
   "status": "partial",
   "theorems": [
    "Pawpaw.Props.C31_contains_partial",
    "Pawpaw.Props.C31_contains_violated",
    "Pawpaw.Props.C31_remove"
   ],
   "note": "remove proved; `in` only compares starts (C31_contains_violated), proved: it is true for every child and exactly when some child has the same start."
  },
  {
   "property": "C32",
   "status": "proved",
   "theorems": [
    "Pawpaw.Props.C32_walk",
    "Pawpaw.Props.C32_walk_descendants",
    "Pawpaw.Props.C32_walk_reverse"
   ],
   "note": "For every tree."
  },
  {
   "property": "C33",
   "status": "proved",
   "theorems": [
    "Pawpaw.Props.C33_path_finds",
    "Pawpaw.Props.C33_path_injective"
   ],
   "note": "For every well-formed tree and every node of it; different nodes have different paths."
  },
  {
   "property": "C34",
   "status": "proved",
   "theorems": [
    "Pawpaw.Props.C34_axis",
    "Pawpaw.Props.C34_axis_many",
    "Pawpaw.Props.C34_query",
    "Pawpaw.Props.C34_query_text",
    "Pawpaw.Props.C34_self"
   ],
   "note": "Every axis but << >> streams of C35, from one and from several start nodes, at the level of query texts too."
  },
  {
   "property": "C35",
   "status": "partial",
   "theorems": [
    "Pawpaw.Props.C35_following_exact",
    "Pawpaw.Props.C35_following_partial",
    "Pawpaw.Props.C35_following_zero_width_violated",
    "Pawpaw.Props.C35_many_violated",
    "Pawpaw.Props.C35_preceding_exact",
    "Pawpaw.Props.C35_preceding_partial",
    "Pawpaw.Props.C35_preceding_zero_width_violated",
    "Pawpaw.Props.C35_union_violated"
   ],
   "note": "Proved from one start node that is not of zero width (and has no descendant starting at its stop); false with zero-width nodes and with several start nodes (C35_*_violated: only the last start node counts). C35_following_exact / C35_preceding_exact: if and only if characterisations of when the axis is right."
  },
  {
   "property": "C36",
   "status": "partial",
   "theorems": [
    "Pawpaw.Props.C36_axes_partition_partial",
    "Pawpaw.Props.C36_overlap_violated",
    "Pawpaw.Props.C36_partition_exact",
    "Pawpaw.Props.C36_root"
   ],
   "note": "Proved for nodes as in C35_following_partial; false around zero-width nodes (C36_overlap_violated); C36_partition_exact: the exact condition."
  },
  {
   "property": "C37",
   "status": "partial",
   "theorems": [
    "Pawpaw.Props.C37_combined_partial",
    "Pawpaw.Props.C37_exact",
    "Pawpaw.Props.C37_find_all",
    "Pawpaw.Props.C37_find_all_late_violated",
    "Pawpaw.Props.C37_find_all_plain",
    "Pawpaw.Props.C37_missing_operator",
    "Pawpaw.Props.C37_violated_negation",
    "Pawpaw.Props.C37_violated_operator"
   ],
   "note": "From the text of the query on: C37_find_all (exactly the results kept, for every expression that works), C37_find_all_plain, C37_find_all_late_violated, C37_missing_operator. Proved for every expression, of any depth and with any spacing, whose parenthesised groups hold at least two terms; a single term in parentheses drops the text before '(' (C37_violated_negation, C37_violated_operator). What every expression does, lone groups included, is C37_exact: with no filter to the left of a lone group the expression is read without the parentheses and negations up to it; otherwise it is refused or every evaluation raises TypeError."
  },
  {
   "property": "C38",
   "status": "proved",
   "theorems": [
    "Pawpaw.Props.C38_split_append",
    "Pawpaw.Props.C38_split_phrases",
    "Pawpaw.Props.C38_split_rebuilds"
   ],
   "note": "For every query text; joining the phrases gives the text back."
  },
  {
   "property": "C39",
   "status": "partial",
   "theorems": [
    "Pawpaw.Props.C39_compose",
    "Pawpaw.Props.C39_compose_nodes_partial",
    "Pawpaw.Props.C39_find",
    "Pawpaw.Props.C39_self_position_violated",
    "Pawpaw.Props.C39_unbalanced_violated"
   ],
   "note": "C39_compose: p/q runs q's phrases on p's results, for all texts with p balanced and not ending in a dangling escape. Node-wise composition proved for phrases that look at one node at a time; false for a position filter on '.' and for unbalanced braces (witnesses)."
  },
  {
   "property": "C40",
   "status": "proved",
   "theorems": [
    "Pawpaw.Props.C40_index_filter"
   ],
   "note": "For every list of index and slice items, written in any spacing the regex accepts."
  },
  {
   "property": "C41",
   "status": "proved",
   "theorems": [
    "Pawpaw.Props.C41_descape_escape",
    "Pawpaw.Props.C41_escape_injective",
    "Pawpaw.Props.C41_escape_spec",
    "Pawpaw.Props.C41_join_split"
   ],
   "note": "For every text, alphabet and escape character."
  },
  {
   "property": "C42",
   "status": "proved",
   "theorems": [
    "Pawpaw.Props.C42_find_escapes",
    "Pawpaw.Props.C42_find_unescaped",
    "Pawpaw.Props.C42_split_unescaped",
    "Pawpaw.Props.C42_split_unescaped_rebuilds"
   ],
   "note": "For every text; note that find_escapes reports absolute and find_unescaped relative positions, as proved."
  },
  {
   "property": "C43",
   "status": "proved",
   "theorems": [
    "Pawpaw.Props.C43_find_balanced",
    "Pawpaw.Props.C43_find_balanced_quotes"
   ],
   "note": "For every text; with and without quotes."
  },
  {
   "property": "C44",
   "status": "partial",
   "theorems": [
    "Pawpaw.Props.C44_root_violated",
    "Pawpaw.Props.C44_round_trip_alone",
    "Pawpaw.Props.C44_round_trip_equal_partial",
    "Pawpaw.Props.C44_round_trip_partial",
    "Pawpaw.Props.C44_same_span_violated",
    "Pawpaw.Props.C44_wide_exact",
    "Pawpaw.Props.C44_zero_width_violated"
   ],
   "note": "Proved for every non-root node of every tree without zero-width nodes and without equal spans; alone (no tree) for every node. False for the root (AttributeError), for equal spans and for zero-width nodes (witnesses). C44_wide_exact: for every tree without zero-width nodes, what is decoded has the same spans at the same paths, and is the original if and only if the descs of nested nodes of one span are palindromes wherever the path has an odd number of steps to non-first children (Mirrored)."
  },
  {
   "property": "C45",
   "status": "partial",
   "theorems": [
    "Pawpaw.Props.C45_pickle_round_trip",
    "Pawpaw.Props.C45_value_func_violated"
   ],
   "note": "Structure, strings, spans, descs, sharing and freshness proved for every tree in memory; value functions are not saved (C45_value_func_violated, for every object that has one)."
  },
  {
   "property": "C46",
   "status": "proved",
   "theorems": [
    "Pawpaw.Props.C46_eq_iff",
    "Pawpaw.Props.C46_equivalence",
    "Pawpaw.Props.C46_hash"
   ],
   "note": "For Ito and subclasses, Python's reflected-operand rule included."
  },
  {
   "property": "C47",
   "status": "proved",
   "theorems": [
    "Pawpaw.Props.C47_width"
   ],
   "note": "Width rule of the shortening directives."
  },
  {
   "property": "C48",
   "status": "proved",
   "theorems": [
    "Pawpaw.Props.C48_conversion",
    "Pawpaw.Props.C48_format",
    "Pawpaw.Props.C48_literal",
    "Pawpaw.Props.C48_span",
    "Pawpaw.Props.C48_start_stop",
    "Pawpaw.Props.C48_text"
   ],
   "note": "For every format text and Ito."
  },
  {
   "property": "C49",
   "status": "partial",
   "theorems": [
    "Pawpaw.Props.C49_line_col_exact",
    "Pawpaw.Props.C49_line_col_injective_partial",
    "Pawpaw.Props.C49_line_col_partial",
    "Pawpaw.Props.C49_line_col_regex",
    "Pawpaw.Props.C49_overlap_violated"
   ],
   "note": "Proved for markers that cannot overlap themselves and for patterns given by their matches; false for self-overlapping markers (C49_overlap_violated); C49_line_col_exact: the exact condition, for every non-empty marker and text."
  },
  {
   "property": "C50",
   "status": "proved",
   "theorems": [
    "Pawpaw.Props.C50_raises",
    "Pawpaw.Props.C50_split",
    "Pawpaw.Props.C50_split_by_pattern",
    "Pawpaw.Props.C50_split_objects",
    "Pawpaw.Props.C50_tiles_all",
    "Pawpaw.Props.C50_tiles_leading",
    "Pawpaw.Props.C50_tiles_trailing"
   ],
   "note": "For every boundary retention, limit and desc; re's matches are an input."
  },
  {
   "property": "C51",
   "status": "proved",
   "theorems": [
    "Pawpaw.Props.C51_call_no_modify",
    "Pawpaw.Props.C51_call_no_modify_builtin",
    "Pawpaw.Props.C51_children_add",
    "Pawpaw.Props.C51_children_delete",
    "Pawpaw.Props.C51_children_replace",
    "Pawpaw.Props.C51_delegates_compose",
    "Pawpaw.Props.C51_delegates_pure",
    "Pawpaw.Props.C51_no_connections",
    "Pawpaw.Props.C51_order",
    "Pawpaw.Props.C51_pipeline_consistent",
    "Pawpaw.Props.C51_predicate_false",
    "Pawpaw.Props.C51_subroutine_recurse",
    "Pawpaw.Props.C51_traverse_modifies"
   ],
   "note": "For every graph of itorators (cyclic too), every transform and postorator that touches only what it is given (the built-in ones proved to be such), every consumer behaviour between yields and every stopping point. Recursion depth is fuel. AddHierarchical is covered by the no-modification theorem, not by C51_pipeline_consistent (add_hierarchical can leave memory inconsistent when it raises, C27)."
  },
  {
   "property": "C52",
   "status": "proved",
   "theorems": [
    "Pawpaw.Props.C52_nuco"
   ],
   "note": "For every list of itorator runs, with exceptions."
  },
  {
   "property": "C53",
   "status": "partial",
   "theorems": [
    "Pawpaw.Props.C53_children_exact",
    "Pawpaw.Props.C53_children_one_gap",
    "Pawpaw.Props.C53_children_violated",
    "Pawpaw.Props.C53_complement_partial",
    "Pawpaw.Props.C53_zero_width"
   ],
   "note": "Proved for childless Itos; with children the clones carry children that do not fit and Invert raises (C53_children_violated); C53_children_exact says, for every Ito, what is yielded and that it ends normally if and only if every gap contains every child."
  },
  {
   "property": "C54",
   "status": "proved",
   "theorems": [
    "Pawpaw.Props.C54_partition",
    "Pawpaw.Props.C54_size",
    "Pawpaw.Props.C54_unique",
    "Pawpaw.Props.C54_windows"
   ],
   "note": "For every stream, window size, predicate and join."
  },
  {
   "property": "C55",
   "status": "proved",
   "theorems": [
    "Pawpaw.Props.C55_partition",
    "Pawpaw.Props.C55_stacks",
    "Pawpaw.Props.C55_unique"
   ],
   "note": "For every stream, reduce and predicates."
  },
  {
   "property": "C56",
   "status": "proved",
   "theorems": [
    "Pawpaw.Props.C56_from_degrees",
    "Pawpaw.Props.C56_periodic",
    "Pawpaw.Props.C56_reflect",
    "Pawpaw.Props.C56_reflect_rotate",
    "Pawpaw.Props.C56_rotate_add",
    "Pawpaw.Props.C56_rotate_inverse",
    "Pawpaw.Props.C56_value"
   ],
   "note": "All integers of degrees; group laws over all directions."
  },
  {
   "property": "C57",
   "status": "proved",
   "theorems": [
    "Pawpaw.Props.C57_neighbours",
    "Pawpaw.Props.C57_segments",
    "Pawpaw.Props.C57_shown",
    "Pawpaw.Props.C57_shown_text",
    "Pawpaw.Props.C57_text"
   ],
   "note": "Segments, text and neighbouring colours, for every tree and every palette."
  },
  {
   "property": "C58",
   "status": "partial",
   "theorems": [
    "Pawpaw.Props.C58_content",
    "Pawpaw.Props.C58_empty",
    "Pawpaw.Props.C58_from_srcs",
    "Pawpaw.Props.C58_rectangle_exact",
    "Pawpaw.Props.C58_rectangle_partial",
    "Pawpaw.Props.C58_unprintable_exact",
    "Pawpaw.Props.C58_unprintable_violated"
   ],
   "note": "Rectangle proved for printable lines; an unprintable character is written but not counted in the width and breaks it (C58_unprintable_violated). Exact criteria: C58_rectangle_exact, C58_unprintable_exact."
  },
  {
   "property": "C59",
   "status": "proved",
   "theorems": [
    "Pawpaw.Props.C59_discover",
    "Pawpaw.Props.C59_discover_ok",
    "Pawpaw.Props.C59_flatten",
    "Pawpaw.Props.C59_walk"
   ],
   "note": "For every ontology tree and every family of rule results."
  },
  {
   "property": "C60",
   "status": "proved",
   "theorems": [
    "Pawpaw.Props.C60_from_filter",
    "Pawpaw.Props.C60_preferred",
    "Pawpaw.Props.C60_preferred_denotes",
    "Pawpaw.Props.C60_validate"
   ],
   "note": "For every regex group table and key list."
  },
  {
   "property": "C61",
   "status": "partial",
   "theorems": [
    "Pawpaw.Props.C61_element_violated",
    "Pawpaw.Props.C61_etname",
    "Pawpaw.Props.C61_plain",
    "Pawpaw.Props.C61_qualified",
    "Pawpaw.Props.C61_tag"
   ],
   "note": "All clauses proved except that EtName.from_item of an Element with .ito uses the element's whole Ito, not its tag (C61_element_violated). The regex of EtName is transcribed, not interpreted."
  },
  {
   "property": "C62",
   "status": "proved",
   "theorems": [
    "Pawpaw.Props.C62_char_offset_from",
    "Pawpaw.Props.C62_offsets",
    "Pawpaw.Props.C62_order_needed",
    "Pawpaw.Props.C62_utf8"
   ],
   "note": "For every per-character codec (UTF-8 shown to be one) and every text with LF, CR and CR LF breaks. Expat's reports are an input, specified by reportAt."
  },
  {
   "property": "C63",
   "status": "partial",
   "theorems": [
    "Pawpaw.Props.C63_exact_iff",
    "Pawpaw.Props.C63_precedence_partial",
    "Pawpaw.Props.C63_reads",
    "Pawpaw.Props.C63_violated"
   ],
   "note": "Proved for expressions of any length and nesting in which what follows | or ^ is a factor or `a & f`; elsewhere the algorithm pops operators of lower precedence too (C63_violated). C63_reads says what the algorithm gives for every expression, and C63_exact_iff that it follows precedence for exactly those expressions."
  },
  {
   "property": "C64",
   "status": "partial",
   "theorems": [
    "Pawpaw.Props.C64_compact",
    "Pawpaw.Props.C64_compact_no_children",
    "Pawpaw.Props.C64_json_empty",
    "Pawpaw.Props.C64_json_partial",
    "Pawpaw.Props.C64_json_violated",
    "Pawpaw.Props.C64_tree",
    "Pawpaw.Props.C64_xml_partial",
    "Pawpaw.Props.C64_xml_quote_violated",
    "Pawpaw.Props.C64_xml_violated"
   ],
   "note": "Compact and tree dumps proved in full; JSON proved for children=True (false for children=False: C64_json_violated); XML: the elements are right if no desc has a double quote (C64_xml_quote_violated), but the document never is, its last line being <itos> (C64_xml_violated)."
  },
  {
   "property": "C65",
   "status": "partial",
   "theorems": [
    "Pawpaw.Props.C65_dedup_by_equality",
    "Pawpaw.Props.C65_dedup_partial",
    "Pawpaw.Props.C65_equal_nodes_violated"
   ],
   "note": "False for different but equal nodes (C65_equal_nodes_violated); proved: duplicates are removed by Ito equality, hence by identity when no two results are equal."
  },
  {
   "property": "C66",
   "status": "partial",
   "theorems": [
    "Pawpaw.Props.C66_desc_filter_partial",
    "Pawpaw.Props.C66_empty_violated",
    "Pawpaw.Props.C66_leading_space_violated",
    "Pawpaw.Props.C66_string_filter_partial",
    "Pawpaw.Props.C66_trailing_backslash_violated"
   ],
   "note": "Proved for values that can be written (non-empty, no leading space, no trailing backslash: Writable); the exceptions are witnessed."
  },
  {
   "property": "C67",
   "status": "proved",
   "theorems": [
    "Pawpaw.Props.C67_compile_raises_value_error"
   ],
   "note": "For every text."
  },
  {
   "property": "C68",
   "status": "proved",
   "theorems": [
    "Pawpaw.Props.C68_same_span_key",
    "Pawpaw.Props.C68_same_span_sequence"
   ],
   "note": "For every key."
  },
  {
   "property": "C69",
   "status": "proved",
   "theorems": [
    "Pawpaw.Props.C69_exact",
    "Pawpaw.Props.C69_fuzzy"
   ],
   "note": "For every table and query."
  },
  {
   "property": "C70",
   "status": "proved",
   "theorems": [
    "Pawpaw.Props.C70_path"
   ],
   "note": "For every ontology and path."
  },
  {
   "property": "C71",
   "status": "partial",
   "theorems": [
    "Pawpaw.Props.C71_covers_partial",
    "Pawpaw.Props.C71_gt_violated",
    "Pawpaw.Props.C71_raises_violated",
    "Pawpaw.Props.C71_self_closing_violated",
    "Pawpaw.Props.C71_tree_partial"
   ],
   "note": "Proved for elements with no > inside tags and no childless element whose text ends in /> or ?>; the code is wrong on both exceptions (C71_gt_violated, C71_self_closing_violated), and raises ValueError when a newline separates an element's name from its first attribute (C71_raises_violated; the hypothesis Quiet says the extraction within the start tags does not raise). What the patterns extract within tags and texts is C85."
  },
  {
   "property": "C72",
   "status": "partial",
   "theorems": [
    "Pawpaw.Props.C72_single_partial",
    "Pawpaw.Props.C72_violated"
   ],
   "note": "False for every start tag with two tags of different text (C72_violated): all closures read the loop variable after the loop. Proved for a single tag."
  },
  {
   "property": "C73",
   "status": "proved",
   "theorems": [
    "Pawpaw.Props.C73_casefold",
    "Pawpaw.Props.C73_casefold_affix",
    "Pawpaw.Props.C73_endswith",
    "Pawpaw.Props.C73_startswith",
    "Pawpaw.Props.C73_synonyms",
    "Pawpaw.Props.C73_unknown_key"
   ],
   "note": "All eleven keys and their negations, any axis and tree; folding abstract (structure Folds states what is assumed of str.casefold). Values must be writable as C66 says."
  },
  {
   "property": "C74",
   "status": "proved",
   "theorems": [
    "Pawpaw.Props.C74_missing_arguments",
    "Pawpaw.Props.C74_predicate_filter",
    "Pawpaw.Props.C74_unknown_predicate_passes",
    "Pawpaw.Props.C74_value_filter"
   ],
   "note": "Predicates/values that return; findAll_asks is the general form with exceptions."
  },
  {
   "property": "C75",
   "status": "proved",
   "theorems": [
    "Pawpaw.Props.C75_exists",
    "Pawpaw.Props.C75_filter_and_subquery",
    "Pawpaw.Props.C75_invalid",
    "Pawpaw.Props.C75_subquery"
   ],
   "note": "Sub-query texts with matching braces (Braced); one filter or none before the sub-query; several sub-queries combined with operators go through C37."
  },
  {
   "property": "C76",
   "status": "proved",
   "theorems": [
    "Pawpaw.Props.C76_from_text"
   ],
   "note": "Regex engine abstract: structure NlpSpec.Lawful is its contract. Paragraph().trim_ws is not used by SimpleNlp."
  },
  {
   "property": "C77",
   "status": "partial",
   "theorems": [
    "Pawpaw.Props.C77_chars_no_effect",
    "Pawpaw.Props.C77_chars_violated",
    "Pawpaw.Props.C77_library_violated"
   ],
   "note": "The code violates the property: C77_chars_violated (every text with a number raises ValueError) and C77_chars_no_effect (otherwise no char is added) say exactly what happens instead; C77_library_violated is the first for the library's own patterns."
  },
  {
   "property": "C78",
   "status": "proved",
   "theorems": [
    "Pawpaw.Props.C78_from_color",
    "Pawpaw.Props.C78_from_color_injective",
    "Pawpaw.Props.C78_injective",
    "Pawpaw.Props.C78_reset",
    "Pawpaw.Props.C78_terminal"
   ],
   "note": "The terminal is Spec/Sgr.lean. Colours with negative components are outside C78_from_color (no terminal meaning) but inside the injectivity theorems."
  },
  {
   "property": "C79",
   "status": "proved",
   "theorems": [
    "Pawpaw.Props.C79_bijective",
    "Pawpaw.Props.C79_components"
   ],
   "note": ""
  },
  {
   "property": "C80",
   "status": "partial",
   "theorems": [
    "Pawpaw.Props.C80_all_equal",
    "Pawpaw.Props.C80_equality_partial",
    "Pawpaw.Props.C80_equality_violated"
   ],
   "note": "C80_all_equal: dataclass __eq__ ignores _value. The partial theorem says exactly when == holds and that the texts tell the objects apart."
  },
  {
   "property": "C81",
   "status": "partial",
   "theorems": [
    "Pawpaw.Props.C81_frozen",
    "Pawpaw.Props.C81_setters_partial",
    "Pawpaw.Props.C81_setters_violated"
   ],
   "note": "C81_frozen gives the exact behaviour for every history."
  },
  {
   "property": "C82",
   "status": "partial",
   "theorems": [
    "Pawpaw.Props.C82_kwargs_raise",
    "Pawpaw.Props.C82_kwargs_violated",
    "Pawpaw.Props.C82_thousands_sep_partial"
   ],
   "note": "C82_kwargs_raise covers any acceptable arguments before the offending one."
  },
  {
   "property": "C83",
   "status": "partial",
   "theorems": [
    "Pawpaw.Props.C83_equal_values_violated",
    "Pawpaw.Props.C83_greedy_violated",
    "Pawpaw.Props.C83_order_irrelevant",
    "Pawpaw.Props.C83_shift_violated",
    "Pawpaw.Props.C83_unannotated",
    "Pawpaw.Props.C83_varargs_violated",
    "Pawpaw.Props.C83_wires_partial"
   ],
   "note": "Violations: a parameter without a value shifts its successors' values onto itself; equal values are confused; greedy choice; left-over values with *args raise. Holds when every positional parameter gets a value and no two values are equal; order-independent when each parameter has one fitting value."
  },
  {
   "property": "C84",
   "status": "partial",
   "theorems": [
    "Pawpaw.Props.C84_canonical_partial",
    "Pawpaw.Props.C84_canonical_violated",
    "Pawpaw.Props.C84_exact",
    "Pawpaw.Props.C84_newline_violated"
   ],
   "note": "C84_exact: the set of accepted strings, exactly, through the textbook language of the pattern proved equal to what the backtracking matcher accepts. The property is false: a trailing newline is accepted (C84_newline_violated) and so are '-' and '_' in the local part (C84_canonical_violated). C84_canonical_partial: it holds for strings with neither."
  },
  {
   "property": "C85",
   "status": "partial",
   "theorems": [
    "Pawpaw.Props.C85_cdata_violated",
    "Pawpaw.Props.C85_empty_value_violated",
    "Pawpaw.Props.C85_end_tag_partial",
    "Pawpaw.Props.C85_misread_violated",
    "Pawpaw.Props.C85_newline_violated",
    "Pawpaw.Props.C85_single_quotes_violated",
    "Pawpaw.Props.C85_spaced_violated",
    "Pawpaw.Props.C85_start_tag_partial",
    "Pawpaw.Props.C85_text_partial",
    "Pawpaw.Props.C85_tree_partial"
   ],
   "note": "Proved for whole elements whose attributes are in double quotes, non-empty, without >, each after a space, not ending in = after a colon, and whose CDATA sections hold nothing that looks like a comment or processing instruction; the code is wrong on each exception (C85_*_violated). The patterns are run by the matcher of Model/Regex."
  },
  {
   "property": "C86",
   "status": "partial",
   "theorems": [
    "Pawpaw.Props.C86_attribute",
    "Pawpaw.Props.C86_borrowed_violated",
    "Pawpaw.Props.C86_other",
    "Pawpaw.Props.C86_start_tag_exact",
    "Pawpaw.Props.C86_start_tag_partial"
   ],
   "note": "Proved for attributes without condition, and exactly characterised for start tags (C86_start_tag_exact): a start tag without prefix borrows that of its first prefixed attribute (C86_borrowed_violated), so the property itself holds only when the tag has a prefix or no attribute has one."
  },
  {
   "property": "C87",
   "status": "partial",
   "theorems": [
    "Pawpaw.Props.C87_declarations_partial",
    "Pawpaw.Props.C87_exact",
    "Pawpaw.Props.C87_value_violated"
   ],
   "note": "C87_exact says exactly what is given: attributes whose name or value reads like the name of a declaration. So the property fails for a value such as xmlns (C87_value_violated) and holds when no value does."
  },
  {
   "property": "C88",
   "status": "partial",
   "theorems": [
    "Pawpaw.Props.C88_prefix_map_partial",
    "Pawpaw.Props.C88_value_violated"
   ],
   "note": "Proved when no value of a prefixed attribute reads like the name of a declaration (C88_value_violated shows the failure) and no prefix is declared twice (not well-formed)."
  },
  {
   "property": "C89",
   "status": "partial",
   "theorems": [
    "Pawpaw.Props.C89_default_namespace_partial",
    "Pawpaw.Props.C89_undeclared_violated",
    "Pawpaw.Props.C89_value_violated"
   ],
   "note": "Proved for documents in which no value of an attribute without prefix reads like the name of a declaration (C89_value_violated) and no attribute is empty (C89_undeclared_violated: xmlns=\"\" is not seen)."
  },
  {
   "property": "C90",
   "status": "proved",
   "theorems": [
    "Pawpaw.Props.C90_nearest",
    "Pawpaw.Props.C90_parent",
    "Pawpaw.Props.C90_reverse_find"
   ],
   "note": "The predicate is any Boolean function of the element; evaluating ElementTree paths is not modelled."
  },
  {
   "property": "C91",
   "status": "proved",
   "theorems": [
    "Pawpaw.Props.C91_texts"
   ],
   "note": ""
  },
  {
   "property": "C92",
   "status": "proved",
   "theorems": [
    "Pawpaw.Props.C92_from_re",
    "Pawpaw.Props.C92_lookahead_raises"
   ],
   "note": "The matcher is Model/Regex (backtracking). False for a group within a lookahead (C92_lookahead_raises: ValueError); groups within lookbehind are not modelled."
  },
  {
   "property": "C93",
   "status": "proved",
   "theorems": [
    "Pawpaw.Props.C93_complete",
    "Pawpaw.Props.C93_digits",
    "Pawpaw.Props.C93_groups",
    "Pawpaw.Props.C93_insane_settings",
    "Pawpaw.Props.C93_language",
    "Pawpaw.Props.C93_longest",
    "Pawpaw.Props.C93_run_split",
    "Pawpaw.Props.C93_sound"
   ],
   "note": "On the model of the backtracking matcher. The theorems C93_insane_settings and C93_run_split show the limits: with equal separator and point the longest number is not found, and 1,2345 is read as 1,234 and 5."
  },
  {
   "property": "C94",
   "status": "proved",
   "theorems": [
    "Pawpaw.Props.C94_from_text",
    "Pawpaw.Props.C94_longest"
   ],
   "note": "The contract of C76 is discharged for the patterns themselves (patterns_lawful)."
  },
  {
   "property": "C95",
   "status": "partial",
   "theorems": [
    "Pawpaw.Props.C95_abbreviation_partial",
    "Pawpaw.Props.C95_complete",
    "Pawpaw.Props.C95_crlf_violated",
    "Pawpaw.Props.C95_longer_word_violated",
    "Pawpaw.Props.C95_sentences",
    "Pawpaw.Props.C95_sound"
   ],
   "note": "C95_sentences (with C95_sound, C95_complete) is the exact characterisation of where the code splits; C95_longer_word_violated and C95_crlf_violated are texts on which that is not what the property says."
  },
  {
   "property": "C96",
   "status": "partial",
   "theorems": [
    "Pawpaw.Props.C96_captions_violated",
    "Pawpaw.Props.C96_complete",
    "Pawpaw.Props.C96_merge_violated",
    "Pawpaw.Props.C96_one_table_violated",
    "Pawpaw.Props.C96_tables"
   ],
   "note": "Proved, but for the last claim: tables are not told apart (the first one reaches down to the last separator in the text), proved for every style without post caption in C96_one_table_violated."
  },
  {
   "property": "C97",
   "status": "partial",
   "theorems": [
    "Pawpaw.Props.C97_blank_line_violated",
    "Pawpaw.Props.C97_blocks",
    "Pawpaw.Props.C97_blocks_complete",
    "Pawpaw.Props.C97_found_partial",
    "Pawpaw.Props.C97_lines_partial",
    "Pawpaw.Props.C97_lost_violated",
    "Pawpaw.Props.C97_merge_violated",
    "Pawpaw.Props.C97_midline_violated",
    "Pawpaw.Props.C97_one_table_violated",
    "Pawpaw.Props.C97_tables"
   ],
   "note": "Blocks, order and nesting proved for all texts; a table may start in the middle of a line (lookbehind lost at table.py:40), blank lines join blocks ([^ \\t] matches a newline), tables in a block merge, and an indented table after a blank line is lost; that tables are found is proved for texts without blank lines."
  },
  {
   "property": "C98",
   "status": "partial",
   "theorems": [
    "Pawpaw.Props.C98_isinstance",
    "Pawpaw.Props.C98_issubclass_exact",
    "Pawpaw.Props.C98_issubclass_no",
    "Pawpaw.Props.C98_issubclass_partial",
    "Pawpaw.Props.C98_typing_union_violated",
    "Pawpaw.Props.C98_union_violated"
   ],
   "note": "isinstance_ex proved in full for classes, generics and |; issubclass_ex proved exact, equal to the subtype relation for a single class; violated for unions on the left (any-any) and for typing.Union (TypeError)."
  },
  {
   "property": "C99",
   "status": "partial",
   "theorems": [
    "Pawpaw.Props.C99_annotation_first",
    "Pawpaw.Props.C99_annotation_otherwise",
    "Pawpaw.Props.C99_declared",
    "Pawpaw.Props.C99_ellipsis_violated",
    "Pawpaw.Props.C99_functoid_exact",
    "Pawpaw.Props.C99_no_hints_violated",
    "Pawpaw.Props.C99_not_functoid",
    "Pawpaw.Props.C99_optional_violated",
    "Pawpaw.Props.C99_parameters_violated",
    "Pawpaw.Props.C99_types_partial",
    "Pawpaw.Props.C99_undeclared"
   ],
   "note": "Exact characterisation, undeclared and exactly declared functions proved; parameter direction, Callable[..., r] and Optional are violations."
  },
  {
   "property": "C100",
   "status": "proved",
   "theorems": [
    "Pawpaw.Props.C100_canonical",
    "Pawpaw.Props.C100_parse",
    "Pawpaw.Props.C100_tree"
   ],
   "note": "On the model of the backtracking matcher; what IGNORECASE folds outside ASCII is a parameter. For non-canonical spellings the groups may differ (1.0a.post1 gives pre 'a.')."
  },
  {
   "property": "C101",
   "status": "proved",
   "theorems": [
    "Pawpaw.Props.C101_groups",
    "Pawpaw.Props.C101_language"
   ],
   "note": "Exact language by soundness and completeness of the matcher model, with captures as texts; which characters outside ASCII IGNORECASE folds to a letter is a parameter."
  },
  {
   "property": "C102",
   "status": "partial",
   "theorems": [
    "Pawpaw.Props.C102_call",
    "Pawpaw.Props.C102_empty_violated",
    "Pawpaw.Props.C102_nothing_lost",
    "Pawpaw.Props.C102_order",
    "Pawpaw.Props.C102_paragraphs",
    "Pawpaw.Props.C102_trim",
    "Pawpaw.Props.C102_trim_partial",
    "Pawpaw.Props.C102_trim_violated",
    "Pawpaw.Props.C102_zero_violated"
   ],
   "note": "Proved but for trim_ws: only the whole text is trimmed, so a later paragraph may start with blanks (C102_trim_violated); a blank text gives an empty paragraph; min_separators=0 splits into characters."
  },
  {
   "property": "C103",
   "status": "proved",
   "theorems": [
    "Pawpaw.Props.C103_del_step",
    "Pawpaw.Props.C103_get_step"
   ],
   "note": ""
  },
  {
   "property": "C104",
   "status": "partial",
   "theorems": [
    "Pawpaw.Props.C104_in_place_violated",
    "Pawpaw.Props.C104_set_step_exact"
   ],
   "note": "C104_set_step_exact says exactly what happens: the values go, one after the other, to position a of the children that are left (IndexError if there are fewer), so that every s-th child can never be replaced in place (C104_in_place_violated, for all graphs and all s >= 2)."
  },
  {
   "property": "C105",
   "status": "proved",
   "theorems": [
    "Pawpaw.Props.C105_caret",
    "Pawpaw.Props.C105_findall",
    "Pawpaw.Props.C105_fullmatch",
    "Pawpaw.Props.C105_inside",
    "Pawpaw.Props.C105_match",
    "Pawpaw.Props.C105_overlapped",
    "Pawpaw.Props.C105_own_text",
    "Pawpaw.Props.C105_search"
   ],
   "note": "On the model of the backtracking matcher (no lookbehind, no \\b). regex_findall gives texts, not matches as its annotation says."
  },
  {
   "property": "C106",
   "status": "proved",
   "theorems": [
    "Pawpaw.Props.C106_items",
    "Pawpaw.Props.C106_quiet",
    "Pawpaw.Props.C106_reverse",
    "Pawpaw.Props.C106_reverse_raises",
    "Pawpaw.Props.C106_walk"
   ],
   "note": "The generator is modelled by the frames CPython keeps (node and position of the list iterator). A reverse walk raises IndexError if a list it is in has become shorter (C106_reverse_raises)."
  },
  {
   "property": "C107",
   "status": "partial",
   "theorems": [
    "Pawpaw.Props.C107_copy_remove",
    "Pawpaw.Props.C107_for_remove_violated",
    "Pawpaw.Props.C107_reversed_remove"
   ],
   "note": "True for loops over reversed(children) and over a copy; a loop over children itself leaves every second child, for all graphs (C107_for_remove_violated)."
  },
  {
   "property": "C108",
   "status": "partial",
   "theorems": [
    "Pawpaw.Props.C108_list",
    "Pawpaw.Props.C108_other_children",
    "Pawpaw.Props.C108_own_children_violated"
   ],
   "note": "True for a list (C108_list). With a generator over the children, or with the child list itself as the value, all children are lost: they are deleted before the values are read (C108_own_children_violated, for all graphs and predicates)."
  },
  {
   "property": "C109",
   "status": "proved",
   "theorems": [
    "Pawpaw.Props.C109_deepcopy"
   ],
   "note": "For every object graph without cycles, given recursion enough (Python's limit is not modelled). As with pickling (C45), value functions are not copied; the statement does not claim them."
  },
  {
   "property": "C110",
   "status": "proved",
   "theorems": [
    "Pawpaw.Props.C110_itorator",
    "Pawpaw.Props.C110_raises",
    "Pawpaw.Props.C110_value"
   ],
   "note": "Functions are opaque; whether a signature fits is a parameter (the check of signatures itself: functoid_isinstance)."
  },
  {
   "property": "C111",
   "status": "partial",
   "theorems": [
    "Pawpaw.Props.C111_copy_exact",
    "Pawpaw.Props.C111_copy_shares_children_violated",
    "Pawpaw.Props.C111_copy_steals_children_violated"
   ],
   "note": "False. C111_copy_exact says what happens for every graph: copy and original share one child collection, and every child of the original gets the copy as its parent (C111_copy_steals_children_violated, for every Ito with children; C111_copy_shares_children_violated, for every Ito)."
  },
  {
   "property": "C112",
   "status": "proved",
   "theorems": [
    "Pawpaw.Props.C112_block",
    "Pawpaw.Props.C112_lookup",
    "Pawpaw.Props.C112_names",
    "Pawpaw.Props.C112_reflect",
    "Pawpaw.Props.C112_reflect_twice",
    "Pawpaw.Props.C112_rotate",
    "Pawpaw.Props.C112_rotate_add",
    "Pawpaw.Props.C112_unique",
    "Pawpaw.Props.C112_unknown"
   ],
   "note": "The table (128 characters) is finite; facts about it are evaluated by the kernel, everything over angles and compositions is proved for all."
  },
  {
   "property": "C113",
   "status": "partial",
   "theorems": [
    "Pawpaw.Props.C113_corner_exact",
    "Pawpaw.Props.C113_from_sides_partial",
    "Pawpaw.Props.C113_no_side_violated",
    "Pawpaw.Props.C113_one_side",
    "Pawpaw.Props.C113_side_exact",
    "Pawpaw.Props.C113_str_violated",
    "Pawpaw.Props.C113_symmetric_sides",
    "Pawpaw.Props.C113_touching_violated"
   ],
   "note": "Given sides kept, all edges filled, corners nearest to the arms pointing the same way (C113_from_sides_partial), right when both arms of each side are alike (C113_symmetric_sides, C113_one_side); false for str (C113_str_violated), for no sides (C113_no_side_violated) and for mixed sides (C113_touching_violated). When a corner or side can have exactly the given styles: C113_corner_exact, C113_side_exact."
  },
  {
   "property": "C114",
   "status": "proved",
   "theorems": [
    "Pawpaw.Props.C114_from_corners",
    "Pawpaw.Props.C114_refuses",
    "Pawpaw.Props.C114_str"
   ],
   "note": ""
  },
  {
   "property": "C115",
   "status": "partial",
   "theorems": [
    "Pawpaw.Props.C115_quiet",
    "Pawpaw.Props.C115_relabel_partial",
    "Pawpaw.Props.C115_relabel_violated",
    "Pawpaw.Props.C115_remove_violated"
   ],
   "note": "Without changes: proved for all queries (C115_quiet), which also ties the heap model to the model of queries on trees. Setting descriptors: proved for one phrase with an axis other than ., ><, <<< and >>> (C115_relabel_partial); false with two phrases (C115_relabel_violated: **[d:a]/* goes on into what the loop has just named a). Removing: false even for * (C115_remove_violated). A filter is any function of memory, number and object."
  },
  {
   "property": "C116",
   "status": "proved",
   "theorems": [
    "Pawpaw.Props.C116_canonical",
    "Pawpaw.Props.C116_char",
    "Pawpaw.Props.C116_char_set",
    "Pawpaw.Props.C116_chunk",
    "Pawpaw.Props.C116_number",
    "Pawpaw.Props.C116_number_object",
    "Pawpaw.Props.C116_paragraph",
    "Pawpaw.Props.C116_parse",
    "Pawpaw.Props.C116_sentence",
    "Pawpaw.Props.C116_table",
    "Pawpaw.Props.C116_type1",
    "Pawpaw.Props.C116_type2",
    "Pawpaw.Props.C116_word",
    "Pawpaw.Props.C116_xml_attribute",
    "Pawpaw.Props.C116_xml_tag",
    "Pawpaw.Props.C116_xml_text",
    "Pawpaw.Props.C116_xmlns"
   ],
   "note": "The reader of the syntax (Model/ReSyntax) is a model of the documented syntax of the package regex; the texts (Model/Patterns) are those of the source, for computed patterns the computation. re.escape is any function that writes each character as itself or after a backslash, when the syntax needs one."
  },
  {
   "property": "C117",
   "status": "partial",
   "theorems": [
    "Pawpaw.Props.C117_filters_and_subqueries_partial",
    "Pawpaw.Props.C117_operator_violated",
    "Pawpaw.Props.C117_parenthesis_violated",
    "Pawpaw.Props.C117_subqueries_partial"
   ],
   "note": "Proved for F ending with a filter and S without a parenthesised single term after another sub-query. Otherwise false: after an F that ends with ')' every sub-query is refused with ValueError (C117_parenthesis_violated, for all such queries); lone parenthesised terms as in C37; operators between F and S are ignored except for negations, so `*[a] | {q}` is read as `*[a]{q}` (C117_operator_violated)."
  },
  {
   "property": "C118",
   "status": "proved",
   "theorems": [
    "Pawpaw.Props.C118_axis",
    "Pawpaw.Props.C118_et_name",
    "Pawpaw.Props.C118_filter",
    "Pawpaw.Props.C118_format",
    "Pawpaw.Props.C118_lines",
    "Pawpaw.Props.C118_space"
   ],
   "note": "The pattern texts are read by the regex reader of C116 and run by the backtracking semantics; the hand-written parsers of the model (parseAxis, parseBracket, reMatch, lineBreaks, etCut) are proved to return what that run returns, for every text. \\d is taken as the ASCII digits in the format pattern; \\s is exactly the Unicode White_Space list (C118_space)."
  },
  {
   "property": "C119",
   "status": "partial",
   "theorems": [
    "Pawpaw.Props.C119_from_re",
    "Pawpaw.Props.C119_make",
    "Pawpaw.Props.C119_run_partial",
    "Pawpaw.Props.C119_stale_keys",
    "Pawpaw.Props.C119_stale_keys_violated",
    "Pawpaw.Props.C119_str_desc_violated"
   ],
   "note": "C119_run_partial: every Extract whose desc is a function or has been assigned. Violated: a str desc given to the constructor goes to another attribute, so every call raises AttributeError (C119_str_desc_violated); assigning re leaves the keys unchecked, so a call raises ValueError on every Ito (C119_stale_keys_violated). C119_make and C119_stale_keys say exactly when construction and such calls succeed."
  },
  {
   "property": "C120",
   "status": "partial",
   "theorems": [
    "Pawpaw.Props.C120_again",
    "Pawpaw.Props.C120_bare",
    "Pawpaw.Props.C120_builtin_violated",
    "Pawpaw.Props.C120_clone_partial",
    "Pawpaw.Props.C120_clones_partial",
    "Pawpaw.Props.C120_lost_violated",
    "Pawpaw.Props.C120_others"
   ],
   "note": "C120_clone_partial: wrapped functions without connections and postorator. Violated: every class of the library raises TypeError, since type(self()) calls the itorator without an Ito (C120_builtin_violated); connections and postorator are not copied (C120_lost_violated). C120_others: nothing else changes. C120_bare: what any clone of a wrapped function does."
  },
  {
   "property": "C121",
   "status": "partial",
   "theorems": [
    "Pawpaw.Props.C121_descape",
    "Pawpaw.Props.C121_descape_escape",
    "Pawpaw.Props.C121_entity_errors",
    "Pawpaw.Props.C121_entity_exact",
    "Pawpaw.Props.C121_entity_partial",
    "Pawpaw.Props.C121_escape",
    "Pawpaw.Props.C121_mul",
    "Pawpaw.Props.C121_mul_short",
    "Pawpaw.Props.C121_path_text",
    "Pawpaw.Props.C121_special_violated"
   ],
   "note": "C121_entity_partial: keys without backslash, closing bracket and dot. Violated: _Entity looks the steps up without descape, so a key with one of those characters is never found (C121_special_violated)."
  },
  {
   "property": "C122",
   "status": "partial",
   "theorems": [
    "Pawpaw.Props.C122_document_partial",
    "Pawpaw.Props.C122_empty_pieces",
    "Pawpaw.Props.C122_file_partial",
    "Pawpaw.Props.C122_long_violated",
    "Pawpaw.Props.C122_string_partial"
   ],
   "note": "C122_file_partial: documents that fit one read; C122_document_partial, C122_string_partial: what a document fed whole gives. Violated: feed keeps only the last piece as the text and counts lines from its start, so a document longer than one read raises ValueError (C122_long_violated)."
  },
  {
   "property": "C123",
   "status": "proved",
   "theorems": [
    "Pawpaw.Props.C123_find",
    "Pawpaw.Props.C123_find_all"
   ],
   "note": "Names as expat makes them: it refuses a namespace that contains the character } that separates namespace and local name."
  },
  {
   "property": "C124",
   "status": "proved",
   "theorems": [
    "Pawpaw.Props.C124_root",
    "Pawpaw.Props.C124_walk"
   ],
   "note": "Where parenthood is cyclic (C25_cycle_violated) get_root never ends."
  },
  {
   "property": "C125",
   "status": "partial",
   "theorems": [
    "Pawpaw.Props.C125_gap_partial",
    "Pawpaw.Props.C125_superfluous_violated",
    "Pawpaw.Props.C125_unbalanced_partial"
   ],
   "note": "Proved: two filters with only ~ and spaces between them (C125_gap_partial; with spaces only it is ValueError, C37_missing_operator), unequal numbers of parentheses (C125_unbalanced_partial). Violated: superfluous operators are accepted and all but the strongest operator between two filters is ignored (C125_superfluous_violated, for every such text without parentheses)."
  },
  {
   "property": "C126",
   "status": "partial",
   "theorems": [
    "Pawpaw.Props.C126_tells_partial",
    "Pawpaw.Props.C126_text_partial",
    "Pawpaw.Props.C126_violated"
   ],
   "note": "Proved: C126_text_partial (the exact text, with repr(desc or '') in place of repr(desc)), C126_tells_partial (span, text and desc-or-empty can be told, with Python's repr of str as specified in Spec/Repr). Violated: a missing descriptor is shown as '' and so looks like an empty one (C126_violated)."
  },
  {
   "property": "C127",
   "status": "partial",
   "theorems": [
    "Pawpaw.Props.C127_kind_partial",
    "Pawpaw.Props.C127_message_partial",
    "Pawpaw.Props.C127_signature_violated"
   ],
   "note": "Proved: arguments which are not callable or whose signature can be told (C127_message_partial, C127_kind_partial). Violated: for a callable without signature, as the classes str and dict, inspect.signature raises ValueError and that comes out instead (C127_signature_violated)."
  },
  {
   "property": "C128",
   "status": "partial",
   "theorems": [
    "Pawpaw.Props.C128_chain_partial",
    "Pawpaw.Props.C128_infix_partial",
    "Pawpaw.Props.C128_misuse_partial",
    "Pawpaw.Props.C128_nuco_partial",
    "Pawpaw.Props.C128_own_violated"
   ],
   "note": "Proved for left operands whose type has no | and << of its own that accepts an Infix (C128_infix_partial, C128_chain_partial, C128_nuco_partial); misuse is a TypeError (C128_misuse_partial). Violated: Python asks the left operand first, so one with its own | is combined with the Infix itself (C128_own_violated)."
  },
  {
   "property": "C129",
   "status": "partial",
   "theorems": [
    "Pawpaw.Props.C129_refused_partial",
    "Pawpaw.Props.C129_separators_violated",
    "Pawpaw.Props.C129_settings_partial"
   ],
   "note": "Proved for sequences that assign no texts to separators (C129_settings_partial; C129_refused_partial for single assignments refused for their type). Violated: the setter of separators stores list[val], a generic type, instead of list(val), so the property never reads as what was assigned, and the pattern is the old one or no pattern of the texts (C129_separators_violated, for all texts). True and False as min_separators are not modelled."
  },
  {
   "property": "C130",
   "status": "partial",
   "theorems": [
    "Pawpaw.Props.C130_function_partial",
    "Pawpaw.Props.C130_function_violated",
    "Pawpaw.Props.C130_made_partial",
    "Pawpaw.Props.C130_postorator_partial",
    "Pawpaw.Props.C130_refused_partial",
    "Pawpaw.Props.C130_route_partial",
    "Pawpaw.Props.C130_skip_partial"
   ],
   "note": "Proved: routing (C130_route_partial, C130_skip_partial), what is accepted and how the rest is refused (C130_made_partial, C130_function_partial, C130_refused_partial), postorators (C130_postorator_partial). Violated: the setter of postorator refuses functions, although its type and its error message name them (C130_function_violated); they have to be wrapped with Postorator.wrap."
  }
 ]
}