{"id": "C01", "title": "Span.from_indices agrees with Python slicing", "statement": "For every basis length n >= 0 and every start/stop (any int or None), Span.from_indices(n, start, stop) has 0 <= start <= stop <= n, and the text it selects from any string s of length n is exactly Python's s[start:stop].", "quantifier": "all strings, all integer or None start/stop (unbounded, negative, out of range, crossed)", "why_tests_cant": "the index space is unbounded in both directions and has many boundary combinations (negative, crossed, past the end); tests sample a few", "anchors": ["pawpaw/span.py:Span.from_indices", "pawpaw/ito.py:Ito.__init__"]}
{"id": "C02", "title": "Ito of an Ito selects the nested slice", "statement": "Building Ito(Ito(s,a,b),c,d) yields an Ito over the same string whose span lies inside the first Ito's span and whose text equals Python's s[a:b][c:d]; it never raises.", "quantifier": "all strings and all four int-or-None indices", "why_tests_cant": "composition of two clamping operations over an unbounded index space", "anchors": ["pawpaw/ito.py:Ito.__init__", "pawpaw/span.py:Span.offset"]}
{"id": "C03", "title": "Span.offset is an exact, guarded shift", "statement": "Span.offset(i) either returns the span shifted by exactly i with its width unchanged, or raises ValueError, and it raises exactly when i != 0 and the shifted span has a negative index; shifting by i then j equals shifting by i+j whenever the steps succeed, and shifting back restores the span.", "quantifier": "all spans and all integer offsets", "why_tests_cant": "unbounded integers", "anchors": ["pawpaw/span.py:Span.offset"]}
{"id": "C04", "title": "str_find / str_rfind / str_index / str_rindex equal Python's", "statement": "For every Ito, substring and start/end, str_find and str_rfind return exactly what str(ito).find / rfind return, and str_index / str_rindex return the same position or raise ValueError exactly when Python does.", "quantifier": "all strings, all sub-spans, all needles (including empty), all int-or-None start/end", "why_tests_cant": "the equivalence ranges over every string, window and index pair; off-by-window errors only show for particular overlaps at the window edge", "anchors": ["pawpaw/ito.py:Ito.str_find", "pawpaw/ito.py:Ito.str_rfind", "pawpaw/ito.py:Ito.str_index", "pawpaw/ito.py:Ito.str_rindex"]}
{"id": "C05", "title": "str_count equals Python's", "statement": "For every Ito, substring and start/end, str_count returns exactly str(ito).count(sub, start, end) (non-overlapping occurrences).", "quantifier": "all strings, sub-spans, needles and int-or-None start/end", "why_tests_cant": "needs every string and window; an occurrence straddling the window edge must never be counted", "anchors": ["pawpaw/ito.py:Ito.str_count"]}
{"id": "C06", "title": "str_startswith / str_endswith / str_eq equal Python's", "statement": "For every Ito, str_startswith(p,start,end) and str_endswith(p,start,end) return what str(ito).startswith / endswith return (for a str or a tuple of strs), and str_eq(v) holds iff str(ito) == v.", "quantifier": "all strings, sub-spans, prefixes/suffixes (single or tuple) and int-or-None start/end", "why_tests_cant": "Python's rule for out-of-range or crossed indices has many boundary cases; the domain is unbounded", "anchors": ["pawpaw/ito.py:Ito.str_startswith", "pawpaw/ito.py:Ito.str_endswith", "pawpaw/ito.py:Ito.str_eq"]}
{"id": "C07", "title": "strip family equals Python's", "statement": "str_lstrip, str_rstrip and str_strip return a sub-Ito of the receiver whose text is exactly str(ito).lstrip/rstrip/strip(chars), for chars None or any string.", "quantifier": "all strings, sub-spans (including all-strippable and empty ones) and strip sets", "why_tests_cant": "must hold for every string including ones where characters outside the window are also strippable", "anchors": ["pawpaw/ito.py:Ito.str_lstrip", "pawpaw/ito.py:Ito.str_rstrip", "pawpaw/ito.py:Ito.str_strip"]}
{"id": "C08", "title": "str_split / str_rsplit by separator equal Python's", "statement": "For a non-empty separator and any maxsplit, the texts of str_split(sep,maxsplit) and str_rsplit(sep,maxsplit) equal str(ito).split / rsplit(sep,maxsplit); the pieces are in left-to-right order and, interleaved with the separator, rebuild the text; an empty separator raises ValueError.", "quantifier": "all strings, sub-spans, separators and integer maxsplit", "why_tests_cant": "unbounded number of separators, overlapping occurrences, any maxsplit", "anchors": ["pawpaw/ito.py:Ito.str_split", "pawpaw/ito.py:Ito.str_rsplit"]}
{"id": "C09", "title": "whitespace str_split / str_rsplit equal Python's and terminate", "statement": "str_split() and str_rsplit() with no separator terminate and return Itos whose texts equal str(ito).split(None,maxsplit) / rsplit(None,maxsplit), whatever the Ito's position in its string.", "quantifier": "all strings, sub-spans at any offset, and integer maxsplit", "why_tests_cant": "depends on the offset of the Ito in its string, which tests fix at a few values", "anchors": ["pawpaw/ito.py:Ito.str_split", "pawpaw/ito.py:Ito.str_rsplit", "pawpaw/ito.py:Ito._nearest_non_ws_sub"]}
{"id": "C10", "title": "str_splitlines equals Python's", "statement": "str_splitlines(keepends) returns sub-Itos whose texts equal str(ito).splitlines(keepends).", "quantifier": "all strings, sub-spans and both keepends values", "why_tests_cant": "unbounded strings mixing \\r, \\n, \\r\\n and the other line boundaries at every position", "anchors": ["pawpaw/ito.py:Ito.str_splitlines", "pawpaw/ito.py:Ito.split_iter"]}
{"id": "C11", "title": "split / split_iter by regex: exact tiling and max_split", "statement": "For every list of regex matches inside the Ito, split yields pieces that together with the separators tile the Ito's span exactly in order (keep_seps: the pieces alone tile it), and max_split = n > 0 performs the first n splits.", "quantifier": "all Itos, all non-overlapping ordered match lists, both keep_seps values, all max_split", "why_tests_cant": "unbounded match lists and counts", "anchors": ["pawpaw/ito.py:Ito.split_iter", "pawpaw/ito.py:Ito.split", "pawpaw/ito.py:Ito.regex_splititer"]}
{"id": "C12", "title": "str_partition / str_rpartition equal Python's", "statement": "str_partition(sep) and str_rpartition(sep) return three Itos whose texts equal str(ito).partition / rpartition(sep) and, when the separator occurs, adjoin one another and cover the Ito; an empty separator raises ValueError; an Ito with children may be partitioned.", "quantifier": "all strings, sub-spans, separators, and child configurations", "why_tests_cant": "first/last occurrence over unbounded strings; interaction with children", "anchors": ["pawpaw/ito.py:Ito.str_partition", "pawpaw/ito.py:Ito.str_rpartition"]}
{"id": "C13", "title": "str_removeprefix / str_removesuffix equal Python's", "statement": "str_removeprefix(p) and str_removesuffix(p) return an Ito whose text is str(ito).removeprefix / removesuffix(p).", "quantifier": "all strings, sub-spans, and prefixes/suffixes including the empty one", "why_tests_cant": "the empty suffix and window edges are single points of an unbounded domain", "anchors": ["pawpaw/ito.py:Ito.str_removeprefix", "pawpaw/ito.py:Ito.str_removesuffix"]}
{"id": "C14", "title": "indexing and slicing an Ito equal Python's", "statement": "ito[k] for an int k has text str(ito)[k] and raises IndexError exactly when Python does; ito[a:b] has text str(ito)[a:b]; both stay in the Ito's span; iterating an Ito yields its characters in order.", "quantifier": "all strings, sub-spans at any offset, all integer keys and slices", "why_tests_cant": "the result depends on the offset of the Ito in its string combined with an unbounded key", "anchors": ["pawpaw/ito.py:Ito.__getitem__", "pawpaw/ito.py:Ito.__iter__"]}
{"id": "C15", "title": "character-class predicates equal Python's", "statement": "Each of str_isalnum, isalpha, isascii, isdecimal, isdigit, isnumeric, isspace, isprintable, islower, isupper returns what Python's method of the same name returns on str(ito).", "quantifier": "all strings and sub-spans, all character classifications", "why_tests_cant": "must hold for every mix of characters, including uncased letters and the empty text", "anchors": ["pawpaw/ito.py:Ito.str_isprintable", "pawpaw/ito.py:Ito.str_islower", "pawpaw/ito.py:Ito.__str_is_helper_all"]}
{"id": "C16", "title": "from_gaps returns exactly the uncovered space", "statement": "For every src and every start-ordered sequence of non-gap spans (overlaps and zero-widths allowed), from_gaps yields, in order, disjoint non-empty Itos inside src whose positions are exactly the positions of src covered by no non-gap; unordered input raises ValueError.", "quantifier": "all sources and all start-ordered finite sequences of spans", "why_tests_cant": "nesting, overlap, adjacency and out-of-range spans in unbounded sequences", "anchors": ["pawpaw/ito.py:Ito.from_gaps"]}
{"id": "C17", "title": "invert_children is the complement of the children", "statement": "invert_children returns a childless-or-flat clone with the same span whose children are in order, non-empty, disjoint, and cover exactly the positions of the Ito that its children do not; the original is unchanged; it never raises.", "quantifier": "all Itos with any well-formed children", "why_tests_cant": "any number of children in any layout", "anchors": ["pawpaw/ito.py:Ito.invert_children"]}
{"id": "C18", "title": "from_match builds a faithful forest of the groups", "statement": "For every regex match whose selected group spans are pairwise nested or disjoint and distinct in start/stop, from_match succeeds and returns a well-formed forest whose pre-order walk is exactly the multiset of group spans ordered by start then by decreasing stop, each under its desc; a node is under another only if its span lies inside.", "quantifier": "all matches, i.e. all finite families of (group key, span)", "why_tests_cant": "arbitrary numbers of (possibly repeated) captures with arbitrary nesting", "anchors": ["pawpaw/ito.py:Ito.from_match"]}
{"id": "C19", "title": "from_re honours its limit and order", "statement": "from_re(limit=n) yields exactly the first n Itos of from_re(limit=None), for every n (none when n <= 0).", "quantifier": "all match sequences and all integer limits", "why_tests_cant": "unbounded number of matches; a match may yield several Itos, so the limit may fall inside one match", "anchors": ["pawpaw/ito.py:Ito.from_re"]}
{"id": "C20", "title": "from_substrings finds ordered, disjoint, leftmost occurrences", "statement": "from_substrings(src, *subs) yields one Ito per substring, with that text, in order, non-overlapping and inside src, each leftmost after the previous; it raises ValueError iff some substring has no occurrence after the previous ones.", "quantifier": "all sources and all finite substring sequences", "why_tests_cant": "unbounded strings and sequences", "anchors": ["pawpaw/ito.py:Ito.from_substrings"]}
{"id": "C21", "title": "join and strip_to_children give the tight enclosing span", "statement": "Ito.join(*itos) has the smallest span containing every argument, is childless, ignores argument order, and raises ValueError for no arguments or differing strings; strip_to_children returns an Ito whose span is the smallest containing the children, with equal children.", "quantifier": "all non-empty finite sequences of Itos; all trees", "why_tests_cant": "unbounded sequences in any order", "anchors": ["pawpaw/ito.py:Ito.join", "pawpaw/ito.py:Ito.strip_to_children"]}
{"id": "C22", "title": "adopt collects every argument under a tight parent", "statement": "Ito.adopt(itos) returns a well-formed Ito with the smallest span containing all arguments, whose descendants are exactly clones of the (distinct) arguments and their descendants, independent of iteration order for spans that are distinct and pairwise nested or disjoint.", "quantifier": "all finite collections of Itos", "why_tests_cant": "the iteration order of a set is unspecified, so all orders must be considered", "anchors": ["pawpaw/ito.py:Ito.adopt", "pawpaw/ito.py:ChildItos.add_hierarchical"]}
{"id": "C23", "title": "clone is a faithful deep copy", "statement": "clone() of any well-formed Ito never raises and returns a parentless, equal Ito with structurally equal descendants, sharing no node with the original, and leaves the original unchanged; clone(start,stop,desc) changes only those fields.", "quantifier": "all well-formed trees", "why_tests_cant": "unbounded trees", "anchors": ["pawpaw/ito.py:Ito.clone"]}
{"id": "C24", "title": "children stay ordered, disjoint and inside the parent", "statement": "After any sequence of add, remove, pop, del, clear (each succeeding or raising), in every node the children are strictly ordered by start, do not overlap, lie inside the node's span, and have the node as .parent; every node with a .parent is in exactly that parent's children.", "quantifier": "all finite histories of child-list operations on all trees", "why_tests_cant": "unbounded histories of operations, including failing ones", "anchors": ["pawpaw/ito.py:ChildItos.add", "pawpaw/ito.py:ChildItos.__delitem__", "pawpaw/ito.py:ChildItos.remove", "pawpaw/ito.py:ChildItos.pop", "pawpaw/ito.py:ChildItos.clear"]}
{"id": "C25", "title": "parenthood is acyclic", "statement": "After any sequence of child-list operations no Ito is its own ancestor, so get_root, path, descends_from and walk_descendants terminate.", "quantifier": "all finite histories of child-list operations", "why_tests_cant": "needs every history; a cycle needs a particular sequence", "anchors": ["pawpaw/ito.py:ChildItos.add", "pawpaw/ito.py:Ito._set_parent", "pawpaw/ito.py:Ito.get_root"]}
{"id": "C26", "title": "item and slice assignment keep the children well-formed", "statement": "children[k] = ito and children[a:b] = itos leave the children ordered, disjoint, inside the parent and correctly parented, or raise and leave everything unchanged.", "quantifier": "all trees, keys, slices and assigned values", "why_tests_cant": "unbounded states; failures at every point of the assigned sequence", "anchors": ["pawpaw/ito.py:ChildItos.__setitem__"]}
{"id": "C27", "title": "failed mutations change nothing", "statement": "When children.add(x) or children.add_hierarchical(x) raises, every Ito's children and parent are as before the call.", "quantifier": "all trees and all arguments on which the call raises", "why_tests_cant": "needs every failing input; effects before the raise are invisible to most tests", "anchors": ["pawpaw/ito.py:ChildItos.add", "pawpaw/ito.py:ChildItos.add_hierarchical"]}
{"id": "C28", "title": "add_hierarchical keeps the tree well-formed", "statement": "When add_hierarchical returns normally from a well-formed tree, the resulting tree is well-formed (children ordered, disjoint, inside their parent), for any argument tree.", "quantifier": "all well-formed trees, all argument trees, all keys", "why_tests_cant": "unbounded trees and arguments", "anchors": ["pawpaw/ito.py:ChildItos.add_hierarchical"]}
{"id": "C29", "title": "add_hierarchical loses and invents nothing", "statement": "When add_hierarchical(x) returns normally, the nodes of the resulting tree are exactly the nodes previously present plus x and its descendants, each once with its span and desc unchanged.", "quantifier": "all well-formed trees and argument trees", "why_tests_cant": "unbounded trees and arguments", "anchors": ["pawpaw/ito.py:ChildItos.add_hierarchical"]}
{"id": "C30", "title": "add_hierarchical yields the nesting order whatever the insertion order", "statement": "For childless Itos of positive width whose spans are distinct and pairwise nested or disjoint, adding them hierarchically in any order succeeds and gives the same tree.", "quantifier": "all finite laminar families and all orders", "why_tests_cant": "factorially many orders", "anchors": ["pawpaw/ito.py:ChildItos.add_hierarchical"]}
{"id": "C31", "title": "membership and removal are by the node itself", "statement": "x in ito.children is true exactly when x is one of the children; children.remove(x) removes exactly x, or raises ValueError when x is not a child.", "quantifier": "all well-formed child lists and all Itos", "why_tests_cant": "unbounded child lists; lookup is by binary search on start", "anchors": ["pawpaw/ito.py:ChildItos.__contains__", "pawpaw/ito.py:ChildItos.remove"]}
{"id": "C32", "title": "walk_descendants is pre-order, reverse walk is its reverse", "statement": "walk_descendants yields each proper descendant exactly once in document (pre-)order, at the right level; reverse=True yields exactly the reversed sequence.", "quantifier": "all trees", "why_tests_cant": "unbounded trees", "anchors": ["pawpaw/ito.py:Ito.walk_descendants", "pawpaw/ito.py:Ito.walk_descendants_levels"]}
{"id": "C33", "title": ".path leads back to the node", "statement": "Evaluating x.path from x's root finds exactly x, for every node x of every tree; distinct nodes have distinct paths.", "quantifier": "all trees and nodes", "why_tests_cant": "unbounded trees", "anchors": ["pawpaw/ito.py:Ito.path", "pawpaw/query/_query.py:Axis.find_all"]}
{"id": "C34", "title": "axes return exactly the documented nodes", "statement": "From a node x: '..' gives its parent, '...' all ancestors nearest first, '....' the root, '.' itself, '*' children in order, '**' descendants in document order, '***' the leaves, '<' '>' the adjacent sibling, '<<' '>>' all prior / following siblings; '-' reverses and '!'/'!!' add self as documented.", "quantifier": "all trees and nodes, all axes and modifiers", "why_tests_cant": "unbounded trees", "anchors": ["pawpaw/query/_query.py:Axis.find_all", "pawpaw/query/_query.py:Axis.to_ecs"]}
{"id": "C35", "title": "preceding '<<<' and following '>>>' axes", "statement": "From any node, '>>>' yields exactly the nodes after it in document order that are not its descendants, and '<<<' exactly those before it that are not its ancestors; for several start nodes the result is the union over them.", "quantifier": "all trees, nodes and sets of start nodes", "why_tests_cant": "unbounded trees", "anchors": ["pawpaw/query/_query.py:Axis.find_all"]}
{"id": "C36", "title": "the axes partition the tree", "statement": "For every node, its ancestors, preceding, self, descendants and following nodes are pairwise disjoint and together are all the nodes of the tree.", "quantifier": "all trees and nodes", "why_tests_cant": "unbounded trees", "anchors": ["pawpaw/query/_query.py:Axis.find_all"]}
{"id": "C37", "title": "boolean filter expressions", "statement": "A filter expression over [f] terms, '~', '&', '^', '|' and parentheses selects a node exactly when the expression with precedence ~, &, ^, | and grouping evaluates to true.", "quantifier": "all expressions of any depth and all valuations", "why_tests_cant": "unbounded expression depth", "anchors": ["pawpaw/query/_query.py:EcfCombined"]}
{"id": "C38", "title": "a query is split into phrases only at top-level '/'", "statement": "Splitting a query path into phrases yields pieces which, joined by '/', are exactly the path; a '/' that is escaped or inside (unescaped) braces never splits, and every other '/' does (inside brackets it must be escaped); a dangling escape raises ValueError.", "quantifier": "all path strings", "why_tests_cant": "unbounded strings with arbitrary escape and bracket nesting", "anchors": ["pawpaw/query/_query.py:Query._split_phrases"]}
{"id": "C39", "title": "queries compose and find is the first of find_all", "statement": "find_all of 'p/q' equals running q's phrases over the results of p, taken as one stream in order (so for every axis that treats results one at a time, it is the concatenation of q's results from each result of p); find(p) is the first element of find_all(p), or None iff there is none.", "quantifier": "all trees and all phrase sequences", "why_tests_cant": "unbounded trees and queries", "anchors": ["pawpaw/query/_query.py:Query.find_all", "pawpaw/query/_query.py:Query.find"]}
{"id": "C40", "title": "index filters select exactly the listed positions", "statement": "[i:a] keeps exactly the a-th result and [i:a-b] exactly positions a <= k < b; comma lists are unions; '~' complements.", "quantifier": "all result sequences and index lists", "why_tests_cant": "unbounded sequences", "anchors": ["pawpaw/query/_query.py:EcfFilter"]}
{"id": "C41", "title": "escape / descape round-trip", "statement": "descape(escape(s)) = s for every string s, and escaping is injective; joining escaped values with ',' and splitting at unescaped commas recovers the list.", "quantifier": "all strings and lists of strings", "why_tests_cant": "unbounded strings over the escape character and every reserved character", "anchors": ["pawpaw/query/_query.py:escape", "pawpaw/query/_query.py:descape", "pawpaw/util.py:split_unescaped"]}
{"id": "C42", "title": "find_unescaped / split_unescaped / find_escapes locate exactly the unescaped characters", "statement": "find_unescaped yields in order exactly the positions holding one of the given characters preceded by an even run of escapes, and raises ValueError exactly when the text ends in a dangling escape; split_unescaped cuts exactly there; find_escapes yields the positions of escapes that are not themselves escaped.", "quantifier": "all strings and character sets, all start/stop", "why_tests_cant": "parity of escape runs of unbounded length", "anchors": ["pawpaw/util.py:find_unescaped", "pawpaw/util.py:split_unescaped", "pawpaw/util.py:find_escapes"]}
{"id": "C43", "title": "find_balanced yields exactly the outermost balanced segments", "statement": "find_balanced(s,l,r) yields, in order, disjoint segments that begin with l, end with the matching r and are balanced, covering every unescaped l and r; it raises ValueError exactly when the unescaped l/r of s are unbalanced.", "quantifier": "all strings", "why_tests_cant": "unbounded nesting depth", "anchors": ["pawpaw/util.py:find_balanced"]}
{"id": "C44", "title": "JSON round-trip", "statement": "Decoding the JSON encoding of an Ito gives back an Ito equal to it with structurally equal descendants (spans, descs, order, nesting), with or without the string embedded.", "quantifier": "all well-formed trees", "why_tests_cant": "unbounded trees, including same-span and zero-width nodes", "anchors": ["pawpaw/ito.py:Ito.JsonEncoder", "pawpaw/ito.py:Ito.JsonDecoderHook"]}
{"id": "C45", "title": "pickle round-trip", "statement": "Unpickling a pickled Ito gives an equal tree (spans, descs, children, parent links), parentless at the top.", "quantifier": "all well-formed trees", "why_tests_cant": "unbounded trees", "anchors": ["pawpaw/ito.py:Ito.__getstate__", "pawpaw/ito.py:Ito.__setstate__"]}
{"id": "C46", "title": "equality is an equivalence consistent with hash", "statement": "Ito equality is reflexive, symmetric and transitive, depends exactly on string, span, desc and value_func, and equal Itos have equal hashes.", "quantifier": "all triples of Itos, including of subclasses", "why_tests_cant": "universally quantified over triples", "anchors": ["pawpaw/ito.py:Ito.__eq__", "pawpaw/ito.py:Ito.__hash__"]}
{"id": "C47", "title": "format width never exceeds the limit", "statement": "A %directive:width formatting of a text t has length min(len(t), width); text that fits is unchanged; otherwise the abbreviation is placed at the requested end and the rest is a prefix and/or suffix of t.", "quantifier": "all texts, widths, abbreviations and positions", "why_tests_cant": "arithmetic over unbounded lengths", "anchors": ["pawpaw/ito.py:Ito.__format__"]}
{"id": "C48", "title": "format substitution is simultaneous", "statement": "Formatting replaces each recognised directive by its rendering and leaves all other text untouched, independent of the renderings' lengths and contents.", "quantifier": "all format strings with ordered disjoint directive matches and all renderings", "why_tests_cant": "arbitrarily many substitutions of arbitrary lengths", "anchors": ["pawpaw/ito.py:Ito.__format__"]}
{"id": "C49", "title": "to_line_col inverts line layout", "statement": "to_line_col(eol) gives (number of complete lines before the Ito + 1, offset from the start of its line + 1), so line and column determine the start offset.", "quantifier": "all strings, positions and end-of-line markers", "why_tests_cant": "unbounded strings; eol markers that overlap themselves", "anchors": ["pawpaw/ito.py:Ito.to_line_col"]}
{"id": "C50", "title": "arborform Split tiles its input", "statement": "For every Ito and every ordered, disjoint boundary sequence inside it, Split yields the non-empty pieces in order: without boundary retention exactly the gaps between the boundaries; with LEADING (TRAILING) retention each boundary with the text after (before) it, tiling the Ito from the first boundary on (up to the end of the last); with ALL, pieces and boundaries, tiling the Ito; the limit caps the number of boundaries used; with no boundary the whole Ito, or nothing if so asked; an exception of the splitter propagates.", "quantifier": "all Itos, all ordered disjoint separator sequences, all modes and limits", "why_tests_cant": "unbounded separator sequences and adjacency patterns", "anchors": ["pawpaw/arborform/itorator/split.py:Split._transform"]}
{"id": "C51", "title": "itorator pipelines compose", "statement": "Calling an itorator does not modify its argument; delegate chains compose functionally; a children-add connector attaches exactly the sub-results under the node and yields the node; results come out in input order.", "quantifier": "all inputs and all pipelines", "why_tests_cant": "arbitrary pipelines and inputs", "anchors": ["pawpaw/arborform/itorator/itorator.py:Itorator._traverse", "pawpaw/arborform/itorator/itorator.py:Itorator.__call__"]}
{"id": "C52", "title": "Nuco returns the first non-empty result", "statement": "Nuco(its...) yields exactly the results of the first itorator that yields anything, and nothing iff none does.", "quantifier": "all finite sequences of itorators", "why_tests_cant": "unbounded sequences", "anchors": ["pawpaw/arborform/itorator/nuco.py:Nuco"]}
{"id": "C53", "title": "Invert yields the complement", "statement": "Invert(it) on x yields in order exactly the non-empty parts of x not covered by it(x), for x with or without children; for a zero-width x, x itself.", "quantifier": "all inputs and ordered inner results", "why_tests_cant": "unbounded sequences", "anchors": ["pawpaw/arborform/itorator/invert.py:Invert"]}
{"id": "C54", "title": "WindowedJoin partitions its input stream", "statement": "Every input Ito of a WindowedJoin contributes to exactly one output, in order: going left to right, the next window_size inputs are joined if the predicate holds of them, else the next one is passed through; leftovers are passed through; a window size below 2 is refused.", "quantifier": "all input streams, window sizes and predicates", "why_tests_cant": "unbounded streams", "anchors": ["pawpaw/arborform/postorator/windowed_join.py"]}
{"id": "C55", "title": "StackedReduce partitions its input stream", "statement": "Every input of a StackedReduce goes to exactly one reduce group, groups are consecutive runs in order, and each maximal run is determined by the push/pop predicates.", "quantifier": "all input streams and predicates", "why_tests_cant": "unbounded streams", "anchors": ["pawpaw/arborform/postorator/stacked_reduce.py"]}
{"id": "C56", "title": "box-drawing directions form the rotation group", "statement": "Direction.from_degrees is periodic, rotate by multiples of 45/90 composes additively with inverse, and reflect is an involution.", "quantifier": "all integer degrees and directions", "why_tests_cant": "all integers", "anchors": ["pawpaw/visualization/ascii_box.py:Direction"]}
{"id": "C57", "title": "Highlighter preserves the text", "statement": "With its colour codes removed, Highlighter output is exactly the Ito's text, and neighbouring segments differ in colour when two or more colours are available.", "quantifier": "all trees and palettes", "why_tests_cant": "unbounded trees", "anchors": ["pawpaw/visualization/highlighter.py:Highlighter"]}
{"id": "C58", "title": "boxed text is a rectangle containing every line", "statement": "For printable content lines, Boxer emits lines that all have the same width, and the content lines appear in order unchanged up to padding; a source with no lines raises ValueError.", "quantifier": "all lists of lines", "why_tests_cant": "unbounded", "anchors": ["pawpaw/visualization/ascii_box.py:Boxer"]}
{"id": "C59", "title": "ontology discovery results are complete", "statement": "Discoveries.flatten maps every path of the discoveries tree exactly once to that path's Itos, walk yields the (path, Ito) pairs of that map in the same order, each once; Ontology.discover gives discoveries with exactly the ontology's paths, each holding the concatenated results of that path's rules.", "quantifier": "every discoveries tree and every ontology, of any depth and width; every Ito", "why_tests_cant": "unbounded nesting", "anchors": ["pawpaw/ontology/ontology.py:Discoveries", "pawpaw/ontology/ontology.py:Ontology"]}
{"id": "C60", "title": "GroupKeys select each group at most once", "statement": "GroupKeys.preferred lists each group exactly once (by name when named); from_filter keeps exactly groups whose name or index passes; validate accepts exactly key lists that exist and denote distinct groups.", "quantifier": "all patterns (group counts and name maps) and key lists", "why_tests_cant": "unbounded", "anchors": ["pawpaw/ito.py:GroupKeys"]}
{"id": "C61", "title": "XML names split and rebuild", "statement": "For a tag {ns}local with no } in ns, get_namespace is {ns} (with its braces) and get_local_name is local; a tag without } has no namespace and is its own local name. QualifiedName.from_src of any Ito (at any offset) is cut at the first colon and prints back as the Ito's text; EtName.from_item of {ns}name is cut after the brace and prints back, and for an Element it is the name of its tag.", "quantifier": "all tags", "why_tests_cant": "unbounded strings", "anchors": ["pawpaw/xml/xml_helper.py:XmlHelper.get_namespace", "pawpaw/xml/xml_helper.py:XmlHelper.get_local_name", "pawpaw/xml/xml_helper.py:QualifiedName", "pawpaw/xml/xml_helper.py:EtName"]}
{"id": "C62", "title": "XML byte offsets map to character offsets", "statement": "Asked for non-decreasing positions (line, column, byte index as expat reports them, none between CR and LF), the parser's byte-to-character mapping returns for each the number of characters before it; char_offset_from does so for any single byte position.", "quantifier": "all texts over any variable-width encoding, all non-decreasing position sequences", "why_tests_cant": "unbounded texts and histories of calls", "anchors": ["pawpaw/xml/xml_parser.py:_InternalIndexingParser"]}
{"id": "C63", "title": "ontology query precedence", "statement": "The ontology query's shunting-yard conversion respects operator precedence NOT > AND > OR.", "quantifier": "all expressions", "why_tests_cant": "unbounded expressions", "anchors": ["pawpaw/ontology/_query.py:_shunting_yard"]}
{"id": "C64", "title": "pepo renders every node once in document order", "statement": "The compact, tree and JSON/XML dumps contain one entry per node of the tree, in pre-order, nested as the tree.", "quantifier": "all trees", "why_tests_cant": "unbounded trees", "anchors": ["pawpaw/visualization/pepo/pepo.py:Compact", "pawpaw/visualization/pepo/pepo.py:Tree", "pawpaw/visualization/pepo/pepo.py:Xml", "pawpaw/visualization/pepo/pepo.py:Json"]}
{"id": "C65", "title": "dedup axis", "statement": "The query 'p/><' yields every node that 'p' yields exactly once, in order of first occurrence.", "quantifier": "all trees, all queries p", "why_tests_cant": "unbounded trees and queries", "anchors": ["pawpaw/query/_query.py:Axis"]}
{"id": "C66", "title": "desc and string filters", "statement": "find_all of an axis with filter [desc:v1,..,vn] (or [string:v1,..,vn]), each value escaped by the descape function, selects exactly the nodes on the axis whose desc (or text) is one of the values.", "quantifier": "all trees, all value lists, all characters", "why_tests_cant": "unbounded strings and escape sequences", "anchors": ["pawpaw/query/_query.py:EcfFilter", "pawpaw/query/_query.py:descape"]}
{"id": "C67", "title": "query compilation is total up to ValueError", "statement": "Compiling any text as a query either succeeds or raises ValueError; no other exception escapes.", "quantifier": "all strings", "why_tests_cant": "unbounded strings", "anchors": ["pawpaw/query/_query.py:compile", "pawpaw/query/_query.py:Query"]}
{"id": "C68", "title": "equal spans in hierarchical add", "statement": "add_hierarchical of Itos that all have one span, to an empty children collection, makes them a single parent/child chain: in order of insertion when no key is given, in ascending key order (stable) when a key is given.", "quantifier": "all sequences of Itos with one span, all key functions", "why_tests_cant": "unbounded sequences, arbitrary keys", "anchors": ["pawpaw/ito.py:ChildItos.add_hierarchical"]}
{"id": "C69", "title": "box character look-up", "statement": "BoxDrawingChar.from_direction_styles, exact, returns the first table character having every direction/style asked for (and raises when none has); with fuzzy it returns the first character nearest to the request among those with the same number of directions.", "quantifier": "every character table and every set of direction/style pairs asked for", "why_tests_cant": "there are exponentially many direction/style combinations, and nearest must beat every other candidate", "anchors": ["pawpaw/visualization/ascii_box.py:BoxDrawingChar.from_direction_styles", "pawpaw/visualization/ascii_box.py:BoxDrawingChar._distance"]}
{"id": "C70", "title": "ontology look-up by path", "statement": "ontology[(k1,...,kn)] is ontology[k1]...[kn]; it raises KeyError exactly when one of the successive keys is absent.", "quantifier": "every ontology of any depth and every key path of any length", "why_tests_cant": "paths and ontologies are unbounded", "anchors": ["pawpaw/ontology/ontology.py:Ontology.__missing__"]}
{"id": "C71", "title": "the XML parser's Ito tree mirrors the document", "statement": "For every element, the Ito XmlParser attaches to it covers exactly the element's text, and its children are, in document order and with exact positions, the start tag, the non-blank texts (all texts with ignore_empties=False), the child elements' Itos and the end tag; with ignore_empties=False the tags and texts concatenate to the element's text.", "quantifier": "every element tree of any depth and width, whatever the tags, texts and surrounding document", "why_tests_cant": "documents are unbounded in depth, width and content", "anchors": ["pawpaw/xml/xml_parser.py:XmlParser._extract_itos", "pawpaw/xml/xml_parser.py:XmlParser._find_text"]}
{"id": "C72", "title": "tag Itos know their qualified name", "statement": "The value() of each tag Ito inside a start tag (element name and attribute names) is the QualifiedName of that tag's own text.", "quantifier": "every start tag with any number of attributes", "why_tests_cant": "the number and the text of the attributes is unbounded; the value is computed lazily, after the loop that sets it has ended", "anchors": ["pawpaw/xml/xml_parser.py:XmlParser._extract_itos"]}
{"id": "C73", "title": "text filters: starts with, ends with, ignoring case", "statement": "In find_all('AXIS[K:v1,...,vn]'), with K one of scf/lcs/str-casefold, scfew/lcsew/str-casefold-ew, scfsw/lcssw/str-casefold-sw, sew/str-ew, ssw/str-sw, the filter keeps exactly those results of the axis, in the same order, whose text (case-folded for the first three) equals, ends with or starts with (the case-folded form of) one of the values; [~K:...] keeps exactly the others. A key outside the documented table is a ValueError.", "quantifier": "all trees and strings, all axes with order and or-self, all start nodes, all lists of values written with pawpaw's escape (first one not empty and not starting with whitespace, last one not ending with a backslash: C66 shows what goes wrong otherwise), every case folding that works per character and leaves the reserved characters alone", "why_tests_cant": "values, texts and trees are unbounded; escaping and splitting interact with folding", "anchors": ["pawpaw/query/_query.py:EcfFilter._func", "pawpaw/query/_query.py:FILTER_KEYS"]}
{"id": "C74", "title": "predicate and value filters", "statement": "find_all('AXIS[p:k1,...,kn]', predicates=P) keeps exactly those enumerated results of the axis for which every predicate passed in P under one of the keys answers true ([~p:...]: answers false); keys without predicate are ignored. find_all('AXIS[v:k1,...,kn]', values=W) keeps exactly the results whose value() equals a value passed in W under one of the keys ([~v:...]: the others). When P (W) is None and the axis finds something, a ValueError is raised.", "quantifier": "all trees, axes, start nodes, lists of keys (escaped), dictionaries of predicates that return normally, of values, all value functions that return normally", "why_tests_cant": "arbitrary user predicates and values on arbitrary trees", "anchors": ["pawpaw/query/_query.py:EcfFilter._func", "pawpaw/query/_query.py:Ecf.validate_predicates", "pawpaw/query/_query.py:Ecf.validate_values"]}
{"id": "C75", "title": "sub-queries are existential tests", "statement": "find_all('AXIS{Q}') keeps exactly those results of the axis from which find_all(Q) finds something; find_all('AXIS[F]{Q}') keeps those results of find_all('AXIS[F]') from which Q finds something. An invalid Q makes the whole query invalid with the same error, and an exception of Q before its first result ends the whole query.", "quantifier": "all trees, axes, start nodes, filters F and sub-query texts Q whose braces match (nested sub-queries included)", "why_tests_cant": "sub-queries nest without bound; each is evaluated from every candidate", "anchors": ["pawpaw/query/_query.py:EcfSubquery", "pawpaw/query/_query.py:Phrase.combined", "pawpaw/query/_query.py:Phrase.__init__"]}
{"id": "C76", "title": "SimpleNlp.from_text builds the document tree", "statement": "SimpleNlp().from_text(text) never raises. It returns a new Ito 'Document' over the whole text whose children are the 'paragraph's (the non-empty parts between matches of the paragraph pattern; the whole text if there is none), whose children are their 'sentence's (likewise), whose children are, in order, the 'number's found in the sentence, each a tree of its named groups, and the 'word's found in the stretches between the numbers. No existing Ito is changed, and parents, children and spans are consistent.", "quantifier": "all texts; whatever the five patterns find, as long as matches are in order, disjoint and inside the searched part, words and numbers are not empty and the groups of a number capture non-empty parts that do not cross; all consistent object graphs in which it is called", "why_tests_cant": "four itorators run as nested generators while objects are cloned, split and attached; the texts and what the patterns find are unbounded", "anchors": ["pawpaw/nlp/nlp.py:SimpleNlp", "pawpaw/arborform/itorator/split.py:Split", "pawpaw/arborform/itorator/extract.py:Extract", "pawpaw/arborform/itorator/itorator.py:Itorator._flow"]}
{"id": "C77", "title": "SimpleNlp(chars=True) adds the characters of words and numbers", "statement": "SimpleNlp(chars=True).from_text(text) returns the document of SimpleNlp().from_text(text) in which every word and number has, in addition, its characters as 'char' children. (False: it raises ValueError exactly when the text has a number in some sentence, and otherwise returns the document without any 'char'.)", "quantifier": "as C76", "why_tests_cant": "every text with a number fails, but in which state depends on the text before", "anchors": ["pawpaw/nlp/nlp.py:SimpleNlp.__init__", "pawpaw/nlp/nlp.py:SimpleNlp.from_text"]}
{"id": "C78", "title": "SGR codes mean what they say", "statement": "encode(*ns) gives different texts for different argument lists (encode() being encode(0)), and a terminal reading it applies exactly ns. For every colour, Fore.from_color / Back.from_color set exactly the foreground / background of a terminal to that colour, RESET restores its default, and no two colours share a code.", "quantifier": "all integer lists, all colours, all terminal states", "why_tests_cant": "unbounded argument lists and colour values", "anchors": ["pawpaw/visualization/sgr/sgr.py:encode", "pawpaw/visualization/sgr/sgr.py:Fore", "pawpaw/visualization/sgr/sgr.py:Back"]}
{"id": "C79", "title": "24-bit colours", "statement": "Rgb.from_24_bit(v) has red*65536+green*256+blue = v with green and blue bytes, for every integer v; red is a byte exactly when v is a 24-bit value; every byte triple comes from exactly one v.", "quantifier": "all integers", "why_tests_cant": "all integers, negative ones included", "anchors": ["pawpaw/visualization/sgr/sgr.py:_Colors.Rgb.from_24_bit"]}
{"id": "C80", "title": "equality of Fore / Back objects", "statement": "Two Fore (or Back) objects are equal exactly when they are of one class and of one colour. (False: any two of one class are equal.)", "quantifier": "all colours", "why_tests_cant": "all pairs of colours", "anchors": ["pawpaw/visualization/sgr/sgr.py:Fore", "pawpaw/visualization/sgr/sgr.py:Back"]}
{"id": "C81", "title": "assigning Number's properties takes effect", "statement": "After any sequence of assignments to decimal_point, thousands_sep and thousands_sep_optional, a Number's re and num_pat are those of its current settings. (False: no assignment ever changes a pattern.)", "quantifier": "all histories of assignments, with or without exceptions; all locales", "why_tests_cant": "unbounded histories", "anchors": ["pawpaw/nlp/nlp.py:Number"]}
{"id": "C82", "title": "Number's keyword arguments", "statement": "Number(decimal_point=..., thousands_sep=..., thousands_sep_optional=...) with acceptable values returns a Number whose pattern is that of these settings. (False: the first and the third always raise AttributeError.)", "quantifier": "all keyword argument lists, all locales", "why_tests_cant": "all values and orders", "anchors": ["pawpaw/nlp/nlp.py:Number.__init__"]}
{"id": "C83", "title": "invoke_func wires values to parameters by type", "statement": "invoke_func(f, *vals) calls f with each parameter given one of vals of the parameter's annotated type, none used twice, whatever the order of vals; values left over go to *args. (False in general; exact positive domain proved.)", "quantifier": "all functions, annotations and value lists", "why_tests_cant": "all signatures and orders of values", "anchors": ["pawpaw/_type_magic.py:invoke_func"]}
{"id": "C84", "title": "Version.is_canonical decides PEP 440 canonical versions", "statement": "Version.is_canonical(s) is True exactly when s is a version in PEP 440 canonical (normal) form: [N!]N(.N)*[{a|b|rc}N][.postN][.devN][+local], all numbers without superfluous zeros, the local part made of lower-case alphanumeric segments separated by dots, and nothing else before or after.", "quantifier": "every string s", "why_tests_cant": "Acceptance of a pattern has to be settled for every string, including those with a trailing newline or odd separators; unit tests list a few versions.", "anchors": ["pawpaw/_version.py:Version.is_canonical", "pawpaw/_version.py:Version._canonical_re"]}
{"id": "C85", "title": "XML tags, attributes, comments and processing instructions become Itos where they are written", "statement": "XmlParser puts into each start tag an Ito for its name (with namespace prefix and local name) and one for its attributes, each with name and value; into each end tag its name; into each text its comments and processing instructions with their values; every one spans exactly the characters it stands for, and nothing else is put there.", "quantifier": "every element tree, every name, attribute list, text and every position in a document", "why_tests_cant": "The patterns are run by a backtracking matcher over arbitrary text: a prefix may be looked for far beyond a name. Samples do not show that no attribute list or text is misread.", "anchors": ["pawpaw/xml/xml_parser.py:13-28", "pawpaw/xml/xml_parser.py:110-185", "pawpaw/ito.py:131-180"]}
{"id": "C86", "title": "XmlHelper.get_qualified_name gives prefix and local part as written", "statement": "For the Ito of a start tag or of an attribute, get_qualified_name gives the prefix (None when there is none) and the local part of that tag's or attribute's own name, as the Itos spanning them; for any other Ito it raises ValueError.", "quantifier": "every parsed document, every start tag and attribute in it", "why_tests_cant": "The name is looked up with queries over all descendants of the Ito; whether the first hit is the right one depends on everything written within the tag.", "anchors": ["pawpaw/xml/xml_helper.py:XmlHelper.get_qualified_name"]}
{"id": "C87", "title": "XmlHelper.get_xmlns gives exactly the namespace declarations of an element", "statement": "get_xmlns(element) gives, in document order, each attribute of the element's start tag that declares a namespace (named xmlns or with the prefix xmlns), under its qualified name and with its value, and no other attribute.", "quantifier": "every parsed document, every element, every attribute list", "why_tests_cant": "The declarations are selected by a query with a sub-query; for which attribute lists it selects others is a matter of all names and values.", "anchors": ["pawpaw/xml/xml_helper.py:XmlHelper.get_xmlns", "pawpaw/xml/xml_helper.py:XmlHelper._re_xmlns"]}
{"id": "C88", "title": "XmlHelper.get_prefix_map maps the declared prefixes to their namespaces", "statement": "get_prefix_map(element) maps exactly the prefixes declared in the element's start tag (xmlns:p=\"uri\") to their namespace names, as strings, in document order.", "quantifier": "every parsed document, every element, every attribute list", "why_tests_cant": "As for get_xmlns; and the map is built from Itos whose texts must be the right ones wherever the element is.", "anchors": ["pawpaw/xml/xml_helper.py:XmlHelper.get_prefix_map"]}
{"id": "C89", "title": "XmlHelper.get_default_namespace gives the default namespace in scope", "statement": "get_default_namespace(element) gives '{uri}' for the default namespace declared by the nearest element, from the given one outwards, that declares one, and None when none does.", "quantifier": "every parsed document of any depth, every element in it", "why_tests_cant": "Scoping ranges over arbitrarily deep nesting and over declarations at any level.", "anchors": ["pawpaw/xml/xml_helper.py:XmlHelper.get_default_namespace"]}
{"id": "C90", "title": "XmlHelper.get_parent_element and reverse_find go to the nearest enclosing element", "statement": "get_parent_element(e) gives the element that directly contains e, None for the root; reverse_find(e, predicate) gives the nearest element among e and the elements that contain it, from the inside out, that satisfies the predicate, None when none does.", "quantifier": "every parsed document of any depth, every element, every predicate (that does not raise)", "why_tests_cant": "The search passes through any number of levels, for any predicate.", "anchors": ["pawpaw/xml/xml_helper.py:XmlHelper.get_parent_element", "pawpaw/xml/xml_helper.py:XmlHelper.reverse_find"]}
{"id": "C91", "title": "XmlHelper.get_text_itos gives the texts directly within an element", "statement": "get_text_itos(element) gives, in document order, exactly the texts written directly within the element (not those within its child elements, nor in tags) that the parser keeps.", "quantifier": "every parsed document, every element", "why_tests_cant": "Texts, comments and child elements may alternate in any number and at any depth.", "anchors": ["pawpaw/xml/xml_helper.py:XmlHelper.get_text_itos"]}
{"id": "C92", "title": "Ito.from_re succeeds on every pattern without lookahead and gives a faithful forest", "statement": "For a pattern built from characters and classes, sequence, alternation, greedy or lazy repetition, anchors and groups, Ito.from_re(pattern, src) never raises: it gives well-formed Ito trees within src, in order and disjoint, that hold exactly the captures of the selected groups in all matches, whatever groups are repeated, nested or empty.", "quantifier": "every such pattern, every string and Ito, every selection of groups", "why_tests_cant": "Captures come from any nesting of groups and repetitions in the pattern and any text; a crossing pair in some match would make children.add raise.", "anchors": ["pawpaw/ito.py:Ito.from_re", "pawpaw/ito.py:Ito.from_match"]}
{"id": "C93", "title": "What Number finds in a text", "statement": "The pattern of a Number matches a whole text exactly when it is: an optional sign; digits in groups of three with a separator before each group but the first (or, where separators are optional, plain digits), or a decimal point with digits, or both; an optional exponent. Every match in a text is such a number, its named groups sign, integer, decimal and exponent are what their names say, and wherever a number starts in the text a match starts there or covers that place; so, where separators are optional, every digit is in some match. When separator and decimal point are not empty, share no character and contain no digit, sign, space or exponent letter, the match is the longest number starting at its place.", "quantifier": "all separators, decimal points, digit classes and texts", "why_tests_cant": "backtracking order over unboundedly many texts and settings", "anchors": ["pawpaw/nlp/nlp.py:Number"]}
{"id": "C94", "title": "SimpleNlp reads every text: no character but white space is lost, every word character is in a word or number", "statement": "With the library's own patterns, SimpleNlp().from_text(text) succeeds on every text; every character that is neither a paragraph separator nor white space lies in a sentence; every word character lies in a word or a number; every 'word' is word characters joined by single quotation marks or hyphens (with white space after them), every 'number' is a number, and a word is the longest word starting where it does in the part searched.", "quantifier": "for all texts, Number settings, paragraph separators and thresholds, and Unicode classes in which white space, quotation marks and hyphens are not word characters", "why_tests_cant": "five regular expressions, with backtracking and lookbehind, run on parts cut out by each other; loss of one character needs the right combination of separators", "anchors": ["pawpaw/nlp/nlp.py:SimpleNlp", "pawpaw/nlp/nlp.py:Paragraph._build_re", "pawpaw/nlp/nlp.py:Sentence", "pawpaw/nlp/nlp.py:Number"]}
{"id": "C95", "title": "Sentences end exactly at sentence boundaries", "statement": "A sentence of a paragraph ends at the paragraph's end or where a word, a terminator and closing quotes or brackets are followed by white space and then: the end; or more white space; or a common start word; or a capital letter or digit, unless the sentence's last word is a listed abbreviation; and no such place is inside a sentence. (False as stated: the listed abbreviations also count as ends of longer words ('painted.' ends with 'ed.'), and a CRLF line break counts as two white spaces. With 'ends with the letters of an abbreviation' it holds exactly.)", "quantifier": "for all texts, paragraphs of them, Unicode classes, and however far a lookbehind sees before the paragraph", "why_tests_cant": "which abbreviations suppress which ends depends on arbitrary text on both sides of every terminator", "anchors": ["pawpaw/nlp/nlp.py:Sentence"]}
{"id": "C96", "title": "StyledTable finds exactly tables of its style, with a child per row and caption", "statement": "Whatever the TableStyle (patterns of characters, sequence, alternation and repetition) and whatever Ito it is applied to, StyledTable(style).get_itor() without equi_distant_indent raises nothing and gives one tree per table: an Ito 'table' with one child 'pre_caption', 'header_row', 'row' or 'post_caption' for each part, in order and at exactly its place; every table starts at a line and ends at a line end, its parts match the patterns of the style, no row has a row-separator line within, tables do not overlap and none is passed over. Two separate tables come out as two.", "quantifier": "every style with plain patterns, every string, every span of it", "why_tests_cant": "the pattern is built at run time from arbitrary patterns and lazy groups; only a proof over the matcher shows which split into rows wins", "anchors": ["pawpaw/table/table.py:StyledTable._build_re", "pawpaw/table/table.py:StyledTable.get_itor", "pawpaw/table/styles/styles.py"]}
{"id": "C97", "title": "Tables with equidistant indentation are found in blocks of equally indented lines", "statement": "With equi_distant_indent, get_itor() of a StyledTable raises nothing on any Ito; it gives the tables of each block of at least two consecutive lines with the same indentation (each block starts at a line and is as long as possible), in order, each table within its block with all its lines after the first indented alike and starting at the indentation of its line; every table with an indentation is found.", "quantifier": "every style with plain patterns, every string, every span of it", "why_tests_cant": "blocks and tables depend on backreferences and backtracking over arbitrary text", "anchors": ["pawpaw/table/table.py:StyledTable._re_equi_ident", "pawpaw/table/table.py:StyledTable._build_re", "pawpaw/table/table.py:StyledTable.get_itor"]}
{"id": "C98", "title": "isinstance_ex and issubclass_ex understand unions and generics", "statement": "isinstance_ex(obj, t) says whether obj is an instance of one of the alternatives of t, and issubclass_ex(a, t) whether a is a subtype of t, for classes, parameterised generics (parameters ignored) and unions nested to any depth, without raising. (False for a union on the left of issubclass_ex and for typing.Union; exact meaning proved.)", "quantifier": "all classes, subclass relations, nestings of unions and generics", "why_tests_cant": "ranges over every class hierarchy and every type expression", "anchors": ["pawpaw/_type_magic.py:unpack", "pawpaw/_type_magic.py:isinstance_ex", "pawpaw/_type_magic.py:issubclass_ex"]}
{"id": "C99", "title": "functoid_isinstance accepts exactly the functions fit to be called so", "statement": "functoid_isinstance(f, Callable[[t1..tn], r]) is true exactly when f has n parameters and its declared types, if any, are compatible with t1..tn and r; undeclared types are compatible with everything; it does not raise. (Parameters are compared the wrong way round; Callable[..., r] and typing.Optional raise; exact meaning proved.)", "quantifier": "all functions, annotations, callable types and class hierarchies", "why_tests_cant": "ranges over all signatures and all type expressions", "anchors": ["pawpaw/_type_magic.py:functoid_isinstance", "pawpaw/_type_magic.py:_annotation_or_type_hint_matches_type"]}
{"id": "C100", "title": "Version.parse_re reads every canonical version, part by part", "statement": "For every version text is_canonical accepts (and with a leading v or V and white space around it), parse_re matches the whole text; each named group captures exactly the part it is named for, once, or nothing when the part is absent; and Ito.from_match makes of the match a tree whose children are the parts in order, pre/post/dev having their letter and number as children.", "quantifier": "all versions (any epoch, release length, pre/post/dev numbers, local segments), all surrounding white space", "why_tests_cant": "infinitely many versions; a backtracking pattern with overlapping optional parts", "anchors": ["pawpaw/_version.py:Version.parse_re", "pawpaw/ito.py:Ito.from_match"]}
{"id": "C101", "title": "Version.parse_re matches exactly the version spellings of PEP 440, appendix B", "statement": "parse_re matches a text exactly when the text is a version written by the rules of PEP 440 appendix B (optional v, epoch, release numbers, pre/post/dev with optional separators and numbers, implicit post release, local version, either case, white space around); it then matches all of it, and every group captures the corresponding part of one reading of the text, once, or nothing.", "quantifier": "all texts", "why_tests_cant": "acceptance must hold for every text, rejection for every other", "anchors": ["pawpaw/_version.py:Version.parse_re"]}
{"id": "C102", "title": "Paragraph splits a text at its breaks, and nowhere else", "statement": "Paragraph(min_separators=n, trim_ws=t).get_itor() makes of an Ito one childless Ito with desc 'paragraph' per paragraph, in order, and changes nothing else: a paragraph ends at the end of the text or at a break (n or more line ends with only blanks between), starts at its start or after a break, has no break in it, does not start with a blank line after a break nor end with white space before one; only blanks and line ends are outside paragraphs. With trim_ws paragraphs have no white space at their ends.", "quantifier": "all texts and parts of texts, all trees, all n from 1, both settings of trim_ws, all memories", "why_tests_cant": "all texts; greedy repetition with nested repetition; the trimmer loop runs past the start of the Ito", "anchors": ["pawpaw/nlp/nlp.py:Paragraph", "pawpaw/nlp/nlp.py:trimmable_ws", "pawpaw/ito.py:Ito.str_strip"]}
{"id": "C103", "title": "reading and deleting slices with a step of child lists", "statement": "children[a:b:s] gives the children at the positions Python's slice selects, in its order; del children[a:b:s] removes exactly those, keeps the others in order and leaves a consistent tree; a step of 0 raises ValueError without effect.", "quantifier": "all consistent object graphs, all bounds (negative, missing, out of range), all steps including negative ones", "why_tests_cant": "all lengths, bounds and steps; positions after removal", "anchors": ["pawpaw/ito.py:ChildItos.__getitem__", "pawpaw/ito.py:ChildItos.__delitem__"]}
{"id": "C104", "title": "assigning to slices with a step of child lists", "statement": "children[a:b:s] = itos replaces the children the slice selects by the values, leaving a consistent tree, or raises.", "quantifier": "all consistent object graphs, all bounds, all steps including negative ones, all values", "why_tests_cant": "all lengths, bounds and steps; positions after removal", "anchors": ["pawpaw/ito.py:ChildItos.__setitem__"]}
{"id": "C105", "title": "the regex_ methods match within the Ito", "statement": "ito.regex_search, regex_match, regex_fullmatch, regex_finditer (overlapped or not) and regex_findall give, for a pattern that does not look back, the matches of str(ito) with all groups, moved by ito.start; every match and group lies within the Ito, whatever the pattern; regex_fullmatch succeeds iff str(ito) is in the language of the pattern, regex_match iff a beginning is, regex_search at the first place where a part is; overlapped gives one match at every such place. ^ is the beginning of the string, not of the Ito.", "quantifier": "all strings, all valid spans, all patterns of the modelled language, overlapped or not", "why_tests_cant": "all patterns, all texts and all spans", "anchors": ["pawpaw/ito.py:Ito.regex_search", "pawpaw/ito.py:Ito.regex_match", "pawpaw/ito.py:Ito.regex_fullmatch", "pawpaw/ito.py:Ito.regex_findall", "pawpaw/ito.py:Ito.regex_finditer"]}
{"id": "C106", "title": "walking while the tree changes", "statement": "walk_descendants and walk_descendants_levels, forward and in reverse, are generators; whatever a program does to the tree between two items, the part of the tree that stays as it is all the time (and whose ancestors stay) is walked right: its objects are given once each, in document order (in reverse order), with their levels, and all of them if the walk ends. Every item is, when given, a child of the start or of an object given before. When nothing changes, the walk is that of the tree.", "quantifier": "all schedules: any sequence of consistent memories between items, any part that stays, any start", "why_tests_cant": "all interleavings of a generator with changes of the tree it walks", "anchors": ["pawpaw/ito.py:Ito.walk_descendants_levels", "pawpaw/ito.py:Ito.walk_descendants", "pawpaw/ito.py:ChildItos.__iter__"]}
{"id": "C107", "title": "removing children in a loop over them", "statement": "A loop over the children of an Ito that removes each of them leaves none and changes nothing else.", "quantifier": "all consistent object graphs, all Itos, any number of children", "why_tests_cant": "all graphs; iterator and list change together", "anchors": ["pawpaw/ito.py:ChildItos.__iter__", "pawpaw/ito.py:ChildItos.remove"]}
{"id": "C108", "title": "assigning filtered children to their own slice", "statement": "p.children[a:b] = those of p.children[a:b] that satisfy a predicate keeps exactly these, in place, and changes nothing else.", "quantifier": "all consistent object graphs, all bounds, all predicates, values given as a list or as an iterator", "why_tests_cant": "all graphs and predicates; the values are read after the deletion", "anchors": ["pawpaw/ito.py:ChildItos.__setitem__"]}
{"id": "C109", "title": "deepcopy copies the tree", "statement": "copy.deepcopy(ito) returns a new parentless Ito over the same string whose tree (spans, descs, order, nesting) is that of the original, made of new objects only; no existing object changes.", "quantifier": "all consistent object graphs and all Itos in them", "why_tests_cant": "all trees and memories", "anchors": ["pawpaw/ito.py:Ito.__getstate__", "pawpaw/ito.py:Ito.__setstate__"]}
{"id": "C110", "title": "value() follows value_func", "statement": "ito.value_func is the function of the last accepted assignment (or what a clone started with), value() is that function called on this very Ito, and str(ito) with none; an assignment of a function of the wrong signature raises TypeError and changes nothing; clearing never raises; the ValueFunc itorator behaves as the assignment.", "quantifier": "all histories of creations, assignments, clones and loads; all functions", "why_tests_cant": "all histories; binding of the function to the right object", "anchors": ["pawpaw/ito.py:Ito.value_func", "pawpaw/ito.py:Ito.value", "pawpaw/ito.py:Ito.clone", "pawpaw/arborform/itorator/value_func.py:ValueFunc"]}
{"id": "C111", "title": "copy.copy leaves the original alone", "statement": "copy.copy(ito) gives an Ito of its own and changes nothing of the original and its tree.", "quantifier": "all consistent object graphs and all Itos in them", "why_tests_cant": "aliasing, for all graphs", "anchors": ["pawpaw/ito.py:Ito.__getstate__", "pawpaw/ito.py:Ito.__setstate__", "pawpaw/ito.py:ChildItos"]}
{"id": "C112", "title": "box drawing characters", "statement": "Every character of U+2500-U+257F is found by its char and by its name; its arms are the ones its name says; turning it by any multiple of 90 degrees and mirroring it on any axis gives the character whose arms are turned (mirrored), and both compose as turns and mirrors do.", "quantifier": "all characters, all angles that are multiples of 90, all axes", "why_tests_cant": "a whole table, all integers as angles, compositions", "anchors": ["pawpaw/visualization/ascii_box.py:BoxDrawingChar", "pawpaw/visualization/ascii_box.py:BoxDrawingChar.rotate", "pawpaw/visualization/ascii_box.py:BoxDrawingChar.reflect"]}
{"id": "C113", "title": "boxes from their sides", "statement": "from_sides keeps the given sides, makes the missing ones, and each corner has, of all corners there are, the styles nearest to the side arms that touch it; sides may be given as characters or as str.", "quantifier": "all choices of one to four sides", "why_tests_cant": "all combinations of characters", "anchors": ["pawpaw/visualization/ascii_box.py:from_sides"]}
{"id": "C114", "title": "boxes from their corners", "statement": "from_corners, given one to four characters that can be placed as corners, each in a place of its own, keeps all of them at such places, makes the missing corners and gives each side the nearest styles to the corner arms that touch it; otherwise it raises ValueError. A corner may as well be given as str.", "quantifier": "all lists of characters", "why_tests_cant": "all lists and all placements", "anchors": ["pawpaw/visualization/ascii_box.py:from_corners"]}
{"id": "C115", "title": "A loop over find_all sees what a list of find_all has", "statement": "find_all is a chain of generators that read the tree item by item. Run that way over the objects in memory it gives the Itos, in the order and with the exception, that the query gives on the tree as a value; and for x in ito.find_all(path): body(x) visits the same Itos as a loop over list(ito.find_all(path)) and leaves the same tree, when body only changes x (sets its desc or value function, or removes it from its parent).", "quantifier": "all trees, start Itos, paths (any phrases, axes, filters) and loop bodies of that kind", "why_tests_cant": "Which items are read before and after a change depends on tree, path and position; a test tries a few.", "anchors": ["pawpaw/query/_query.py: Axis.find_all, to_ecs, Phrase.find_all, Query.find_all", "pawpaw/ito.py: walk_descendants, find_all"]}
{"id": "C116", "title": "The patterns in the source are the expressions the guarantees are about", "statement": "Each regular expression the library writes (is_canonical, Version parse_re, the XML patterns, sentences, words, chars and numbers of nlp, paragraphs, to_re_char_set, the table pattern of every style) compiles, and, read as the syntax of patterns prescribes, matches in the same ways, in the same order and with the same captures as the expression about which the other properties are proved; in particular computed patterns put every separator, decimal point and character literally, whatever it is.", "quantifier": "all texts searched, and for computed patterns all settings: separators, decimal points, histories of the Number object, characters, counts, table styles", "why_tests_cant": "Settings are arbitrary strings, some with a special meaning in patterns; the computed pattern must be right for each.", "anchors": ["pawpaw/_version.py", "pawpaw/nlp/nlp.py: Number, Paragraph, Sentence, SimpleNlp", "pawpaw/nlp/nlp.py: to_re_char_set", "pawpaw/xml/xml_parser.py, xml_helper.py: patterns", "pawpaw/table/table.py: _build_re"]}
{"id": "C117", "title": "Filters and sub-queries combine within a phrase", "statement": "find_all('AXIS F S'), where F is nothing or an expression of filters and S an expression of sub-queries {Q} (~, &, ^, |, parentheses, spaces anywhere between), keeps exactly those results of find_all('AXIS F') for which S is true, each {Q} standing for whether find_all(Q) finds something from there.", "quantifier": "all trees, start nodes, axes, expressions of filters, expressions of sub-queries (any nesting of operators, parentheses and queries)", "why_tests_cant": "Where the text of the filters ends and that of the sub-queries begins is found by scanning; texts and expressions are unbounded.", "anchors": ["pawpaw/query/_query.py: Phrase.__init__, EcfSubquery, EcfFilter, EcfCombined"]}
{"id": "C118", "title": "Texts accepted by the library's own patterns are read exactly as those patterns say", "statement": "For every text, the axis of a query phase, a bracketed query filter, a format directive, a line break found by str_splitlines and an ElementTree qualified name are recognised exactly where the pattern text in the source matches, with the end and the named groups (order, key, or_self; not, k, v; dir, lslice, conv, rslice, abbr_pos, width, abbr; namespace, name) that the pattern text yields under leftmost, greedy, in-order backtracking. In particular a filter value extends to the closing bracket, the abbreviation of a format directive takes all the rest of its segment, a CR LF pair is one line break, and a namespace ends at the first closing brace that leaves a non-empty name.", "quantifier": "all texts, all start positions, all environments of the regex engine (word, space and digit classes) whose space and digit classes are those the model uses", "why_tests_cant": "The set of texts is infinite and the patterns backtrack: a sample of accepted directives cannot show that no other split of the same text into groups is preferred.", "anchors": ["pawpaw/query/_query.py: Axis._re, EcfFilter._re", "pawpaw/xml/xml_helper.py: EtName._re", "pawpaw/ito.py: Ito._splitlines_re, Ito.str_splitlines, Ito.__format__"]}
{"id": "C119", "title": "An Extract runs with the settings given last", "statement": "After Extract(re, limit, desc, group_filter) has been made and any attributes (re, group_filter, limit, desc) assigned, calling it on an Ito yields what Ito.from_re yields for the pattern, group filter, descriptor and limit given last; an assignment that raises changes nothing, and settings that were each accepted never make a call raise.", "quantifier": "every pattern, group filter (container or predicate), descriptor, limit, sequence of assignments (failing ones included), and Ito; every regex engine", "why_tests_cant": "The settings meet in every order: a test of each setter alone does not show which combination a later call runs with, nor that a combination accepted piece by piece can fail on every input.", "anchors": ["pawpaw/arborform/itorator/extract.py: Extract", "pawpaw/arborform/itorator/regex_itorator.py: RegexItorator.re, RegexItorator.group_filter", "pawpaw/ito.py: Ito.from_re, GroupKeys.validate"]}
{"id": "C120", "title": "A clone of an itorator does what the itorator does", "statement": "itorator.clone(tag) makes a new itorator that yields from every Ito what the original yields, with the tag given or else the original's, and changes nothing about the itorators already made.", "quantifier": "every itorator (wrapped functions and the library's classes), every graph of connections, every Ito and state of memory", "why_tests_cant": "Equality of two pipelines is over all Itos, states of memory and interleavings of consumption with other code.", "anchors": ["pawpaw/arborform/itorator/itorator.py: Itorator.clone, Itorator.wrap, _WrappedItoratorEx", "pawpaw/arborform/itorator/*.py: clone"]}
{"id": "C121", "title": "Entities of ontology queries find what the discoveries at their path hold", "statement": "In pawpaw.ontology's queries, descape(escape(key)) is key for every key; a path of keys written with escape and joined with dots is read back as those keys; an entity with that path finds exactly the Itos held by the discoveries at and below that path that lie within the window, in the order of walk(), and raises KeyError when there is no such path; one entity after another finds all pairs of an Ito of the first and an Ito of the second that starts at or after the first one's stop, ordered by the first and then the second.", "quantifier": "all keys (any characters), all paths of any depth, all discoveries, all windows, all operands before an operation", "why_tests_cant": "Keys may contain the separator and the escape character in any arrangement, and discoveries nest to any depth: no finite set of keys shows that none is misread or lost.", "anchors": ["pawpaw/ontology/_query.py: escape, descape, _Entity, _Mul", "pawpaw/util.py: split_unescaped", "pawpaw/ontology/ontology.py: Discoveries.walk"]}
{"id": "C122", "title": "A document read from a file gives the Itos of the document read from a string", "statement": "ET.parse(source, parser=XmlParser()), with a source open as text, gives the same tree of Itos as ET.fromstring(text, parser=XmlParser()): the characters, spans, descriptors and nesting do not depend on how the document is cut into pieces that are fed to the parser one after another.", "quantifier": "every document, every size of read, every cut into pieces, with every encoding that decodes what it encodes", "why_tests_cant": "A test document is shorter than one read (65536 characters): the state kept between feeds is only seen on longer ones.", "anchors": ["pawpaw/xml/xml_parser.py: XmlParser.feed, XmlParser.close, _InternalIndexingParser"]}
{"id": "C123", "title": "Elements are found by local name, whatever their namespace", "statement": "XmlHelper.find_all_descendants_by_local_name(element, name) yields exactly the elements below the element (not itself) whose local name is name, in any namespace or none, each once and in document order; find_descendant_by_local_name gives the first of them, or None if there is none.", "quantifier": "every tree of elements, every name, every namespace expat accepts", "why_tests_cant": "Trees of any depth, with equal names at any places and in any namespaces.", "anchors": ["pawpaw/xml/xml_helper.py: XmlHelper.find_all_descendants_by_local_name, XmlHelper.find_descendant_by_local_name, XmlHelper.get_local_name"]}
{"id": "C124", "title": "descends_from, has_descendant, walk_descendants and get_root agree", "statement": "In every tree of Itos, x.walk_descendants() ends and yields exactly the Itos y with y.descends_from(x), each once, and in reverse with reverse=True; x.has_descendant(y) says the same; and y.get_root() is the parentless Ito that is y itself or has y as descendant: there is exactly one.", "quantifier": "every memory whose child lists are well-formed and whose parenthood is acyclic (see C24, C25 for the histories that lead there), every Ito in it", "why_tests_cant": "One goes up by parents, the other down by child lists: they agree on every tree only if the two are consistent everywhere, after every history.", "anchors": ["pawpaw/ito.py: Ito.descends_from, Ito.has_descendant, Ito.walk_descendants, Ito.get_root"]}
{"id": "C125", "title": "Malformed filter expressions are refused", "statement": "find_all raises, and yields nothing, when the filter expression of a phrase is not well formed: no binary operator between two filters, more than one binary operator between two filters, a binary operator before the first or after the last filter, or a different number of '(' and ')'.", "quantifier": "all trees, start nodes, axes, filters, and texts made of ~ & ^ | ( ) and spaces around them", "why_tests_cant": "The texts around and between the filters are unbounded and every combination of operators has its own reading.", "anchors": ["pawpaw/query/_query.py: EcfCombined.__init__, EcfCombined.func, EcfCombined._highest_precedence_diadic"]}
{"id": "C126", "title": "repr shows what an Ito is", "statement": "repr(ito) is the class name and, in parentheses, 'span=' with the span as a tuple, ', desc=' with repr(desc) and ', substr=' with repr(str(ito)). Two Itos of one class with the same repr have the same span, the same text and the same desc, whatever characters desc and text contain.", "quantifier": "all Itos and all pairs of Itos, over any strings and descriptors", "why_tests_cant": "Texts and descriptors are unbounded and may contain quotes, backslashes, percent signs and text that looks like the rest of a repr or like a format directive.", "anchors": ["pawpaw/ito.py: Ito.__repr__", "pawpaw/ito.py: Ito.__format__"]}
{"id": "C127", "title": "An argument of the wrong type is refused with TypeError", "statement": "Wherever an argument is refused for its type, TypeError is raised with a message that names the parameter, exactly the allowed types (those in a union one by one) and the argument (its signature if it is callable).", "quantifier": "all parameter names, argument values and lists of allowed types, nested to any depth", "why_tests_cant": "Any object can be passed, and whether inspect can tell the signature of a callable depends on the object.", "anchors": ["pawpaw/errors.py: Errors.parameter_invalid_type", "pawpaw/errors.py: Errors.parameter_iterable_contains_invalid_type", "pawpaw/errors.py: Errors._get_type_strs"]}
{"id": "C128", "title": "x |op| y is op(x, y)", "statement": "For an Infix op made from a function f, x |op| y and x <<op>> y and op(x, y) are f(x, y), and a chain x |op| y |op| z applies f from the left; with nuco the chain gives the first value that is not None.", "quantifier": "all functions, operands and lengths of chains", "why_tests_cant": "Operands are any objects, with | and << operators of their own or without, and chains have any length.", "anchors": ["pawpaw/infix.py: Infix", "pawpaw/ito.py: nuco"]}
{"id": "C129", "title": "Assigning Paragraph's settings takes effect", "statement": "After any sequence of assignments to separators, min_separators and trim_ws of a Paragraph, some of them refused, each property reads as the last value accepted, its pattern is that of these values, and a refused assignment changes nothing.", "quantifier": "all sequences of assignments of any arguments", "why_tests_cant": "Sequences of assignments, accepted and refused, are unbounded.", "anchors": ["pawpaw/nlp/nlp.py: Paragraph.separators", "pawpaw/nlp/nlp.py: Paragraph.min_separators", "pawpaw/nlp/nlp.py: Paragraph.trim_ws"]}
{"id": "C130", "title": "Connectors route by desc, and postorators can be functions", "statement": "A connector made with predicate=s acts on exactly the Itos whose desc is s when they reach it, one made with predicate=None on those without desc, one made with a function on those it is true of; so Delegate connectors for a table of descs send each Ito to the first entry for its desc and let the others pass. Anything else is refused. A postorator, or a function from Itos to Itos, assigned to postorator is applied to all the itorator yields; None takes it away; a refused value changes nothing.", "quantifier": "all tables, kinds of connectors, Itos, states of memory, functions and itorators", "why_tests_cant": "Tables, Itos and the changes to descs on the way are unbounded.", "anchors": ["pawpaw/arborform/itorator/itorator.py: Connector.__init__", "pawpaw/arborform/itorator/itorator.py: Itorator.postorator", "pawpaw/arborform/postorator/postorator.py: Postorator.wrap"]}
