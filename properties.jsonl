{"id": "C01", "title": "Equivalence verdict is exact", "statement": "check_equal(normalise(A), normalise(B), check_match_redundancy=False) returns True exactly when, for every packet header, the highest-priority matching rule of A and that of B have the same per-output actions (or neither ruleset has a matching rule).", "quantifier": "all pairs of finite single-table rulesets given in priority order, all packet headers over the 1584 header bits, every action value", "why_tests_cant": "The header space has 2^1584 points and rulesets are unbounded; sampling packets or rulesets can miss the single header on which two rulesets differ.", "anchors": ["ofequivalence/normalisebdd.py:check_equal", "ofequivalence/normalisebdd.py:normalise_divide_and_conquer", "ofequivalence/cuddbdd.py:wc_to_BDD", "c_src/cuddmodule.c:BDD_richcmp"]}
{"id": "C02", "title": "Both normalisation strategies give the identical canonical form", "statement": "For every non-empty list of rules normalise_divide_and_conquer and normalise_naive return equal (==) diagrams; for the empty list the first raises AssertionError while the second returns the empty diagram.", "quantifier": "all finite lists of rules in any order, both values of match_redundancy", "why_tests_cant": "The pairing tree depends on the list length; tests only exercise a few lengths and the result is compared by node identity.", "anchors": ["ofequivalence/normalisebdd.py:normalise_divide_and_conquer", "ofequivalence/normalisebdd.py:normalise_naive"]}
{"id": "C03", "title": "Normal form implements first-match forwarding", "statement": "Looking a packet up in the result of normalise yields the per-output actions of the first rule in the list whose match covers the packet, and nothing when no rule covers it.", "quantifier": "all rule lists, all packets", "why_tests_cant": "Shadowing interactions between arbitrarily many overlapping wildcards cannot be enumerated by tests.", "anchors": ["ofequivalence/normalisebdd.py:normalise_naive", "ofequivalence/normalisebdd.py:normalise_divide_and_conquer", "ofequivalence/bdd.py:meld_recursive"]}
{"id": "C04", "title": "Diagram equality is function equality under sharing, caching and eviction", "statement": "After any history of diagram operations, with any memo entries evicted at any time, two diagrams compare equal (node identity) exactly when they send every packet to the same action.", "quantifier": "all finite sequences of wc_to_BDD / + / intersection / subtract / difference calls on a shared node table, all cache eviction schedules", "why_tests_cant": "Identity comparison is only sound if an invariant of the shared node table survives every history; a test sees one history and never fills the 100000-entry caches.", "anchors": ["ofequivalence/bdd.py:check_ncache_rm_dup", "ofequivalence/bdd.py:check_ncache", "ofequivalence/bdd.py:BDD.__eq__", "ofequivalence/bdd.py:MERGE_CACHE", "c_src/cbddmodule.cpp:get_node"]}
{"id": "C05", "title": "Melding two diagrams is the left-biased union", "statement": "a + b maps every packet to a's action when a is defined there and to b's action otherwise; hence + is associative and idempotent and the empty diagram is its identity.", "quantifier": "all pairs and triples of well-formed diagrams, all packets", "why_tests_cant": "The recursion interleaves two diagrams of unbounded size with a has_none short cut; correctness needs induction on both.", "anchors": ["ofequivalence/bdd.py:meld_recursive", "c_src/cuddmodule.c:Cudd_addMeld", "c_src/cbddmodule.cpp:_meld_recursive"]}
{"id": "C06", "title": "Diagram intersection and subtraction are exact", "statement": "a.intersection(b) is defined exactly where both have the same action (with that action); a.subtract(b) is defined exactly where a is defined and b does not have the same action (with a's action).", "quantifier": "all pairs of well-formed diagrams, all packets", "why_tests_cant": "Unbounded pairs of diagrams; the empty/None cases interact with variable ordering.", "anchors": ["ofequivalence/bdd.py:intersection_recursive", "ofequivalence/bdd.py:subtract_recursive", "c_src/cuddmodule.c:Cudd_addIntersection", "c_src/cuddmodule.c:Cudd_addSubtract"]}
{"id": "C07", "title": "Reported difference covers exactly the disagreeing packets", "statement": "a.difference(b) is the empty diagram exactly when a and b forward all packets identically, and it marks exactly the packets on which the two disagree.", "quantifier": "all pairs of diagrams (total or partial), all packets", "why_tests_cant": "Any over- or under-report is confined to some packets of an astronomically large space; the code itself marks one branch as 'not sure about this case'.", "anchors": ["ofequivalence/bdd.py:difference_recursive", "c_src/cuddmodule.c:Cudd_addDifference"]}
{"id": "C08", "title": "Tagged difference carries the two conflicting actions", "statement": "a.difftagged(b) is empty exactly when a = b; on every packet where they disagree it yields the pair (action of a, action of b), decoded to the right original actions, as long as fewer than 2^26 distinct actions have been registered.", "quantifier": "all pairs of diagrams over registered terminals, all packets, all terminal ids below 2^26", "why_tests_cant": "The pair is packed into one floating point constant; collisions only show up for particular id combinations.", "anchors": ["c_src/cuddmodule.c:Cudd_addDiffTagged", "c_src/cuddmodule.c:ENCODE_TERMINAL", "c_src/cuddmodule.c:DECODE_TERMINAL", "ofequivalence/cuddbdd.py:BDD_to_wcs"]}
{"id": "C09", "title": "Wildcard to diagram conversion is exact", "statement": "wc_to_BDD(wc, act) maps a packet to act when the packet is covered by wc and to nothing otherwise; wc = 0 gives the empty diagram.", "quantifier": "all valid wildcards over 1584 ternary bits, all packets, all actions", "why_tests_cant": "3^1584 wildcards; index arithmetic (MSB first, reversed node numbers) must be right at every position.", "anchors": ["ofequivalence/bdd.py:wc_to_BDD", "c_src/cuddmodule.c:wc_to_BDD", "ofequivalence/cuddbdd.py:wc_to_BDD"]}
{"id": "C10", "title": "Diagram to wildcard enumeration is an exact disjoint cover", "statement": "BDD_to_wcs yields valid, pairwise disjoint wildcards whose union is the defined packet space, each labelled with the action the diagram gives to all its packets; converting one wildcard to a diagram and back returns that single wildcard.", "quantifier": "all well-formed diagrams, all packets", "why_tests_cant": "Number of paths is exponential; disjointness and coverage are universally quantified statements over packets.", "anchors": ["ofequivalence/bdd.py:BDD_to_wcs", "ofequivalence/bdd.py:_BDD_to_wcs", "c_src/cuddmodule.c:_BDD_to_wcs", "ofequivalence/cuddbdd.py:BDD_to_wcs"]}
{"id": "C11", "title": "Wildcard intersection is set intersection", "statement": "wildcard_intersect(a, b) covers exactly the packets covered by both a and b, and is 0 exactly when no packet is covered by both.", "quantifier": "all pairs of valid wildcards, all packets", "why_tests_cant": "Zero detection uses a bit trick over 3168 bits; a wrong mask width affects only particular bit positions.", "anchors": ["ofequivalence/headerspace.py:wildcard_intersect", "ofequivalence/headerspace.py:_generate_masks", "ofequivalence/rule.py:Match.overlaps"]}
{"id": "C12", "title": "Wildcard subset test is set inclusion", "statement": "wildcard_is_subset(a, b) is True exactly when every packet covered by a is covered by b, for non-empty a.", "quantifier": "all pairs of valid wildcards", "why_tests_cant": "Inclusion quantifies over all packets.", "anchors": ["ofequivalence/headerspace.py:wildcard_is_subset", "ofequivalence/rule.py:Match.issubset"]}
{"id": "C13", "title": "Union cover is the least enclosing wildcard", "statement": "wildcard_union_cover(a, b) covers everything a or b covers, and every valid wildcard covering both covers it.", "quantifier": "all valid wildcards a, b and all candidate covers", "why_tests_cant": "Minimality quantifies over all wildcards.", "anchors": ["ofequivalence/headerspace.py:wildcard_union_cover", "ofequivalence/rule.py:Match.union_cover"]}
{"id": "C14", "title": "Compressing a wildcard list keeps its union", "statement": "compress_wildcard_list(l) covers exactly the packets covered by l.", "quantifier": "all finite lists of valid wildcards, including lists with duplicates", "why_tests_cant": "Lists are unbounded and mutual-subset (duplicate) cases delete by index.", "anchors": ["ofequivalence/headerspace.py:compress_wildcard_list"]}
{"id": "C15", "title": "Match to wildcard encodes masked field equality", "statement": "A packet is covered by Match.get_wildcard() exactly when for each known field of the match the packet's field value agrees with the match value on all bits of the mask (all bits if mask is None).", "quantifier": "all matches (any set of fields, values, masks within width), all packets", "why_tests_cant": "56 fields with up to 128 bits each; the interleaving and offset arithmetic must be right for all values.", "anchors": ["ofequivalence/headerspace.py:flow_matches_to_wildcard", "ofequivalence/headerspace.py:build_field_offset", "ofequivalence/rule.py:Match.get_wildcard"]}
{"id": "C16", "title": "Wildcard to match round trip", "statement": "For every valid wildcard with unconstrained padding, converting to a Match and back gives the same wildcard; Match.intersection of overlapping matches covers exactly the common packets.", "quantifier": "all valid wildcards, all pairs of overlapping matches", "why_tests_cant": "The bit scan visits fields by position; missing a field only shows for particular wildcards.", "anchors": ["ofequivalence/headerspace.py:flow_wildcard_to_fields", "ofequivalence/headerspace.py:flow_wildcard_to_flowmatches", "ofequivalence/rule.py:Match.intersection"]}
{"id": "C17", "title": "Equal matches cover equal packets and hash equally", "statement": "Match equality implies equal wildcards (thus equal hash and equal packet sets), and matches built from normalised field triples are equal whenever they have the same wildcard.", "quantifier": "all matches built by any sequence of append / del / copy operations", "why_tests_cant": "Dictionary order and mask normalisation depend on the operation history.", "anchors": ["ofequivalence/rule.py:Match.__eq__", "ofequivalence/rule.py:Match.__hash__", "ofequivalence/rule.py:Match.append", "ofequivalence/rule.py:Match.__delitem__"]}
{"id": "C18", "title": "Bit interleaving is correct and invertible in every implementation", "statement": "morton_number(a, b) places bit i of a at position 2i and bit i of b at position 2i+1 for all sizes; RMorton undoes it; the C variants agree with the Python version on their domain.", "quantifier": "all non-negative integers a, b of any size", "why_tests_cant": "Unbounded integers and a 256-entry table combined recursively.", "anchors": ["ofequivalence/headerspace.py:morton_number", "ofequivalence/headerspace.py:RMorton", "c_src/utils.c:morton_number"]}
{"id": "C19", "title": "Canonical action order keeps every action and every dependency", "statement": "Iterating an ActionList yields a permutation of the appended actions in which any two order-dependent actions keep their original relative order.", "quantifier": "all sequences of append calls over all actions", "why_tests_cant": "Reordering behaviour depends on the whole list; there are unboundedly many lists.", "anchors": ["ofequivalence/rule.py:ActionList._append", "ofequivalence/rule.py:ActionList.__iter__", "ofequivalence/rule.py:ActionList.depends"]}
{"id": "C20", "title": "Action list equality is equality up to swapping independent actions", "statement": "Two ActionLists compare equal exactly when one appended sequence can be turned into the other by swapping adjacent actions that do not depend on each other.", "quantifier": "all pairs of append sequences", "why_tests_cant": "The statement quantifies over all reorderings of all lists; tests check a few permutations.", "anchors": ["ofequivalence/rule.py:ActionList.__eq__", "ofequivalence/rule.py:ActionList._append"]}
{"id": "C21", "title": "Removing an action equals never having added it", "statement": "After ActionList.remove(x) the list equals the list built from the appended sequence with the first occurrence of x left out.", "quantifier": "all append sequences and all x in them", "why_tests_cant": "Failure needs a particular interleaving of dependency levels; the random-removal unit test uses one fixed list.", "anchors": ["ofequivalence/rule.py:ActionList.remove", "ofequivalence/rule.py:ActionList.copy"]}
{"id": "C22", "title": "Concatenating action lists equals building from the concatenation", "statement": "a + b, a += b and a.copy(add=b) all equal the ActionList built from a's sequence followed by b's sequence.", "quantifier": "all pairs of action lists", "why_tests_cant": "b is re-read in canonical, not original, order; equality for all lists needs the commutation argument.", "anchors": ["ofequivalence/rule.py:ActionList.__add__", "ofequivalence/rule.py:ActionList.__iadd__", "ofequivalence/rule.py:ActionList.copy"]}
{"id": "C23", "title": "Action sets obey the OpenFlow action set rules", "statement": "After any sequence of appends an ActionSet holds at most one action per type (per field for set-field), the last written value wins, GROUP displaces OUTPUT and later OUTPUTs are ignored while a GROUP is present, and execution order follows the OpenFlow action-set order.", "quantifier": "all sequences of ActionSet.append calls", "why_tests_cant": "In-place replacement skips re-sorting; invariants must hold after every history.", "anchors": ["ofequivalence/rule.py:ActionSet.append", "ofequivalence/openflow_desc.py:action_set_order"]}
{"id": "C24", "title": "Redundancy removal does not change the packet", "statement": "Removing redundant actions from an action list leaves the effect of the list on every packet unchanged.", "quantifier": "all output-free action lists, all packets with any stack of tunnel headers", "why_tests_cant": "Push/pop nesting and interleaved fields are unbounded.", "anchors": ["ofequivalence/rule.py:ActionList._remove_redundant"]}
{"id": "C25", "title": "Per-output view determines the emitted packets", "statement": "Two action lists with equal per_output_actions emit the same packet on the same ports for every input packet.", "quantifier": "all action lists over OUTPUT and packet-modifying actions, all packets", "why_tests_cant": "Behaviour with repeated ports and reordered actions ranges over all lists.", "anchors": ["ofequivalence/rule.py:ActionList.per_output_actions", "ofequivalence/rule.py:ActionList._per_output_actions_list", "ofequivalence/rule.py:ActionList.equiv_equal"]}
{"id": "C26", "title": "Merged rule matches exactly the packets that traverse both rules", "statement": "first.merge(second) covers a packet exactly when first matches it and second matches the packet after first's set-field and metadata rewrites; a no-overlap exception is raised exactly when no packet does.", "quantifier": "all pairs of rules without push/pop actions, all packets", "why_tests_cant": "Interplay of masks, partial metadata writes and field rewrites is universally quantified.", "anchors": ["ofequivalence/rule.py:Rule.merge", "ofequivalence/rule.py:Rule._get_simulated_egress"]}
{"id": "C27", "title": "Merged instructions act like running both rules in sequence", "statement": "For every packet entering with an empty action set, executing the merged instructions gives the same packet, metadata, action set and next table as executing the first rule's instructions and then the second's.", "quantifier": "all pairs of instruction sets, all packets", "why_tests_cant": "Clear-actions, write-actions overrides and masked metadata combine in unboundedly many ways.", "anchors": ["ofequivalence/rule.py:Instructions.merge", "ofequivalence/rule.py:Rule.merge"]}
{"id": "C28", "title": "Single-table conversion preserves forwarding", "statement": "For every packet, the first matching rule of to_single_table(ruleset) yields the same actions as processing the packet through the multi-table pipeline.", "quantifier": "all multi-table rulesets with forward gotos and a catch-all in every table, all packets", "why_tests_cant": "Quantifies over pipelines of any depth and all packets.", "anchors": ["ofequivalence/ruleset.py:to_single_table", "ofequivalence/ruleset.py:single_table_condense", "ofequivalence/ruleset.py:to_single_table_scaled"]}
{"id": "C29", "title": "Priority scaling makes sums order lexicographically", "statement": "After scale_ruleset, the sum of priorities along one path through the tables is greater than along another exactly when the first differing table gives the higher original priority.", "quantifier": "all pipelines depths and all priorities below 65536", "why_tests_cant": "Carry between tables only happens for particular sums; unbounded number of tables.", "anchors": ["ofequivalence/ruleset.py:scale_ruleset", "ofequivalence/ruleset.py:MAX_PRIORITY"]}
{"id": "C30", "title": "Single table is returned in priority order", "statement": "to_single_table returns its rules in non-increasing merged priority, so list order and priority order agree on which rule a packet hits.", "quantifier": "all rulesets accepted by to_single_table", "why_tests_cant": "Ordering must hold for every combination of merged rules.", "anchors": ["ofequivalence/ruleset.py:to_single_table_scaled", "ofequivalence/ruleset.py:single_table_condense"]}
{"id": "C31", "title": "Recorded path is the path packets take", "statement": "The path stored on the single-table rule a packet hits is the sequence of original rules the packet hits table by table in the pipeline.", "quantifier": "all rulesets as for single-table conversion, all packets", "why_tests_cant": "All packets, all pipelines.", "anchors": ["ofequivalence/ruleset.py:single_table_condense", "ofequivalence/ruleset.py:to_single_table_scaled"]}
{"id": "C32", "title": "Tunnel push/pop simulation tracks header stacks", "statement": "For every packet matched by a rule, after the rule's apply-actions the packet is covered by get_goto_egress() of that rule.", "quantifier": "all rules with set-field, push and pop actions, all packets with any header stack", "why_tests_cant": "Depends on dictionary insertion order and stack depth.", "anchors": ["ofequivalence/rule.py:Rule.get_goto_egress", "ofequivalence/rule.py:promote_match", "ofequivalence/rule.py:demote_match"]}
{"id": "C33", "title": "Conflict attribution partitions the difference", "statement": "_collect_paths splits a difference into disjoint pieces whose union is the difference, each piece attributed to the first rule covering its packets (the empty path when none does); find_conflicting_paths lists for an original path exactly the new paths hit by some packet of its piece.", "quantifier": "all difference diagrams, all single-table rulesets, all packets", "why_tests_cant": "Quantifies over packets and rulesets.", "anchors": ["ofequivalence/normalisebdd.py:_collect_paths", "ofequivalence/normalisebdd.py:find_conflicting_paths"]}
{"id": "C34", "title": "Printed groups are the equivalence classes", "statement": "The equivalence checker's groups partition the given rulesets; two rulesets are printed on one line exactly when they forward every packet identically.", "quantifier": "all finite collections of rulesets", "why_tests_cant": "Only the first of each group is compared; correctness relies on transitivity for all inputs.", "anchors": ["ofequivalence/check_equivalence.py:main"]}
{"id": "C35", "title": "Direct dependencies are exact", "statement": "The diagram-based build_table_deps reports the edge (r, p) exactly when p has lower priority and some packet matching both r and p matches no rule of priority between (higher than p, lower than r), and labels it with exactly those packets (priorities distinct).", "quantifier": "all single-table rulesets with distinct priorities, all packets", "why_tests_cant": "All rulesets, all packets.", "anchors": ["ofequivalence/ruleset_deps_direct.py:build_table_deps", "ofequivalence/ruleset_deps_direct.py:add_parents_bdd"]}
{"id": "C36", "title": "Incremental dependency construction equals the batch result", "statement": "build_table_deps_incremental returns the same edges and packet spaces as build_table_deps for every table with distinct priorities and one lowest-priority match-all rule.", "quantifier": "all such rulesets, every insertion history", "why_tests_cant": "The pruned graph search must be complete for every intermediate DAG.", "anchors": ["ofequivalence/ruleset_deps_direct.py:build_table_deps_incremental", "ofequivalence/ruleset_deps_direct.py:dep_dag_insert", "ofequivalence/ruleset_deps_direct.py:_find_affected_edges"]}
{"id": "C37", "title": "Prefix-table dependencies equal the general ones", "statement": "For IPv4 prefix tables the chain algorithm reports exactly one edge per non-default rule, to its longest proper covering prefix, the same edge set as the general algorithm.", "quantifier": "all prefix tables with distinct prefixes and a default route", "why_tests_cant": "All sets of prefixes.", "anchors": ["ofequivalence/ruleset_deps_direct.py:build_prefix_table_deps", "ofequivalence/ruleset_deps_indirect.py:build_prefix_table_deps"]}
{"id": "C38", "title": "Header-space dependencies never miss an edge", "statement": "Every edge reported by the diagram-based algorithm is also reported by the header-space-based build_table_deps(use_bdd=False).", "quantifier": "all single-table rulesets", "why_tests_cant": "Empty-set detection is approximate; only an argument over all rulesets shows one-sidedness.", "anchors": ["ofequivalence/ruleset_deps_direct.py:add_parents_hs", "ofequivalence/headerspace.py:headerspace"]}
{"id": "C39", "title": "Indirect dependencies are exactly the overlapping lower-priority pairs", "statement": "Within a table the indirect build_table_deps reports (r, p) exactly when p has lower priority than r and some packet matches both; the wildcard and diagram variants agree.", "quantifier": "all single-table rulesets", "why_tests_cant": "All rulesets, all packets.", "anchors": ["ofequivalence/ruleset_deps_indirect.py:build_table_deps", "ofequivalence/ruleset_deps_indirect.py:add_parents_hs", "ofequivalence/ruleset_deps_indirect.py:add_parents_bdd"]}
{"id": "C40", "title": "Multi-table dependencies include every rule pair on a packet's path", "statement": "If some packet entering a table hits-or-matches rules r1, ..., rn along gotos then every (ri, rj), i<j is in the result of the indirect build_ruleset_deps.", "quantifier": "all multi-table rulesets without push/pop, all packets and start tables", "why_tests_cant": "All pipelines, all packets.", "anchors": ["ofequivalence/ruleset_deps_indirect.py:_recurse_goto_deps", "ofequivalence/ruleset_deps_indirect.py:build_ruleset_deps"]}
{"id": "C41", "title": "Dependency simplification keeps reachability", "statement": "simplify_tree only removes parent links and a rule's set of ancestors is unchanged; afterwards no parent of a node is also an ancestor of another of its parents (acyclic graphs without duplicate edges).", "quantifier": "all finite acyclic dependency graphs", "why_tests_cant": "All graphs; in-place edits while iterating.", "anchors": ["ofequivalence/ruleset.py:simplify_tree", "ofequivalence/ruleset.py:node_to_tree"]}
{"id": "C42", "title": "Similar-rule groups partition the ruleset stably", "statement": "create_similar_groups terminates and returns a partition of the ruleset in which all rules of a group are alike (table, priority, mask, goto, action types) and depend on and are depended on by the same groups.", "quantifier": "all rulesets and dependency graphs", "why_tests_cant": "Refinement loop over unbounded graphs.", "anchors": ["ofequivalence/ruleset.py:create_similar_groups"]}
{"id": "C43", "title": "Header-space set operations denote set operations", "statement": "headerspace add_hs / intersect / diff_hs / clean_up act as union / intersection / difference / identity on packet sets; is_empty() after clean_up True implies the set is empty.", "quantifier": "all sequences of operations, all packets", "why_tests_cant": "All histories and packets.", "anchors": ["ofequivalence/headerspace.py:headerspace"]}
{"id": "C44", "title": "BooleanShim keeps its meaning while simplifying", "statement": "BooleanShim.add(wc, True/False) intersects the denoted packet set with / subtracts from it exactly wc, through all simplifications, and its internal assertion never fails.", "quantifier": "all sequences of add calls with valid wildcards", "why_tests_cant": "All histories; excludes are pruned.", "anchors": ["ofequivalence/normaliseheaderspace.py:BooleanShim"]}
{"id": "C45", "title": "FIB conversion implements longest prefix match", "statement": "For a ruleset built by ruleset_from_fib from distinct aligned prefixes, the highest-priority rule matching a destination is the longest prefix containing it and outputs to the port assigned to that route's peer; distinct peers get distinct ports.", "quantifier": "all FIB files with distinct aligned prefixes, all IPv4 destinations", "why_tests_cant": "All tables and addresses.", "anchors": ["ofequivalence/convert_fib.py:ruleset_from_fib"]}
{"id": "C46", "title": "Terminal numbering is injective and stable", "statement": "After any sequence of wc_to_BDD calls, equal friendly actions have equal terminal ids, different ones different ids, ids never change, 0 means undefined, 1 is reserved for DIFFERS, and decoding a terminal gives back the action first registered for it.", "quantifier": "all call histories", "why_tests_cant": "State grows with the history.", "anchors": ["ofequivalence/cuddbdd.py:wc_to_BDD", "ofequivalence/cuddbdd.py:ACTION_MAPPING", "ofequivalence/cuddbdd.py:TERM_TO_ACTION"]}
{"id": "C47", "title": "Lazy no-op set-field check never equates different forwarding", "statement": "If check_equal with match redundancy returns True then for every packet the two rulesets emit the same packets on the same ports.", "quantifier": "all pairs of rulesets, all packets", "why_tests_cant": "All packets and actions.", "anchors": ["ofequivalence/normalisebdd.py:check_equal_match_redundancy", "ofequivalence/normalisebdd.py:check_equal"]}
{"id": "C48", "title": "Eager no-op set-field expansion preserves forwarding", "statement": "The expansion produced by normalise_set_fields for a rule covers exactly the packets of the rule, and the actions it assigns to a packet have the same effect on that packet as the rule's own actions.", "quantifier": "all rules without tunnel push/pop, all packets", "why_tests_cant": "Exponentially many field combinations.", "anchors": ["ofequivalence/normalisebdd.py:normalise_set_fields"]}
{"id": "C49", "title": "Letter numbering is a bijection", "statement": "format(AlphaInt(n), 'z') gives distinct non-empty lower-case strings for distinct n >= 0 and every non-empty lower-case string is produced.", "quantifier": "all non-negative integers, all non-empty strings over a-z", "why_tests_cant": "Infinite domain.", "anchors": ["ofequivalence/utils.py:AlphaInt.__format__"]}
{"id": "C50", "title": "Address formatting round trips", "statement": "normalise_bytes(format_ipv4(v)) = v, normalise_bytes(format_ethernet(v)) = v and normalise_bytes(format_ipv6(v)) = v for all values in range.", "quantifier": "all 32, 48 and 128 bit values", "why_tests_cant": "2^128 values.", "anchors": ["ofequivalence/format_utils.py:format_ipv4", "ofequivalence/format_utils.py:format_ethernet", "ofequivalence/format_utils.py:format_ipv6", "ofequivalence/format_utils.py:normalise_bytes"]}
{"id": "C51", "title": "Identity comparison mode is restored on exit", "statement": "After any properly nested use of UniqueRules blocks, left normally or by exception, Rule comparison is what it was before the outermost block, and inside it is identity.", "quantifier": "all nesting structures and exit orders of with-blocks", "why_tests_cant": "All nestings and exception points.", "anchors": ["ofequivalence/rule.py:UniqueRules"]}
{"id": "C52", "title": "Attached diagrams are removed exactly once", "statement": "After any properly nested AttachBDD blocks over one non-empty ruleset no rule keeps an as_BDD attribute and no block exit fails.", "quantifier": "all nesting structures of blocks over a shared ruleset", "why_tests_cant": "All nestings.", "anchors": ["ofequivalence/utils.py:AttachBDD"]}
{"id": "C53", "title": "Bit reversal option does not change equivalence", "statement": "Applying reverse_fields to two rulesets preserves whether they are equivalent.", "quantifier": "all pairs of rulesets", "why_tests_cant": "All rulesets; needs a bijection on packets.", "anchors": ["ofequivalence/check_equivalence.py:reverse_fields"]}
{"id": "C54", "title": "Automatic memory limit stays within the documented bounds", "statement": "When automatically_limit_memory sets a limit, it reserves at most max_res and at most res_perc percent of the free memory, never allows less than m_min, and an existing limit is never changed.", "quantifier": "all free-memory values, all parameter values", "why_tests_cant": "All integers; rounding of percentages.", "anchors": ["ofequivalence/limits.py:automatically_limit_memory"]}
{"id": "C55", "title": "Independent actions commute", "statement": "Whenever ActionList.depends(a, b) is False, executing a then b has the same effect on every packet (headers, TTLs, queue, emitted packets) as b then a; and for pairs the table calls dependent the order can matter.", "quantifier": "all pairs of actions with any parameters, all packets and header stacks", "why_tests_cant": "All parameter values and all header stacks; tests only ever try the pairs they list.", "anchors": ["ofequivalence/rule.py:ActionList.depends", "ofequivalence/openflow_desc.py:action_dependencies"]}
{"id": "C56", "title": "Equal action lists have equal effect", "statement": "The canonical iteration order of an ActionList has the same effect on every packet as the order the actions were appended in, and two ActionLists that compare equal have the same effect on every packet.", "quantifier": "all action lists, all packets", "why_tests_cant": "Quantifies over all lists and packets; needs commutation through every reordering.", "anchors": ["ofequivalence/rule.py:ActionList.__eq__", "ofequivalence/rule.py:ActionList.__iter__", "ofequivalence/rule.py:ActionList._append"]}
{"id": "C57", "title": "Header-space comparison is sound", "statement": "normalise + check_equal of normaliseheaderspace raise nothing on non-empty rulesets, and answer True only if every packet is treated alike by both rulesets: the first matching rules have the same actions or no rule matches in either. With diff=True every packet of a reported key is treated differently.", "quantifier": "all non-empty rule lists with valid wildcards, all packets, any order of set iteration", "why_tests_cant": "Quantifies over all rulesets and packets; the code merges over all pairs of fields.", "anchors": ["ofequivalence/normaliseheaderspace.py:normalise", "ofequivalence/normaliseheaderspace.py:merge_rules", "ofequivalence/normaliseheaderspace.py:check_equal"]}
{"id": "C58", "title": "Rulesets printed on one line forward alike", "statement": "check_equivalence prints every given ruleset exactly once, with or without -d; two rulesets on the same line forward every packet in the same way through their tables (same ports, same packets), and for two on different lines there is a packet that their single tables label differently.", "quantifier": "all numbers of files, all multi-table rulesets, all packets", "why_tests_cant": "Quantifies over all rulesets and packets and over the order in which earlier files fill the shared terminal table.", "anchors": ["ofequivalence/check_equivalence.py:main", "ofequivalence/ruleset.py:to_single_table", "ofequivalence/normalisebdd.py:check_equal"]}
{"id": "C59", "title": "The library's default check is right about multi-table pipelines", "statement": "to_single_table, normalise and check_equal(default arguments) on two pipelines always give an answer, whatever was normalised before and in between, and True means that every packet run through the tables of one comes out as it does from the tables of the other.", "quantifier": "all pairs of pipelines, all packets, all earlier use of the library in the process", "why_tests_cant": "Whole-program statement about all packets and all pipelines.", "anchors": ["ofequivalence/ruleset.py:to_single_table", "ofequivalence/normalisebdd.py:normalise_divide_and_conquer", "ofequivalence/normalisebdd.py:check_equal"]}
{"id": "C60", "title": "IPv6 text is read as the address it stands for", "statement": "normalise_bytes of an IPv6 text, with eight groups or with one double colon for one or more zero groups, is the value of the address.", "quantifier": "all group texts, all positions of the double colon", "why_tests_cant": "Quantifies over all texts; the boundary cases (seven groups before or after the double colon) are easy to miss.", "anchors": ["ofequivalence/format_utils.py:normalise_bytes"]}
{"id": "C61", "title": "Compression keeps the dependencies between groups", "statement": "If compress_ruleset returns, its ruleset consists of exactly one rule of every group of similar rules, in the order of tables and priorities, the returned mapping takes each of them to its group, and for every dependency between two rules of the original ruleset the rules chosen for their groups depend on each other in the same way.", "quantifier": "all rulesets, all dependency lists whose parents come before their children, all iteration orders of sets", "why_tests_cant": "The choice for one group restricts the choices for others; quantifies over all graphs and all runs of a search that changes its own earlier choices.", "anchors": ["ofequivalence/ruleset.py:compress_ruleset", "ofequivalence/ruleset.py:select_compressed_ruleset", "ofequivalence/ruleset.py:_switch_assigned"]}
{"id": "C62", "title": "Compression does not fail", "statement": "compress_ruleset raises nothing on any non-empty ruleset whose keys can be compared.", "quantifier": "all rulesets and their computed dependencies", "why_tests_cant": "Needs a ruleset for which no choice exists, which random or hand-written tests hardly contain.", "anchors": ["ofequivalence/ruleset.py:select_compressed_ruleset"]}
{"id": "C63", "title": "The compression tool writes the compressed ruleset", "statement": "With --output, the script compress_ruleset saves the ruleset that it reports as compressed.", "quantifier": "all rulesets", "why_tests_cant": "The script has no tests; any ruleset with two similar rules shows it.", "anchors": ["ofequivalence/compress_ruleset.py:main"]}
{"id": "C64", "title": "Moving tunnel-field matches inwards and outwards is exact", "statement": "demote_match(match, field, n) yields a match that accepts exactly the packets that the old match accepts once n headers are removed, and is refused exactly when a matched copy would leave HEADER_DEPTH; promote_match is its converse and is refused exactly when a copy within the first n headers is matched.", "quantifier": "all matches with any combination of copies of a tunnel field in any dict order, all n, all packets with any header stack", "why_tests_cant": "Depends on which copies are present and on the insertion order of the dict; tests only push or pop one header.", "anchors": ["ofequivalence/rule.py:demote_match", "ofequivalence/rule.py:promote_match"]}
{"id": "C65", "title": "Merging behind pushes and pops matches exactly the packets that traverse both rules", "statement": "Where first pushes and pops headers, first.merge(second, openflow=False) accepts a packet exactly when first accepts it and second accepts the packet handed on; with openflow=True a merge exception is raised exactly when inner headers would have to be matched.", "quantifier": "all pairs of rules with set-field, push and pop actions, all packets with any header stack", "why_tests_cant": "Header stacks, rewritten fields and promoted/demoted matches interact; only universally quantified reasoning over stacks covers it.", "anchors": ["ofequivalence/rule.py:Rule.merge", "ofequivalence/rule.py:Rule._get_simulated_egress", "ofequivalence/rule.py:demote_match"]}
{"id": "C66", "title": "Rules written as Open vSwitch text are read back", "statement": "rule_from_ovs(rule_to_ovs(rule)) is a rule with the same priority, table, cookie, match, applied and written actions, metadata, goto and meter.", "quantifier": "all rules whose fields and actions have an Open vSwitch notation, with all values and masks in range", "why_tests_cant": "Two hand-written translations with some sixty keywords and several number formats; a test covers single values of single fields.", "anchors": ["ofequivalence/convert_ovs.py:rule_to_ovs", "ofequivalence/convert_ovs.py:rule_from_ovs", "ofequivalence/convert_ovs.py:match_to_ovs", "ofequivalence/convert_ovs.py:instructions_to_ovs"]}
{"id": "C67", "title": "Open vSwitch text is read as Open vSwitch means it", "statement": "match_from_ovs, instructions_from_ovs and rule_from_ovs give the match and the instructions that ovs-fields(7) and ovs-actions(7) document for the text, or refuse it.", "quantifier": "all texts made of documented keywords, all values", "why_tests_cant": "Quantifies over all combinations of keywords; what a keyword means depends on others (tp_dst on the protocol).", "anchors": ["ofequivalence/convert_ovs.py:_add_match", "ofequivalence/convert_ovs.py:_parse_next_action", "ofequivalence/convert_ovs.py:_parse_next_instruction"]}
{"id": "C68", "title": "Equality of rules is an equivalence, agrees with hash, and equal rules do the same", "statement": "__eq__ of Rule, Instructions, ActionList, ActionSet and Match is reflexive, symmetric and transitive, equal objects have equal hashes, and equal rules match the same packets and do the same to them.", "quantifier": "all rules however built", "why_tests_cant": "Caches and the internal levels of an action list depend on how the object was built; quantifies over all ways to build it.", "anchors": ["ofequivalence/rule.py:Rule.__eq__", "ofequivalence/rule.py:Rule.__hash__", "ofequivalence/rule.py:Match.__hash__", "ofequivalence/rule.py:Instructions.__hash__"]}
{"id": "C69", "title": "Files of flows and groups are read line by line, groups first", "statement": "ruleset_from_ovs gives exactly the rules of the flow lines, in their order, each with the groups defined anywhere in the file; a group line is read as the group with the documented number, type and buckets; ruleset_from_ovs(ruleset_to_ovs(rules)) gives equal rules.", "quantifier": "all files made of documented group lines, flow lines and other lines in any order, all rulesets that can be written", "why_tests_cant": "Quantifies over all files, all interleavings of lines and all forms of buckets.", "anchors": ["ofequivalence/convert_ovs.py:ruleset_from_ovs", "ofequivalence/convert_ovs.py:ruleset_to_ovs", "ofequivalence/convert_ovs.py:_parse_group", "ofequivalence/convert_ovs.py:_parse_bucket"]}
{"id": "C70", "title": "Rules converted to Ryu flow mods are read back", "statement": "rule_from_ryu(rule_to_ryu(rule)[0]) is a rule equal to rule.", "quantifier": "all rules over OpenFlow 1.3 fields, all values and masks in range, all actions", "why_tests_cant": "Values pass through the bytes of the wire format and are parsed again; whether that goes well depends on the value, in a few out of 2^16 or 2^128 cases.", "anchors": ["ofequivalence/convert_ryu.py:rule_to_ryu", "ofequivalence/convert_ryu.py:rule_from_ryu", "ofequivalence/convert_ryu.py:match_from_ryu", "ofequivalence/format_utils.py:normalise_bytes"]}
{"id": "C71", "title": "Ryu messages keep their OpenFlow meaning in both directions", "statement": "The rule read from a flow message accepts the packets that the message's match accepts, and applying its instructions does what OpenFlow 1.3 prescribes for the message's instructions; the flow mod written for a rule likewise means the same as the rule.", "quantifier": "all flow messages without meters, all rules without metadata and meters, all packets and action sets", "why_tests_cant": "Quantifies over all instruction lists, action orders and packets.", "anchors": ["ofequivalence/convert_ryu.py:instructions_from_ryu", "ofequivalence/convert_ryu.py:actions_from_ryu", "ofequivalence/convert_ryu.py:instructions_to_ryu", "ofequivalence/convert_ryu.py:actions_to_ryu", "ofequivalence/convert_ryu.py:match_to_ryu"]}
{"id": "C72", "title": "Groups are sent before they are used, under valid and different numbers", "statement": "In the messages that rule_to_ryu returns, every group used by the flow or by a bucket is defined by an earlier message with the group's type and buckets; groups get different numbers, in the OF-DPA format for the group tables that it names, and the next unused number otherwise.", "quantifier": "all rules with groups nested to any depth, all histories of the counter", "why_tests_cant": "Depends on the history of a counter that is shared by all calls, and on the nesting of groups.", "anchors": ["ofequivalence/convert_ryu.py:group_to_ryu", "ofequivalence/convert_ryu.py:group_ofdpa_id", "ofequivalence/convert_ryu.py:actions_to_ryu"]}
{"id": "C73", "title": "Automatic detection of the format", "statement": "load_ruleset(source, 'auto') gives what the loader of the file's format gives, whatever the order in which the loaders are tried, and raises ValueError for a file of no known format.", "quantifier": "all files, all names, all iteration orders of the set of loaders", "why_tests_cant": "The order of the loaders is that of a set of functions, which differs from run to run.", "anchors": ["ofequivalence/convert_ruleset.py:ruleset_from_auto", "ofequivalence/convert_ruleset.py:load_ruleset"]}
{"id": "C74", "title": "TTP flows are converted with their meaning", "statement": "rule_from_ttp gives a rule that accepts the packets of the flow's match set and whose instructions do what OpenFlow prescribes for the flow's instructions, or raises an exception.", "quantifier": "all built-in TTP flows", "why_tests_cant": "Quantifies over all lists of fields, instructions and actions; the converter has no tests.", "anchors": ["ofequivalence/convert_ttp.py:rule_from_ttp", "ofequivalence/convert_ttp.py:match_from_ttp", "ofequivalence/convert_ttp.py:instructions_from_ttp", "ofequivalence/convert_ttp.py:actions_from_ttp"]}
{"id": "C75", "title": "Header-space conflicts name the paths that the differing packets take", "statement": "In the result of find_conflicting_paths on the difference of two rulesets, for every packet of the difference the path it takes in the original ruleset is mapped to a set that has the path it takes in the new one; a path that is named belongs to a rule that matches the packets of a difference.", "quantifier": "all pairs of rulesets whose comparison returns a difference, all packets, all iteration orders of the sets", "why_tests_cant": "The test compares one included wildcard with the rules and relies on how the two normal forms were cut up by all rules of both rulesets.", "anchors": ["ofequivalence/normaliseheaderspace.py:find_conflicting_paths", "ofequivalence/normaliseheaderspace.py:_collect_paths", "ofequivalence/normaliseheaderspace.py:BooleanShim.matches"]}
{"id": "C76", "title": "Wildcards are printed bit by bit", "statement": "flow_wildcard_to_string gives for each field, in reverse order, its name and one of 0, 1, x for each of its bits, most significant first; wc_int_to_string likewise for the whole; flow_wildcard_zero and flow_wildcard_one are the wildcards of the packets with all bits 0 and all bits 1; flow_wildcard_read_field gives the text of one field; find_smallest_set_bit gives the lowest bit that is not x.", "quantifier": "all wildcards without empty bits", "why_tests_cant": "Debugging helpers without tests, written for an earlier representation of wildcards.", "anchors": ["ofequivalence/headerspace.py:flow_wildcard_to_string", "ofequivalence/headerspace.py:wc_int_to_string", "ofequivalence/headerspace.py:flow_wildcard_zero", "ofequivalence/headerspace.py:flow_wildcard_one", "ofequivalence/headerspace.py:flow_wildcard_read_field", "ofequivalence/headerspace.py:find_smallest_set_bit"]}
{"id": "C77", "title": "Collecting the C++ node table frees exactly the nodes out of use", "statement": "gc_node_cache removes from NODE_CACHE exactly the nodes that cannot be reached from a reference held outside of the table; its assertions hold, every deletion finds its node, and no node in use is freed.", "quantifier": "all node tables, all references held from outside, all iteration orders", "why_tests_cant": "Works on reference counts of shared nodes, with two counts from the table itself; a wrong constant shows only for particular sharing and leads to memory errors.", "anchors": ["c_src/cbddmodule.cpp:gc_node_cache", "c_src/cbddmodule.cpp:BDDNode_dealloc"]}
{"id": "C78", "title": "C++ diagrams stay canonical under collection and address reuse", "statement": "With the C++ node table, two live diagrams are the same object exactly if they are the same function, and each is the function that the calls which made it define, whatever is collected in between, wherever new nodes are allocated, and whatever the operation caches and the rule cache (keyed by the address of a terminal) have dropped.", "quantifier": "all histories of wc_to_BDD (for wildcards without empty bits), meld, difference, subtract, intersection, releases and collections; all allocators; all evictions", "why_tests_cant": "Addresses of freed nodes are used again while caches keyed by address survive; only an invariant over all histories excludes a stale hit.", "anchors": ["c_src/cbddmodule.cpp:get_node", "c_src/cbddmodule.cpp:_meld_recursive", "c_src/cbddmodule.cpp:gc_node_cache", "ofequivalence/cbdd.py:wc_to_BDD", "ofequivalence/cbdd.py:check_ncache"]}
{"id": "C79", "title": "Equal canonical instructions are interchangeable", "statement": "If Instructions.canonical() of two instructions is equal then both do the same to every packet and action set, also when merged with the same instructions before or after.", "quantifier": "all instructions, all packets, all contexts", "why_tests_cant": "Quantifies over all contexts; the flattening of groups and removal of redundant actions is only sound in some.", "anchors": ["ofequivalence/rule.py:Instructions.canonical", "ofequivalence/rule.py:ActionList.per_output_actions", "ofequivalence/rule.py:Instructions.merge"]}
{"id": "C80", "title": "CUDD diagrams are enumerated completely and released completely", "statement": "Iterating over a BDD gives wildcards with their actions that are disjoint and cover exactly the packets with an action, as many as len() of the iterator, and again after a restart; when the last BDD object is released no node stays referenced.", "quantifier": "all diagrams, all histories of building and releasing BDD objects", "why_tests_cant": "Reference counts are wrong only in the sum over a history; tests look at results and not at nodes kept.", "anchors": ["c_src/cuddmodule.c:BDDIterator_next", "c_src/cuddmodule.c:size_rec", "c_src/cuddmodule.c:wc_to_BDD", "c_src/cuddmodule.c:BDD_dealloc", "c_src/cuddmodule.c:bmeld_recursive"]}
{"id": "C81", "title": "Action lists are indexed as they are iterated", "statement": "l[i] is the i-th item of iteration for every index in range, from either end, and raises IndexError otherwise; l.index(x) is the position of the first x, or ValueError; sorting a list of actions at once gives the order that adding them one at a time gives.", "quantifier": "all action lists, all indices", "why_tests_cant": "Levels of different sizes and negative indices; quantifies over all lists.", "anchors": ["ofequivalence/rule.py:ActionList.__getitem__", "ofequivalence/rule.py:ActionList.index", "ofequivalence/rule.py:ActionList.__do_sort"]}
{"id": "C82", "title": "A diagram's nodes are visited and counted once", "statement": "BDD.walk yields every node reachable from the root exactly once, children before parents; len(bdd) is their number in all three back ends, and no ordered diagram of the same function has fewer nodes; to_dot draws each node and each branch of a node once.", "quantifier": "all diagrams", "why_tests_cant": "Depends on how nodes are shared; quantifies over all diagrams and all other diagrams of the same function.", "anchors": ["ofequivalence/bdd.py:BDD.walk", "ofequivalence/bdd.py:BDD.to_dot", "ofequivalence/bdd.py:BDD.__len__", "c_src/cuddmodule.c:BDD_len"]}
{"id": "C83", "title": "Direct dependencies across tables are exact", "statement": "ruleset_deps_direct.build_ruleset_deps returns exactly the direct dependencies within each table and, between tables, the pairs (r, s) such that some packet leaving r for its goto table meets s first there; so any two rules that a packet hits one after the other are dependent.", "quantifier": "all multi-table rulesets, all packets, both ways to build the tables, both packet encodings", "why_tests_cant": "Quantifies over packets rewritten by r and over all rules above s; tests have a few small pipelines.", "anchors": ["ofequivalence/ruleset_deps_direct.py:build_ruleset_deps", "ofequivalence/ruleset_deps_direct.py:add_parents_bdd"]}
{"id": "C84", "title": "The layout places children below their parents", "statement": "directed_layout gives every node a position of its own within the box; whenever there is an edge between two nodes the second is placed lower than the first.", "quantifier": "all graphs whose edges follow the order of the rules, with and without groups, push_down and cluster", "why_tests_cant": "Pushing nodes down moves them past others in a loop over a list that is being changed; quantifies over all graphs.", "anchors": ["ofequivalence/graph_ruleset_deps.py:directed_layout"]}
{"id": "C85", "title": "The dependency graph shows all rules and dependencies", "statement": "build_graph gives a graph whose edges are the dependencies and whose nodes are the rules of the ruleset; the rules it leaves out as unreachable are those that no packet hits.", "quantifier": "all rulesets", "why_tests_cant": "Rules without any dependency do not occur in small examples with table-miss rules.", "anchors": ["ofequivalence/graph_ruleset_deps.py:build_graph", "ofequivalence/graph_ruleset_deps.py:number_groups"]}
{"id": "C86", "title": "Node numbers name header bits", "statement": "BDD_INDEX_TO_FIELD maps every node number of a CUDD diagram to the field and bit that the node tests; different numbers to different bits, and the numbers left out are those of padding.", "quantifier": "all node numbers, all packets", "why_tests_cant": "A table of 1584 entries computed at import from offsets of fields in reversed order.", "anchors": ["ofequivalence/cuddbdd.py:_generate_bdd_index_to_field"]}
{"id": "C87", "title": "Functions on files get a handle of the right kind", "statement": "A function decorated with as_file_handle is called with a file handle opened in the decorator's mode, text or binary, whether it was given a path, a compressed path or an open handle, by position or by keyword; its result or exception is passed on, files opened by the wrapper are closed, handles of the caller stay open.", "quantifier": "all modes, all kinds of arguments, functions that return or raise", "why_tests_cant": "Combination of modes, argument styles and exceptions; tests pass a path by position.", "anchors": ["ofequivalence/utils.py:as_file_handle", "ofequivalence/utils.py:open_compressed"]}
{"id": "C88", "title": "Fields set on the way to the next table", "statement": "Rule.get_goto_set_fields gives the fields that the apply-actions set, each once, with the value that the packet has in that field when it is handed on.", "quantifier": "all rules, all packets", "why_tests_cant": "Order of actions, repeated fields and push or pop in between.", "anchors": ["ofequivalence/rule.py:Rule.get_goto_set_fields"]}
{"id": "C89", "title": "Differing paths are shown rule by rule", "statement": "format_path gives the texts of the rules of the path in their order; the first as it is, the lines of each later rule indented by a tab, with an arrow on exactly one of them.", "quantifier": "all paths of rules, python 2 and 3", "why_tests_cant": "The place of the arrow is a division that python 3 makes a float; it is only reached with an option that tests do not use.", "anchors": ["ofequivalence/check_equivalence.py:format_path", "ofequivalence/rule.py:Rule.__str__"]}
{"id": "C90", "title": "The text of a rule identifies it", "statement": "If str(r) = str(s) for two rules then r == s; the text has six lines.", "quantifier": "all rules without groups whose values fit their fields", "why_tests_cant": "Quantifies over all pairs of rules; five number formats, nested tuples and optional parts are concatenated.", "anchors": ["ofequivalence/rule.py:Rule.__str__", "ofequivalence/rule.py:Instructions.__str__", "ofequivalence/rule.py:ActionList.__str__", "ofequivalence/rule.py:Match.__str__", "ofequivalence/format_utils.py:FORMATTERS"]}
{"id": "C91", "title": "Hashes of diagram nodes agree with equality", "statement": "Equal nodes and equal terminations have the same hash in both implementations, so that the node table finds an equal object if there is one; a C++ hash is never -1, the value that stands for an error.", "quantifier": "all nodes, all actions, hashable or not", "why_tests_cant": "Hash collisions and objects that cannot be hashed; quantifies over all of 2^192 nodes.", "anchors": ["ofequivalence/bdd.py:BDDTermination.__hash__", "ofequivalence/bdd.py:BDDNode.__hash__", "c_src/cbddmodule.cpp:BDDTerm_hash", "c_src/cbddmodule.cpp:BDDNode_hash", "c_src/cbddmodule.cpp:BDDTerm_richcmp"]}
{"id": "C92", "title": "A ruleset that is saved is loaded again", "statement": "load_ruleset(save_ruleset(rules, file, format), format) gives rules equal to the saved ones, in their order, for every format that can be both written and read; a format that cannot be written is refused.", "quantifier": "all rulesets that the formats can hold", "why_tests_cant": "Quantifies over all rulesets and formats; the formats differ in what they drop.", "anchors": ["ofequivalence/convert_ruleset.py:save_ruleset", "ofequivalence/convert_ruleset.py:load_ruleset", "ofequivalence/convert_ryu.py:ruleset_from_pickle", "ofequivalence/convert_ryu.py:ruleset_to_pickle", "ofequivalence/convert_ryu.py:ruleset_from_ryu"]}
{"id": "C93", "title": "Drawings refer to the right nodes", "statement": "In the page made by create_d3 each link leads between the places of its two rules in the list of nodes; reorder_dot hands out the sequence numbers in use, each once, in the order of the sort key; in create_dot each node is in the box of its cluster and each group is kept below the one before.", "quantifier": "all graphs", "why_tests_cant": "Places are looked up by equality of rules, nodes by their text; quantifies over all graphs.", "anchors": ["ofequivalence/graph_ruleset_deps.py:create_d3", "ofequivalence/graph_ruleset_deps.py:reorder_dot", "ofequivalence/graph_ruleset_deps.py:create_dot"]}
{"id": "C94", "title": "Calls that are refused change nothing", "statement": "A call of a function or method of the C++ module with arguments that it refuses raises an exception and leaves all nodes, tables and settings as they were; a call that is accepted does what it says.", "quantifier": "all arguments, all states", "why_tests_cant": "Error paths of C code are not tested; assignments happen before checks.", "anchors": ["c_src/cbddmodule.cpp:BDDNode_init", "c_src/cbddmodule.cpp:BDDTerm_init", "c_src/cbddmodule.cpp:set_cleanup_threshold", "c_src/cbddmodule.cpp:memory_cleanup"]}
{"id": "C95", "title": "OpenFlow constants are found under both names", "statement": "No constant is defined twice, so building the description does not fail; value_from_OFP gives the value of a constant with or without the leading OFP and None for other names; the number of every field is the one of the OFPXMT_OFB constant of its name; the reserved numbers and the enumerations have the values of the standard.", "quantifier": "all names", "why_tests_cant": "Some three hundred constants in forty tables, with names that differ in a letter.", "anchors": ["ofequivalence/openflow_desc.py:OpenFlowDescription.value_from_OFP", "ofequivalence/openflow_desc.py:OpenFlowDescription.merge_dicts", "ofequivalence/openflow_desc.py:OpenFlow1_3_5"]}
{"id": "C96", "title": "Collected state has every answer that was given", "statement": "The file written by collect_state has an entry for each request that the switch answered, with all parts of the answer, whatever happens to the other requests; the flows can then be loaded as a ruleset.", "quantifier": "all sequences of answers and failures, all orders of switches", "why_tests_cant": "Depends on which of sixteen requests fail and how; needs a switch.", "anchors": ["scripts/collect_state.py:MatchTTP.handle_datapath", "ofequivalence/convert_ryu.py:ruleset_from_pickle"]}
{"id": "C97", "title": "Option -D explains the difference between lines", "statement": "With -D check_equivalence compares the first rulesets of successive lines; the pairs of paths printed are exactly the pairs of paths, one through each ruleset, that some packet takes which the two single tables label differently. At least one pair is printed, and every packet forwarded differently has its pair printed. Every two rulesets on different lines are compared.", "quantifier": "all numbers of files, all multi-table rulesets, all packets", "why_tests_cant": "Composes flattening, diagram construction, difference and attribution; quantifies over all packets.", "anchors": ["ofequivalence/check_equivalence.py:main", "ofequivalence/normalisebdd.py:find_conflicting_paths", "ofequivalence/ruleset.py:to_single_table"]}
{"id": "C98", "title": "Option -r does not change what lines mean", "statement": "With -r check_equivalence still prints every ruleset once, two rulesets on the same line forward every packet in the same way, and for two rulesets on different lines there is a packet that the single tables of the reversed rulesets label differently.", "quantifier": "all numbers of files, all multi-table rulesets, all packets, python 2 and 3", "why_tests_cant": "Reversal interacts with masks, action sets and the merging of tables; quantifies over all packets.", "anchors": ["ofequivalence/check_equivalence.py:main", "ofequivalence/check_equivalence.py:reverse_fields"]}
{"id": "C99", "title": "Programs use all files they are given", "statement": "check_equivalence loads every file named on the command line, in the format given for it, and compares all of them, or exits with an error if there is none; convert_ruleset writes the rules that it read; graph_ruleset_deps writes its output exactly where told, opens what it wrote unless told otherwise and leaves no temporary file.", "quantifier": "all command lines, all contents of files", "why_tests_cant": "Quantifies over all command lines; the programs have no tests.", "anchors": ["ofequivalence/check_equivalence.py:main", "ofequivalence/convert_ruleset.py:main", "ofequivalence/graph_ruleset_deps.py:main"]}
{"id": "C100", "title": "Copies of action lists and rules are independent", "statement": "After any sequence of creating, copying, merging and changing action lists, action sets, instructions and rules, each object holds what it would hold if copies were made of whole values: a change to one object, also one that ends in an exception, changes no other; a += b and a + b append the items that b has at that moment.", "quantifier": "all sequences of operations, all objects", "why_tests_cant": "Levels are nested lists that are changed in place by insort; sharing one of them between two objects shows only when a later insertion hits the shared level.", "anchors": ["ofequivalence/rule.py:ActionList.__init__", "ofequivalence/rule.py:ActionList.append", "ofequivalence/rule.py:ActionList.remove", "ofequivalence/rule.py:ActionList.replace", "ofequivalence/rule.py:ActionList.copy", "ofequivalence/rule.py:ActionList.__iadd__", "ofequivalence/rule.py:ActionSet.append", "ofequivalence/rule.py:Instructions.__init__", "ofequivalence/rule.py:Instructions.merge", "ofequivalence/rule.py:Rule.copy"]}
{"id": "C101", "title": "Shims print, hash and copy as they compare", "statement": "The text of a BooleanShim can be read back to the wildcards it is made of, so that it describes exactly the packets the shim stands for, and two shims have the same text exactly if they are equal; printing never fails for a shim made by the methods of the class; equal shims have equal hashes; a shim made by dup is equal to its original, and from then on a change to either does not change the other.", "quantifier": "all shims, all histories of constructor, dup, add and intersection over any number of objects, all orders of iteration of the sets", "why_tests_cant": "Excludes are a set, whose order differs between runs; sharing of the mutable set between copies and the class attributes used as defaults show only in particular histories. The methods have no tests.", "anchors": ["ofequivalence/normaliseheaderspace.py:BooleanShim.__str__", "ofequivalence/normaliseheaderspace.py:BooleanShim.__hash__", "ofequivalence/normaliseheaderspace.py:BooleanShim.dup", "ofequivalence/normaliseheaderspace.py:BooleanShim.__eq__"]}
{"id": "C102", "title": "Diagrams are converted to matches", "statement": "BDD_to_matches gives for a diagram made from matches a list of matches that are pairwise disjoint and accept exactly the packets of the diagram; for the tagged difference of two diagrams each match comes with the actions that the two diagrams have for all of its packets. This holds for each of the three implementations.", "quantifier": "all diagrams made from matches, all packets", "why_tests_cant": "Composes the enumeration of paths with the conversion of wildcards to fields; there are no tests of these functions, and only one of the three has a caller.", "anchors": ["ofequivalence/bdd.py:BDD_to_matches", "ofequivalence/cbdd.py:BDD_to_matches", "ofequivalence/cuddbdd.py:BDD_to_matches"]}
{"id": "C103", "title": "Matches are sets of packets under their operators", "statement": "Match.issubset says whether every packet of the one match is one of the other, Match.overlaps whether they have one in common; & returns the match of the common packets and += makes it in place; empty() holds exactly for matches of all packets, and for instructions that do nothing; != is the negation of ==.", "quantifier": "all matches on known fields, however they were built; all instructions built from known actions", "why_tests_cant": "Quantifies over all packets; the operators are hardly used by the package itself.", "anchors": ["ofequivalence/rule.py:Match.issubset", "ofequivalence/rule.py:Match.overlaps", "ofequivalence/rule.py:Match.__and__", "ofequivalence/rule.py:Match.__iadd__", "ofequivalence/rule.py:Match.empty", "ofequivalence/rule.py:Instructions.empty"]}
{"id": "C104", "title": "What is written for Open vSwitch means the rule to Open vSwitch", "statement": "The line that rule_to_ovs writes consists of arguments, actions and instructions documented in ovs-fields(7) and ovs-actions(7), and their documented meaning is the rule: exactly its fields with values and masks, table, priority, cookie, applied actions, action set, metadata and next table.", "quantifier": "all rules that rule_to_ovs accepts, all values and masks in range", "why_tests_cant": "That a line can be read back by the same library does not show that another program understands it; quantifies over all rules and values.", "anchors": ["ofequivalence/convert_ovs.py:rule_to_ovs", "ofequivalence/convert_ovs.py:match_to_ovs", "ofequivalence/convert_ovs.py:actions_to_ovs", "ofequivalence/convert_ovs.py:instructions_to_ovs", "ofequivalence/format_utils.py:format_ipv6"]}
{"id": "C105", "title": "Graphs name each rule and options do what is said", "statement": "Each rule that is in the dependency graph is labelled with a label of its own, made from the format given or the default one, and exactly the rules that are not in the graph are reported as unreachable; an option that graph_ruleset_deps says it ignores makes no difference to the drawing; the web page is a fixed text with the data in one place, for all data.", "quantifier": "all formats of labels, all graphs, all combinations of options, all data", "why_tests_cant": "Formats are given by the user, and dot tells nodes by their labels; an exception of the formatting is caught together with that of the lookup. The program has no tests.", "anchors": ["ofequivalence/graph_ruleset_deps.py:build_graph", "ofequivalence/graph_ruleset_deps.py:parse_args", "ofequivalence/graph_ruleset_deps.py:create_dot", "ofequivalence/graph_ruleset_deps.py:create_d3", "ofequivalence/utils.py:AlphaInt"]}
{"id": "C106", "title": "egress_overlap tells whether a packet can go from one rule to another", "statement": "For two rules and an ingress, Rule.egress_overlap(other, ingress) is true exactly if some packet of the ingress that the rule matches is matched by the other rule after the apply-actions and metadata writes of the first.", "quantifier": "all pairs of rules, all ingress matches, all packets", "why_tests_cant": "Set-fields, masked metadata, pushes and pops and the ingress combine; a test sees one pair of rules.", "anchors": ["ofequivalence/rule.py:Rule.egress_overlap", "ofequivalence/rule.py:Rule.get_goto_egress"]}
{"id": "C107", "title": "Reordered actions leave the same ethertypes", "statement": "Executing an action list in its canonical order, or another list that compares equal, leaves the packet and all copies sent with the same ethertypes: of the VLAN tags, of what follows them, and of frames inside PBB headers. Removing redundant actions does not change them either.", "quantifier": "all action lists, all frames with any stack of tags and PBB headers", "why_tests_cant": "Which actions count as independent is a table; a wrong entry shows only for frames whose ethertypes differ before and after.", "anchors": ["ofequivalence/rule.py:ActionList.depends", "ofequivalence/rule.py:ActionList.__eq__", "ofequivalence/rule.py:ActionList._remove_redundant", "ofequivalence/openflow_desc.py:action_dependencies"]}
{"id": "C108", "title": "Names and numbers of fields stay one-to-one, and unknown fields count", "statement": "However many names of fields are used, known or unknown, and in whatever order, oxm_name_to_id gives different numbers to different names, always the same number to the same name, and leaves the numbers of OpenFlow's fields alone. A match built under names has the packets that agree with all of its entries; an entry for an unknown field is not ignored.", "quantifier": "all sequences of names, all sequences of appended entries, all packets", "why_tests_cant": "The table grows while the program runs, and there is one table per module; tests use the names of the table.", "anchors": ["ofequivalence/openflow_desc.py:OpenFlowDescription.oxm_name_to_id", "ofequivalence/openflow_desc.py:OpenFlowDescription.check_oxm_name", "ofequivalence/rule.py:Match.append", "ofequivalence/headerspace.py:flow_matches_to_wildcard"]}
