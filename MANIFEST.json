{
 "claims": [
  {
   "property": "C01",
   "status": "proved",
   "theorems": [
    "OFE.C01_check_equal_exact",
    "OFE.Store.C01_store_check_equal"
   ],
   "note": "tree level (both normalisation strategies through C02) and identity comparison on the shared node table"
  },
  {
   "property": "C02",
   "status": "proved",
   "theorems": [
    "OFE.C02_strategies_agree",
    "OFE.C02_empty",
    "OFE.C02_mixed_tables",
    "OFE.C02_malformed"
   ],
   "note": "non-empty rulesets agree; the empty ruleset differs (negation proved); mixed tables are refused"
  },
  {
   "property": "C03",
   "status": "proved",
   "theorems": [
    "OFE.C03_normalise_first_match"
   ],
   "note": "both strategies"
  },
  {
   "property": "C04",
   "status": "proved",
   "theorems": [
    "OFE.Store.C04_identity_is_function_equality",
    "OFE.Store.C04_walk_total",
    "OFE.Store.C04_refines_trees"
   ],
   "note": "all histories of bdd.py calls, all eviction schedules; garbage collection of the C back end is a separate property"
  },
  {
   "property": "C05",
   "status": "proved",
   "theorems": [
    "OFE.C05_meld",
    "OFE.C05_meld_laws",
    "OFE.Cudd.C05_C07_cudd_same"
   ],
   "note": ""
  },
  {
   "property": "C06",
   "status": "proved",
   "theorems": [
    "OFE.C06_intersection",
    "OFE.C06_subtract",
    "OFE.Cudd.C05_C07_cudd_same"
   ],
   "note": ""
  },
  {
   "property": "C07",
   "status": "partial",
   "theorems": [
    "OFE.C07_difference_partial",
    "OFE.C07_difference_exact_partial",
    "OFE.C07_difference_not_exact",
    "OFE.Cudd.C05_C07_cudd_same"
   ],
   "note": "violated in general: packets undefined on both sides can be marked (negation proved with a witness)"
  },
  {
   "property": "C08",
   "status": "proved",
   "theorems": [
    "OFE.Cudd.C08_difftagged",
    "OFE.Cudd.C08_difftagged_decoded",
    "OFE.Cudd.C08_bound_needed"
   ],
   "note": "Ids below 2^26 as the statement says; decoded through the registry for every call history"
  },
  {
   "property": "C09",
   "status": "proved",
   "theorems": [
    "OFE.C09_wc_to_bdd",
    "OFE.C09_wc_to_bdd_empty",
    "OFE.Cudd.C09_cudd_same",
    "OFE.Cudd.C09_cudd_invalid_differs"
   ],
   "note": ""
  },
  {
   "property": "C10",
   "status": "proved",
   "theorems": [
    "OFE.C10_bdd_to_wcs",
    "OFE.C10_wc_round_trip"
   ],
   "note": ""
  },
  {
   "property": "C100",
   "status": "partial",
   "theorems": [
    "OFE.Alias.C100_lists_partial",
    "OFE.Alias.C100_frame",
    "OFE.Alias.C100_dup",
    "OFE.Alias.C100_known",
    "OFE.Alias.C100_self_iadd",
    "OFE.Alias.C100_self_replace",
    "OFE.Alias.C100_rules_partial",
    "OFE.Alias.C100_rule_frame"
   ],
   "note": "Holds for every program over lists and rules except one that hands a list to itself; for that the negation is proved."
  },
  {
   "property": "C101",
   "status": "partial",
   "theorems": [
    "OFE.Shim.C101_reads",
    "OFE.Shim.C101_empty",
    "OFE.Shim.C101_same_text",
    "OFE.Shim.C101_add_printable",
    "OFE.Shim.C101_history",
    "OFE.Shim.C101_hash",
    "OFE.Shim.C101_objects",
    "OFE.Shim.C101_dup",
    "OFE.Shim.C101_disjoint"
   ],
   "note": "Texts can be read back, agree with equality and with the packets; every history of constructor and add prints; hashes agree with equality; objects behave as values (no shared set). Violated: intersection with a disjoint match gives a shim without packets that is not equal to the empty one and raises KeyError when printed (C101_disjoint)."
  },
  {
   "property": "C102",
   "status": "partial",
   "theorems": [
    "OFE.C102_cbdd",
    "OFE.C102_made",
    "OFE.C102_python",
    "OFE.C102_cudd"
   ],
   "note": "Proved for cbdd.py and for the tagged differences of cuddbdd.py. Violated by bdd.py, where flow_wildcard_to_flowmatches is called without its second argument: TypeError for every diagram with a packet (C102_python)."
  },
  {
   "property": "C103",
   "status": "partial",
   "theorems": [
    "OFE.C103_issubset",
    "OFE.C103_overlaps",
    "OFE.C103_and_partial",
    "OFE.C103_and_disjoint",
    "OFE.C103_subset_and",
    "OFE.C103_iadd",
    "OFE.C103_empty",
    "OFE.C103_mask_zero",
    "OFE.C103_no_instructions",
    "OFE.C103_inst_plus",
    "OFE.C103_rule_plus_openflow",
    "OFE.C103_rule_plus"
   ],
   "note": "issubset and overlaps are exact, & for matches with a packet in common; empty() of matches in normal form and of instructions. Violated: & of disjoint matches raises KeyError, += always raises NotImplementedError (C103_iadd), a match with mask 0 has all packets and is not empty (C103_mask_zero)."
  },
  {
   "property": "C104",
   "status": "partial",
   "theorems": [
    "OFE.Ovs.C104_line_partial",
    "OFE.Ovs.C104_nw_ttl",
    "OFE.Ovs.C104_ipv6"
   ],
   "note": "The written line is made of documented arguments whose meaning is the rule. Violated for SET_NW_TTL (written as an action that Open vSwitch does not have) and for IPv6 addresses (sixteen pairs of digits); ICMPv4 type and code, whose keys depend on the protocol, are covered in matches of ICMP over IPv4 and not in set-fields."
  },
  {
   "property": "C105",
   "status": "partial",
   "theorems": [
    "OFE.Label.C105_labels",
    "OFE.Label.C105_two_places",
    "OFE.Label.C105_loop",
    "OFE.Label.C105_same_label",
    "OFE.Label.C105_named",
    "OFE.Label.C105_defaults",
    "OFE.Label.C105_warnings",
    "OFE.Label.C105_cluster_ignored",
    "OFE.Label.C105_cluster_raises",
    "OFE.Label.C105_group_not_ignored",
    "OFE.Label.C105_page",
    "OFE.Label.C105_single_brace",
    "OFE.Label.C105_other_number",
    "OFE.Label.C105_hexadecimal"
   ],
   "note": "Holds for labels made of characters and places for the number, among them the defaults. Violated: labels with a named field make all rules unreachable, labels without a field are not different, groups are not ignored together with clusters, clusters of a compression that is not done raise although said to be ignored. Format strings with conversions, attributes, indices or nested fields are not modelled."
  },
  {
   "property": "C106",
   "status": "partial",
   "theorems": [
    "OFE.Deps.C106_overlap_partial",
    "OFE.Deps.C106_disjoint_raises",
    "OFE.Deps.C106_tunnels_partial",
    "OFE.Deps.C106_tunnels_sound",
    "OFE.Deps.C106_push_unknown"
   ],
   "note": "Exact for rules without pushes and pops whose match meets the ingress. With pushes and pops and no ingress: a packet with known headers makes the answer true (C106_tunnels_partial), a true answer has a packet (C106_tunnels_sound). Negations: an ingress that does not meet the rule raises; false for a packet with a header pushed upon an unknown one (C106_push_unknown)."
  },
  {
   "property": "C107",
   "status": "partial",
   "theorems": [
    "OFE.C107_canonical_partial",
    "OFE.C107_equal_partial",
    "OFE.C107_redundant_partial",
    "OFE.C107_pbb",
    "OFE.C107_redundant"
   ],
   "note": "Holds for lists without PBB headers together with VLAN tags or labels; removal of redundant actions without PBB headers and without labels both pushed and popped. Violated: PUSH_MPLS and PUSH_PBB in either order give equal lists (C107_pbb); remove_redundant drops PUSH_MPLS with POP_MPLS although the latter sets the type (C107_redundant)."
  },
  {
   "property": "C108",
   "status": "partial",
   "theorems": [
    "OFE.Names.C108_one_to_one",
    "OFE.Names.C108_by_number",
    "OFE.Names.C108_meaning_partial",
    "OFE.Names.C108_ignored",
    "OFE.Names.C108_check",
    "OFE.Names.C108_intersection",
    "OFE.Names.C108_compare"
   ],
   "note": "Numbers of names are one-to-one and stable for all sequences of calls; matches by name refine matches by number; what intersection, issubset and overlaps do with unknown fields. Entries of unknown fields are ignored because rule.py and headerspace.py have different tables: negation proved, also for the whole check of equivalence."
  },
  {
   "property": "C11",
   "status": "proved",
   "theorems": [
    "OFE.C11_wildcard_intersect",
    "OFE.C11_wildcard_intersect_valid"
   ],
   "note": ""
  },
  {
   "property": "C12",
   "status": "proved",
   "theorems": [
    "OFE.C12_wildcard_is_subset"
   ],
   "note": ""
  },
  {
   "property": "C13",
   "status": "proved",
   "theorems": [
    "OFE.C13_wildcard_union_cover"
   ],
   "note": ""
  },
  {
   "property": "C14",
   "status": "proved",
   "theorems": [
    "OFE.C14_compress_wildcard_list",
    "OFE.C14_compress_antichain"
   ],
   "note": ""
  },
  {
   "property": "C15",
   "status": "proved",
   "theorems": [
    "OFE.C15_match_to_wildcard",
    "OFE.C15_unknown_field",
    "OFE.C15_layout"
   ],
   "note": "Full field table; values and masks of any size (bits beyond the field width are ignored by the code)"
  },
  {
   "property": "C16",
   "status": "proved",
   "theorems": [
    "OFE.C16_round_trip",
    "OFE.C16_intersection",
    "OFE.C16_intersection_disjoint",
    "OFE.C16_union_cover"
   ],
   "note": "The deployed 1584-bit layout"
  },
  {
   "property": "C17",
   "status": "proved",
   "theorems": [
    "OFE.C17_cache_coherent",
    "OFE.C17_eq_same_wildcard",
    "OFE.C17_normal_form",
    "OFE.C17_eq_iff_same_packets",
    "OFE.C17_mask_zero_not_normal"
   ],
   "note": "Normal form: exact values in range, masks not empty within the width"
  },
  {
   "property": "C18",
   "status": "proved",
   "theorems": [
    "OFE.C18_morton_number",
    "OFE.C18_rmorton_morton",
    "OFE.C18_morton_rmorton",
    "OFE.C18_c_variants"
   ],
   "note": ""
  },
  {
   "property": "C19",
   "status": "proved",
   "theorems": [
    "OFE.C19_canonical_order",
    "OFE.C19_known_ok",
    "OFE.C19_inner_field_keyError"
   ],
   "note": "For every sequence that can be appended; sequences with a type outside the dependency table raise KeyError, also proved."
  },
  {
   "property": "C20",
   "status": "proved",
   "theorems": [
    "OFE.C20_eq_iff_trace",
    "OFE.C20_eq_same_levels"
   ],
   "note": "Equality of the flattened levels is equivalence under swaps of independent neighbours."
  },
  {
   "property": "C21",
   "status": "partial",
   "theorems": [
    "OFE.C21_remove_partial",
    "OFE.C21_remove_wrong",
    "OFE.C21_copy_remove_many"
   ],
   "note": "False in general, witness in C21_remove_wrong; holds for x in the first level or canonical order, and for copy(remove=) of two or more items."
  },
  {
   "property": "C22",
   "status": "proved",
   "theorems": [
    "OFE.C22_concat"
   ],
   "note": "+, += and copy(add=), same levels."
  },
  {
   "property": "C23",
   "status": "proved",
   "theorems": [
    "OFE.C23_action_set"
   ],
   "note": "at most one action per slot, last value wins, group displaces output, order"
  },
  {
   "property": "C24",
   "status": "partial",
   "theorems": [
    "OFE.C24_redundant_partial",
    "OFE.C24_result_shape",
    "OFE.C24_wrong_ttl",
    "OFE.C24_wrong_pcp"
   ],
   "note": "without MPLS TTL actions in lists that both push and pop MPLS; without PUSH_PBB together with POP_VLAN; no groups; negations for both. Holds for any convention for the value a set-field leaves"
  },
  {
   "property": "C25",
   "status": "partial",
   "theorems": [
    "OFE.C25_per_output_partial",
    "OFE.C25_groups_partial",
    "OFE.C25_bare_group",
    "OFE.C25_wrong_repeated_port",
    "OFE.C25_wrong_select"
   ],
   "note": "Groups of type ALL and INDIRECT included (nested to any depth); ports reached at most once; a group that is a bare number gives no view. Negations for a repeated port and for SELECT groups, whose type the view ignores."
  },
  {
   "property": "C26",
   "status": "proved",
   "theorems": [
    "OFE.C26_merge_match"
   ],
   "note": "First rule without push/pop (as in the quantifier) and without SET_FIELD METADATA; actions with a dependency table entry, matches on the 40 OpenFlow fields."
  },
  {
   "property": "C27",
   "status": "proved",
   "theorems": [
    "OFE.C27_merge_instructions"
   ],
   "note": "For every initial action set, push/pop included; second rule without SET_FIELD METADATA. Copies compared without the metadata register. Meter (dropped by merge) is outside the statement."
  },
  {
   "property": "C28",
   "status": "partial",
   "theorems": [
    "OFE.C28_single_table_partial",
    "OFE.C28_every_run_partial",
    "OFE.C28_no_first_table",
    "OFE.C28_tunnels_partial",
    "OFE.C28_tunnels_every_run_partial",
    "OFE.C28_flat_tunnels",
    "OFE.C28_pop_loses_packets",
    "OFE.C28_push_loses_packets",
    "OFE.C28_tunnels_cover"
   ],
   "note": "Proved for all packets when rules that go on to another table do not push/pop; with pushes and pops (C28_tunnels_partial) when counts are bounded, headers below popped ones are not matched and pushed-upon headers are known; without the last condition every packet still hits a rule (C28_tunnels_cover), but not always the right one. Violated otherwise: C28_pop_loses_packets, C28_push_loses_packets."
  },
  {
   "property": "C29",
   "status": "proved",
   "theorems": [
    "OFE.C29_scaled_sums",
    "OFE.C29_refused"
   ],
   "note": "Lexicographic comparison of scaled sums for any number of tables; refusal of priorities from 65536 on."
  },
  {
   "property": "C30",
   "status": "partial",
   "theorems": [
    "OFE.C30_order_partial",
    "OFE.C30_agree_partial",
    "OFE.C30_tunnels_agree_partial",
    "OFE.C30_not_sorted"
   ],
   "note": "Strictly decreasing when rules of one table have different priorities; with ties between disjoint rules the list is not sorted (C30_not_sorted), but list order and priority order still agree on the rule hit (C30_agree_partial without push/pop, C30_tunnels_agree_partial with)."
  },
  {
   "property": "C31",
   "status": "partial",
   "theorems": [
    "OFE.C31_path_partial",
    "OFE.C31_tunnels_partial"
   ],
   "note": "Same restrictions as C28."
  },
  {
   "property": "C32",
   "status": "partial",
   "theorems": [
    "OFE.C32_egress_covers_partial",
    "OFE.C32_pop_after_two_pushes",
    "OFE.C32_push_unknown",
    "OFE.C32_inner_names"
   ],
   "note": "Holds when pushed-upon headers are known or absent and no header is popped after two of its kind were pushed; both restrictions are needed (two proved violations)."
  },
  {
   "property": "C33",
   "status": "partial",
   "theorems": [
    "OFE.C33_collect_paths",
    "OFE.C33_find_conflicting_paths",
    "OFE.C33_single_table_paths",
    "OFE.C33_overwritten"
   ],
   "note": "find_conflicting_paths under pairwise different paths, which outputs of to_single_table have (C33_single_table_paths). False for rulesets in which two rules share a path: the later entry replaces the earlier (C33_overwritten)."
  },
  {
   "property": "C34",
   "status": "proved",
   "theorems": [
    "OFE.C34_groups",
    "OFE.C34_same_group_iff"
   ],
   "note": ""
  },
  {
   "property": "C35",
   "status": "partial",
   "theorems": [
    "OFE.Deps.C35_direct_exact_partial",
    "OFE.Deps.C35_egress_raises",
    "OFE.Deps.egress_three_pushes",
    "OFE.Deps.ofRule_spec"
   ],
   "note": "Exact edges and labels for every table with disjoint ties. Missing: a rule with no rule below it whose egress raises makes the function raise; shown with a concrete rule."
  },
  {
   "property": "C36",
   "status": "proved",
   "theorems": [
    "OFE.Deps.C36_incremental",
    "OFE.Deps.C36_insert",
    "OFE.Deps.C36_two_match_all"
   ],
   "note": "For tables with disjoint ties and exactly one match-all rule, the lowest; the last theorem shows that condition is needed."
  },
  {
   "property": "C37",
   "status": "proved",
   "theorems": [
    "OFE.Deps.C37_prefix_direct",
    "OFE.Deps.C37_prefix_indirect"
   ],
   "note": "Both variants equal the general algorithms on every prefix table; a default route without an IPV4_DST entry raises KeyError (Deps.C37_no_dst)"
  },
  {
   "property": "C38",
   "status": "proved",
   "theorems": [
    "OFE.Deps.C38_no_missed_edge",
    "OFE.Deps.C38_labels",
    "OFE.Deps.C38_spurious_edge"
   ],
   "note": "All rulesets, also of several tables; labels denote the same packets for rulesets without repeated rules."
  },
  {
   "property": "C39",
   "status": "partial",
   "theorems": [
    "OFE.Deps.C39_indirect_partial",
    "OFE.Deps.C39_variants_agree",
    "OFE.Deps.C39_empty",
    "OFE.Deps.C39_egress_raises"
   ],
   "note": "Exact set of dependencies within a table provided get_goto_egress does not raise for a rule with nothing below it; negation Deps.C39_egress_raises; the variants differ on the empty ruleset"
  },
  {
   "property": "C40",
   "status": "partial",
   "theorems": [
    "OFE.Deps.C40_ruleset_deps_partial",
    "OFE.Deps.C40_goto_without_table",
    "OFE.Deps.C40_tunnels_partial",
    "OFE.Deps.C40_push_unknown",
    "OFE.Deps.C40_extra"
   ],
   "note": "Exact characterisation for pipelines of rules without push/pop whose gotos lead to tables with rules; with push/pop: success and nothing missed on ways whose pushed-upon headers are known (C40_tunnels_partial). Negations: RuntimeError for a goto to a table without rules; a dependency missed behind a push upon an unknown header (C40_push_unknown); a dependency between rules that no packet passes both, behind a push and a pop (C40_extra)"
  },
  {
   "property": "C41",
   "status": "proved",
   "theorems": [
    "OFE.Tree.C41_simplify_tree",
    "OFE.Tree.C41_from_deps",
    "OFE.Tree.C41_unlisted_node",
    "OFE.Tree.C41_repeated_edge"
   ],
   "note": "Result is exactly the transitive reduction; repeated dependencies (excluded in the statement) keep a redundant parent"
  },
  {
   "property": "C42",
   "status": "partial",
   "theorems": [
    "OFE.Groups.C42_groups",
    "OFE.Groups.C42_terminates_partial",
    "OFE.Groups.C42_no_set_field",
    "OFE.Groups.C42_mixed_types"
   ],
   "note": "Whatever is returned is the coarsest stable partition; the loop always ends. Violated on python 3: rules alike up to the types of their actions can make the sort raise TypeError (a tuple is compared with a string); without set-field actions nothing is raised."
  },
  {
   "property": "C43",
   "status": "proved",
   "theorems": [
    "OFE.C43_headerspace",
    "OFE.C43_is_empty",
    "OFE.C43_no_diff_exact",
    "OFE.C43_is_empty_incomplete"
   ],
   "note": "All operation sequences from any header space."
  },
  {
   "property": "C44",
   "status": "proved",
   "theorems": [
    "OFE.Shim.C44_history",
    "OFE.Shim.C44_order"
   ],
   "note": "for every history of calls, every set order, every number of bits"
  },
  {
   "property": "C45",
   "status": "proved",
   "theorems": [
    "OFE.Fib.C45_longest_prefix",
    "OFE.Fib.C45_prefix_table",
    "OFE.Fib.C45_bad_mask",
    "OFE.Fib.C45_default_address"
   ],
   "note": "Lines given by their parts; packet-level runs through the ruleset; also that the ruleset is a prefix table in the sense of C37"
  },
  {
   "property": "C46",
   "status": "proved",
   "theorems": [
    "OFE.Cudd.C46_registry"
   ],
   "note": "Invariant over all call histories"
  },
  {
   "property": "C47",
   "status": "partial",
   "theorems": [
    "OFE.C47_check_sound_partial",
    "OFE.C47_check_total",
    "OFE.C47_check_complete_labels",
    "OFE.C47_missing_raises",
    "OFE.C47_vid_convention",
    "OFE.C47_label_frozenset"
   ],
   "note": "rules without groups, without a port named twice, without the action combinations for which C24 fails, VLAN ids with the present bit; negations for VLAN_VID 0 and for packets only one ruleset matches"
  },
  {
   "property": "C48",
   "status": "partial",
   "theorems": [
    "OFE.C48_expansion_partial",
    "OFE.C48_reduced_partial",
    "OFE.C48_forms_equal_iff_partial",
    "OFE.C48_sound_partial",
    "OFE.C48_total_partial",
    "OFE.C48_wrong_pop"
   ],
   "note": "Rules within the limits of C47 whose set-fields depend only on set-fields of the same field and write values of the field's width; any iteration order of the set. With pops before the set-field the expansion is wrong (C48_wrong_pop)."
  },
  {
   "property": "C49",
   "status": "proved",
   "theorems": [
    "OFE.Util.C49_letters"
   ],
   "note": "Lower and upper case."
  },
  {
   "property": "C50",
   "status": "partial",
   "theorems": [
    "OFE.Fmt.C50_round_trip_partial",
    "OFE.Fmt.C50_ipv4",
    "OFE.Fmt.C50_ethernet",
    "OFE.Fmt.C50_numbers",
    "OFE.Fmt.C50_ipv6_fails",
    "OFE.Fmt.C50_ethernet_dashes",
    "OFE.Fmt.C50_raw_bytes"
   ],
   "note": "IPv4, ethernet, decimal and hexadecimal hold; IPv6 is false."
  },
  {
   "property": "C51",
   "status": "proved",
   "theorems": [
    "OFE.Util.C51_restored",
    "OFE.Util.C51_rebuild",
    "OFE.Util.C51_shared_object",
    "OFE.Util.C51_rebuild_merges"
   ],
   "note": "One new UniqueRules object per block, as in all uses."
  },
  {
   "property": "C52",
   "status": "proved",
   "theorems": [
    "OFE.Util.C52_attached",
    "OFE.Util.C52_repeated_rule",
    "OFE.Util.C52_shared_object",
    "OFE.Util.C52_larger_inner"
   ],
   "note": "More general than stated: blocks over several rulesets, each within the enclosing ones or disjoint from them."
  },
  {
   "property": "C53",
   "status": "partial",
   "theorems": [
    "OFE.C53_reverse_partial",
    "OFE.C53_mirror_partial",
    "OFE.C53_revPkt",
    "OFE.C53_python3_raises",
    "OFE.C53_masks_lost",
    "OFE.C53_writes_not_reversed",
    "OFE.C53_too_wide",
    "OFE.C53_too_wide_accepted"
   ],
   "note": "Equivalence is kept, in both directions, for rulesets with exact matches, no set-field in write-actions and no written metadata, on python 2. False otherwise: python 3 raises, masks are computed from the value, write-actions are left alone. Values too wide for their field: odd ones are refused (C53_too_wide), others may pass the assertion (C53_too_wide_accepted)."
  },
  {
   "property": "C54",
   "status": "proved",
   "theorems": [
    "OFE.Util.C54_limit",
    "OFE.Util.C54_assert",
    "OFE.Util.C54_none_raises"
   ],
   "note": "For integer max_res; None raises."
  },
  {
   "property": "C55",
   "status": "proved",
   "theorems": [
    "OFE.C55_independent_commute",
    "OFE.C55_dependent_differ"
   ],
   "note": ""
  },
  {
   "property": "C56",
   "status": "proved",
   "theorems": [
    "OFE.C56_canonical_effect",
    "OFE.C56_equal_effect"
   ],
   "note": ""
  },
  {
   "property": "C57",
   "status": "proved",
   "theorems": [
    "OFE.Shim.C57_check_equal_sound",
    "OFE.Shim.C57_diff",
    "OFE.Shim.C57_incomplete",
    "OFE.Shim.C57_empty",
    "OFE.Shim.C57_diff_asserts"
   ],
   "note": "soundness and totality on non-empty rulesets; the converse, the empty ruleset and diff=True with different keys are proved violated"
  },
  {
   "property": "C58",
   "status": "partial",
   "theorems": [
    "OFE.C58_same_line_sound_partial",
    "OFE.C58_different_lines",
    "OFE.C58_incomplete",
    "OFE.C58_sorted",
    "OFE.C58_tunnels_partial",
    "OFE.C58_tunnels_apart_partial",
    "OFE.C58_flat_tunnels"
   ],
   "note": "For pipelines with a table-miss rule per table, without ties, with comparable actions (no groups, no port twice on a path, none of the combinations of C24). Rules that go on may push and pop within the bounds of C28_tunnels_partial; then the claim about one line is about packets with known headers. Option -D is in C97, -r in C98, loading in C99. Converse for packets is false: C58_incomplete."
  },
  {
   "property": "C59",
   "status": "partial",
   "theorems": [
    "OFE.C59_default_check_sound_partial",
    "OFE.C59_tunnels_partial"
   ],
   "note": "Same conditions on the pipelines as C58; header fields hold values of their width. There always is an answer; with pushes and pops the answer True is sound for packets with known headers."
  },
  {
   "property": "C60",
   "status": "partial",
   "theorems": [
    "OFE.Fmt.C60_ipv6_full",
    "OFE.Fmt.C60_ipv6_double_partial",
    "OFE.Fmt.C60_seven_groups"
   ],
   "note": "False for seven groups with the double colon at an end."
  },
  {
   "property": "C61",
   "status": "partial",
   "theorems": [
    "OFE.Groups.C61_compress_partial",
    "OFE.Groups.C61_computed_forward"
   ],
   "note": "holds whenever the function returns; that it may not return is C62. Dependencies are assumed to lead from earlier to later rules, which C61_computed_forward shows for those of build_ruleset_deps"
  },
  {
   "property": "C62",
   "status": "partial",
   "theorems": [
    "OFE.Groups.C62_complete_partial",
    "OFE.Groups.C62_no_choice"
   ],
   "note": "violated: C62_no_choice; holds if the rules of dependent groups all depend on each other"
  },
  {
   "property": "C63",
   "status": "partial",
   "theorems": [
    "OFE.Groups.C63_saves_original",
    "OFE.Groups.C63_not_compressed"
   ],
   "note": "violated: the theorems say what is saved instead"
  },
  {
   "property": "C64",
   "status": "partial",
   "theorems": [
    "OFE.C64_demote",
    "OFE.C64_promote_partial",
    "OFE.C64_promote_order",
    "OFE.C64_pushes_partial"
   ],
   "note": "Inwards proved in full. Outwards proved unless the third header was added to the dict before the second; for that order the negation is proved. C64_pushes_partial: the same for the match of the second rule in merge, behind pushes of the first rule, when at most one inner header is matched."
  },
  {
   "property": "C65",
   "status": "partial",
   "theorems": [
    "OFE.C65_merge_tunnels_partial",
    "OFE.C65_push_unknown",
    "OFE.C65_three_pops",
    "OFE.C65_table_cover"
   ],
   "note": "Proved for at most two pushes of a kind (one if also popped), at most two more pops than pushes, and known pushed-upon headers; outside of that concrete counterexamples are proved."
  },
  {
   "property": "C66",
   "status": "partial",
   "theorems": [
    "OFE.Ovs.C66_round_trip_partial",
    "OFE.Ovs.C66_ipv6",
    "OFE.Ovs.C66_flabel",
    "OFE.Ovs.C66_meter",
    "OFE.Ovs.C66_vlan",
    "OFE.Ovs.C66_not_written",
    "OFE.Ovs.C66_no_name"
   ],
   "note": "A rule written by rule_to_ovs and read by rule_from_ovs is equal (a missing cookie becomes 0), for all writable fields, values, masks and actions; negations for IPv6 addresses, flow labels, meters and VLAN ids with the present bit."
  },
  {
   "property": "C67",
   "status": "partial",
   "theorems": [
    "OFE.Ovs.C67_match_partial",
    "OFE.Ovs.C67_instructions_partial",
    "OFE.Ovs.C67_flow_partial",
    "OFE.Ovs.C67_tp_dst",
    "OFE.Ovs.C67_icmp6_type",
    "OFE.Ovs.C67_prefix6",
    "OFE.Ovs.C67_left_out",
    "OFE.Ovs.C67_vlan_tci",
    "OFE.Ovs.C67_local",
    "OFE.Ovs.C67_nw_tos",
    "OFE.Ovs.C67_resubmit",
    "OFE.Ovs.C67_resubmit_order",
    "OFE.Ovs.C67_dropped",
    "OFE.Ovs.C67_masked"
   ],
   "note": "For every text made of the notations of Ovs/Doc.lean (44 field keys with decimal, hexadecimal, MAC, IPv4, IPv6, masked and CIDR values, 14 protocol words, dl_vlan, vlan_tci without priority; the actions and instructions with an OpenFlow counterpart; flow arguments) the match accepts the packets, and the instructions do to any packet and action set, what is documented. Violated for tp_src/tp_dst, icmp_type of ICMPv6, IPv6 prefixes with two colons, vlan_tci priorities, in_port=LOCAL, mod_nw_tos, resubmit of tables above 9 or followed by actions; documented keys and actions that are unknown are dropped without an error (negations proved)."
  },
  {
   "property": "C68",
   "status": "proved",
   "theorems": [
    "OFE.C68_equivalence",
    "OFE.C68_hash",
    "OFE.C68_hash_value",
    "OFE.C68_same",
    "OFE.C68_cache",
    "OFE.C68_cache_reads"
   ],
   "note": "Matches are taken as the code builds them (Match.Inv, kept by every operation: C17). Groups inside actions are identified by number, and mutation of an object by an operation that raised half-way is not modelled."
  },
  {
   "property": "C69",
   "status": "partial",
   "theorems": [
    "OFE.Ovs.C69_group_partial",
    "OFE.Ovs.C69_file_partial",
    "OFE.Ovs.C69_duplicate",
    "OFE.Ovs.C69_round_trip_partial",
    "OFE.Ovs.C69_no_bucket",
    "OFE.Ovs.C69_forward",
    "OFE.Ovs.C69_upper",
    "OFE.Ovs.C69_bare_bucket",
    "OFE.Ovs.C69_weights",
    "OFE.Ovs.C69_fields",
    "OFE.Ovs.C69_buckets_only"
   ],
   "note": "Group lines, files and the round trip of files, for all documented group lines with buckets written as actions=... in lower case that refer to earlier groups only. Missing: groups without buckets are never read (C69_no_bucket), forward references raise KeyError (C69_forward), upper case (C69_upper) and bare buckets (C69_bare_bucket) are read as empty buckets, weights and watched ports are dropped (C69_weights), lists of fields raise ValueError (C69_fields). Groups are not written at all, so the round trip is for rules without groups."
  },
  {
   "property": "C70",
   "status": "partial",
   "theorems": [
    "OFE.Ryu.C70_round_trip_partial",
    "OFE.Ryu.C70_file_partial",
    "OFE.Ryu.C70_json",
    "OFE.Ryu.C70_two_bytes",
    "OFE.Ryu.C70_port",
    "OFE.Ryu.C70_mac",
    "OFE.Ryu.C70_address",
    "OFE.Ryu.C70_not_written",
    "OFE.Ryu.C70_not_flows"
   ],
   "note": "Violated for values whose bytes look like an address (C70_port, C70_mac, C70_address) and for metadata and meters (C70_not_written); proved for all other rules without Group objects. For two-byte fields exactly one value is affected (C70_two_bytes)."
  },
  {
   "property": "C71",
   "status": "partial",
   "theorems": [
    "OFE.Ryu.C71_read_partial",
    "OFE.Ryu.C71_written_partial",
    "OFE.Ryu.C71_port",
    "OFE.Ryu.C71_meter",
    "OFE.Ryu.C71_unknown_action"
   ],
   "note": "Reading is wrong for values whose bytes look like an address (C71_port) and refused for meters (C71_meter); messages with unknown actions are refused (C71_unknown_action); Group objects are the subject of C72."
  },
  {
   "property": "C72",
   "status": "partial",
   "theorems": [
    "OFE.Ryu.C72_sent",
    "OFE.Ryu.C72_different_partial",
    "OFE.Ryu.C72_ofdpa_partial",
    "OFE.Ryu.C72_default",
    "OFE.Ryu.C72_converted_partial",
    "OFE.Ryu.C72_no_table",
    "OFE.Ryu.C72_no_vlan",
    "OFE.Ryu.C72_same_port",
    "OFE.Ryu.C72_default_clash",
    "OFE.Ryu.C72_controller",
    "OFE.Ryu.C72_wrap",
    "OFE.Ryu.C72_failover"
   ],
   "note": "Definition before use is proved in full (C72_sent). Different numbers: violated for L2 Interface groups (C72_same_port, C72_default_clash) and after 2^16 groups (C72_wrap), otherwise proved; format violated for reserved ports (C72_controller); groups without ttp_link, the default, raise (C72_no_table)."
  },
  {
   "property": "C73",
   "status": "partial",
   "theorems": [
    "OFE.Auto.C73_some_loader",
    "OFE.Auto.C73_one_format",
    "OFE.Auto.C73_other_format_partial",
    "OFE.Auto.C73_hint",
    "OFE.Auto.C73_given",
    "OFE.Auto.C73_garbage",
    "OFE.Auto.C73_no_error",
    "OFE.Auto.C73_ovs_in_path",
    "OFE.Auto.C73_order",
    "OFE.Auto.C73_pipe",
    "OFE.Auto.C73_descriptor"
   ],
   "note": "Violated: text of no known format gives an empty ruleset (C73_garbage, C73_no_error); a path that contains ovs (C73_ovs_in_path). The load functions are parameters, but for the Open vSwitch one in C73_garbage."
  },
  {
   "property": "C74",
   "status": "partial",
   "theorems": [
    "OFE.Ttp.C74_read_partial",
    "OFE.Ttp.C74_refused",
    "OFE.Ttp.C74_priority",
    "OFE.Ttp.C74_value",
    "OFE.Ttp.C74_dropped",
    "OFE.Ttp.C74_text",
    "OFE.Ttp.C74_no_number",
    "OFE.Ttp.C74_repeated_field",
    "OFE.Ttp.C74_table_text"
   ],
   "note": "Flows whose parts can be read become rules with the same meaning; groups, meters, metadata, unknown instructions and values that are not numbers raise. Set-fields of a text or a variable and unknown actions are dropped silently (C74_dropped, C74_text), and of a field that is twice in the match set only the last counts."
  },
  {
   "property": "C75",
   "status": "partial",
   "theorems": [
    "OFE.Shim.C75_taken",
    "OFE.Shim.C75_named_partial",
    "OFE.Shim.C75_shadowed",
    "OFE.Shim.C75_no_packets"
   ],
   "note": "Completeness is proved in full: the path a differing packet takes is always mapped to the one it takes in the other ruleset. The converse is false (shadowed rules, shims with no packets): negations with witnesses, and what is named is characterised."
  },
  {
   "property": "C76",
   "status": "partial",
   "theorems": [
    "OFE.C76_string",
    "OFE.C76_words",
    "OFE.C76_words_bits",
    "OFE.C76_int_to_string",
    "OFE.C76_reads",
    "OFE.C76_injective",
    "OFE.C76_zero",
    "OFE.C76_one",
    "OFE.C76_find_partial",
    "OFE.C76_read_words",
    "OFE.C76_read_partial",
    "OFE.C76_read_fails",
    "OFE.C76_find_fails",
    "OFE.C76_wrong_read",
    "OFE.C76_wrong_find",
    "OFE.C76_find_changes"
   ],
   "note": "The texts and the zero and one wildcards are right for every wildcard. flow_wildcard_read_field and find_smallest_set_bit raise TypeError for every int; for the sequences of words they were written for, the first reads the right bits only if the field leaves as many bits over in its first word as in its last (which bits it reads is proved for all fields), and the second may raise or change another bit of its argument (witnesses)."
  },
  {
   "property": "C77",
   "status": "proved",
   "theorems": [
    "OFE.Heap.C77_gc",
    "OFE.Heap.C77_closed",
    "OFE.Heap.C77_idempotent"
   ],
   "note": "For every well-formed table and any outside references; that the calls of the interface keep the table well formed is part of C78."
  },
  {
   "property": "C78",
   "status": "proved",
   "theorems": [
    "OFE.Heap.C78_refines",
    "OFE.Heap.C78_identity",
    "OFE.Heap.C78_collects",
    "OFE.Heap.C78_no_leak",
    "OFE.Heap.C78_empty_bit"
   ],
   "note": "Model with addresses that are freed and reused (Heap/Model.lean); arbitrary allocator, evictions and order of evaluation. Wildcards with an empty bit pair are outside the property: C78_empty_bit shows that C++ takes them for any packet where bdd.py refuses."
  },
  {
   "property": "C79",
   "status": "partial",
   "theorems": [
    "OFE.C79_same_partial",
    "OFE.C79_context",
    "OFE.C79_merge",
    "OFE.C79_wrong_group"
   ],
   "note": "Apply-actions as in C25 (ALL and INDIRECT groups, each port reached at most once), write-actions without groups; any instructions before, after, or merged in. Negation for a GROUP in the write-actions."
  },
  {
   "property": "C80",
   "status": "partial",
   "theorems": [
    "OFE.Cudd.C80_iterate",
    "OFE.Cudd.C80_collect",
    "OFE.Cudd.C80_grown",
    "OFE.Cudd.C80_no_underflow",
    "OFE.Cudd.C80_live",
    "OFE.Cudd.C80_account_partial",
    "OFE.Cudd.C80_released_partial",
    "OFE.Cudd.C80_leak",
    "OFE.Cudd.C80_leak_always",
    "OFE.Cudd.C80_reinit_leak",
    "OFE.Cudd.C80_clean_partial",
    "OFE.Cudd.C80_results",
    "OFE.Cudd.C80_branches"
   ],
   "note": "The iterator is exact as long as the manager gets no new variables meanwhile (then it reads past its array, C80_grown). References are never dropped twice and live diagrams are kept, but wc_to_BDD forgets one reference per decided bit (C80_leak_always) and so does a second __init__; the exact account is C80_account_partial. CUDD itself is external."
  },
  {
   "property": "C81",
   "status": "proved",
   "theorems": [
    "OFE.C81_getitem",
    "OFE.C81_range",
    "OFE.C81_len",
    "OFE.C81_index",
    "OFE.C81_index_getitem",
    "OFE.C81_do_sort"
   ],
   "note": "Slices are those of the list of items and not modelled."
  },
  {
   "property": "C82",
   "status": "proved",
   "theorems": [
    "OFE.Store.C82_walk",
    "OFE.Store.C82_minimal",
    "OFE.Store.C82_same_length",
    "OFE.Store.C82_shared_size",
    "OFE.Store.C82_to_dot"
   ],
   "note": "After any history and cache eviction walk yields the reachable nodes once, children first; len is minimal among ordered diagrams of the function and the same in the CUDD back end (Cudd_SharingSize taken as the number of different nodes); shared_size also counts the constant BK; to_dot writes one line per node and branch."
  },
  {
   "property": "C83",
   "status": "partial",
   "theorems": [
    "OFE.Deps.C83_batch_partial",
    "OFE.Deps.C83_incremental_partial",
    "OFE.Deps.C83_pair",
    "OFE.Deps.C83_header_space",
    "OFE.Deps.C83_shadowed",
    "OFE.Deps.C83_no_miss",
    "OFE.Deps.C83_tunnels_partial",
    "OFE.Deps.C83_tunnels_header_space",
    "OFE.Deps.C83_tunnels_pair",
    "OFE.Deps.C83_push_unknown"
   ],
   "note": "Exact for pipelines of flat rules, for packets that match r; a rule shadowed in its own table counts too (C83_shadowed), and the default algorithm refuses tables without a table-miss rule (C83_no_miss). Header spaces miss none. With push and pop: exact within tables, between tables nothing missed where the headers pushed upon are known, and no dependency without a packet where they are matched without masks; negation C83_push_unknown."
  },
  {
   "property": "C84",
   "status": "partial",
   "theorems": [
    "OFE.Graph.C84_layout_partial",
    "OFE.Graph.C84_groups_partial",
    "OFE.Graph.C84_highest",
    "OFE.Graph.C84_clustered",
    "OFE.Graph.C84_dependencies",
    "OFE.Graph.C84_empty",
    "OFE.Graph.C84_some_groups",
    "OFE.Graph.C84_compressed_groups",
    "OFE.Graph.C84_not_lowest"
   ],
   "note": "Every node gets a position of its own in the box, edges lead downwards, groups are separated; without push_down nodes are as high as possible; with cluster each level is sorted by the leftmost node its nodes lead to in the next. Partial: edges must follow the sort key, groups must not go against the edges, the graph must not be empty. Negations: empty graph raises, groups against the edges put children above parents, push_down moves nodes by one level only and not to the lowest possible point. Floats are rationals."
  },
  {
   "property": "C85",
   "status": "partial",
   "theorems": [
    "OFE.Graph.C85_graph_partial",
    "OFE.Graph.C85_drawn_partial",
    "OFE.Graph.C85_compress",
    "OFE.Graph.C85_only_group",
    "OFE.Graph.C85_no_table_miss",
    "OFE.Graph.C85_single",
    "OFE.Graph.C85_disjoint",
    "OFE.Graph.C85_no_groups",
    "OFE.Graph.C85_shadowed"
   ],
   "note": "Nodes and edges, clusters and groups and the drawing for rulesets without compression, exactly when it fails with compression. Violated: rules that packets hit but that have no dependencies are left out as unreachable (C85_single, C85_disjoint), rules that no packet hits are kept (C85_shadowed)."
  },
  {
   "property": "C86",
   "status": "proved",
   "theorems": [
    "OFE.Cudd.C86_table",
    "OFE.Cudd.C86_node",
    "OFE.Cudd.C86_injective",
    "OFE.Cudd.C86_complete",
    "OFE.Cudd.C86_diagrams"
   ],
   "note": "The table maps a node number to (field, bit) exactly if that bit sits at the corresponding header position; a node tests that bit; injective; only the three padding bits have no entry, and diagrams built from matches never test those."
  },
  {
   "property": "C87",
   "status": "partial",
   "theorems": [
    "OFE.Files.C87_path_partial",
    "OFE.Files.C87_not_found",
    "OFE.Files.C87_handle",
    "OFE.Files.C87_wrapped_partial",
    "OFE.Files.C87_wrong_handle",
    "OFE.Files.C87_text_refused",
    "OFE.Files.C87_keyword",
    "OFE.Files.C87_missing",
    "OFE.Files.C87_pathlike",
    "OFE.Files.C87_closes",
    "OFE.Files.C87_detach"
   ],
   "note": "Holds for string paths and for handles of the right kind or binary ones wrapped as text, if the function does not close a wrapped handle or detach its own. Violated: keyword without named argument, text handle for binary mode, path objects, functions that close a wrapped handle."
  },
  {
   "property": "C88",
   "status": "partial",
   "theorems": [
    "OFE.C88_last",
    "OFE.C88_forwarded_partial",
    "OFE.C88_pop",
    "OFE.C88_vid",
    "OFE.C88_push"
   ],
   "note": "Each field set once with its last value (C88_last, all rules); the forwarded packet has it if no header with the field is added or removed, VLAN ids up to the present bit. Violated behind a pop, for a push and for VLAN ids without present bit."
  },
  {
   "property": "C89",
   "status": "proved",
   "theorems": [
    "OFE.Str.C89_path",
    "OFE.Str.C89_texts_partial",
    "OFE.Str.C89_odd"
   ],
   "note": "For all paths of rules on both pythons; for other texts python 3 needs an even number of lines (C89_odd is the negation)."
  },
  {
   "property": "C90",
   "status": "proved",
   "theorems": [
    "OFE.Str.C90_text",
    "OFE.Str.C90_lines",
    "OFE.Str.C90_too_long"
   ],
   "note": "Rules without groups whose values fit their fields; C90_too_long shows that the last hypothesis is needed."
  },
  {
   "property": "C91",
   "status": "partial",
   "theorems": [
    "OFE.NodeHash.C91_table",
    "OFE.NodeHash.C91_cxx_partial",
    "OFE.NodeHash.C91_never_error",
    "OFE.NodeHash.C91_cxx_value",
    "OFE.NodeHash.C91_python_partial",
    "OFE.NodeHash.C91_python_friendly_partial",
    "OFE.NodeHash.C91_unhashable",
    "OFE.NodeHash.C91_mixed",
    "OFE.NodeHash.C91_big"
   ],
   "note": "C++: all nodes of diagrams with fewer than 10^12 bits and all actions whose hash agrees with ==; bdd.py: actions that can be hashed, or whose friendly names agree. Negations: C91_unhashable, C91_mixed, C91_big."
  },
  {
   "property": "C92",
   "status": "partial",
   "theorems": [
    "OFE.Save.C92_round_trip_partial",
    "OFE.Save.C92_pickle",
    "OFE.Save.C92_ovs_cookie_partial",
    "OFE.Save.C92_not_refused",
    "OFE.Save.C92_text",
    "OFE.Save.C92_old_lost",
    "OFE.Save.C92_cut",
    "OFE.Save.C92_groups_lost",
    "OFE.Save.C92_dict",
    "OFE.Save.C92_only_first",
    "OFE.Save.C92_mixed",
    "OFE.Save.C92_ryu_pickle_partial",
    "OFE.Save.C92_ryu_json_partial",
    "OFE.Save.C92_ryu_gives_up"
   ],
   "note": "Round trip for all rulesets that a format can hold, in all four formats that can be written and read; unknown formats are not refused (negation), Ryu's formats lose groups (negation), a failed save loses or shortens the file that was there."
  },
  {
   "property": "C93",
   "status": "proved",
   "theorems": [
    "OFE.Draw.C93_d3",
    "OFE.Draw.C93_d3_equal",
    "OFE.Draw.C93_reorder",
    "OFE.Draw.C93_boxes",
    "OFE.Draw.C93_constraints",
    "OFE.Draw.C93_same_label"
   ],
   "note": "Links of the web page, sequence numbers, boxes and constraints, for all graphs and all orders of sets; nodes are told apart by equality and by label, which the two further theorems spell out."
  },
  {
   "property": "C94",
   "status": "partial",
   "theorems": [
    "OFE.Args.C94_node_call",
    "OFE.Args.C94_node_init_partial",
    "OFE.Args.C94_half",
    "OFE.Args.C94_again",
    "OFE.Args.C94_term",
    "OFE.Args.C94_threshold_partial",
    "OFE.Args.C94_negative",
    "OFE.Args.C94_cleans",
    "OFE.Args.C94_ops"
   ],
   "note": "New nodes, terminations and the functions on diagrams in full. Negations: a threshold below 0 is set although it is refused (C94_negative); a refused __init__ of an existing node changes it (C94_half), an accepted one can leave has_none wrong (C94_again). wc_to_BDD does not check its arguments at all and is not modelled for wrong ones."
  },
  {
   "property": "C95",
   "status": "partial",
   "theorems": [
    "OFE.Consts.C95_merge",
    "OFE.Consts.C95_once",
    "OFE.Consts.C95_merged",
    "OFE.Consts.C95_value_partial",
    "OFE.Consts.C95_not_merged",
    "OFE.Consts.C95_only_one",
    "OFE.Consts.C95_fields",
    "OFE.Consts.C95_actions",
    "OFE.Consts.C95_merged_defined",
    "OFE.Consts.C95_values",
    "OFE.Consts.C95_reserved",
    "OFE.Consts.C95_before_experimenter"
   ],
   "note": "All 388 constants but one: OFPTC_DEPRECATED_MASK is not in the list that is merged and is not found (C95_not_merged)."
  },
  {
   "property": "C96",
   "status": "partial",
   "theorems": [
    "OFE.Collect.C96_collected_partial",
    "OFE.Collect.C96_requests",
    "OFE.Collect.C96_flows",
    "OFE.Collect.C96_two_parts",
    "OFE.Collect.C96_exit",
    "OFE.Collect.C96_first_only"
   ],
   "note": "All sequences of events and answers; an answer in several parts to a request for one item is dropped (negation), an exception outside Exception loses everything (negation)."
  },
  {
   "property": "C97",
   "status": "partial",
   "theorems": [
    "OFE.C97_shown_partial",
    "OFE.C97_tunnels_partial",
    "OFE.C97_not_compared",
    "OFE.C97_priorities"
   ],
   "note": "Under the conditions of C58: for each two neighbouring lines the printed pairs are exactly pairs of paths taken by a packet for which the labels differ. With pushes and pops (C97_tunnels_partial) every packet with known headers that is forwarded differently has its pair of paths shown; pairs are characterised by the sorted single tables. False: the first line is not compared with lines after the second, contrary to the help text (C97_not_compared); the rules printed have scaled priorities (C97_priorities)."
  },
  {
   "property": "C98",
   "status": "partial",
   "theorems": [
    "OFE.C98_off",
    "OFE.C98_same_line_sound_partial",
    "OFE.C98_different_lines_partial",
    "OFE.C98_equal_files_partial",
    "OFE.C98_tunnels_partial",
    "OFE.C98_tunnels_apart_partial",
    "OFE.C98_python3_raises",
    "OFE.C98_masks"
   ],
   "note": "Under the conditions of C58 and C53 (python 2, exact matches, no set-field in write-actions), also for pipelines that push and pop headers between tables. False: python 3 always raises, and with masks two rulesets that forward differently are on the same line."
  },
  {
   "property": "C99",
   "status": "partial",
   "theorems": [
    "OFE.Cli.C99_requests",
    "OFE.Cli.C99_loaded",
    "OFE.Cli.C99_usage",
    "OFE.Cli.C99_compared_partial",
    "OFE.Cli.C99_same_name",
    "OFE.Cli.C99_converted_partial",
    "OFE.Cli.C99_unread",
    "OFE.Cli.C99_in_place_lost",
    "OFE.Cli.C99_graph",
    "OFE.Cli.C99_pyplot",
    "OFE.Cli.C99_no_temp_left",
    "OFE.Cli.C99_dot_fails"
   ],
   "note": "Holds when no name is given twice, for rulesets the output format can hold, and when dot succeeds; false otherwise (C99_same_name, C99_in_place_lost, C99_dot_fails). Loaders, viewer and dot are parameters."
  }
 ]
}