# Design: a Lean 4 model of ofequivalence and the properties proved about it

The code under study is `wandsdn/ofequivalence` (python, with three interchangeable C/C++ back ends).  It
normalises OpenFlow rulesets into decision diagrams and compares them.  The model lives in `lean/Verif/`.

## Method

* Shallow functional models, one Lean definition per python/C function, branch by branch, each with a comment
  citing file and lines.  Exceptions are values (`Except`/`Option`), loops are structural recursion or folds, mutable
  objects are state passed explicitly, external calls are parameters.
* A specification is written separately from the code model and talks about packets:
  a packet is a function from bit position to `Bool`; a ruleset denotes "first matching rule".  Every theorem relates
  the code model to the specification, for all inputs.
* Where the code violates a property, the negation is proved on a concrete witness, and a `_partial` theorem gives the
  largest part that holds.
* Integers: python ints that are never negative are `Nat`; `x & ~y` is `andNot x y` (exact for `x >= 0`).
* The diagram code is modelled on two levels.  Level 1: an inductive tree (none / terminal / node), ordered and reduced,
  with the recursive operations.  Level 2: the shared node table addressed by node ids, with hash-consing and
  memo tables whose entries may vanish at any time.  Level 2 refines level 1.

## Trusted base

* The Lean 4.33.0 kernel; axioms used by the theorems: at most `propext`, `Classical.choice`, `Quot.sound`
  (no own axioms, no `sorry`, no `native_decide`, no `bv_decide`).
* The faithfulness of the definitions to the cited lines (checked by reading, by seeded mutations, `seeded/LOG.jsonl`,
  and by evaluating the code's own tests on the model, `Verif/Suite`: these are tests of the model, not proofs, and no claim rests on them.  Left out there
  are the forwarding table of 1000 lines and the random orders).
* The specification definitions (packet semantics, first match, OpenFlow action execution on header stacks).

Not modelled: the CUDD library internals (the model takes `Cudd_addApply`/`unique table` as the textbook
algorithm that the pure-python back end spells out), C reference counting, python hashing/dict internals beyond
"insertion ordered, keys compared with ==", tqdm/printing, argument parsing, file I/O, ryu/OVS message classes,
networkx graph layout.

## Properties: what is modelled, how it is proved

| id | model | proof plan |
|----|-------|-----------|
| C01 | normalise (both), check_equal on reduced ordered trees; ids via C04 | canonicity of reduced ordered trees + C03 |
| C02 | normalise_divide_and_conquer, normalise_naive | meld associativity at tree level, induction on the pairing rounds; negation for [] |
| C03 | same | induction on rule list, C05, C09 |
| C04 | node table, memo tables, every recursive op | store invariant (acyclic, unique, reduced) preserved by each op under arbitrary eviction; refinement to trees |
| C05 | meld_recursive, has_none | structural induction on pairs of ordered trees |
| C06 | intersection_recursive, subtract_recursive | same |
| C07 | difference_recursive | same; negation (undefined on both sides may be marked) with witness, `_partial` when left is defined wherever right is |
| C08 | addDiffTagged, ENCODE/DECODE_TERMINAL | apply-theorem + arithmetic of the packing |
| C09 | wc_to_BDD | induction on bits |
| C10 | _BDD_to_wcs | induction on tree with accumulated prefix |
| C11-C13 | wildcard_intersect / is_subset / union_cover on Nat | bitwise extensionality (`Nat.testBit`) |
| C14 | compress_wildcard_list | induction on the two nested loops |
| C15, C16 | flow_matches_to_wildcard, build_field_offset, flow_wildcard_to_fields, Match | bitwise extensionality + disjoint field layout |
| C17 | Match as insertion ordered association list | C15 + injectivity per field |
| C18 | morton_number, RMorton, C lut/pdep variants | testBit of the recursion; 256-entry tables by their generating definition |
| C19, C20, C22 | ActionList levels | Foata normal form of Mazurkiewicz traces, generic over a symmetric dependency |
| C21 | ActionList.remove as written | negation with witness; `_partial` for the cases that hold |
| C23 | ActionSet.append | invariant by induction over appends |
| C24 | _remove_redundant | semantics on header stacks; negation for MPLS TTL actions between a removed push/pop pair (`C24_wrong_ttl`) and for PUSH_PBB between SET VLAN_PCP and POP_VLAN (`C24_wrong_pcp`); `_partial` otherwise |
| C25 | per_output_actions, equiv_equal, also with groups (`Actions/GroupView`, a heap of Group objects, nesting by fuel) | negations for a port used twice (`C25_wrong_repeated_port`) and for SELECT groups (`C25_wrong_select`); `_partial` for lists that reach each port at most once, through ALL and INDIRECT groups |
| C26, C27 | Rule.merge, Instructions.merge, simulated egress | bitwise requirements of matches before and after set-field and metadata writes; action sets as histories of writes (`Rule/Spec.lean`) |
| C28, C30, C31 | scale_ruleset, single_table_condense, to_single_table_scaled | loop invariant: every rule of the condensed list stands for a path, and every packet's first match for its run so far (`Ruleset/Condense.lean`); gaps between priorities (`Ruleset/Order.lean`, `Agree.lean`); the same loop with pushes and pops on the way for packets whose pushed-upon headers are known (`Ruleset/Tunnel*.lean`, `Props/RulesetTunnel.lean`); negations for popped headers, for pushes upon unknown headers and for equal priorities |
| C29 | scale_ruleset | mixed-radix arithmetic |
| C32 | demote_match/promote_match/_get_simulated_egress | invariant over the apply-actions: every bit required of a header at a depth is the packet's (`Rule/TunnelSteps.lean`); negations for a pop after two pushes and for a push on an unknown header |
| C33 | _collect_paths, find_conflicting_paths | induction on rules with the C06/C07 facts |
| C34 | grouping loop of check_equivalence.main | induction over the inputs |
| C35 | deps_direct build_table_deps, add_parents_bdd (`Deps/Model`, rules seen as wildcard, priority, table, egress; `Deps/OfRule` links to `Rule`) | packet-level characterisation `ExactDeps` of edges and labels; invariant `ExactOn` over the loop.  Partial: the egress of a rule with nothing below it is computed and may raise |
| C36 | incremental build_dependency_graph, dep_dag_insert, find_affected, process_affected | each insertion takes an exact graph to an exact graph, for every set iteration order and recursion limit at least the number of rules; exact graphs are unique |
| C37 | build_prefix_table_deps, both modules (`Deps/Prefix`) | prefixes are a laminar family of intervals; invariant: the chain holds exactly the earlier prefixes that reach beyond the current address (`Deps/PrefixLemmas`) |
| C38, C43 | headerspace class (`Hs/Model`), add_parents_hs | every operation is the set operation on packets (`HSpace.Has`), over any history; the two variants of build_table_deps run in lockstep |
| C39, C40 | deps_indirect (`Deps/Indirect`) | wildcard semantics; C40: packets entering a table along gotos (`Deps/PathSpec`), induction over the recursion with the ingress match as the image of such packets.  Partial: raising egress; gotos to tables without rules.  With push and pop (`Props/IndirectTunnel`, `Deps/TunnelSpec`): success and nothing missed, by following one packet through the recursion with the simulation of C65 (`Deps/TunnelLemmas`) |
| C41 | node_to_tree, simplify_tree (`Tree/Model`) | result characterised as transitive reduction, ancestors unchanged, for every set iteration order; invariant over processed nodes |
| C42 | create_similar_groups (`Groups/Model`) | equal keys are characterised as `Alike` at packet level; partition refinement invariant (`Groups/Lemmas`), the number of groups as termination measure; result is the coarsest stable partition.  Partial: the sort may raise |
| C44 | BooleanShim (`Shim/Model`) | a canonical form `Can`: the shim is determined by the set of calls; antichain invariant; order independence as a corollary |
| C57 | normalise, merge_rules, check_equal of normaliseheaderspace.py | every key of the map stands for packets with one first rule (`Represents`), kept by merging; soundness; negations for completeness, the empty ruleset and `diff=True` |
| C45 | ruleset_from_fib (`Fib/Model`; splitting lines into parts is not modelled) | packet-level runs of the ruleset against `Longest`; ports by invariant over the loop; the ruleset is a `PrefixTable` (link to C37) |
| C46 | cuddbdd terminal registry | invariant over call history |
| C47 | normalise + check_equal (default) on single-table rules: labels, terminal numbering, tagged difference, per-path set-field prefix (`Check/*`) | soundness for all rulesets/packets by C08, C16, C24, C25, C46; totality; completeness for equal labels |
| C58 | main of check_equivalence.py without -r/-D (`Main/Model`): sort, to_single_table, either normalise, grouping | C28 + C47's label lemmas + C34; the registry of labels is threaded through all files; negation `C58_incomplete` of the converse for packets; `C58_tunnels_partial` from C28_tunnels (packets with known headers; every other packet hits some rule, `C28_tunnels_cover`) |
| C59 | to_single_table + normalise + check_equal (default) | C28 + C47; `single_plain` shows that merging along goto chains keeps the actions comparable; `C59_tunnels_partial` as C58 |
| C48 | normalise_set_fields, normalise with match_redundancy (`Eager/Model`); the iteration order of the python set is a parameter | packet semantics: every entry treats its packets as the rule does; the first entry has exactly the set-fields that change something; equal forms ⇔ equal stripped descriptions for every packet; for rules none of whose set-fields depends on another kind of action |
| C61 | select_compressed_ruleset, compress_ruleset (`Select/Model`); the iteration order of python sets is a parameter; the missing debugger is an error | invariant of the loop: the partition never changes, `rule2group` names the current choice, chosen rules keep all dependencies with chosen rules (uses C42: groups are stable) |
| C62 | as C61 | violated: a ruleset of six rules for which no choice exists |
| C63 | main of compress_ruleset.py: what is passed to save_ruleset | violated: the original ruleset is saved |
| C64 | demote_match, promote_match (`Rule/Model`), all copies, any dict order | lookup of every copy before and after each loop step, then acceptance of packets with header stacks; outwards violated for one dict order; in `merge` behind pushes (`Props/MovePush`) by induction on the fields of the header |
| C65 | merge, _get_simulated_egress, demote/promote (`Rule/Model`) with pushes and pops | invariant (`Rule/TunnelSource`): every header is either written, and known, or the arriving header so many places further in; then C16 and C32; `C65_table_cover`: merging with a table that accepts everything loses no packet, known or not |
| C66 | convert_ovs.py (`Ovs/Model`): texts are lists of characters, regular expressions are functions that take the longest run | the token at the head of the text is parsed back for every action and instruction, then induction over the tokens; matches item by item; negations for IPv6 addresses, IPV6_FLABEL and meters |
| C67 | the readers of convert_ovs.py | specification `Ovs/Doc.lean` (relations between texts and numbers, fields, actions, instructions; no reference to the reader); one lemma per notation, then induction over the pieces and tokens; conclusions in terms of the packets accepted and the effect of the instructions; negations by concrete texts |
| C68 | equality and hashes of rule.py (`Rule/Equality`), caches included; python's own hash functions are parameters | matches: same dictionary ⇒ same coverage ⇒ same wildcard (valid wildcards are canonical); caches: invariant over all series of operations (`Props/Equality`) |
| C69 | groups, buckets and files of convert_ovs.py (`Ovs/FileModel`) | documented forms as inductive predicates (`Ovs/FileDoc`): each `=` is preceded by one of the known keywords, hence the patterns are found where they are written; C66 for the round trip; negations for what is read wrongly |
| C70 | convert_ryu.py both ways (`Ryu/Model`); Ryu's classes are data: an OFPMatch is the list of (field, bytes, mask bytes) that `oxm_from_user` gives, in the order of the field numbers | bytes of a number are read as that number unless they look like an address in text form; otherwise as C66; negations for the bytes that do |
| C71 | the same | the meaning of a message as a small specification (OpenFlow 1.3, 5.9): C18/C67-like semantics of matches, `exec`, `finalSet` |
| C72 | group_ofdpa_id, group_to_ryu, actions_to_ryu with the shared counter as state; groups are looked up in a heap, recursion bounded by fuel | induction on the fuel; arithmetic on the bit fields of the numbers; negations for the collisions |
| C73 | ruleset_from_auto with the loaders as parameters (`Ryu/Auto`) | all orders of the loaders; negation: the Open vSwitch loader accepts any text |
| C74 | convert_ttp.py (`Ttp/Model`); ttp_tools is an external library whose objects are data | what can be read is read like the corresponding Ryu message (C71), for the same semantics; refusals; negations for the actions that are dropped, tables without number and repeated fields |
| C75 | find_conflicting_paths, matches, intersection of normaliseheaderspace.py (`Shim/Paths`) | every key of the merged maps has taken a side for every match of both rulesets, so a match either contains the included wildcard or is disjoint from the shim |
| C76 | the text functions of headerspace.py (`Match/Text`), for ints and for the words of the earlier representation | digits of the ternary number; the text determines the wildcard; negations (TypeError) for the two that index an int, and for words (wrong bits) |
| C77 | gc_node_cache (`Heap/Gc`); a reference count is the number of references, as CPython maintains it | loop invariant: whatever is left with two references is on the list |
| C78 | the C++ table as a heap in which any free address may be given out, with caches and roots as sources of references (`Heap/Model`) | refinement of trees by an invariant over all calls, with the collection of C77 as one of the calls |
| C79 | Instructions.canonical, merge (`Rule/Canonical`) | C25 for the apply-actions; for group-free action sets the view loses nothing (no action of a set is redundant), so the sets are equal; contexts by induction over the pipeline and by `merge_inst`; negation for groups in the action set |
| C80 | BDDIterator and the external references of cuddmodule.c (`Cudd/Iter`, `Cudd/Refs`) | cubes of a diagram against the recursive listing; account of references as an invariant over histories; what the objects hold after a history by C05-C08 (`Props/CuddResults`); negations for wc_to_BDD, `__init__` and growing managers |
| C81 | index, __getitem__, __do_sort of ActionList | induction over the levels |
| C82 | walk, to_dot, __len__ of bdd.py/cbdd.py, BDD_len of cuddmodule.c (`Bdd/Walk`) | recursion with the visited set against `Sub`; minimality: every node of the reduced diagram is a subfunction, which some node of any other ordered diagram represents |
| C83 | build_ruleset_deps of ruleset_deps_direct.py (`Deps/Ruleset`, `Props/DirectRuleset`) | per table by C35/C36, between tables by the loop of add_parents on the egress image (`egress_image` of C40); with push and pop (`Props/DirectTunnel`) on one packet followed by the simulation of C65 |
| C84 | directed_layout (`Graph/Layout`), positions as rationals, key as a number | level invariant over insertion, push-down and cluster sorting; negation for groups that do not follow the order |
| C85 | build_graph without the drawing attributes (`Graph/Build`) | membership; negation: a rule without dependencies is taken for unreachable |
| C86 | _generate_bdd_index_to_field (`Cudd/Index`) | offsets of fields as in C15; lookup of a node against the bit of the field |
| C87 | as_file_handle, open_compressed (`Files/Model`): handles are records with kind, mode, position and closed flag | case analysis over kinds and modes; negation for keyword arguments |
| C88 | get_goto_set_fields (`Rule/SetFields`) | last value per field over the canonical order; negation behind a push or pop |
| C89 | format_path (`Text/Model`) on the text of rules from C90; `len(lines) / 2` for both pythons | induction over the path; negation for texts with an odd number of lines on python 3 |
| C90 | `__str__` of Rule, Instructions, ActionList, Match and the formatters (`Text/Model`); python's `str` of tuples, numbers and names | every part is a code that can be read back from the left given what follows it; values that do not fit are a negation |
| C91 | `__hash__` and `__eq__` of nodes and terminations (`Store/Hash`); hash of python objects is a parameter that agrees with their equality; C `long` as `BitVec 64` | congruence; last step of the C hash; negation for unhashable actions in bdd.py |
| C92 | save_ruleset, load_ruleset, ruleset_to/from_pickle, ruleset_from_ryu (`Files/Ruleset`); pickle and json are parameters with load (dump x) = x | composition with C66, C69 and C70; negations for unknown formats and dropped groups |
| C93 | create_d3, reorder_dot, create_dot (`Graph/Draw`); pydot graphs are lists of nodes and edges found by name | index in a list without repetition; sorted permutation; negation for rules with the same text |
| C94 | BDDNode_init, BDDTerm_init, set_cleanup_threshold, memory_cleanup (`Store/Args`) | case analysis; negations: values are assigned before they are checked |
| C95 | the tables of openflow_desc.py:450-973 (`OpenFlow/Consts`), merge_dicts, value_from_OFP | tables by evaluation (reserved numbers and enumerations against a list written from the standard), names by general lemmas about merging |
| C96 | handle_datapath (`Collect/Model`); the switch is a function from requests to answers or exceptions | each step touches its own key; induction over the requests |
| C97 | the -D loop of main (`Main/Difference`) over the forms of C58 and find_conflicting_paths of C33; paths are positions in the sorted ruleset | paths of a single table are pairwise different (invariant of the condensing loop); sorting by priority keeps first matches (C30); exactness of difference where all packets have a label (C07); with pushes and pops (`Props/DifferenceTunnel`) the same for packets with known headers |
| C98 | the -r branch of main (`Main/Reverse`): reverse_fields between sorting and to_single_table | reversed pipelines meet the conditions of C58, with and without pushes and pops (`Props/ReverseTunnel`); composition with C53 |
| C99 | the three mains (`Cli/Model`): loading into a dict by name, load then save, choice of output and temporary file; loaders, viewer and file system are parameters | dict lemmas, case distinction over the options |
| C100 | the lists inside action lists as references into a store (`Alias/Model`): levels, outer list and original order are changed in place, replaced or shared as in the code; iteration over a live list takes a step count; the caches are those of C68 | ownership invariant (no list is reachable from two objects), each operation changes only lists of its own object and simulates the operation on values; induction over the operations |
| C101 | `__str__`, `__hash__`, `dup` of BooleanShim (`Shim/Print`); texts are lists of characters; objects hold a reference to their set of excludes, attributes not assigned fall back to those of the class; python's hash functions are parameters | a reader of the texts as specification, and C16; sorting makes the text independent of the order; refinement of values by objects with an invariant that no set is shared; negation: a shim from intersection with a disjoint match cannot be printed |
| C102 | BDD_to_matches of bdd.py, cbdd.py and cuddbdd.py (`Bdd/Matches`); generators are taken as lists, exceptions included | paths leave the padding free, then C10 and C16; C08 for the differences; negation: bdd.py calls flow_wildcard_to_flowmatches with too few arguments |
| C103 | the operators and tests of Match, Instructions and Rule (`Match/Ops`) | C12, C15, C16 for the wildcards; every match has a packet; `+` from C26 and C27; negations for `&` of disjoint matches, `+=` and mask 0 |
| C104 | `rule_to_ovs` (`Ovs/Model`) against the notation of ovs-fields(7) and ovs-actions(7) (`Ovs/Doc`) | each number, address, field, action and instruction written denotes its value; the pieces of the line put together; negations for SET_NW_TTL and IPv6 |
| C105 | `str.format` with one argument, the labelling loop of `build_graph`, `parse_args` after parsing, `create_dot` and the page of `create_d3` (`Graph/Label`) | labels described by their parts: written as a format string they give what the parts say, and are injective since all forms of numbers grow in length; the loop by induction; the page by splitting the template at its only field; refused format strings (a single brace, a number other than 0) by running the loop; negations for labels without or with named fields, clusters and groups |
| C106 | `egress_overlap` (Rule/Model.lean) | Specification `GoesOn`: some packet of the ingress that the rule matches is matched by the other after the forwarding of the first. Equivalence from the exact image of the simulated egress (`egress_ingress`, rules without pushes and pops) and `overlaps_iff`; with pushes and pops one direction from C32, the other from `egress_sound` (`Rule/TunnelSound`): every packet of the simulated egress looks, in its outermost headers, like a packet that the rule hands on |
| C107 | dependency table, ActionList order and equality, remove_redundant; specification of ethertypes of a frame in `Props/ActionTypes` | trace equivalence of C20 + case analysis over the table; negations with PBB headers and for removed pairs of PUSH_MPLS and POP_MPLS |
| C108 | the tables of names of openflow_desc.py, matches by name (`Match/Names`); the tables of rule.py and headerspace.py are different objects | closed form of the table after any calls; refinement of matches by name by matches by number |
| C49 | AlphaInt | bijective base 26 |
| C50, C60 | format_utils (`Fmt/Model`); python's extra number syntax is left out | digit lists, split/join; negations for the IPv6 formatter and for texts with seven groups and a double colon at an end |
| C51, C52 | UniqueRules, AttachBDD (`Util/Model`) | programs with nested `with` blocks and exceptions; refinement of an ideal interpreter by induction |
| C53 | reverse_fields (`Reverse/Model`) | bit reversal as a bijection on packets that commutes with every action; simulation of runs; negations for python 3, masks and write-actions |
| C54 | automatically_limit_memory | smallest limit that meets the bounds; negation for max_res=None |
| C55 | action dependency table | packet semantics `act`/`emit` on header stacks; case analysis over the table, for all parameters |
| C56 | ActionList order, equality | C19/C20 trace equivalence + C55 |

## Packet semantics of actions (`Verif/Actions/Sem.lean`)

A packet is a family of header-field values indexed by tag depth, the TTL stacks, the queue and metadata.  A push shifts the
fields of its tag type one level deeper and copies the outer values, a pop shifts them back.  Simplified: ethertypes do
not change the packet (they are the subject of C107), group buckets are opaque (a group emits the packet to `Dest.group n`), emission order is a multiset.

## Violations found (each has a proved negation beside the `_partial` theorem)

* C02: `normalise_divide_and_conquer([])` differs from the naive version.
* C07: `difference` also marks packets undefined on both sides.
* C21: `ActionList.remove` can leave an order that is not canonical.
* C24: redundancy removal changes packets (MPLS TTL actions; PUSH_PBB with VLAN_PCP).
* C25: a port listed twice keeps only the last entry in the per-output view; the type of a group is ignored, so a SELECT group passes for an ALL group or for plain outputs (`C25_wrong_select`).
* C28: a rule that pops a header and goes on: packets matched behind the pop are lost from the single table.
* C28: a rule that pushes a header upon one it does not match and goes on: packets whose copied header is matched behind the push are lost from the single table.
* C30: two rules of one table with the same priority: the single table is not sorted by priority.
* C32: a pop after two pushes gives the wrong outer header; a push on an unknown header claims value 0.
* C35: `build_table_deps` raises if the egress of a rule without lower rules raises (three pushed VLAN headers on a match with VLAN), although it is not needed.
* C43: `is_empty` after `clean_up` may say no for a set without packets (stated direction holds); C38: hence extra edges.
* C39: same as C35 for the indirect dependencies; the wildcard variant accepts the empty ruleset, the diagram variant raises IndexError.
* C40: a goto to a table without rules raises RuntimeError, since the defaultdict grows while it is iterated over. Behind a push upon a header that is not matched the copied header is taken as zero, so a dependency is missed (`C40_push_unknown`). The egress forgets that the pushed header equals the one below, so after a pop a dependency may be found between rules that no packet passes both (`C40_extra`).
* C41: a dependency listed twice is removed only once (`Tree.C41_repeated_edge`).
* C42: two rules that agree on table, priority, matched bits and goto, and whose action types first differ in a set-field against another action, make the sort raise TypeError on python 3.
* C45/C37: a default route written with another address than 0.0.0.0 keeps it in the match, and `build_prefix_table_deps` fails its assertion (`Fib.C45_default_address`); one without `IPV4_DST` raises KeyError (`C37_no_dst`).
* C57: the header-space comparison is sound but not complete (`Shim.C57_incomplete`: rules for 0 and 1 against one for everything); an empty ruleset raises KeyError; `diff=True` fails an assertion when the key sets differ.
* C47: a packet matched by one ruleset only makes the check raise TypeError (`C47_missing_raises`); SET_FIELD VLAN_VID 0 on untagged packets counts as no change, though elsewhere VLAN ids are written with the present bit (`C47_vid_convention`).
* C58: the tool separates rulesets that forward alike when one writes a value the packet already has (`C58_incomplete`; the library's default check accepts them). Option -D is documented as comparing the first group with each other one; the code compares consecutive groups (check_equivalence.py:182-184, not modelled).
* C50: `format_ipv6` writes sixteen parts of two digits, which no reader (and not `normalise_bytes`) takes for the address (`Fmt.C50_ipv6_fails`).
* C60: texts with seven groups and the double colon at an end, e.g. `1:2:3:4:5:6:7::`, fail an assertion (`Fmt.C60_seven_groups`).
* C51, C52: one UniqueRules or AttachBDD object used for two nested blocks breaks the outer block; a rule twice in the list, or more rules in the inner than in the outer block, breaks AttachBDD; `rebuild_mappings` merges equal rules and raises TypeError for a defaultdict. No use in the code does any of this.
* C54: `max_res=None`, documented as allowed, raises TypeError (`Util.C54_none_raises`).
* C53: `reverse_fields` raises AttributeError on python 3; the new mask is computed from the value, so different prefixes become the same match (`C53_masks_lost`); write-actions (and written metadata) are not reversed (`C53_writes_not_reversed`).
* C48: with a pop (or push) of the header before the set-field, the set-field is dropped because of the outer header's value; rulesets that send different packets get equal forms (`C48_wrong_pop`; the docstring names this bug).
* C62: when no choice of one rule per group keeps all dependencies (six rules whose overlaps form a cycle), or none is found by changing directly dependent groups, the code imports the debugger `trepan` and enters it (`C62_no_choice`).
* C63: `compress_ruleset --output` saves the original ruleset, not the compressed one (`C63_saves_original`).
* C64: `promote_match` moves the third header over the second one if it was added to the dict first (`C64_promote_order`).
* C65: behind a push upon an unknown header, no-overlap is reported for rules that packets pass (`C65_push_unknown`); behind three pops the merge dies of an unassigned variable (`C65_three_pops`).
* C66: IPv6 addresses are not read back (`C66_ipv6`), the IPv6 flow label cannot be written because of a misspelt key (`C66_flabel`), meters are dropped (`C66_meter`), and VLAN ids lose the present bit (`C66_vlan`).
* C67: `tp_dst`/`tp_src`/`mod_tp_dst` are always TCP ports (`C67_tp_dst`); `icmp_type` is always ICMP for IPv4 (`C67_icmp6_type`); the prefix length of `fe80::/10` (two colons) and of `nd_target` is read as a mask (`C67_prefix6`); the priority of `vlan_tci` is shifted by 9 and `vlan_tci` without a mask is a TypeError (`C67_vlan_tci`); `in_port=LOCAL` is read as bytes (`C67_local`); `mod_nw_tos` is not shifted (`C67_nw_tos`); `resubmit(,10)` is dropped (`C67_resubmit`) and actions behind a resubmit are moved before it (`C67_resubmit_order`); unknown keys are ignored (`C67_left_out`), unknown actions end the list (`C67_dropped`), both without an error.
* C69: group lines are not read as documented: a group without buckets is never read (UnboundLocalError, `C69_no_bucket`); a bucket that refers to a group
  further down raises KeyError (`C69_forward`); upper case actions (`C69_upper`) and a bucket without `actions=` (`C69_bare_bucket`) are read as a bucket that
  does nothing; weights and watched ports are dropped (`C69_weights`); a list of fields to hash raises ValueError (`C69_fields`).
* C70/C71: `normalise_bytes` guesses whether bytes are the text of an address, and is applied to the binary values of match fields. TCP port 14906 (`::`) is read as 0
  (`C70_port`, `C71_port`), the Ethernet address 3a:3a:31:32:33:34 as ::1234 (`C70_mac`), 46.46.46.1 raises (`C70_address`). Rules with metadata or a meter cannot be
  converted at all (`C70_not_written`, `C71_meter`).
* C72: a group without `ttp_link` (the default, so every group read from Open vSwitch text) raises AttributeError instead of getting the next unused number
  (`C72_no_table`); OF-DPA tables with a VLAN raise for rules that do not match one (`C72_no_vlan`); L2 Interface groups of one VLAN and port share a number even if
  their actions differ (`C72_same_port`), also with other groups in VLAN 0 (`C72_default_clash`); reserved ports and the 65536th group spill into the VLAN and table bits
  (`C72_controller`, `C72_wrap`).
* C73: the Open vSwitch loader takes any text for an empty ruleset, so the ValueError for unknown formats is not raised (`C73_garbage`, `C73_no_error`), and a FIB or JSON
  file with the letters ovs in its path is read as empty (`C73_ovs_in_path`). The order of the set matters for sources that two loaders accept (`C73_order`). A file
  opened by its descriptor raises TypeError (`C73_descriptor`).
* C75: `find_conflicting_paths` of the header-space method names paths of shadowed rules (`C75_shadowed`; a warning in the code says so) and of shims that have no packets at all (`C75_no_packets`).
* C78 (remark): `_cbdd.wc_to_BDD` takes an empty bit pair 00 of a wildcard for 11 (any packet), and reads past the digits of a python int that is too short; bdd.py refuses both with an assertion (`C78_empty_bit`). The property is stated for wildcards without empty bits.
* C79: writing a GROUP and writing the outputs of its buckets have the same canonical form, but a later OUTPUT displaces only the latter (`C79_wrong_group`).
* C76: `flow_wildcard_read_field` and `find_smallest_set_bit` raise TypeError on every wildcard, as wildcards are ints (`C76_read_fails`, `C76_find_fails`). On the
  sequences of words they were written for, the first shifts by the bits left over at the end instead of those at the start (`C76_wrong_read`; `C76_read_words` says what it reads); the second
  flips another bit of its argument than the one found (`C76_find_changes`) or raises (`C76_wrong_find`).
* C74: `actions_from_ttp` drops a SET_FIELD whose value is a text or whose field is a variable, and unknown actions, with at most a message (`C74_dropped`,
  `C74_text`); a GOTO_TABLE to a table without a number is lost (`C74_no_number`); of a field that is twice in the match set only the last one counts
  (`C74_repeated_field`). The second assertion on `field.value` was meant for the mask.
* C80: `wc_to_BDD` of cuddmodule.c takes a reference on every intermediate node and never drops it: after the release of a diagram all nodes below its decided
  bits stay for ever (`C80_leak`, `C80_leak_always`); a second `__init__` forgets the old root (`C80_reinit_leak`). An iterator that is being read while
  `wc_to_BDD` introduces new variables reads past the end of its cube (`C80_grown`). Calling `next` after `StopIteration` starts over.
* C83: a rule that no packet reaches (shadowed in its own table) still gets dependencies on the rules of its goto table; the default (incremental) algorithm raises ValueError for a table without a match-all rule. The test in ruleset_deps_direct.py:253 compares two different functions and never holds (harmless). Behind a push upon an unknown header a dependency is missed, as in C40.
* C84: `directed_layout` raises StopIteration for the empty graph and KeyError if only some nodes have a group (`C84_empty`, `C84_some_groups`); with groups
  that go against the edges (as `--compressed` may produce) it draws children above their parents (`C84_compressed_groups`); `push_down` does not place
  nodes "at the lowest possible point", it moves each down one level at most (`C84_not_lowest`).
* C85: `build_graph` takes a rule without dependencies for unreachable, though packets may hit it (`C85_single`, `C85_disjoint`), and keeps rules that no packet
  hits (`C85_shadowed`).  With `--compress` two similar rules without dependencies raise ValueError (`C85_compress`, `C85_disjoint`), with `--only-group` any
  such rule does (`C85_only_group`); groups of similar rules without `--compress` raise UnboundLocalError (`C85_no_groups`); a graph without edges cannot be drawn.
* C88: the fields of `get_goto_set_fields` are those of the list of actions, not of the packet: a value set in a header that is then removed is returned
  (`C88_pop`), fields of an added header are not (`C88_push`), and VLAN ids lack the present bit that the packet gets (`C88_vid`).
* C87: a file given by keyword raises IndexError unless the decorator names the argument (`C87_keyword`); text handles are refused for binary modes
  (`C87_text_refused`), path objects raise AttributeError (`C87_pathlike`); if the function closes a handle that was wrapped for it, ValueError replaces its
  result and the caller's handle is closed (`C87_closes`).
* C89: on python 3 a text with an odd number of lines gets no arrow (`Str.C89_odd`); texts of rules always have six lines, so users do not see it.
* C90: values longer than their field are cut by the formatters, so different rules can have the same text (`Str.C90_too_long`).
* C91: in bdd.py terminations whose actions are equal but cannot be hashed are told apart by the hash of their friendly names, so the table gets both and diagrams
  of the same function differ (`NodeHash.C91_unhashable`); in C++ the fallback is always 0 by an assignment in a condition, which hides this.  An action that is
  equal to another but not hashable (set and frozenset) is stored twice by both (`NodeHash.C91_mixed`).  A node numbered 10^12 without branches equals every
  termination (`NodeHash.C91_big`).
* C94: `set_cleanup_threshold(-1)` raises ValueError but sets the threshold, after which every operation cleans the table (`Args.C94_negative`); `__init__` of an
  existing node stores zero before it looks at one, and reports wrong branches without an exception, which python turns into SystemError (`Args.C94_half`);
  `__init__` with fewer arguments keeps branches but not `has_none` (`Args.C94_again`).
* C95: ofp_table_config is defined but left out of the list that is merged, so value_from_OFP does not know OFPTC_DEPRECATED_MASK (`Consts.C95_not_merged`); all other
  constants are found (`Consts.C95_only_one`).
* C92: `save_ruleset` with an unknown format (also with "auto" and "fib", which can be read) writes nothing and raises nothing (`C92_not_refused`).  Ryu's
  formats leave out the group messages: different groups give the same file (`C92_groups_lost`).  The file is emptied before the ruleset is converted, so a
  ruleset that cannot be converted costs the old file (`C92_old_lost`); for Open vSwitch a file with the rules before the offending one is left, which loads
  without complaint (`C92_cut`).  Rules without a cookie come back from Open vSwitch's format with the cookie 0 (`C92_ovs_cookie_partial`).
* C93: holds; but nodes of the dot file are told apart by their labels, so that with a `--node-label` without a number all rules are one node
  (`C93_same_label`).
* C96: an answer in several parts to a request for a single item (description, group features, meter features) is dropped (`C96_two_parts`); an exception that
  does not derive from `Exception` in any request means that no file is written, ever (`C96_exit`).
* C33: two rules with the same path share one entry, of which only the later is kept (`C33_overwritten`); single tables have no such rules.
* C97: the help text promises the difference between the first and each differing ruleset, but only neighbouring lines are compared (`C97_not_compared`); the
  rules shown have the scaled priorities of the merged table (`C97_priorities`).
* C98: python 3 raises for every ruleset with a rule (`C98_python3_raises`); with masks, `-r` puts rulesets that forward differently on one line (`C98_masks`).
* C99: a name given twice, such as "-" in two formats, is one ruleset, the last one: two that differ are not compared and the status is 0 (`C99_same_name`).  A
  ruleset converted in place to a format of Ryu that cannot hold it is lost (`C99_in_place_lost`).  When `dot` fails, a file that was not written is opened
  (`C99_dot_fails`).
* C100: `a += a` on an action list never ends (`C100_self_iadd`), because the loop meets the items it appends; `a.replace(a)` empties the list
  (`C100_self_replace`).  Nothing in the code base does either.
* C101: `intersection` with a disjoint match gives a shim that has no packets but is not marked as empty; it differs from the empty shim and printing it raises KeyError (`C101_disjoint`).
* C102: `BDD_to_matches` of bdd.py raises TypeError for every diagram that has a packet, because `flow_wildcard_to_flowmatches` is called without its second argument (`C102_python`).
* C103: `&` of matches without a common packet raises KeyError (`C103_and_disjoint`); `+=` always raises NotImplementedError (`C103_iadd`); a match on a field
  with mask 0 has all packets but is not `empty()` (`C103_mask_zero`).
* C104: SET_NW_TTL is written as `set_nw_ttl:`, which Open vSwitch does not have (`C104_nw_ttl`); an IPv6 address is written as sixteen pairs of hexadecimal
  digits, which denotes no address (`C104_ipv6`).
* C105: a label with a named field, like `{rule}`, raises KeyError in the formatting, which is taken for that of the lookup: all rules are reported as
  unreachable (`C105_named`). A label without a field makes all rules one node of the dot graph (`C105_same_label`). With both `--cluster` and `--group`
  the program warns that groups are ignored, but they still add edges (`C105_group_not_ignored`); `--cluster compressed` is said to be ignored for d3 and
  pyplot, but raises NameError without `--compress` (`C105_cluster_raises`).
* C106: behind a push upon an unknown header the answer is false although a packet goes on (`C106_push_unknown`); `egress_overlap` with an ingress that does not meet the match of the rule raises KeyError (from `intersection`) instead of answering
  False (`C106_disjoint_raises`).
* C107: PUSH_MPLS and PUSH_PBB (likewise other pushes and pops of tags and PBB headers) count as independent, so lists that put the label inside or outside the
  PBB header are equal (`C107_pbb`). PUSH_MPLS and POP_MPLS are dropped as redundant although POP_MPLS sets the ethertype (`C107_redundant`).
* C108: names and numbers are one-to-one, but rule.py adds an unknown field to its own table, headerspace.py looks into another one and passes over what it does not
  find: a match on an unknown field (Ryu has some, such as TCP_FLAGS) has all packets (`Names.C108_ignored`). Rulesets that differ only there count as
  equivalent (`Names.C108_check`).
