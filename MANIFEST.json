{
 "claims": [
  {
   "property": "C01",
   "status": "proved",
   "theorems": [
    "Verif.Props.C01_table_is_map",
    "Verif.Props.C01_no_fault",
    "Verif.Props.C01_frame",
    "Verif.Props.C01_remove_returns"
   ],
   "note": "Every sequence of calls that does not fault refines a finite map; fault-freedom under stated preconditions (faults: C03, HTclear + iteration C04)."
  },
  {
   "property": "C02",
   "status": "partial",
   "theorems": [
    "Verif.Props.C02_count_false",
    "Verif.Props.C02_count_partial",
    "Verif.Props.C02_count_net"
   ],
   "note": "False after HTclear (counter not reset): negation proved. Exact for all sequences without HTclear; for all sequences the counter equals first insertions minus removals."
  },
  {
   "property": "C03",
   "status": "partial",
   "theorems": [
    "Verif.Props.C03_remove_absent_false",
    "Verif.Props.C03_remove_absent_partial"
   ],
   "note": "False: NULL dereference on an empty bucket (hash_table.c:158). Exact characterisation of when the call is a no-op and when it is undefined."
  },
  {
   "property": "C04",
   "status": "partial",
   "theorems": [
    "Verif.Props.C04_iterate_false",
    "Verif.Props.C04_iterate_partial",
    "Verif.Props.C04_map_with_data"
   ],
   "note": "False after HTclear (assertion). Proved for all sequences without HTclear."
  },
  {
   "property": "C05",
   "status": "partial",
   "theorems": [
    "Verif.Props.C05_copy_false",
    "Verif.Props.C05_copy_partial",
    "Verif.Props.C05_deep_copy_partial"
   ],
   "note": "False after HTclear (assertion). Proved for all sequences without HTclear."
  },
  {
   "property": "C06",
   "status": "proved",
   "theorems": [
    "Verif.Props.C06_string_table",
    "Verif.Props.C06_int_table",
    "Verif.Props.C06_ptr_table",
    "Verif.Props.C06_string_map",
    "Verif.Props.C06_int_map",
    "Verif.Props.C06_ptr_map"
   ],
   "note": "Keys are modelled by the contents they point to at the time of the call."
  },
  {
   "property": "C07",
   "status": "proved",
   "theorems": [
    "Verif.Props.C07_strcat",
    "Verif.Props.C07_strcatn"
   ],
   "note": "total length below INT_MAX as the code counts in int"
  },
  {
   "property": "C08",
   "status": "partial",
   "theorems": [
    "Verif.Props.C08_substr_false",
    "Verif.Props.C08_substr_partial",
    "Verif.Props.C08_substr_ok_iff",
    "Verif.Props.C08_substr_null"
   ],
   "note": "false for lengths with start+len > INT_MAX (signed overflow); exact success set and result proved"
  },
  {
   "property": "C09",
   "status": "proved",
   "theorems": [
    "Verif.Props.C09_tokens",
    "Verif.Props.C09_restart"
   ],
   "note": "strings are values in the model, so that the argument is untouched is by construction"
  },
  {
   "property": "C10",
   "status": "proved",
   "theorems": [
    "Verif.Props.C10_subst",
    "Verif.Props.C10_spec_functional",
    "Verif.Props.C10_empty_token_diverges"
   ],
   "note": "strings shorter than 2^31"
  },
  {
   "property": "C11",
   "status": "partial",
   "theorems": [
    "Verif.Props.C11_streq",
    "Verif.Props.C11_streqn",
    "Verif.Props.C11_streqn_null",
    "Verif.Props.C11_streqci",
    "Verif.Props.C11_streqci_null",
    "Verif.Props.C11_strprefix",
    "Verif.Props.C11_strsub",
    "Verif.Props.C11_strsuffix_partial",
    "Verif.Props.C11_strsuffix_null_false"
   ],
   "note": "false for STRsuffix with NULL; STReqci needs 7-bit characters"
  },
  {
   "property": "C12",
   "status": "proved",
   "theorems": [
    "Verif.Props.C12_fold",
    "Verif.Props.C12_idempotent",
    "Verif.Props.C12_one_identity",
    "Verif.Props.C12_non_ascii_false"
   ],
   "note": ""
  },
  {
   "property": "C13",
   "status": "partial",
   "theorems": [
    "Verif.Props.C13_process",
    "Verif.Props.C13_message_partial",
    "Verif.Props.C13_at_false",
    "Verif.Props.C13_width_false",
    "Verif.Props.C13_stop_false"
   ],
   "note": "Rewriting changes only blanks; words are kept unless the text has @; width holds if every word is shorter than the space behind the header. False in general: @ is lost, a word that does not fit (or just fits behind a break) stops the wrapping."
  },
  {
   "property": "C14",
   "status": "partial",
   "theorems": [
    "Verif.Props.C14_checkpoint_partial",
    "Verif.Props.C14_overflow_false"
   ],
   "note": "All sequences of fewer than 2^31 calls; the counter overflows after 2^31 errors."
  },
  {
   "property": "C15",
   "status": "partial",
   "theorems": [
    "Verif.Props.C15_start_partial",
    "Verif.Props.C15_ends_partial",
    "Verif.Props.C15_calls_partial",
    "Verif.Props.C15_unpaired_false"
   ],
   "note": "proved for handlers that pair TRAVpush and TRAVpop, at any depth; refuted for handlers that push without popping"
  },
  {
   "property": "C16",
   "status": "proved",
   "theorems": [
    "Verif.Props.C16_rounds",
    "Verif.Props.C16_sweep"
   ],
   "note": "for all handlers, round by round (C16_rounds); for handlers that leave n alone, the children afterwards are the results (C16_sweep)"
  },
  {
   "property": "C17",
   "status": "proved",
   "theorems": [
    "Verif.Props.C17_ids",
    "Verif.Props.C17_showTree",
    "Verif.Props.C17_end"
   ],
   "note": "All events of CCNrun carry pre-order numbers; CCNshowTree prints the same numbers."
  },
  {
   "property": "C18",
   "status": "partial",
   "theorems": [
    "Verif.Props.C18_cycles_partial",
    "Verif.Props.C18_terminates_partial",
    "Verif.Props.C18_rounds_partial",
    "Verif.Props.C18_lost_notification_false",
    "Verif.Props.C18_divergence_false",
    "Verif.Props.C18_inherited_count_false"
   ],
   "note": "Proved for trees without phases below a cycle; false otherwise: nested phases lose notifications, reset the round counter (divergence) and inherit it."
  },
  {
   "property": "C19",
   "status": "proved",
   "theorems": [
    "Verif.Props.C19_completed",
    "Verif.Props.C19_prefix",
    "Verif.Props.C19_dataflow",
    "Verif.Props.C19_closed"
   ],
   "note": "Traces of completed runs lie in the expected grammar, all other traces are prefixes of such; the world is passed from action to action; closed gate changes nothing but the counter."
  },
  {
   "property": "C20",
   "status": "proved",
   "theorems": [
    "Verif.Props.C20_error_action",
    "Verif.Props.C20_error_phase",
    "Verif.Props.C20_error_fails",
    "Verif.Props.C20_pending",
    "Verif.Props.C20_pending_rounds"
   ],
   "note": "Last event, scope of the remaining events, no normal end, pending error invisible to remaining actions."
  },
  {
   "property": "C21",
   "status": "partial",
   "theorems": [
    "Verif.Props.C21_breakpoint",
    "Verif.Props.C21_breakpoint_id",
    "Verif.Props.C21_path_stops",
    "Verif.Props.C21_path_partial",
    "Verif.Props.C21_path_false"
   ],
   "note": "Ids proved. Paths: exact path always stops; stops only at paths containing the components in order; direct-path claim false (witness)."
  },
  {
   "property": "C22",
   "status": "proved",
   "theorems": [
    "Verif.Props.C22_no_duplicates",
    "Verif.Props.C22_insert",
    "Verif.Props.C22_contains",
    "Verif.Props.C22_union",
    "Verif.Props.C22_intersect",
    "Verif.Props.C22_difference",
    "Verif.Props.C22_copy",
    "Verif.Props.C22_literal"
   ],
   "note": "Insertion updates the receiver in place by design: it only adds fresh nodes. The other operations leave their operands unchanged."
  },
  {
   "property": "C23",
   "status": "partial",
   "theorems": [
    "Verif.Props.C23_resolve_partial",
    "Verif.Props.C23_forward_false"
   ],
   "note": "Holds when every nodeset refers to nodesets linked after it (declared earlier in the source) or to literals; traversals are arbitrary. False for other acyclic definitions: C23_forward_false gives a use after free. The resulting literals also name each node once and only hold well-formed names."
  },
  {
   "property": "C24",
   "status": "partial",
   "theorems": [
    "Verif.Props.C24_ids",
    "Verif.Props.C24_reports_partial",
    "Verif.Props.C24_lookup",
    "Verif.Props.C24_functions_false"
   ],
   "note": "False: a duplicate pass target function is undefined behaviour (node pointer printed with %s). Exact reports for specifications without that; lookup in any letter case."
  },
  {
   "property": "C25",
   "status": "proved",
   "theorems": [
    "Verif.Props.C25_tables",
    "Verif.Props.C25_unresolved"
   ],
   "note": "Errors exactly for cyclic references, tables exact and without repetition, flag exact; all references resolved (checked by the pass before)."
  },
  {
   "property": "C26",
   "status": "proved",
   "theorems": [
    "Verif.Props.C26_members",
    "Verif.Props.C26_redeclares",
    "Verif.Props.C26_conflicts",
    "Verif.Props.C26_accepts",
    "Verif.Props.C26_unresolved"
   ],
   "note": "Under the conditions the earlier passes establish (Start); C26_conflicts is an equivalence if nodeset attributes do not use the constructor keyword, which checkAttributes is to reject later; C26_redeclares holds without that."
  },
  {
   "property": "C27",
   "status": "proved",
   "theorems": [
    "Verif.Props.C27_equations",
    "Verif.Props.C27_resolved",
    "Verif.Props.C27_unresolved"
   ],
   "note": "Exact; child and attribute names are assumed distinct and child types declared, which earlier passes check. Duplicate equations are accepted (the code has a TODO); the property does not forbid them."
  },
  {
   "property": "C28",
   "status": "partial",
   "theorems": [
    "Verif.Props.C28_tables_partial",
    "Verif.Props.C28_empty_false"
   ],
   "note": "For all grammars (cyclic ones too) and all lists of traversals: the search terminates, the tables are generated and line up with the nodes, targeted nodes and only those go to user handlers, a node with a target below it is passed through, what is skipped has no target below it. Missing and false: a traversal whose explicit set of nodes is empty is treated as one without set (C28_empty_false). Set expressions are taken as resolved lists of literals (C22, C23)."
  },
  {
   "property": "C29",
   "status": "partial",
   "theorems": [
    "Verif.Props.C29_ids_partial",
    "Verif.Props.C29_found_partial",
    "Verif.Props.C29_ends_partial",
    "Verif.Props.C29_unique_partial",
    "Verif.Props.C29_inline_false",
    "Verif.Props.C29_behind_false",
    "Verif.Props.C29_twice_false"
   ],
   "note": "proved for specifications in which no phase is used twice and no phase listed behind the start phase has to do with the phases the compiler uses; false otherwise (inline phases, phases used twice)"
  },
  {
   "property": "C30",
   "status": "partial",
   "theorems": [
    "Verif.Props.C30_exact_partial",
    "Verif.Props.C30_phase_partial",
    "Verif.Props.C30_leaf_partial",
    "Verif.Props.C30_nested_end_false"
   ],
   "note": "exact number behind a phase under the conditions of C29; right exactly if nothing is nested below the last action; false for phases that end with a phase"
  },
  {
   "property": "C31",
   "status": "partial",
   "theorems": [
    "Verif.Props.C31_check_partial",
    "Verif.Props.C31_builds_partial",
    "Verif.Props.C31_second_false",
    "Verif.Props.C31_builds_false"
   ],
   "note": "proved for at most one lifetime per node, child and attribute; further lifetimes are ignored, and allowed with a range on a child or attribute yields code that cannot be built"
  },
  {
   "property": "C32",
   "status": "partial",
   "theorems": [
    "Verif.Props.C32_close",
    "Verif.Props.C32_close_reports",
    "Verif.Props.C32_add",
    "Verif.Props.C32_cycles_partial",
    "Verif.Props.C32_self_false",
    "Verif.Props.C32_repeated_false"
   ],
   "note": "Closure is proved for every graph built by GRadd_node/GRadd_edge: exactly the edges implied by transitivity between different nodes, error exactly when two different nodes depend on each other. The cycle check of one graph (generate_graph_node) is exact for dependencies given once and without self-dependency. False otherwise: a self-dependency is not reported, a repeated dependency aborts on an assertion. The fixpoint over all graphs in SAVast (induced edges passed between graphs) is C57."
  },
  {
   "property": "C33",
   "status": "proved",
   "theorems": [
    "Verif.Props.C33_partition",
    "Verif.Props.C33_cyclic",
    "Verif.Props.C33_closed"
   ],
   "note": "All graphs in which the attributes of a node have different names and no circular dependency; the loop diverges exactly when there is a circle, and C33_closed shows that a graph closed without error has none. The numbers are the least possible ones. Intravisit edges do not count as dependencies (none are added by the scheduler)."
  },
  {
   "property": "C34",
   "status": "proved",
   "theorems": [
    "Verif.Props.C34_once",
    "Verif.Props.C34_errors",
    "Verif.Props.C34_order"
   ],
   "note": "For all tables with numbers of at least 2 (which C33 provides); order from C33. Number 1 would be undefined behaviour, 0 is an error."
  },
  {
   "property": "C35",
   "status": "partial",
   "theorems": [
    "Verif.Props.C35_order_partial",
    "Verif.Props.C35_first",
    "Verif.Props.C35_complete",
    "Verif.Props.C35_inherited_false",
    "Verif.Props.C35_dummy_false",
    "Verif.Props.C35_nodeset_false"
   ],
   "note": "Order, single evaluation, outputs and child visits proved for every sequence that is generated, and sequences are generated if the items can be ordered (given enough iterations); false: own inherited attributes evaluated, nodeset members with other visits, failed assertion after a dummy visit (witnesses)."
  },
  {
   "property": "C36",
   "status": "partial",
   "theorems": [
    "Verif.Props.C36_calls_partial",
    "Verif.Props.C36_this_false",
    "Verif.Props.C36_declared",
    "Verif.Props.C36_defined",
    "Verif.Props.C36_call_declared",
    "Verif.Props.C36_distinct",
    "Verif.Props.C36_names_false",
    "Verif.Props.C36_too_many"
   ],
   "note": "Collecting the optional children, the if-chain, the header and the user file are modelled on the hash table model, for all k < 64 and all presence patterns. Partial: false for children spelt like this up to case (C36_this_false), and names of functions of different equations can clash (C36_names_false). print_type is an input."
  },
  {
   "property": "C37",
   "status": "partial",
   "theorems": [
    "Verif.Props.C37_copy_partial",
    "Verif.Props.C37_independent_partial",
    "Verif.Props.C37_null",
    "Verif.Props.C37_inherited_false"
   ],
   "note": "deep copy in new memory, original unchanged, for all trees; values of inherited and synthesized attributes are not copied (refuted for them); running out of memory ends the process"
  },
  {
   "property": "C38",
   "status": "partial",
   "theorems": [
    "Verif.Props.C38_free_partial",
    "Verif.Props.C38_twice",
    "Verif.Props.C38_null",
    "Verif.Props.C38_copy_free_partial",
    "Verif.Props.C38_builds_false"
   ],
   "note": "exactly the blocks of the tree are released, each once; for declarations whose generated code compiles (refuted for inherited/synthesized strings)"
  },
  {
   "property": "C39",
   "status": "partial",
   "theorems": [
    "Verif.Props.C39_actions_partial",
    "Verif.Props.C39_system_false"
   ],
   "note": "For all specifications: the id of every phase, traversal and pass maps to its descriptor. False for the ids check, free and cleanup in every specification (C39_system_false): the array has no entry for check. Names must not be the generators own names (NULL)."
  },
  {
   "property": "C40",
   "status": "partial",
   "theorems": [
    "Verif.Props.C40_user_partial",
    "Verif.Props.C40_system_partial",
    "Verif.Props.C40_error_partial",
    "Verif.Props.C40_data_partial",
    "Verif.Props.C40_pass_partial",
    "Verif.Props.C40_sizes_partial",
    "Verif.Props.C40_null_false"
   ],
   "note": "For all specifications whose names are different and not the generators own names: user traversals (with the meaning of C28), system traversals, error table, data tables, pass table and declared sizes line up with the enumerations. Missing: the checks let through the name null, for which the enumeration is declared twice (C40_null_false)."
  },
  {
   "property": "C41",
   "status": "proved",
   "theorems": [
    "Verif.Props.C41_fifo",
    "Verif.Props.C41_drain",
    "Verif.Props.C41_delete_false"
   ],
   "note": "All sequences of insertions and pops on a new queue. QUdelete on a queue that is not empty reads a freed item (C41_delete_false); QUpeek returns the list block, not the item. Model: lists in memory with freed blocks; allocation never reuses a block."
  },
  {
   "property": "C42",
   "status": "proved",
   "theorems": [
    "Verif.Props.C42_left",
    "Verif.Props.C42_sentences",
    "Verif.Props.C42_accepted"
   ],
   "note": "The parser automaton is modelled at the level of shift/reduce decisions with the declared precedences."
  },
  {
   "property": "C43",
   "status": "partial",
   "theorems": [
    "Verif.Props.C43_reachable_partial",
    "Verif.Props.C43_empty_nodeset_false"
   ],
   "note": "Exact when every child type and nodeset member has an entry in the table of visits. Missing (false): a child whose type is an empty nodeset, which aborts."
  },
  {
   "property": "C44",
   "status": "proved",
   "theorems": [
    "Verif.Props.C44_members"
   ],
   "note": "Members are given by the meaning of the set expressions (literals with any number of names, references, operations); the members list read by the propagation is assumed to agree with it (C22, C23)."
  },
  {
   "property": "C45",
   "status": "partial",
   "theorems": [
    "Verif.Props.C45_first_partial",
    "Verif.Props.C45_accepts",
    "Verif.Props.C45_first_only_false"
   ],
   "note": "False: only the first attribute of each list is checked (witness). Exact for first attributes; what is allowed is accepted."
  },
  {
   "property": "C46",
   "status": "partial",
   "theorems": [
    "Verif.Props.C46_tables_partial",
    "Verif.Props.C46_uid_false"
   ],
   "note": "For all specifications in which actions are referred to by name. False for references by uid, which the checks accept (C46_uid_false)."
  },
  {
   "property": "C47",
   "status": "partial",
   "theorems": [
    "Verif.Props.C47_buffer_partial",
    "Verif.Props.C47_long_false"
   ],
   "note": "All sequences of fewer than 2^31 messages shorter than 2^31-2; false for longer ones."
  },
  {
   "property": "C48",
   "status": "partial",
   "theorems": [
    "Verif.Props.C48_position_partial",
    "Verif.Props.C48_zero_false",
    "Verif.Props.C48_file_false",
    "Verif.Props.C48_lines_false"
   ],
   "note": "Exact text for locations with file and line; false for unknown lines, without file name, and for ranges over several lines."
  },
  {
   "property": "C49",
   "status": "partial",
   "theorems": [
    "Verif.Props.C49_check_partial"
   ],
   "note": "Acceptance is equivalent to the stated conditions, types are filled in and nothing else changes. Missing: specifications in which two passes share a target function (C24_functions_false)."
  },
  {
   "property": "C50",
   "status": "partial",
   "theorems": [
    "Verif.Props.C50_root_partial",
    "Verif.Props.C50_missing_false",
    "Verif.Props.C50_action_false"
   ],
   "note": "With a root node and a start phase they are unique and named in the header. False otherwise: missing ones are accepted (C50_missing_false), and nodes are accepted as actions (C50_action_false)."
  },
  {
   "property": "C51",
   "status": "partial",
   "theorems": [
    "Verif.Props.C51_constructor_partial",
    "Verif.Props.C51_default_call_partial",
    "Verif.Props.C51_prototypes",
    "Verif.Props.C51_user_false",
    "Verif.Props.C51_enum_false",
    "Verif.Props.C51_node_false"
   ],
   "note": "Constructor and generated default call for all nodes whose constructor fields satisfy CtorOk, prototypes without restriction; false for user types with upper-case letters, enums in other letter case and a child Node."
  },
  {
   "property": "C52",
   "status": "partial",
   "theorems": [
    "Verif.Props.C52_trav_partial",
    "Verif.Props.C52_other_partial",
    "Verif.Props.C52_clash_false"
   ],
   "note": "Proved for specifications whose header compiles and whose children do not have names of existing functions; false otherwise."
  },
  {
   "property": "C53",
   "status": "partial",
   "theorems": [
    "Verif.Props.C53_header_partial",
    "Verif.Props.C53_underscore_false",
    "Verif.Props.C53_children_false",
    "Verif.Props.C53_keyword_false",
    "Verif.Props.C53_nodeset_false",
    "Verif.Props.C53_stdbool_false"
   ],
   "note": "Proved for names without underscores and some reserved names; false for others, with a witness for each condition."
  },
  {
   "property": "C54",
   "status": "partial",
   "theorems": [
    "Verif.Props.C54_node_partial",
    "Verif.Props.C54_nodeset_partial"
   ],
   "note": "Proved if the header compiles (C53); types of the attributes are not compared."
  },
  {
   "property": "C55",
   "status": "partial",
   "theorems": [
    "Verif.Props.C55_compile_partial",
    "Verif.Props.C55_first_false",
    "Verif.Props.C55_twice_false",
    "Verif.Props.C55_names_false",
    "Verif.Props.C55_result_false",
    "Verif.Props.C55_input_false",
    "Verif.Props.C55_compile_false"
   ],
   "note": "Proved for sequences that meet SeqOk (variable names differ, inputs computed before, first alternative a visit with outputs if any has). False without (C55_*_false). Types of attributes are not compared."
  },
  {
   "property": "C56",
   "status": "partial",
   "theorems": [
    "Verif.Props.C56_run_partial",
    "Verif.Props.C56_dummy_false"
   ],
   "note": "Proved for sequences that meet SeqOk, for all worlds, including failures. False if the first member of a nodeset needs no visit (C56_dummy_false)."
  },
  {
   "property": "C57",
   "status": "partial",
   "theorems": [
    "Verif.Props.C57_circular_partial",
    "Verif.Props.C57_self_false",
    "Verif.Props.C57_repeated_false"
   ],
   "note": "Proved for all specifications satisfying Checked in which no equation uses an attribute twice or for itself; both conditions are shown necessary (C57_self_false, C57_repeated_false). Checked is what earlier phases establish and is a hypothesis here."
  },
  {
   "property": "C58",
   "status": "partial",
   "theorems": [
    "Verif.Props.C58_acyclic_partial",
    "Verif.Props.C58_self_false",
    "Verif.Props.C58_converse_false"
   ],
   "note": "Proved for the same specifications as C57; false with a self-dependency (C58_self_false). C58_converse_false shows the check is stricter than needed."
  },
  {
   "property": "C59",
   "status": "partial",
   "theorems": [
    "Verif.Props.C59_evaluates_partial",
    "Verif.Props.C59_determined",
    "Verif.Props.C59_oneVisit",
    "Verif.Props.C59_topDown",
    "Verif.Props.C59_nodeset_false",
    "Verif.Props.C59_inherited_false"
   ],
   "note": "Proved for plans in which the visits of members fit those of their nodesets and no sequence evaluates an own inherited attribute; these are conditions the scheduler does not check (C59_nodeset_false, C59_inherited_false). Proved without conditions on the plan for specifications with one visit per type (C59_oneVisit, C59_topDown). Generated C text is not covered here (C55, C56)."
  },
  {
   "property": "C60",
   "status": "partial",
   "theorems": [
    "Verif.Props.C60_text_partial",
    "Verif.Props.C60_ckeyword_partial",
    "Verif.Props.C60_layout_partial",
    "Verif.Props.C60_false",
    "Verif.Props.C60_range_false",
    "Verif.Props.C60_comment_false"
   ],
   "note": "All texts of lexemes and gaps (values of enumerations not called enum, no arrow among them: C60_false) are scanned as the tokens they stand for, with their places; layout has no influence; C keywords as names are refused. Numbers out of range are clamped (C60_range_false), open comments are not reported (C60_comment_false)."
  },
  {
   "property": "C61",
   "status": "partial",
   "theorems": [
    "Verif.Props.C61_place_partial",
    "Verif.Props.C61_ends",
    "Verif.Props.C61_false"
   ],
   "note": "Scanning ends on every file. For files without byte 0 and without strings over several lines every token stands at its place and the kept line is its line; false with such strings (C61_false)."
  },
  {
   "property": "C62",
   "status": "partial",
   "theorems": [
    "Verif.Props.C62_unique",
    "Verif.Props.C62_parse_partial",
    "Verif.Props.C62_source_partial",
    "Verif.Props.C62_meaning_partial",
    "Verif.Props.C62_info_false",
    "Verif.Props.C62_gate_false",
    "Verif.Props.C62_lifetime_false",
    "Verif.Props.C62_cycle_false",
    "Verif.Props.C62_range_false",
    "Verif.Props.C62_group_false",
    "Verif.Props.C62_equation_false",
    "Verif.Props.C62_manual_false",
    "Verif.Props.C62_brackets_false"
   ],
   "note": "C62_parse_partial and C62_source_partial cover every description of the manual except the forms in Ok, each of which is refused or misread (the _false theorems); C62_unique holds for all sequences of tokens"
  },
  {
   "property": "C63",
   "status": "partial",
   "theorems": [
    "Verif.Props.C63_evaluates_partial",
    "Verif.Props.C63_oneVisit",
    "Verif.Props.C63_refused",
    "Verif.Props.C63_inherited_false",
    "Verif.Props.C63_start_false"
   ],
   "note": "Scheduler, generator and evaluator together compute the one solution of the equations of any tree. Missing: Agree and Generable are hypotheses on the plan (C63_oneVisit proves them for specifications with one visit per type that are Plain); equations that use inherited attributes of children are excluded, for them the claim is false, as for roots without visits."
  },
  {
   "property": "C64",
   "status": "partial",
   "theorems": [
    "Verif.Props.C64_parsed",
    "Verif.Props.C64_checked_partial",
    "Verif.Props.C64_needs_partial",
    "Verif.Props.C64_rules_partial",
    "Verif.Props.C64_progress_partial",
    "Verif.Props.C64_acyclic_partial",
    "Verif.Props.C64_evaluates_partial",
    "Verif.Props.C64_kinds_false",
    "Verif.Props.C64_self_false",
    "Verif.Props.C64_twice_false",
    "Verif.Props.C64_double_false",
    "Verif.Props.C64_empty_false",
    "Verif.Props.C64_phase_false",
    "Verif.Props.C64_forward_false"
   ],
   "note": "Under four conditions on the description (Earlier, Tidy, OneKind, Peopled), each shown to be needed: what the scheduler reads is what the description says, the actions before it end with a specification or a reported error, and the hypotheses of C57, C58, C59 and C63 on the specification hold, from the bytes of the file on. The full claim is false: see the _false theorems. C64_rules_partial states what is checked of attributes, in terms of the description."
  },
  {
   "property": "C65",
   "status": "partial",
   "theorems": [
    "Verif.Props.C65_check_partial",
    "Verif.Props.C65_generates",
    "Verif.Props.C65_reports_partial",
    "Verif.Props.C65_ends_partial",
    "Verif.Props.C65_mandatory",
    "Verif.Props.C65_complete_partial",
    "Verif.Props.C65_inline_false",
    "Verif.Props.C65_second_false",
    "Verif.Props.C65_loops_false",
    "Verif.Props.C65_start_false"
   ],
   "note": "Proved for descriptions whose phases are used once and not written inside the first one, do not end with phases, with at most one lifetime per thing, and nodesets that agree about attributes they share: the check reports exactly what the description forbids (C65_check_partial), the phase reports exactly the faulty descriptions (C65_reports_partial) and ends (C65_ends_partial), marked children are there (C65_complete_partial). For all descriptions: the check can be written (C65_generates), which children are marked (C65_mandatory). The conditions are needed: C65_inline_false, C65_second_false, C65_loops_false, C65_start_false."
  },
  {
   "property": "C66",
   "status": "partial",
   "theorems": [
    "Verif.Props.C66_compiles",
    "Verif.Props.C66_unique",
    "Verif.Props.C66_program_partial",
    "Verif.Props.C66_numbers_partial",
    "Verif.Props.C66_guarded_partial",
    "Verif.Props.C66_uid_false",
    "Verif.Props.C66_cleanup_false",
    "Verif.Props.C66_null_false"
   ],
   "note": "The driver on the generated tables equals the driver on the program of the description, for all accepted descriptions with actions referred to by name and no reserved names; exactly which accepted descriptions compile. References by unique id, the unique id null and a phase called cleanup are the witnesses against the full claim."
  },
  {
   "property": "C67",
   "status": "partial",
   "theorems": [
    "Verif.Props.C67_numbered",
    "Verif.Props.C67_targets_partial",
    "Verif.Props.C67_runs_partial",
    "Verif.Props.C67_nothing_else_partial",
    "Verif.Props.C67_visits_partial",
    "Verif.Props.C67_empty_false"
   ],
   "note": "Proved for accepted descriptions that compile, whose nodesets name only earlier ones, and whose traversals have no empty sets. False for a traversal with an empty set (C67_empty_false): it is run for all nodes."
  },
  {
   "property": "C68",
   "status": "partial",
   "theorems": [
    "Verif.Props.C68_declared_partial",
    "Verif.Props.C68_defined_partial",
    "Verif.Props.C68_links_partial",
    "Verif.Props.C68_func_false",
    "Verif.Props.C68_node_false",
    "Verif.Props.C68_pass_false",
    "Verif.Props.C68_twice_false"
   ],
   "note": "What the generated files refer to, declare, call and define is proved exactly, and the files compile and link, as far as functions are concerned, if and only if four conditions on names hold (C68_links_partial). False as stated: passes with func, nodes init/fini, passes named like functions of traversals, passes with the same function. Missing: traversals for an empty set of nodes (C67), nodesets that name a nodeset declared later (C23), library functions, constructors and gate functions."
  },
  {
   "property": "C69",
   "status": "partial",
   "theorems": [
    "Verif.Props.C69_accepted_partial",
    "Verif.Props.C69_values",
    "Verif.Props.C69_number",
    "Verif.Props.C69_value_false",
    "Verif.Props.C69_tag_false",
    "Verif.Props.C69_prefix_false",
    "Verif.Props.C69_null_false",
    "Verif.Props.C69_lower_false"
   ],
   "note": "An equivalence for all accepted descriptions: enum.h compiles if and only if names are clear. The values and their order hold for all descriptions. False for values that differ in letter case only, reserved tags, prefixes that start with a reserved one, and a node Null; witnesses are proved."
  },
  {
   "property": "C70",
   "status": "partial",
   "theorems": [
    "Verif.Props.C70_nodes",
    "Verif.Props.C70_sets",
    "Verif.Props.C70_wf_partial",
    "Verif.Props.C70_header_partial",
    "Verif.Props.C70_constructor_partial",
    "Verif.Props.C70_node_partial",
    "Verif.Props.C70_nodeset_partial",
    "Verif.Props.C70_trav_partial",
    "Verif.Props.C70_ctor_false",
    "Verif.Props.C70_user_false",
    "Verif.Props.C70_enum_false",
    "Verif.Props.C70_child_false",
    "Verif.Props.C70_underscore_false",
    "Verif.Props.C70_keyword_false",
    "Verif.Props.C70_children_false",
    "Verif.Props.C70_nodeset_false"
   ],
   "note": "Unconditional for accepted descriptions: fields, types and members that generators see are those of the description (C70_nodes, C70_sets). Code that is generated works if no computed attribute is in a constructor and names are simple; false without, with accepted descriptions as witnesses."
  },
  {
   "property": "C71",
   "status": "partial",
   "theorems": [
    "Verif.Props.C71_structs",
    "Verif.Props.C71_compiles_partial",
    "Verif.Props.C71_core_partial",
    "Verif.Props.C71_push_partial",
    "Verif.Props.C71_pop_partial",
    "Verif.Props.C71_get",
    "Verif.Props.C71_word_false",
    "Verif.Props.C71_tag_false",
    "Verif.Props.C71_union_false",
    "Verif.Props.C71_macro_false"
   ],
   "note": "Unconditional for accepted descriptions whose trav_data.h compiles: structures, fields and macro (C71_structs, C71_get). Compiles exactly if names are clear (C71_compiles_partial); start and end of a traversal do what is claimed, and the core is that of C15 with tables from the description. False for accepted descriptions with other names, with witnesses."
  },
  {
   "property": "C72",
   "status": "partial",
   "theorems": [
    "Verif.Props.C72_copy_partial",
    "Verif.Props.C72_free_partial",
    "Verif.Props.C72_builds_partial",
    "Verif.Props.C72_roundtrip_partial",
    "Verif.Props.C72_string_false",
    "Verif.Props.C72_unused_false"
   ],
   "note": "For every accepted description with simple names and no computed attribute in a constructor: CPYx compiles and copies every tree; DELx compiles exactly if no string is computed, and then releases exactly the tree. Negations: computed strings, and a field whose macro is MAYBE_UNUSED. C types of expressions are not modelled."
  },
  {
   "property": "C73",
   "status": "partial",
   "theorems": [
    "Verif.Props.C73_once",
    "Verif.Props.C73_written",
    "Verif.Props.C73_translates_partial",
    "Verif.Props.C73_link",
    "Verif.Props.C73_null",
    "Verif.Props.C73_backend",
    "Verif.Props.C73_empty_false",
    "Verif.Props.C73_link_false",
    "Verif.Props.C73_string_false",
    "Verif.Props.C73_types_false",
    "Verif.Props.C73_case_false",
    "Verif.Props.C73_backend_false"
   ],
   "note": "Proved for all accepted descriptions: each file is opened once, all files are written and others left alone. That all source files find their includes and declarations is proved under conditions; without them it is false, with accepted descriptions as witnesses (equations for links or strings, enumeration in another case, node user_types, other backends, empty directory name)."
  },
  {
   "property": "C74",
   "status": "partial",
   "theorems": [
    "Verif.Props.C74_settings_partial",
    "Verif.Props.C74_only_partial",
    "Verif.Props.C74_shows",
    "Verif.Props.C74_status",
    "Verif.Props.C74_number",
    "Verif.Props.C74_defined",
    "Verif.Props.C74_files",
    "Verif.Props.C74_backend",
    "Verif.Props.C74_verbose_false",
    "Verif.Props.C74_short_false",
    "Verif.Props.C74_number_false",
    "Verif.Props.C74_backend_false",
    "Verif.Props.C74_empty_false"
   ],
   "note": "False for --verbose, -b, numbers with other text, other backends and an empty directory, each with a witness; proved for all other command lines, in both directions."
  },
  {
   "property": "C75",
   "status": "partial",
   "theorems": [
    "Verif.Props.C75_shows_partial",
    "Verif.Props.C75_case_false",
    "Verif.Props.C75_member_false",
    "Verif.Props.C75_word_false"
   ],
   "note": "Proved for all accepted descriptions whose references have the letter case of the declaration and whose nodes and nodesets are not named like words of DOT; without these the claim is false, with witnesses. The target of a red edge for an attribute handed down from a nodeset is only known to be that of some attribute with that name (a node may declare it again)."
  },
  {
   "property": "C76",
   "status": "partial",
   "theorems": [
    "Verif.Props.C76_templates_partial",
    "Verif.Props.C76_comment_false",
    "Verif.Props.C76_inject_false"
   ],
   "note": "Proved for all accepted descriptions in which no information on a traversal has the end of a comment; without this the claim is false, with witnesses. As for C67 and C23, a traversal for an empty set of nodes and nodesets that name a nodeset declared later are left out. Information with a backslash at the end of a line is left out as well. That names are identifiers and the functions of passes no words of C is asked as a condition; C78 proves it for every file that is read."
  },
  {
   "property": "C77",
   "status": "partial",
   "theorems": [
    "Verif.Props.C77_enums_partial",
    "Verif.Props.C77_tables_partial",
    "Verif.Props.C77_unique_partial",
    "Verif.Props.C77_once_false"
   ],
   "note": "Proved for all accepted descriptions: both files are C text, the enumerations are exactly those of the description, and the arrays give what the description says under the enumerators. That no array is defined twice is proved to hold exactly if no traversal is called like a table; without this it is false, with witnesses. As for C67, a traversal for an empty set of nodes, nodesets that name a nodeset declared later and names of the system (Free) are left out. That names are identifiers and no words of C is asked as a condition; C78 proves it for every file that is read, but for values called ->."
  },
  {
   "property": "C78",
   "status": "partial",
   "theorems": [
    "Verif.Props.C78_names_partial",
    "Verif.Props.C78_tables_partial",
    "Verif.Props.C78_templates_partial",
    "Verif.Props.C78_arrow_false"
   ],
   "note": "Proved for every input: all names that a file declares, and the types of its children and attributes, are identifiers and no keywords; values of enumerations are identifiers or the sign ->, which is why the claim is false (witness). Composed with C77 and C76, from the bytes of a file that is read and accepted to enum.h, vtables.c and the files for the user, under the conditions of these (Earlier, Free, Aimed, information without end of comment) and without a value ->. Names in set expressions, equations and lifetimes, which refer to declared ones, are left out."
  },
  {
   "property": "C79",
   "status": "partial",
   "theorems": [
    "Verif.Props.C79_header_partial",
    "Verif.Props.C79_covers_partial",
    "Verif.Props.C79_typedef_false",
    "Verif.Props.C79_func_false"
   ],
   "note": "Proved from the bytes of a file that is read and accepted, under Earlier and Aimed as for C64 and C67: actions.h is read as C prototypes for exactly the functions needed, each from nodes to nodes, and covers what the arrays of functions in vtables.c name if no pass has a func and no value of an enumeration is the sign ->. False for a pass called ccn_node (declared as type and function) and for a pass with func (not declared); both with witnesses that are files. The reader covers the part of C that the header is written in."
  },
  {
   "property": "C80",
   "status": "partial",
   "theorems": [
    "Verif.Props.C80_shows_partial",
    "Verif.Props.C80_seen_false",
    "Verif.Props.C80_underscore_false",
    "Verif.Props.C80_format_false"
   ],
   "note": "Model of cocogen/dot/gen_dot_ag.c by parts of the text. Proved for graphs without repeated nodes and names that the diagram tells apart, without partitions; false for a child called like its production but for letter case, for names with two underscores, and for diagrams with partitions. That the graphs of the scheduler have no repeated nodes is assumed here."
  }
 ]
}
