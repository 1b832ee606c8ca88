{"id": "C01", "title": "Hash table is a finite map", "statement": "After any sequence of HTinsert/HTremove/HTmap*/HTiterSetValue/HTclear calls on a table created by HTnew with at least one bucket, HTlookup(k) returns exactly the value most recently stored under a key equal to k, and NULL when no such key is live. Operations on one key never change what lookup of a different key returns, whatever the bucket count and however the keys collide.", "quantifier": "all bucket counts >= 1, all hash functions that agree on equal keys, all key equalities that are equivalence relations, all finite sequences of operations, all keys and values", "why_tests_cant": "Collisions depend on the pairing of hash function, bucket count and history; a test fixes a few of each. Removing from the head, middle or tail of a chain built in every possible order is an unbounded space.", "anchors": ["palm/src/hash_table.c: HTnew, Insert, HTinsert, HTremove, HTlookup, HTclear, HTmap, HTiterSetValue", "palm/include/palm/hash_table.h"]}
{"id": "C02", "title": "HTelementCount reports the number of live keys", "statement": "HTelementCount(t) equals the number of distinct keys for which HTinsert has happened and which have not been removed or cleared since.", "quantifier": "all tables and all finite sequences of table operations", "why_tests_cant": "The counter is maintained separately from the chains; a test only samples histories and typically never mixes clear, re-insert and overwrite.", "anchors": ["palm/src/hash_table.c: HTelementCount, Insert, HTremove, HTclear"]}
{"id": "C03", "title": "HTremove of an absent key is a harmless no-op", "statement": "HTremove(t,k) for a key that is not in the table returns NULL and leaves every mapping and the element count unchanged (this is what the header comment promises).", "quantifier": "all tables, all keys not in the table", "why_tests_cant": "Whether the call is safe depends on whether the absent key happens to hash to an empty bucket; tests pick one layout.", "anchors": ["palm/src/hash_table.c: HTremove", "palm/include/palm/hash_table.h"]}
{"id": "C04", "title": "Iterating a table visits every live entry exactly once", "statement": "Starting with HTiterate and stepping with HTiterateNext until NULL yields each live (key,value) pair exactly once, in the order that HTfold/HTmap use, and the iterator is released exactly when iteration ends. On a table with no live entries HTiterate returns NULL.", "quantifier": "all tables reachable by any sequence of operations", "why_tests_cant": "Requires following chains and skipping empty buckets for every possible distribution of keys over buckets.", "anchors": ["palm/src/hash_table.c: HTiterate, HTiterateNext, HTiterKey, HTiterValue, HTfold"]}
{"id": "C05", "title": "Copying a table preserves the mapping", "statement": "HTcpy(t) has the same lookup result as t for every key and the same element count; HTdeep_copy(t,fk,fv) maps fk(k) to fv(v) for each live pair when fk preserves key identity.", "quantifier": "all tables reachable by any sequence of operations, all keys", "why_tests_cant": "The copy is built by re-inserting in iteration order; equality for all keys is a statement about all layouts.", "anchors": ["palm/src/hash_table.c: HTcpy, HTdeep_copy"]}
{"id": "C06", "title": "The ready-made string, int and pointer tables compare keys by content, value and address", "statement": "Tables from HTnew_String, HTnew_Int and HTnew_Ptr use hash functions that agree on keys their own equality identifies, and that equality is an equivalence; so they behave as maps keyed by string contents, by int value and by address respectively.", "quantifier": "all byte strings, all int values, all addresses", "why_tests_cant": "A hash/equality mismatch shows only for particular colliding or sign-extended keys; exhaustive testing over strings is impossible.", "anchors": ["palm/src/hash_table.c: StringHash, PtrHash, IntHash, PtrEqual, IntEqual, HTnew_String, HTnew_Ptr, HTnew_Int", "palm/src/str.c: STReq"]}
{"id": "C07", "title": "Concatenation returns the concatenation of its non-NULL arguments and fits its buffer", "statement": "STRcat(a,b) and STRcatn(n,...) return a fresh string equal to the concatenation of all non-NULL arguments in order (NULL is the neutral element) and never write outside the block they allocate. STRcatn returns NULL exactly when the concatenation is empty.", "quantifier": "all (possibly NULL) strings, all argument counts greater than two", "why_tests_cant": "Memory-safety of the length computation and content equality must hold for strings of every length.", "anchors": ["palm/src/str.c: STRcat, STRcatn, STRcpy"]}
{"id": "C08", "title": "STRsubStr returns the documented slice and stays in bounds", "statement": "For a start within the string and any length, STRsubStr(s,start,len) returns characters start..start+len clamped to the end of the string; a negative len counts from the end of the string; a start past the end yields the empty string. The exact set of arguments for which the call reads or writes out of bounds is characterised.", "quantifier": "all strings, all int start and len values", "why_tests_cant": "The interaction of negative lengths, clamping and start positions creates boundary cases over an unbounded domain.", "anchors": ["palm/src/str.c: STRsubStr, STRnull"]}
{"id": "C09", "title": "STRtok splits a string losslessly at separators", "statement": "Calling STRtok(s,sep) and then STRtok(NULL,sep) until NULL yields tokens none of which contains a separator character; there is one more token than there are separator characters in s, and interleaving the tokens with the separator characters of s reproduces s. The argument string is left untouched, and a new first call discards any unfinished tokenisation.", "quantifier": "all strings and all separator sets, any number of interleaved restarts", "why_tests_cant": "Statement about all strings including leading, trailing and adjacent separators.", "anchors": ["palm/src/str.c: STRtok, CharInString"]}
{"id": "C10", "title": "STRsubstToken replaces every left-to-right occurrence and never overruns its buffer", "statement": "For a non-empty token, STRsubstToken(str,token,subst) terminates, returns str with the non-overlapping left-to-right occurrences of token replaced by subst, and writes exactly the number of bytes it allocated.", "quantifier": "all strings str and subst, all non-empty tokens", "why_tests_cant": "The buffer size is computed by a different scan than the one that writes; agreement of the two scans must hold for self-overlapping tokens of any length.", "anchors": ["palm/src/str.c: STRsubstToken, STRprefix, STRlen"]}
{"id": "C11", "title": "String predicates decide what their names say", "statement": "STReq, STReqn, STReqci, STRprefix, STRsuffix, STRsub decide respectively equality, equality of the first n characters, equality up to letter case, prefix, suffix and substring, with NULL handled as documented; STReqci(a,b) holds exactly when STRlower(a) equals STRlower(b).", "quantifier": "all pairs of strings (and NULL), all n >= 0", "why_tests_cant": "Infinite input space; relation between separately implemented functions.", "anchors": ["palm/src/str.c: STReq, STReqn, STReqci, STRprefix, STRsuffix, STRsub, STRlower"]}
{"id": "C12", "title": "Case folding gives one identity for DSL names", "statement": "STRlower/STRupper keep the length, are idempotent, and two names have equal lower-case forms exactly when they have equal upper-case forms. Hence the compiler's duplicate check on lower-case forms is the documented check on upper-case forms.", "quantifier": "all strings of 7-bit characters (DSL names are such strings)", "why_tests_cant": "Relates two independent conversions over all strings.", "anchors": ["palm/src/str.c: STRlower, STRupper, STRtoLower, STRtoUpper", "docs/source/dsl_syntax.rst"]}
{"id": "C13", "title": "Diagnostic wrapping only changes blanks and keeps lines within the limit", "statement": "Formatting a diagnostic changes only blanks, tabs and newlines; every output line has at most the configured number of characters unless it contains a single word longer than that.", "quantifier": "all message texts, all line lengths", "why_tests_cant": "Depends on every possible placement of blanks in the message.", "anchors": ["palm/src/ctinfo.c: ProcessMessage, PrintMessage"]}
{"id": "C14", "title": "Reported errors stop the compiler at the next checkpoint", "statement": "CTIabortOnError ends the process with a failing status exactly when at least one error was reported since start; warnings and notes never count as errors, and the reported counts equal the number of error and warning calls made.", "quantifier": "all sequences of diagnostic calls", "why_tests_cant": "Property of all call histories.", "anchors": ["palm/src/ctinfo.c: CTI, CTIobj, HandleCtiCall, CTIabortOnError, CTIgetErrors, CTIgetWarnings"]}
{"id": "C15", "title": "Starting a traversal always restores the surrounding traversal", "statement": "After TRAVstart returns, the current traversal (its kind and its traversal data) is the one that was current before the call, however deeply traversals are started from inside handlers; each traversal's data is initialised once before and released once after its handlers run.", "quantifier": "all trees, all vtables whose handlers only use the traversal API, all nesting depths", "why_tests_cant": "Nesting depth and interleaving are unbounded.", "anchors": ["copra/src/dynamic_core.c: TRAVpush, TRAVpop, TRAVstart, TRAVopt, TRAVdo, TRAVgetCurrent"]}
{"id": "C16", "title": "TRAVchildren traverses each child once, in declaration order, and stores the results", "statement": "TRAVchildren(n) applies the current traversal to every non-NULL child of n exactly once in declaration order, stores each result in that child slot, keeps NULL children NULL, and changes nothing else in n.", "quantifier": "all nodes with any number of children, all traversal handlers", "why_tests_cant": "Any arity, any NULL pattern, any handler effect.", "anchors": ["copra/src/dynamic_core.c: TRAVchildren, TRAVopt, TRAVdo"]}
{"id": "C17", "title": "Action ids seen at run time are the static pre-order numbering", "statement": "Whenever an action runs, CCNgetCurrentActionId returns that action occurrence's position in the pre-order numbering of the phase tree (root = 1), regardless of which gates are closed and how often cycles repeat; this is the number CCNshowTree prints next to that action and the number CCNsetBreakpointWithID accepts.", "quantifier": "all phase trees, all gate outcomes, all cycle behaviours, all executions", "why_tests_cant": "Gates and cycles give exponentially many executions per phase tree.", "anchors": ["copra/src/phase_driver.c: CCNdispatchAction, StartPhase, SkipPhase, ShowTree, CCNgetCurrentActionId"]}
{"id": "C18", "title": "A cycle repeats until no change is notified or the maximum is reached", "statement": "The actions of a cycle are executed in rounds; another round starts exactly when the last round called CCNcycleNotify and fewer than the configured maximum number of rounds have been done. So a cycle always terminates after at most max(1, maximum) rounds.", "quantifier": "all phase trees, all action behaviours, all maxima", "why_tests_cant": "Termination and round counts over arbitrary nesting of phases and cycles.", "anchors": ["copra/src/phase_driver.c: StartPhase, CCNcycleNotify, CCNsetCycles", "docs/source/dsl_syntax.rst"]}
{"id": "C19", "title": "A closed gate skips the whole phase", "statement": "If a phase's gate function returns false, none of the actions below that phase run and the tree is returned unchanged; a phase without gate, or with an open gate, runs its actions in order.", "quantifier": "all phase trees and gate outcomes", "why_tests_cant": "All nestings and outcomes.", "anchors": ["copra/src/phase_driver.c: StartPhase, SkipPhase"]}
{"id": "C20", "title": "Error signals stop the compiler where documented", "statement": "After CCNerrorAction no further action starts once the current action finishes; after CCNerrorPhase the remaining actions of the current phase still run and no action after that phase starts. Both end the process with a failing status.", "quantifier": "all phase trees, all action behaviours, all points at which the signal is raised", "why_tests_cant": "Position of the signal in an arbitrary nesting.", "anchors": ["copra/src/phase_driver.c: CCNdispatchAction, StartPhase, CCNerrorAction, CCNerrorPhase"]}
{"id": "C21", "title": "A breakpoint stops right after the named action", "statement": "With a breakpoint id n the compiler calls the breakpoint handler right after the first completion of the action numbered n and exits successfully without starting another action. With a breakpoint path p1.p2...a the handler runs after the action a that lies directly along that path.", "quantifier": "all phase trees, all breakpoints", "why_tests_cant": "Matching is done by rewriting the breakpoint string on entry to every phase; correctness depends on all names and nestings.", "anchors": ["copra/src/phase_driver.c: CCNdispatchAction, Checkbreakpoint, StartPhase, CCNsetBreakpoint, CCNsetBreakpointWithID"]}
{"id": "C22", "title": "Identifier sets implement set algebra", "statement": "SETIDinsert, SETIDcontains, SETIDunion, SETIDintersect and SETIDdifference implement insertion, membership, union, intersection and difference of sets of names compared case-insensitively, leave their operands unchanged, and never hold a name twice.", "quantifier": "all finite sets of names built in any order", "why_tests_cant": "Trees of all shapes.", "anchors": ["cocogen/sets/set.c", "cocogen/sets/literal_insert.c: SLIsetliteral", "cocogen/sets/literal_lookup.c: SLCsetliteral", "cocogen/sets/literal_union.c", "cocogen/sets/literal_intersect.c", "cocogen/sets/literal_difference.c"]}
{"id": "C23", "title": "Set expressions denote the obvious sets", "statement": "After set expressions are resolved, the node list of every nodeset and traversal contains exactly the nodes given by reading | & - as union, intersection and difference and names as the nodesets they refer to, for every acyclic set of definitions.", "quantifier": "all set expressions and all acyclic nodeset environments", "why_tests_cant": "Expressions and environments of any size.", "anchors": ["cocogen/frontend/unwrap_setexpr.c: USEsetoperation, USEsetliteral, USEsetreference", "cocogen/frontend/scanAndParse/dsl-parser.y: setexpr, setoperation"]}
{"id": "C24", "title": "Duplicate names are rejected, unique names resolve", "statement": "Symbol-table construction reports an error exactly when two declarations share a name (case-insensitively); if it reports none, looking up any declared name in any letter case returns that declaration and looking up an undeclared name returns nothing.", "quantifier": "all lists of declarations", "why_tests_cant": "All declaration lists and orders.", "anchors": ["cocogen/frontend/symboltable.c: STadd, STlookup", "cocogen/frontend/buildsymboltable.c"]}
{"id": "C25", "title": "Recursive nodeset definitions are rejected, others get their transitive members", "statement": "A nodeset definition that refers to itself directly or through other nodesets is reported as an error; otherwise the pass finishes and the child table of each nodeset lists exactly the nodesets reachable from it through references.", "quantifier": "all reference graphs between nodesets", "why_tests_cant": "Graphs of any size and shape.", "anchors": ["cocogen/frontend/nodesets/nodeset_child_table.c: NCTinodeset, NCTsetreference"]}
{"id": "C26", "title": "Nodeset attributes reach every member node", "statement": "If attribute propagation reports no error, every node that is a member of a nodeset has each attribute declared by that nodeset with the same type and kind, and no node or nodeset ends up with two attributes of the same name.", "quantifier": "all nodes, nodesets and attribute declarations", "why_tests_cant": "Any membership structure.", "anchors": ["cocogen/frontend/nodesets/propagate_attributes.c"]}
{"id": "C27", "title": "Every attribute that needs an equation has one", "statement": "If the equation check reports no error then every synthesized attribute of a node and every inherited attribute of each of its children has an equation in that node, equations only target synthesized attributes of the node or inherited attributes of its children, and every argument names an existing attribute.", "quantifier": "all nodes, attributes and equations", "why_tests_cant": "Any number of attributes, children and equations.", "anchors": ["cocogen/frontend/check_product_rules.c"]}
{"id": "C28", "title": "Traversals reach every node they target", "statement": "For each traversal the generated dispatch table sends targeted node types to the user's handler and never cuts off a subtree: a node type from which a targeted node type can be reached through children is traversed through, never skipped. Node types not listed are never sent to a user handler.", "quantifier": "all grammars (node types, child types, nodesets) and all traversals", "why_tests_cant": "Reachability in arbitrary, possibly cyclic, grammars.", "anchors": ["cocogen/frontend/reachability.c: RCBitraversal, RCBinode, RCBchild, RCBsetliteral, RCBinodeset", "cocogen/dynamic_backend/gen_node_trav_table.c: DGNFTTinode"]}
{"id": "C29", "title": "Lifetime boundaries use the ids the running compiler uses", "statement": "The id the compiler generator assigns to an action when it resolves a lifetime is the id CCNgetCurrentActionId returns when that action runs in the generated compiler.", "quantifier": "all specifications with a start phase, in any textual order of phase definitions", "why_tests_cant": "The two numberings are computed by different programs on different data; agreement must hold for every layout of the specification.", "anchors": ["cocogen/frontend/lifetimes/assign_id_to_actions.c: AITAast, AITAiactions", "copra/src/phase_driver.c: CCNdispatchAction, SkipPhase", "cocogen/frontend/scanAndParse/dsl-parser.y: entry, action"]}
{"id": "C30", "title": "A lifetime that ends at a phase covers exactly that phase", "statement": "For a range boundary naming a phase, the inclusive end covers every action nested in that phase and nothing after it; an exclusive start begins with the first action after the whole phase.", "quantifier": "all phase trees and all target phases", "why_tests_cant": "Depends on arbitrary nesting depth of the last action.", "anchors": ["cocogen/frontend/lifetimes/map_id_to_lifetimes.c: MITLlifetime_range", "cocogen/dynamic_backend/gen_check_traversal.c"]}
{"id": "C31", "title": "The generated tree check enforces all declared lifetimes", "statement": "At an action with id i the generated check reports an error for a node, child or attribute exactly when one of the declared lifetimes forbids its state at i: disallowed inside its range, allowed only inside its range, mandatory inside its range, optional only inside its range, with [ ] inclusive and ( ) exclusive boundaries.", "quantifier": "all lifetime lists, all ranges, all action ids", "why_tests_cant": "All combinations of kinds, boundaries and ids.", "anchors": ["cocogen/dynamic_backend/gen_check_traversal.c", "docs/source/dsl_syntax.rst"]}
{"id": "C32", "title": "Attribute dependency graphs are closed and checked for cycles", "statement": "Closing an attribute dependency graph adds exactly the edges implied by transitivity; the pass reports a cyclic dependency exactly when the declared dependencies contain a cycle.", "quantifier": "all finite dependency graphs", "why_tests_cant": "All graphs.", "anchors": ["cocogen/frontend/attribute_scheduler/graph.c: GRadd_edge, GRlookup_edge, GRclose_transitivity, check_cycle"]}
{"id": "C33", "title": "Attribute partitions are consistent and the assignment terminates", "statement": "For an acyclic dependency graph every attribute receives exactly one partition number, inherited attributes even and synthesized attributes odd numbers, and an attribute's number is never smaller than the number of an attribute it depends on.", "quantifier": "all finite acyclic dependency graphs", "why_tests_cant": "Work-queue termination and order for all graphs.", "anchors": ["cocogen/frontend/attribute_scheduler/partition_nodes.c"]}
{"id": "C34", "title": "Visits receive each attribute exactly once", "statement": "Grouping partitioned attributes into visits assigns every inherited attribute to the inputs and every synthesized attribute to the outputs of exactly one visit, and an attribute's visit is never earlier than the visit of an attribute it depends on.", "quantifier": "all partition assignments", "why_tests_cant": "All attribute sets.", "anchors": ["cocogen/frontend/attribute_scheduler/collect_visits.c"]}
{"id": "C35", "title": "Visit sequences evaluate attributes only after their dependencies", "statement": "In every generated visit sequence, each attribute evaluation comes after the evaluations and child visits that produce its arguments, and each required output is produced.", "quantifier": "all nodes and all dependency graphs for which a sequence is generated", "why_tests_cant": "All graphs and all queue orders.", "anchors": ["cocogen/frontend/attribute_scheduler/generate_visits.c"]}
{"id": "C36", "title": "Optional children select exactly the matching evaluation function", "statement": "When an equation depends on k optional children, the generated if-chain calls, for every combination of present and missing children, exactly the evaluation function whose name lists the missing children, passing only attributes of present children; each function it calls is declared in the generated header.", "quantifier": "all equations, all numbers of optional children (below the word size), all presence patterns", "why_tests_cant": "2^k patterns for every k.", "anchors": ["cocogen/dynamic_backend/gen_visit_source.c: DGVSvisit_sequence_eval", "cocogen/dynamic_backend/gen_equation_functions.c: DGEFequation", "cocogen/dynamic_backend/collect_children.c: collect_children_equation_args"]}
{"id": "C37", "title": "CCNcopy makes an independent deep copy", "statement": "CCNcopy(n) returns a tree of fresh nodes of the same shape and types, with equal plain attribute values, equal but freshly allocated strings, and node-link attributes still pointing at the original targets; the original is unchanged.", "quantifier": "all trees over all node declarations", "why_tests_cant": "Trees of any size and shape.", "anchors": ["cocogen/dynamic_backend/gen_copy_traversal.c", "copra/src/dynamic_core.c: CCNcopy"]}
{"id": "C38", "title": "CCNfree releases each owned block exactly once", "statement": "CCNfree(n) releases every node of the tree and every string it owns exactly once, never releases a node reached only through a link attribute, and returns NULL.", "quantifier": "all trees over all node declarations", "why_tests_cant": "Trees of any size and shape.", "anchors": ["cocogen/dynamic_backend/gen_free_traversal.c", "copra/src/dynamic_core.c: CCNfree"]}
{"id": "C39", "title": "Each action id maps to its own action", "statement": "For every value of the generated action-id enumeration, CCNgetActionFromID returns the descriptor generated for that value.", "quantifier": "all specifications", "why_tests_cant": "Depends on two generators emitting in the same order for all inputs.", "anchors": ["cocogen/phase_driver/gen_action_array.c: GAAast, GAAiphase, GAAitraversal, GAAipass", "cocogen/phase_driver/gen_action_array_header.c: GAAHast"]}
{"id": "C40", "title": "Dispatch tables line up with the generated enumerations", "statement": "For every traversal kind and node type, the entry of the generated dispatch tables at the enumeration values is the handler generated for that traversal and node type; likewise for passes and traversal data constructors; no index is outside its table.", "quantifier": "all specifications", "why_tests_cant": "Depends on several generators emitting in the same order for all inputs.", "anchors": ["cocogen/dynamic_backend/gen_enums.c", "cocogen/dynamic_backend/gen_trav_v_table.c", "cocogen/dynamic_backend/gen_trav_table.c", "cocogen/dynamic_backend/gen_system_traversals.c", "cocogen/dynamic_backend/gen_pass_table.c", "cocogen/dynamic_backend/gen_trav_data_tables.c"]}
{"id": "C41", "title": "The scheduler's work queue is first-in first-out and loses nothing", "statement": "Items come out of the queue in the order they went in, each exactly once, for every interleaving of additions and removals; its length is the number of additions minus removals.", "quantifier": "all sequences of queue operations", "why_tests_cant": "All interleavings.", "anchors": ["cocogen/frontend/attribute_scheduler/queue.c"]}
{"id": "C42", "title": "Set operators associate to the left with equal precedence", "statement": "An unparenthesised chain a op1 b op2 c ... is evaluated strictly from left to right, whatever mixture of | & - is used; parentheses override this.", "quantifier": "all token sequences forming a set expression", "why_tests_cant": "Unbounded chains.", "anchors": ["cocogen/frontend/scanAndParse/dsl-parser.y: setexpr, setoperation, %left"]}
{"id": "C43", "title": "Every visit can be reached from the root", "statement": "After empty visits were added, a node type or nodeset has a visit exactly when it had one or a type that can occur below it had one; existing visits are kept and at most one empty visit is added per type.", "quantifier": "all grammars (child types, nodesets) and all assignments of visits", "why_tests_cant": "All grammars, including cyclic ones; the loop runs until nothing changes.", "anchors": ["cocogen/frontend/attribute_scheduler/collect_visits.c: generate_empty_visits, node_has_visit, nodeset_has_visit, add_empty_visit"]}
{"id": "C44", "title": "Members of a nodeset have its attributes", "statement": "If child tables, propagation and attribute checks report no error, every node that belongs to a nodeset (by the meaning of the set expressions) has each attribute the nodeset ends up with, declared or received from a nodeset above, with the same type and kind.", "quantifier": "all collections of nodesets with union, intersection, difference and references, all attribute declarations", "why_tests_cant": "All set expressions and nesting depths; three passes have to fit together.", "anchors": ["cocogen/frontend/nodesets/nodeset_child_table.c: NCTinodeset, NCTsetoperation", "cocogen/frontend/nodesets/propagate_attributes.c: propagate_attribute", "cocogen/frontend/check_attributes.c: CHAinodeset"]}
{"id": "C45", "title": "Attribute rules are checked for every attribute", "statement": "checkAttributes reports no error exactly when no attribute of the root node is inherited, no attribute declared in a nodeset uses the constructor keyword, no inherited or synthesized attribute uses the constructor keyword or lifetimes, and no nodeset with attributes uses intersection or difference.", "quantifier": "all nodes, nodesets and attribute lists", "why_tests_cant": "All lengths of attribute lists and all combinations of flags.", "anchors": ["cocogen/frontend/check_attributes.c: CHAinodeset, CHAinode, CHAattribute"]}
{"id": "C46", "title": "Action tables of phases name the phase's actions", "statement": "The generated id table of each phase lists, in order, an enumerator of the action-id enumeration for each action of the phase and ends with the NULL enumerator; looking up each entry gives the descriptor of the referenced action.", "quantifier": "all specifications accepted by the checks", "why_tests_cant": "Depends on the forms of references that the checks accept and on several generators for all specifications.", "anchors": ["cocogen/phase_driver/gen_ids_table.c: GITast, GITiphase, GITiactions", "cocogen/phase_driver/gen_action_array_header.c: GAAHast", "cocogen/frontend/check_existance.c: CEXiactions"]}
{"id": "C47", "title": "The message buffer fits every message", "statement": "Whatever messages were reported before, formatting a message never writes outside the message buffer, never reads bytes of it that were not written, and leaves the complete text of the message in it.", "quantifier": "all sequences of messages of all lengths", "why_tests_cant": "The buffer is reused and grows: depends on the lengths of all earlier messages.", "anchors": ["palm/src/ctinfo.c: Format2Buffer, PrintMessage"]}
{"id": "C48", "title": "Locations are printed with the known parts and a marker below the columns", "statement": "For a location, the output names the file, the line, and the column or range as far as they are known (not 0); if the source line is known it is printed, followed by a line whose marker covers exactly the columns of the location.", "quantifier": "all locations", "why_tests_cant": "Depends on every combination of known, unknown and equal line and column numbers.", "anchors": ["palm/src/ctinfo.c: PrintInfo, PrintLine, PrintLineCol, PrintRange, PrintLocation"]}
{"id": "C49", "title": "The reference checks accept exactly the specifications whose names fit", "statement": "Symbol-table construction and checkExistance accept a specification if and only if no name is declared twice and every reference stands for something of the right kind (child types: node or nodeset; attribute and travdata types: node, nodeset or enum; members of set literals: nodes; other names in set expressions: nodesets; actions: something declared), names within a node, nodeset or travdata are distinct, at most one node is the root and at most one phase the start, and no reserved word is used as uid, enum prefix or node name; otherwise the compiler ends with an error. After acceptance the type tag of each child and attribute is that of the declaration it refers to and nothing else is changed.", "quantifier": "all specifications the parser can produce", "why_tests_cant": "Equivalence over unboundedly many specifications: every combination of references, kinds and letter cases must be both accepted when right and rejected when wrong.", "anchors": ["cocogen/frontend/check_existance.c: CEXast and all handlers", "cocogen/frontend/buildsymboltable.c: BSTast", "cocogen/frontend/symboltable.c: STlookup"]}
{"id": "C50", "title": "Accepted specifications have what the phase driver needs", "statement": "Every accepted specification has exactly one root node and one start phase, the generated header names these two, and every action of a phase is a phase, traversal or pass.", "quantifier": "all specifications accepted by the checks", "why_tests_cant": "Missing declarations are a property of all specifications; tests only contain complete ones.", "anchors": ["cocogen/frontend/check_existance.c: CEXinode, CEXiphase, CEXiactions", "cocogen/phase_driver/gen_action_array_header.c: GAAHast"]}
{"id": "C51", "title": "Generated constructors fill in exactly their arguments", "statement": "For every node of an accepted specification the generated constructor compiles, has one parameter for each child and attribute marked as constructor argument, in order, and returns a node of the right type in which each argument is in its field, other children are NULL, other attributes have the value for nothing of their type, computed attributes are marked as not computed, and the array of children has the right address and length. The call the compiler prints itself for copies passes the right number of arguments and gives a node with nothing filled in; the prototype in the header is the head of the definition.", "quantifier": "all accepted specifications, nodes and arguments", "why_tests_cant": "Every mixture of children and attributes, of types, of constructor marks and of letter case in names gives different code; example grammars cover few.", "anchors": ["cocogen/dynamic_backend/gen_node_constructor.c", "cocogen/dynamic_backend/gen_node_init_funcs.c", "cocogen/dynamic_backend/gen_constructor_call.c: DGCCinode, DGCCchild, DGCCattribute"]}
{"id": "C52", "title": "TRAVx traverses the child x and nothing else", "statement": "For each spelling x of a child in the specification there is one function TRAVx. In a node with a child spelled x it replaces this child by the result of its traversal and changes nothing else; in a node without such a child the program ends with an assertion.", "quantifier": "all accepted specifications, nodes and children", "why_tests_cant": "The functions are grouped by a hash table over all children of all nodes; the grouping and the cases depend on the whole specification.", "anchors": ["cocogen/dynamic_backend/gen_traversal_functions.c: DGT_Fast, DGT_Finode, DGT_Fchild, MapChildrenSource", "palm/src/hash_table.c"]}
{"id": "C53", "title": "Declarations in the generated header do not clash", "statement": "For every accepted specification no struct, union, member, macro or access function is declared twice in ast.h and no member has the name of a C keyword.", "quantifier": "all accepted specifications", "why_tests_cant": "Clashes are between generated names of unrelated declarations; tests contain particular names only.", "anchors": ["cocogen/dynamic_backend/gen_node_structs.c", "cocogen/dynamic_backend/gen_node_macros.c", "cocogen/dynamic_backend/gen_node_access_funcs.c", "cocogen/dynamic_backend/gen_nodeset_access_funcs.c", "cocogen/dynamic_backend/gen_node_base_and_union.c"]}
{"id": "C54", "title": "Access macros give the right member or end the program", "statement": "The macro N_F applied to a node of type N gives the member F of that node, applied to another node it ends the program with an error; computed attributes cannot be assigned to. The macro S_F of a nodeset gives the attribute F of the node in every member of the set and ends the program for other nodes.", "quantifier": "all accepted specifications and nodes", "why_tests_cant": "The dispatch is generated for every field of every node and nodeset.", "anchors": ["cocogen/dynamic_backend/gen_node_macros.c", "cocogen/dynamic_backend/gen_node_access_funcs.c", "cocogen/dynamic_backend/gen_nodeset_access_funcs.c"]}
{"id": "C55", "title": "Generated visit functions compile", "statement": "For every visit the generated function declares each variable once per block, uses only declared variables, functions, structures and members, calls functions with the declared number of arguments, stores results in variables that can hold them, and agrees with its declaration in the header.", "quantifier": "all visits and sequences", "why_tests_cant": "Variables are declared or not depending on the number of outputs, on whether the child is optional, and on the alternatives of a nodeset; the combinations and their order in a sequence are unbounded.", "anchors": ["cocogen/dynamic_backend/gen_visit_source.c", "cocogen/dynamic_backend/gen_visit_header.c"]}
{"id": "C56", "title": "Generated visit functions do what their sequence says", "statement": "A visit function stores its inputs in the node, evaluates the attributes of its sequence in order with the evaluation function for the missing children, calls for each present child the visit function of the child's type with the attributes computed for it, keeps all results, stores computed attributes of the node, and returns exactly its outputs in order.", "quantifier": "all visits, sequences, trees and evaluation functions", "why_tests_cant": "The claim relates generated code to its sequence for every tree, every behaviour of user code and every sequence.", "anchors": ["cocogen/dynamic_backend/gen_visit_source.c", "cocogen/dynamic_backend/gen_visit_header.c"]}
{"id": "C57", "title": "Circular attribute grammars are reported, and only those", "statement": "The dependency phase of the scheduler ends, reports an error exactly if some attribute depends on itself through equations, nodesets and the dependencies of other productions, and otherwise leaves in the graph of each node type and each member of a nodeset exactly the dependencies that hold there.", "quantifier": "all specifications that passed the earlier checks and all iteration orders of the hash table of graphs", "why_tests_cant": "The rounds over all graphs end only by a counting argument, and completeness is about derivations of any length over any grammar.", "anchors": ["cocogen/frontend/attribute_scheduler/schedule_attribute_visits.c", "cocogen/frontend/attribute_scheduler/graph.c"]}
{"id": "C58", "title": "Accepted grammars have no circular trees", "statement": "If the scheduler reports no error then in no abstract syntax tree of the grammar an attribute is needed to compute its own value.", "quantifier": "all specifications that passed the earlier checks, all trees of any size", "why_tests_cant": "There are infinitely many trees; the claim connects the graphs of productions to paths through whole trees.", "anchors": ["cocogen/frontend/attribute_scheduler/schedule_attribute_visits.c"]}
{"id": "C59", "title": "Executing the visit sequences computes every attribute of every tree", "statement": "If the scheduler makes visits and visit sequences for a specification, then executing the visits of the root of any tree of the grammar, with the inherited attributes of the root given, evaluates only attributes that the node has equations for, each of them once and after everything its equation uses, and in the end every attribute of every node of the tree has been computed.", "quantifier": "all specifications that passed the earlier checks, all iteration orders of the hash table, all trees of any size and shape, with missing children and members of nodesets", "why_tests_cant": "It joins all phases of the scheduler to executions on infinitely many trees; the faults need specifications in which a nodeset and a member disagree about a visit.", "anchors": ["cocogen/frontend/attribute_scheduler/schedule_attribute_visits.c", "cocogen/frontend/attribute_scheduler/generate_visits.c", "cocogen/frontend/attribute_scheduler/collect_visits.c", "cocogen/frontend/attribute_scheduler/partition_nodes.c"]}
{"id": "C60", "title": "The scanner reads what the text says, whatever the layout", "statement": "A text made of words, symbols, arrows, strings and numbers with blanks, ends of lines and comments between them is scanned as the tokens it stands for: keywords as keywords, values of enumerations as names, numbers with their values, strings without their quotes; a C keyword as name is refused. Texts that differ only in the gaps give the same tokens.", "quantifier": "all texts of any length, all gaps and comments", "why_tests_cant": "The rules compete by longest match and order, and three flags switch keywords off in values of enumerations; which neighbours and which earlier words change a token cannot be enumerated.", "anchors": ["cocogen/frontend/scanAndParse/dsl-lexer.l"]}
{"id": "C61", "title": "Tokens stand where their locations say", "statement": "Scanning any file ends, with tokens or with an error about a name or character. Every token's line and columns are those of its text in the file, and the line kept for error messages under that number is that line of the file.", "quantifier": "all files of any length and content", "why_tests_cant": "Line and column are counted by three start conditions, a stack and a match that is given back; drift shows up only after particular sequences of comments and ends of lines.", "anchors": ["cocogen/frontend/scanAndParse/dsl-lexer.l"]}
{"id": "C62", "title": "Descriptions are read as what they say", "statement": "Every description written as the manual says (phases, cycles, passes, traversals, nodes, nodesets, enumerations, each ended by a semicolon) is accepted by the parser, and the tree has exactly what is described: names at their places, settings, children, attributes with their options, equations, lifetimes with their ends, set expressions grouped from the left, actions of nested phases, and numbers of nodes and traversals in the order of the text. No text has two readings.", "quantifier": "all descriptions of any size and nesting, all layouts; uniqueness for all sequences of tokens", "why_tests_cant": "Each kind of entry has its own production for every combination of parts, fourteen for nodes and sixteen for phases alone; a combination that is missing or drops a part shows up only when that combination is written.", "anchors": ["cocogen/frontend/scanAndParse/dsl-parser.y", "cocogen/frontend/scanAndParse/dsl-lexer.l", "docs/source/dsl_syntax.rst"]}
{"id": "C63", "title": "The generated evaluator solves the equations", "statement": "For every accepted specification with attributes, the generated CCNevaluateAttributes computes for every tree of the grammar the one assignment of values in which every attribute has the value that the user's function for its equation gives for the values of the attributes it uses, missing optional children being left out and chosen by the name of the function; attributes that are not computed keep their values.", "quantifier": "all specifications, all trees of any size and shape, all functions of the user and all given values", "why_tests_cant": "The values depend on the order of visits, on how each visit function passes inputs and results between nodes, and on which optional children are missing; tests run a few trees of a few grammars.", "anchors": ["cocogen/dynamic_backend/gen_visit_source.c", "cocogen/dynamic_backend/gen_ag_source.c", "cocogen/dynamic_backend/gen_user_equations.c", "cocogen/frontend/attribute_scheduler/schedule_attribute_visits.c"]}
{"id": "C64", "title": "Accepted descriptions are what the scheduler relies on", "statement": "For every description file that is parsed and passes the actions before the scheduler without error, the nodes, nodesets, members, attributes and equations that the scheduler reads are exactly those the description says, all references are resolved, all attributes that are to be computed have exactly one equation, and so the scheduler's and the evaluator's results hold for it; every other file ends with a reported error.", "quantifier": "all description files: any number of nodes, nodesets, set expressions, attributes and equations", "why_tests_cant": "The checks are spread over seven actions that hand on a changed tree; whether together they establish what the scheduler assumes is a statement about all combinations of declarations, of which test files contain a few.", "anchors": ["cocogen/main.ccn:29-44", "cocogen/frontend/check_existance.c", "cocogen/frontend/nodesets/propagate_attributes.c", "cocogen/frontend/check_attributes.c", "cocogen/frontend/check_product_rules.c", "cocogen/frontend/attribute_scheduler/schedule_attribute_visits.c"]}
{"id": "C65", "title": "The check does what the lifetimes in the description say", "statement": "For every description file that is parsed and passes the phases semantic and unpackLifetimes, and for every tree of the generated compiler, the generated check reports at every action exactly those nodes, children, types of children and attributes that the lifetimes written in the description forbid at this action; lifetimes of things that cannot have them, and targets that denote no action, are reported by the generator; children marked as mandatory are there in every tree for which nothing is reported.", "quantifier": "all description files, all compilers of any nesting of phases, all action numbers, all trees of any size", "why_tests_cant": "What the check does at an action depends on the whole chain from the text over numbers of actions, propagated attributes and resolved targets to the written conditions; test files have few phases and look at few actions.", "anchors": ["cocogen/main.ccn:46-75", "cocogen/frontend/lifetimes/check_lifetimes.c", "cocogen/frontend/lifetimes/assign_id_to_actions.c", "cocogen/frontend/lifetimes/map_id_to_lifetimes.c", "cocogen/frontend/lifetimes/children_set_mandatory.c", "cocogen/dynamic_backend/gen_check_traversal.c", "docs/source/dsl_syntax.rst"]}
{"id": "C66", "title": "The generated compiler runs the actions of the description", "statement": "For every accepted description file whose generated code compiles, the phase driver reading the generated tables (ids of actions, array of actions, tables of passes and traversals) does what the description says: it calls, in the order of the phases, the function of each pass and the traversal of each name, asks the gate of each phase, repeats cycles, gives every action its number in the order of the description, and never starts an action on a tree that the lifetimes forbid at this action. The generated tables are accepted by the C compiler exactly if no reserved name is used and all actions are referred to by name.", "quantifier": "all description files, all nestings of phases, all user code (functions on an arbitrary state), all states of the driver", "why_tests_cant": "The tables are tied together by names that different generators write; a slip in one of them shows only for particular names, orders or nestings, and the driver would run something else or read outside of the tables.", "anchors": ["copra/src/phase_driver.c", "copra/src/dynamic_core.c", "copra/ccn/action_types.h", "cocogen/phase_driver/gen_action_array.c", "cocogen/phase_driver/gen_action_array_header.c", "cocogen/phase_driver/gen_ids_table.c", "cocogen/dynamic_backend/gen_enums.c", "cocogen/dynamic_backend/gen_pass_table.c", "cocogen/dynamic_backend/gen_trav_table.c"]}
{"id": "C67", "title": "Traversals go to the nodes that the description says", "statement": "For every accepted description file whose generated code compiles, a traversal of the generated compiler calls the function of the user for exactly those nodes of a tree that are of the types in the set the description gives for the traversal (all, if it gives none), from top to bottom and from left to right, and skips parts of the tree only if there can be no such node in them: for all user code and all trees that the description allows, the generated compiler ends with the same result as one that goes through everything.", "quantifier": "all description files (any nodes, nodesets, set expressions, traversals), all user code (handlers, passes, data of traversals), all trees of any size", "why_tests_cant": "Whether a node can be skipped depends on resolved set expressions and on reachability through all node types; a wrong entry in a table shows only for trees in which a target lies below a skipped node.", "anchors": ["cocogen/frontend/reachability.c", "cocogen/frontend/unwrap_setexpr.c", "cocogen/dynamic_backend/gen_trav_v_table.c", "cocogen/dynamic_backend/gen_node_trav_table.c", "cocogen/dynamic_backend/gen_trav_table.c", "cocogen/dynamic_backend/gen_system_traversals.c", "copra/src/dynamic_core.c"]}
{"id": "C68", "title": "Every function of a generated compiler is declared and defined, once", "statement": "For every accepted description file, the generated tables refer only to functions that the generated headers declare with the right type; the functions that the tables and the generated code need are exactly those that the manual names (one for each node that a traversal is for, one for each pass, those for copying, freeing and checking each node, those for data of traversals), and each is defined once, by the generator or in the files that it writes for the user to fill in: the C compiler and the linker accept the result.", "quantifier": "all description files (any nodes, nodesets, set expressions, traversals with or without data, passes with any unique ids and functions)", "why_tests_cant": "Whether two names clash depends on how unique ids, names and letter case meet in the generated names, for all combinations of nodes, traversals and passes; five generators have to agree on one naming scheme.", "anchors": ["cocogen/dynamic_backend/gen_action_header.c", "cocogen/dynamic_backend/gen_trav_actions.c", "cocogen/dynamic_backend/gen_trav_data_ctors_header.c", "cocogen/dynamic_backend/gen_trav_data_ctors.c", "cocogen/dynamic_backend/gen_pass_table.c", "cocogen/dynamic_backend/gen_user_traversals.c", "cocogen/dynamic_backend/gen_user_passes.c", "cocogen/dynamic_backend/gen_helpers.c", "cocogen/frontend/check_existance.c"]}
{"id": "C69", "title": "Every enum becomes a C enum with its values in order, and the header compiles", "statement": "For every accepted description file, enum.h has one C enum for each enum, under its name, with an added NULL value that is 0 and the values with the prefix, in the order in which they are written; no enumerator and no tag is there twice, neither among the enums of the description nor with those that the generator adds for nodes, nodesets, traversals and passes: the unique prefixes prevent collisions.", "quantifier": "all description files (any enums, values, prefixes and names of nodes, nodesets, traversals and passes)", "why_tests_cant": "A collision needs a certain pair of names, in a certain letter case, out of all pairs from five kinds of declarations; only a proof shows which pairs are left after the checks.", "anchors": ["cocogen/dynamic_backend/gen_enum_values.c", "cocogen/dynamic_backend/gen_enums.c", "cocogen/frontend/check_existance.c", "docs/source/dsl_syntax.rst", "docs/source/codegen.rst"]}
{"id": "C70", "title": "The nodes generated for an accepted description have exactly its fields, and their code works", "statement": "For every accepted description file, the generated structures have one field for each child and for each attribute that the description gives the node, its own or through the nodesets it belongs to, with the type that is written; ast.h compiles, the constructor puts its arguments in their fields, the macros of a node and of a nodeset give the field in objects of the node or of a member and report an error in others, and TRAVx traverses the child x only.", "quantifier": "all description files (any nodes, nodesets with set expressions, attributes of all types, names), all objects, all arguments", "why_tests_cant": "The generators work on the result of resolution of set expressions and of propagation of attributes; that all phases together give them what they rely on is a statement about every description that passes the checks.", "anchors": ["cocogen/main.ccn", "cocogen/frontend/nodesets/propagate_attributes.c", "cocogen/frontend/check_existance.c", "cocogen/frontend/check_attributes.c", "cocogen/dynamic_backend/gen_node_structs.c", "cocogen/dynamic_backend/gen_node_constructor.c", "cocogen/dynamic_backend/gen_nodeset_access_funcs.c"]}
{"id": "C71", "title": "The data of a traversal exists from its start to its end, and starts with the value for nothing", "statement": "For every accepted description file, trav_data.h compiles and has, for each traversal with data and no other, a structure data_<uid> with one field for each datum, with its name and the type that is written. At the start of such a traversal a new block of this structure is allocated, each datum is set to the value for nothing, and then the function <UID>init of the user is called; at the end <UID>fini is called and then exactly this block and the traversal's own block are released. In between, DATA_<UID>_GET() gives the block. Traversals without data do none of this.", "quantifier": "all description files (any traversals, any data of all types, any names), all functions of the user, all states of the traversal core, all allocators", "why_tests_cant": "Structure, union, macro, constructor, destructor and two tables are printed by separate traversals of the tree with different spellings of the name and the unique id; that they refer to each other correctly for every description, and that no two generated names clash, is a statement about all accepted descriptions.", "anchors": ["cocogen/dynamic_backend/gen_trav_structs.c", "cocogen/dynamic_backend/gen_trav_data_union.c", "cocogen/dynamic_backend/gen_trav_data_getters.c", "cocogen/dynamic_backend/gen_trav_data_ctors.c", "cocogen/dynamic_backend/gen_trav_data_tables.c", "copra/src/dynamic_core.c", "docs/source/codegen.rst"]}
{"id": "C72", "title": "Trees of an accepted description are copied and released completely by the generated code", "statement": "For every accepted description file, the functions CPYx and DELx that are generated for its nodes compile against ast.h. With them, linked through the generated tables, CCNcopy of any tree of these nodes returns a tree that is equal in new memory and changes nothing else, CCNfree releases exactly the nodes, structures, children and strings of the tree, and copying a tree and releasing the copy leaves memory as it was.", "quantifier": "all description files (any nodes, nodesets, attributes of all types, names), all trees, all states of memory and of the traversal core, all allocators", "why_tests_cant": "The functions refer to fields by macros and members, to constructors by name, and are found through tables that another generator prints; that all these names lead to the same field, for every description and every tree, is not a finite statement.", "anchors": ["cocogen/dynamic_backend/gen_copy_traversal.c", "cocogen/dynamic_backend/gen_free_traversal.c", "cocogen/dynamic_backend/gen_constructor_call.c", "cocogen/dynamic_backend/gen_system_traversals.c", "cocogen/dynamic_backend/gen_node_structs.c", "copra/src/dynamic_core.c"]}
{"id": "C73", "title": "Every generated file is written once, and whatever it includes and uses is there", "statement": "For every accepted description file and every output directory that can be made, the run of the generators opens each of the files for the description exactly once, writes them below this directory and touches no other file. Afterwards every generated source file, translated with the generated headers, those of the library and the header of the user, finds every header that it includes, directly or through others, and every type, tag, macro, function and constant that the generators put into it is declared before it is used.", "quantifier": "all description files (any nodes, nodesets, equations, attributes of all types, traversals, passes, names), all output directories, all previous contents of the disk, all headers of the user", "why_tests_cant": "Which file includes which, which headers the types of attributes, data and arguments need, and the order in which a chain of guarded headers declares things depend on the description; files are opened by one traversal and filled by others. A test compiles the output for the descriptions it has.", "anchors": ["cocogen/main.ccn", "cocogen/main.c", "cocogen/dynamic_backend/file_switchers.c", "cocogen/dynamic_backend/gen_equation_functions.c", "cocogen/dynamic_backend/gen_user_equations.c", "cocogen/dynamic_backend/gen_equation_includes.c", "cocogen/dynamic_backend/gate.c", "cocogen/generator/generator.c", "cocogen/filesystem/utils.c", "copra/ccn/dynamic_core.h", "copra/ccn/ccn_types.h"]}
{"id": "C74", "title": "The command line sets what its options say, and nothing else runs", "statement": "For every list of arguments that consists of known options, in full or unambiguously abbreviated, with values behind `=` or as next argument, in any order and mixed with one operand, cocogen runs on that operand with exactly the settings that the help describes, the last of several options of a kind counting; the generated files go below the named directory. The options for help, version and structure end the program with success. All other lists of arguments end it with failure, with defined behaviour.", "quantifier": "all lists of arguments of any length (all texts, abbreviations, orders, repetitions, operands), all descriptions and disks for the generated files", "why_tests_cant": "The arguments are arbitrary lists of arbitrary texts: abbreviations, repeated and misplaced options, numbers with signs, blanks and trailing text, empty values, and operands between options combine freely.", "anchors": ["cocogen/commandline.c", "cocogen/commandline.h", "cocogen/main.c", "cocogen/filesystem/utils.c", "copra/src/phase_driver.c"]}
{"id": "C75", "title": "The diagram shows the description", "statement": "For every accepted description, `ast.dot` is a text of the DOT language. The vertices of its graph are exactly the nodes and nodesets of the description. Its edges are one for each child, labelled with its name and going to the child's node or nodeset; one red edge for each attribute of a node, own or from a nodeset, that refers to a node or nodeset; and one blue edge for each member of a nodeset. There are no other edges and none twice.", "quantifier": "all descriptions that the checks accept: any number of nodes, nodesets (also with set expressions over other nodesets), children and attributes, all names", "why_tests_cant": "The text depends on all names and their letter case, on the evaluated set expressions and on the attributes handed down from nodesets; a test reads the diagram of a few descriptions, and a diagram with a stray vertex or a missing edge still looks like a diagram.", "anchors": ["cocogen/dot/gen_dot.c", "cocogen/main.ccn", "cocogen/frontend/unwrap_setexpr.c"]}
{"id": "C76", "title": "The files for the user have the functions of the description", "statement": "For every accepted description, the file `trav_*.c` of each traversal and `passes.c` are C text. The file of a traversal has, besides three includes, exactly one function for each node that the traversal is for, named with the UID in capitals and the node in small letters, which visits the children and returns the node; and two empty functions `init` and `fini` if the traversal has data. `passes.c` has one function for each pass, which returns its argument. They have nothing else, whatever the information on the traversal says.", "quantifier": "all descriptions that the checks accept: any number of nodes, nodesets, traversals (for all nodes or for a set expression) and passes, all names, all texts of information", "why_tests_cant": "The text depends on all names, on the evaluated set expression of each traversal, and on a free text that ends up in a comment; a test compiles the files of a few descriptions, and none of them has a comment sign in the information.", "anchors": ["cocogen/dynamic_backend/gen_user_traversals.c", "cocogen/dynamic_backend/gen_user_passes.c", "cocogen/frontend/scanAndParse/dsl-lexer.l", "cocogen/main.ccn"]}
{"id": "C77", "title": "enum.h and vtables.c make the program call what the description says", "statement": "For every accepted description, the generated files `enum.h` and `vtables.c` are C text. `enum.h` has exactly the enumerations of nodesets, nodes, traversals and passes and those of the description. What the program finds in the arrays of `vtables.c` under these enumerators is what the description says: for a traversal of the user and a node the function of the user if the traversal is for the node, else `TRAVchildren` or `TRAVnop`, and `TRAVchildren` if a node it is for can be below; for the traversals of the system their function for the node; the functions that make and release the data of traversals; the functions of passes; and the error functions under the null enumerators. Every array has as many values as it is declared with, and no array is defined twice.", "quantifier": "all descriptions that the checks accept: any number of nodes, nodesets, enumerations, traversals (with and without data, for all nodes or for a set expression) and passes, and all names", "why_tests_cant": "Positions in the arrays must agree with the numbers of the enumerators, which are written by other functions into another file, for all numbers of nodes, traversals and passes; a test compiles a few descriptions and would not meet a traversal that is called like a table.", "anchors": ["cocogen/dynamic_backend/gen_enums.c", "cocogen/dynamic_backend/gen_enum_values.c", "cocogen/dynamic_backend/gen_trav_v_table.c", "cocogen/dynamic_backend/gen_node_trav_table.c", "cocogen/dynamic_backend/gen_pass_table.c", "cocogen/dynamic_backend/gen_system_traversals.c", "cocogen/dynamic_backend/gen_trav_table.c", "cocogen/dynamic_backend/gen_trav_data_tables.c", "cocogen/dynamic_backend/file_switchers.c", "cocogen/main.ccn", "copra/src/dynamic_core.c"]}
{"id": "C78", "title": "Names of a description that is read are identifiers of C", "statement": "Whatever file is read, every name that the description declares (phases, passes, traversals and their data, nodes, children, attributes, nodesets, enumerations, unique ids, prefixes, functions), and every type of a child or attribute, is an identifier of C and no keyword of C, and every value of an enumeration is an identifier. So for every file that is read and accepted the generated `enum.h`, `vtables.c` and the files for the user are C text that does what the file says.", "quantifier": "all byte sequences as input files: all sequences of tokens, comments, strings and modes of the scanner", "why_tests_cant": "The scanner switches off the check for keywords inside of enumerations, by state that depends on all tokens before; only an invariant over scanner and parser together shows that no name of another kind is read in this state. A test with usual names does not notice that the sign `->` is read as a name there.", "anchors": ["cocogen/frontend/scanAndParse/dsl-lexer.l", "cocogen/frontend/scanAndParse/dsl-parser.y", "cocogen/dynamic_backend/gen_enums.c"]}
{"id": "C79", "title": "actions.h is C text that declares what vtables.c refers to", "statement": "For every file that is read and accepted, `actions.h` is C text: a name for the type of nodes, and behind it prototypes of functions from nodes to nodes, which are exactly the functions of the user for the nodes that the traversals are for, those for copying, freeing and checking nodes, and those of the passes. No name is declared both as a type and as a function, and every function in the arrays of functions for nodes of `vtables.c` is declared there or in the library.", "quantifier": "all input files that are read and accepted: any number of traversals with or without sets of nodes, passes with or without unique ids, nodes and nodesets", "why_tests_cant": "The two files are written by different generators, which find the nodes of a traversal in different ways (a table computed by reachability, and a walk over the literals of a set that visits some of them twice). That they agree for all sets of nodes, and that no combination of unique id and name makes something that is no C name, is no matter of some examples.", "anchors": ["cocogen/dynamic_backend/gen_action_header.c", "cocogen/dynamic_backend/gen_trav_actions.c", "cocogen/dynamic_backend/gen_helpers.h", "cocogen/gen_helpers.h", "cocogen/generator/generator.c", "cocogen/dynamic_backend/gen_trav_v_table.c", "copra/ccn/dynamic_core.h"]}
{"id": "C80", "title": "The diagrams of dependencies show the graph of the scheduler", "statement": "What is written to `pre_induce.dot` and `induce_%d.dot` for a production shows its graph: every attribute of the production and of its children has a vertex of its own, once, with its name, beside the name and type of its node; and the edges are exactly those of the graph, but for induced ones between different nodes, with induced edges dotted. The diagram with partitions can be written, too.", "quantifier": "all graphs without repeated nodes and with edges between their nodes: any number of nodes, attributes and edges, and any names", "why_tests_cant": "Vertices are named by gluing names with underscores, and clusters are found again by names in small letters. Whether two attributes get the same vertex depends on combinations of names, of which examples have few.", "anchors": ["cocogen/dot/gen_dot_ag.c", "cocogen/frontend/attribute_scheduler/schedule_attribute_visits.c", "cocogen/frontend/attribute_scheduler/graph.c", "cocogen/frontend/attribute_scheduler/partition_nodes.c", "cocogen/generator/generator.c"]}
