# Design: a machine-checked model of CoCoNut

The subject is the C source in `/repo` (CoCoNut, a compiler-construction framework):

* `palm`  – support library (hash table, strings, diagnostics),
* `copra` – run-time library linked into every generated compiler (traversal stack, phase driver),
* `cocogen` – the generator: reads the DSL, checks it, emits C.

## 1. Method

* The model is a set of small total Lean 4 functions, one per C function, in `lean/Verif/Model/*.lean`.
  Every definition cites file and lines of `/repo` and states what it simplifies.
* `lean/Verif/Base.lean` defines the outcome type `Res`: `ok a`, `ub why` (undefined behaviour: null
  dereference, out-of-bounds access, modulo zero, signed overflow …), `abort why` (assert failure, `exit(1)`
  through `CTIabortCompilation`, `err`), `diverge` where a loop provably does not end.  A theorem that says
  `f x = .ok y` therefore also says there is no undefined behaviour and no abort.
* Loops bounded by data are structural recursion.  Loops whose termination is a claim (work queues, graph
  closure, cycles of phases) use fuel, and a theorem gives sufficient fuel, or relational big-step semantics.
* Specifications are in `lean/Verif/Spec/*.lean` and do not use the model's helpers (they use finite maps as
  functions, list operations, inductive relations).
* Property theorems are in `lean/Verif/Props/*.lean`, named after the property (`C01_…`).  Helper lemmas are in
  `lean/Verif/Lemmas/*.lean` or in the section directly belonging to the model file.  Beside each property
  theorem an `example` exhibits a concrete, non-trivial instance of its hypotheses.
* Names ending `_partial` are weaker than the property; the docstring says what is missing.
* Where the code contradicts the property, `Cxx_…_false` proves the negation on a concrete witness.

## 2. Trusted base

* The Lean 4.33.0 kernel; axioms used are at most `propext`, `Quot.sound`, `Classical.choice`
  (the gate audits this; no own axioms, no `sorry`, no `native_decide`).
* The hand translation from C to Lean.  Nothing links the Lean functions to the C text mechanically; the line
  citations are there for review.
* `malloc` never fails (the code aborts on failure: `palm/src/memory.c`), and returns fresh blocks.
* The C library functions `strlen`, `strcmp`, `strstr`, `toupper` … are modelled by their C-locale specification.
* The part of C that the generated visit functions use: `compile` (scopes) and `runFn` (running) in `Model/VisitGen.lean`; for C63 also what
  macros of children and attributes stand for and what calls of visit functions do (`Model/Evaluator.lean`, from `Store` on).
* Generated C text is modelled by its meaning (table contents, branch structure), not as characters, except
  where the text itself is the subject (identifiers).

* The scanner made by `flex` picks the longest match and the first rule among equals, and counts lines; `strtoull` and `strtoll` clamp.
* The parser made by `bison` accepts what the grammar with its `%left` declaration derives, and runs the action of each production once, from
  the inside to the outside and from left to right.  The bound of its skeleton on the depth of the stack (10000) is left out.

* For C73: which words each header of the library and of C declares (`library` in `Model/GenFiles.lean`), and that include paths are those of
  `coconut.cmake:40`: the output directory, `copra`, then those of `palm`, of the user and of C.
* For C74: `getopt_long` and `strtoul` behave as in the GNU C library, without `POSIXLY_CORRECT` (`Model/CommandLine.lean`); the scheduler's use
  of the largest number of iterations is not part of it.

* For C75: the language of diagrams is the part of DOT in `Spec/Dot.lean` (words of letters, digits and `_`; texts in quotes without `\`;
  statements for vertices and edges with attributes; no subgraphs, ports, numbers, HTML or comments).
* For C76: C text is what the reader in `Spec/Templates.lean` takes: lines that go on after `\`, comments, directives, names, signs, and functions
  whose bodies have fitting braces (no trigraphs, numbers, texts in quotes, macros, or declarations that are no functions; statements inside a
  function are compared word by word, not parsed).
* For C77: enumerations and arrays of C are what the reader in `Spec/TableText.lean` takes, on the words of C76; an array is found by its name and
  type, and enumerators are numbered from 0 in their order. Types and functions that the arrays name are declared elsewhere and not looked up here.
* For C79: prototypes and `typedef` of C are what the reader in `Spec/ActionText.lean` takes, on the words of C76; the functions of the library that
  the tables name are the four in `Spec.ActionText.library` (`copra/ccn/dynamic_core.h:13-22`).
* For C80: the parts in `Model/DotAg.lean` are what the text of a diagram means to a reader; names are given (`Names`), as is what is found in the tables
  of partitions.

Not modelled: the tables of flex and bison, debug printing, the web/doc generation, CMake glue.

## 3. Plan per property

| id | modelled code | proof method |
|----|---------------|--------------|
| C01–C05 | all of `palm/src/hash_table.c` (buckets = list of chains) | refinement to a function `K → Option V`, invariant: every key is in the bucket of its hash, keys pairwise inequivalent; induction over operation sequences |
| C06 | `StringHash`, `PtrHash`, `IntHash` and their equalities with C integer widths | congruence lemmas, instances of C01 |
| C07–C12 | `palm/src/str.c`; buffers carry their capacity, writes past it are `ub` | induction over strings, specification by list append/take/drop/split |
| C13, C47, C48 | `palm/src/ctinfo.c`: `ProcessMessage`, `Format2Buffer`, `PrintMessage` (with `strtok`), `PrintInfo` and what it calls; the formatted text is an input, the buffer is a block | the loop works on the text in the block; invariant on the current line and its last blank; words as runs between separators |
| C14 | `HandleCtiCall`, `CTI`, `CTIobj`, `CTIabortOnError`, `CTIabortCompilation`, `CTIabortOutOfMemory` | induction over sequences of calls, `exit` as an outcome with a status |
| C15–C16 | `copra/src/dynamic_core.c` with an abstract vtable given as programs over the traversal API | induction on the fuel-indexed interpreter; the trace of init/fini/visit events is a run of a stack machine (`Steps`) |
| C17–C21 | `copra/src/phase_driver.c` as a state-passing interpreter over phase trees with an event trace | invariants on interpreter runs by mutual induction over phase trees; counterexamples by evaluation |
| C22–C23, C42 | `cocogen/sets/*`, `unwrap_setexpr.c`, grammar of set expressions | search tree invariant; denotational semantics |
| C24 | `symboltable.c`, `buildsymboltable.c` | induction over declaration lists |
| C25–C27, C44, C45 | `nodeset_child_table.c`, `propagate_attributes.c`, `check_product_rules.c`, `check_attributes.c` | depth-first search invariants; list of propagation events; list checks; C44 combines C25, C26 and C45 with a meaning of set expressions |
| C28 | `reachability.c`, `gen_node_trav_table.c` | search invariant: visited set closed unless found |
| C29–C31 | `assign_id_to_actions.c`, `map_id_to_lifetimes.c`, `gen_check_traversal.c` | numbers of fields against positions in the pre-order of the unfolded tree, joined with C17; the written conditions against the meaning of ranges |
| C32–C35, C41, C43 | `attribute_scheduler/*` | closure invariant; queue refinement; potential function; sequences as runs of an abstract machine that knows the computed attributes (C35) |
| C36 | `collect_children.c`, `DGVSvisit_sequence_eval`, `DGEFequation`, `DUGEequation` on the hash table of C01, output as if-chain and prototypes with the printed names | the mask of the present children is the smallest mask whose condition holds; loop invariants on the marked table; for all k below 64 |
| C37–C38 | `gen_copy_traversal.c`, `gen_constructor_call.c`, `gen_node_constructor.c`, `gen_free_traversal.c` as programs over the traversal core, explicit heap with addresses | mutual induction over trees and lists of children; footprints (list of blocks of a tree) |
| C49–C50 | `cocogen/frontend/check_existance.c` (all handlers that are reached) on top of the symbol table of C24; the two names in `gen_action_array_header.c:42-48` | each handler keeps or increases the number of errors, and keeps it exactly if its condition holds; the conditions are conjoined along the traversal; lookups are turned into declarations by `C24_lookup` |
| C51–C54 | `dynamic_backend/gen_node_structs.c`, `gen_node_macros.c`, `gen_node_access_funcs.c`, `gen_nodeset_access_funcs.c`, `gen_node_init_funcs.c`, `gen_node_constructor.c`, `gen_constructor_call.c`, `gen_traversal_functions.c`; the printed C is kept as a small syntax tree; `compile` is what a C compiler checks about names (tags, members, keywords, macros, functions, parameters), `construct`, `accessNode`, `accessSet` and `callTrav` run the printed code | names are lists of parts joined by underscores, injective if no part has one; macros and functions are found by name because names differ; the constructor is run statement by statement with an invariant on the fields written; the table of children is filled with an invariant on top of C01 |
| C55–C56 | `dynamic_backend/gen_visit_source.c`, `gen_visit_header.c`; the printed function is a small syntax tree (`Fn`); `compile` is what a C compiler checks about scopes, declarations, structures and calls; `runFn` runs the function in a world that gives the meaning of access expressions, evaluation functions, other visit functions and storing | C55: names of visits are injective (digits have no underscore), an invariant lists the variables of the outermost block while the statements are checked; C56: a simulation between the variables of the running function and the attributes the specification (`visitRun`) knows, which also relates failures; conditions are collected in `SeqOk`, and `Sensible` is what one would expect to be enough |
| C57–C58 | `attribute_scheduler/schedule_attribute_visits.c:185-560`: graphs of nodes and members of nodesets, lists of induced edges, rounds; the iteration order of the hash table is a parameter | `Dep` is the least relation closed under direct dependencies, transitivity and moving what holds between two attributes of a type to every place where the type occurs; invariant `RInv`: edges are dependencies, induced edges are applied to all graphs or still in a list; the number of missing edges bounds the rounds.  C58: a way through a tree is split at the root; ways inside a subtree between attributes of its root become dependencies of the child by induction on trees |
| C59 | `attribute_scheduler/schedule_attribute_visits.c:496-664`: all phases put together (`Model/Schedule.lean`); what executing the sequences on a tree does is a small semantics in `Spec/Evaluate.lean` (an equation can be executed only when all it uses has been computed) | C57, C33, C34, C43 and C35 are combined to facts about each node (`NodeFact`); a simulation relates what the sequence of a node knows to what has been computed in the tree, by induction on trees, with the visits of a child that are done as the state of a subtree; bounds on steps are removed by `SAVast_le` |
| C39–C40, C46 | table and enum generators (output as lists of names) | list-index equalities for all specifications |
| C60, C61 | `scanAndParse/dsl-lexer.l` (`Model/Lex.lean`): the rules as regular expressions with actions, longest match and first rule by derivatives, start conditions with their stack, the flags `keywords`, `in_enum`, `in_values`, and the line table.  The text is described in `Spec/Text.lean` by lexemes and gaps, without patterns | matching is related to languages (`Matches`), each kind of lexeme and gap gets a lemma on the rule that is picked; a relation `At` of scanner and place is kept along the text; for C61 an invariant `Here` on any input, related to the lines of the file by `lines_move` |
| C62 | `scanAndParse/dsl-parser.y` (`Model/Parse.lean`): one constructor for each production of the whole grammar with its semantic action, `SPparseDSL` from the bytes of the file on.  `Spec/Syntax.lean` has the descriptions of the manual as a data type, how they are written (`spell`) and the tree that says what they say (`tree`), without any state | a function reads every phrase that the grammar derives, with one symbol of lookahead where the grammar needs it (`Lemmas/Parse*.lean`), so there is one reading at most, and what the function does not read is refused; the productions are put together along the description (`Lemmas/Syntax.lean`) |
| C63 | `dynamic_backend/gen_ag_source.c` and the part of `gen_visit_source.c` that goes through all nodes (`Model/Evaluator.lean`); it gives the scheduler's plan (C59) to the generator of visit functions (C55) and runs the result on trees, with the meaning of visit functions of C56 and of user functions by name (C54).  `Spec/Evaluator.lean` says what solving the equations of a tree is, without visits | C59 gives the order, C55/C56 the meaning of one visit function; an invariant relates the attributes set in a subtree to those computed by the visits so far, by induction on trees (`EvaluatorRun.lean`); a solution exists because the dependencies of a tree are not circular (C58, `EvaluatorSolve.lean`); with one visit per type the generator succeeds (`EvaluatorOne.lean`) |
| C64 | The phase `semantic` as a whole (`Model/Semantic.lean`): the tree of the parser (C62) goes through the models of the symbol table, of the check of existence, of the resolution of set expressions, of the child table, of the propagation and check of attributes and of the check of equations, each reading what the ones before have left, and then to the scheduler.  `Spec/Semantic.lean` says directly on the tree of the parser which nodes a set expression means, which attributes a node or nodeset has, and when a specification is what the description says | For each action, what it leaves is related to the description, with its own result (C20–C24, C27–C30, C53 …) carried over to the whole tree (`SemanticSets.lean`, `SemanticRun.lean`, `SemanticEqns.lean`); together these give the hypotheses of the results on the scheduler and the evaluator (`World` in `SemanticSpec.lean`, `SemanticMain.lean`); the parser gives what the actions need from it (`SemanticText.lean`) |
| C65 | The phase `unpackLifetimes` (`Model/Unpack.lean`) on what the phase `semantic` (C64) has left: the check of lifetimes of attributes, the numbering of actions and the resolution of targets (models of C29, C30) for all lifetimes of a description, the marks for mandatory children, and the nodes as the generator of the check (C31) reads them.  `Spec/Unpack.lean` says on the tree of the parser which compiler a list of actions means, what a target denotes, when a lifetime forbids something, and what is wrong with a node | Each action of the model is related to the description through the symbol table (`Lemmas/Unpack.lean`, using the facts of C64), which gives the hypotheses of C29, C30 and C31; the check is then what the description says, for all trees and all action numbers |
| C66 | The phase driver on the generated tables (`Model/Compiled.lean`): what the C compiler makes of the enumerations and tables of C39, C40 and C46 (`compile`; it rejects names that are declared twice or not at all), and `CCNrun`, `CCNdispatchAction`, `StartPhase`, `SkipPhase` reading ids through `ccn_action_array`, with reads outside as undefined behaviour.  `Spec/Compiled.lean` says which program a description describes | `C66_program_partial`: on the tables of an accepted description `CCNrun` equals the driver of C17-C21 on that program, for all user code; this discharges the unfolding assumed in `Model/PhaseDriver.lean`.  `C66_compiles`: exactly which accepted descriptions compile.  `C66_unique`: there is one program.  `C66_numbers_partial`: what is called under which number.  `C66_guarded_partial` (with C65): no action is started on a tree that the lifetimes forbid, as a statement that such behaviour cannot matter.  Only names that the driver reads are looked at by `compile` |
| C67 | `unwrapSetExpr`, `reachability` and the generators of dispatch tables on the tree of the description (`Model/Targets.lean`), and the traversal core of C15 running on these tables.  `Spec/Targets.lean` says which nodes a traversal is for (denotation of set expressions), which trees a description allows, and what a compiler without shortcuts is | `C67_targets_partial`: what is in the tables under the enumerators.  `C67_runs_partial`: whatever a compiler without shortcuts does, the generated one does (simulation over all user code, with any fuel).  `C67_nothing_else_partial`: and nothing else, if the former never meets undefined behaviour.  `C67_visits_partial`: a traversal that goes on to children visits a subsequence of the tree with all its targets.  `C67_numbered`: the parser gives the numbers that are assumed.  Partial: a traversal with an empty set is run for all nodes (`C67_empty_false`), order of nodesets (C23), descriptions that do not compile (C66) |
| C68 | The generators of headers, of functions and of files for the user (`Model/Declared.lean`): which functions, as names with C types, are declared where `vtables.c` sees them, referred to by its tables, called by `trav_data.c`, and defined in any file.  `Spec/Declared.lean` says which functions a compiler has, what the C compiler and the linker ask for (`Links`), and four conditions on names of the description (`Clear`) | `C68_declared_partial`, `C68_defined_partial`: what is referred to, declared, called and defined, exactly.  `C68_links_partial`: the files compile and link if and only if the names are clear; reserved unique ids follow from the phase `semantic`.  Names are taken apart at the first lower-case letter.  Out of scope: functions of the library, constructors and static names, gate functions; names of the description that are words of C |
| C69 | The generators of `enum.h` (`Model/EnumHeader.lean`, behind `DGEast` of `Model/Tables.lean`): tags and enumerators in their order; upper and lower case of names as in `Model/Ids.lean`. | For every accepted description the C compiler takes the header if and only if names are clear (`C69_accepted_partial`, an equivalence with ten conditions on names; what the checks see to is proved from them, not assumed).  The enums of the user are there with their names, NULL is 0 and the values are 1, 2, … in their order (`C69_values`), and a name stands for one number (`C69_number`).  Partial because there are accepted descriptions whose header does not compile (`C69_value_false`, `C69_tag_false`, `C69_prefix_false`, `C69_null_false`). |
| C70 | What the generators of nodes read after the phase `semantic` (`Model/Described.lean`: from the result of `checks`, `Model/Semantic.lean`, to the input of `Model/NodeGen.lean`). | Composition: for every accepted description the generators see its nodes and nodesets, with all attributes that the description gives them and no others, of the right types (`C70_nodes`, `C70_sets`), and what C51–C54 assume holds if no computed attribute is in a constructor (`C70_wf_partial`).  So headers compile for simple names (`C70_header_partial`), constructors, macros and `TRAVx` work (`C70_constructor_partial`, `C70_node_partial`, `C70_nodeset_partial`, `C70_trav_partial`), all in terms of the description.  Partial because accepted descriptions exist where they do not: `C70_ctor_false`, `C70_user_false`, `C70_enum_false`, `C70_child_false`, `C70_underscore_false`, `C70_keyword_false`, `C70_children_false`, `C70_nodeset_false`. |
| C71 | Generators of `trav_data.h` and `trav_data.c` (`Model/TravData.lean`: structures, union, macros, functions, as printed for an accepted description; compilation with respect to names, with the tags of `enum.h` and the macros of `ast.h`; the printed statements run on the state of the traversal core of C15). | For every accepted description: structures and fields are those of the description (`C71_structs`); `trav_data.h` compiles exactly if names are clear, a condition on the description (`C71_compiles_partial`); with the printed functions and the tables of C40, `TRAVpush` and `TRAVpop` are those of the core of C15 and C16 for tables that follow from the description, so these theorems apply (`C71_core_partial`); what happens at start and end, for the number that the enumerator of the traversal has (`C71_push_partial`, `C71_pop_partial`); the macro (`C71_get`).  Partial because names that are not clear are accepted: `C71_word_false`, `C71_tag_false`, `C71_union_false`, `C71_macro_false`.  Assumed: types of the user exist and are scalar; macros without parameters of standard headers, other than `stdbool.h`, are left out; clashes of function names are in C68. |
| C72 | The text of `CPYx` and `DELx` (`Model/CopyGen.lean`): macros, members and constructor calls by name, resolved against `ast.h` of C53 and the enumeration of C39 as a C compiler does; run on the memory of C37. | For every accepted description the resolved functions are those of C37 and C38 for the shapes that the generators give the nodes, and the tables of C40 lead to them, so: copying (`C72_copy_partial`), releasing (`C72_free_partial`), both (`C72_roundtrip_partial`); `DELx` compiles exactly if no string is computed (`C72_builds_partial`).  Partial because accepted descriptions exist for which the files do not compile (`C72_string_false`, `C72_unused_false`), and those of C70.  Assumed: the C types of expressions fit (a type of the user that is a structure does not accept `0`, which `gen_constructor_call.c` passes for it; not modelled); the linker finds the functions by name (`Linked`). |
| C73 | The run of `main` from the output directory to the last file (`Model/GenFiles.lean`): directories and files on a disk, every generator that opens or writes a file, with the includes it prints and the words (identifiers, tags, macros) that the printed text declares and uses; the headers of `copra` and `palm`, and of the C library, with what they declare. | A small translator (`Spec/GenFiles.lean`): searches includes as C does (own directory, then the directories of the project and the library), `#pragma once`, the one conditional include, and words declared before use.  For every accepted description: each file is opened once (`C73_once`); the run makes the directories and these files, and leaves others alone (`C73_written`); all source files translate (`C73_translates_partial`).  The last is partial because it is false for equations with links or strings, for enumerations in another case, for a node called `user_types`, and for other backends (`C73_link_false`, `C73_string_false`, `C73_case_false`, `C73_types_false`, `C73_backend_false`); the first two and the last also in general (`C73_link`, `C73_null`, `C73_backend`).  Words that only the user's own text or names of the description bring in are left to C39, C51 to C54, C70 to C72; types and arity of what is declared are not looked at. |
| C74 | `CLprocessArgs` with `getopt_long` and `strtoul` of the GNU C library, and `main` up to the generators (`Model/CommandLine.lean`). | `Says`: the arguments are options (full or abbreviated names, values joined or apart, `-vv`), operands and `--` (`Spec/CommandLine.lean`); `Changes`: what the help says about the options. Induction over the arguments in both directions: what is said is set (`C74_settings_partial`), and nothing else runs (`C74_only_partial`); which options end the program and how (`C74_shows`, `C74_status`, `C74_number`); when it is undefined (`C74_defined`). With C73: where the files go (`C74_files`), and that every backend but the dynamic one gives code that does not compile (`C74_backend`). False: `--verbose` is not `-v`, `-b` is not known, `-1` and `3x` are numbers, any backend is taken, an empty directory is undefined. |
| C75 | `genDot` (`Model/Dot.lean`): the text of `ast.dot`, from what the phase `semantic` leaves (`Semantic.checks`, `Unwrap.USEast`). | `Spec/Dot.lean` has a scanner and parser of the language of diagrams, written apart from the generator, and `Shows`: the vertices are the declared names, the edges are one per child, per attribute of a node that refers to a node or nodeset, and per member of a nodeset, none twice and no others. The text is cut into lines (`Lemmas/DotText.lean`), each line is read back by induction over its bytes; what the lines stand for comes from the theorem on what the checks accept (`Described.Known`), members from the evaluated literals (`Lemmas/UnwrapIds.lean`: they only hold names written in literals). `C75_shows_partial` needs references in the letter case of the declaration and no names that are words of the language; `C75_case_false`, `C75_member_false` and `C75_word_false` show that both are needed. |
| C76 | `DUGTitraversal`, `DUGTinode`, `DUGTid`, `DUGPast`, `DUGPipass` (`Model/Templates.lean`): the text of `trav_*.c` and `passes.c`, from what the phase `semantic` leaves (`Semantic.checks`, `Unwrap.USEast`). | `Spec/Templates.lean` has a scanner and a reader of C functions, written apart from the generator, and says which functions the file of a traversal (`Template`) and of the passes (`PassFile`) have, word by word. The words of the text are found by following the states of the scanner over the pieces of the text (`Lemmas/Templates.lean`), with induction over information, names, literals and lists; that each node's piece is there comes from `Declared.written_of` (C67, C68). |
| C77 | `enumText`, `vtables` (`Model/TableText.lean`): the text of `enum.h` and `vtables.c`, with the tables of `Model/Compiled.lean` for the traversals of the user. | `Spec/TableText.lean` has a reader of enumerations and arrays of C on the scanner of C76, and says what the compiled program finds under the enumerators (`Dispatch`: `Calls` follows `ccn_trav_vtable[trav][node]` as `TRAVdo` does). The text is taken apart by following the scanner over its pieces (`Lemmas/TableText.lean`: `Says`), with induction over all lists; what is at a position comes from the theorems on the tables (C39, C66, C67). `C77_enums_partial` (the enumerations, exactly), `C77_tables_partial` (`Dispatch`, and no array twice iff no traversal is called like a table), `C77_unique_partial` (an enumerator has one number, so `Calls` gives at most one function); `C77_once_false`. |
| C78 | Scanner and parser of `Model/Lex.lean` and `Model/Parse.lean` (`SPparseDSL`), with `Model/TableText.lean` and `Model/Templates.lean` for what follows. | `Spec/FileNames.lean` says what a name is (`Good`: identifier and no keyword, with the keywords of `Spec/Templates.lean`) and for which names of a description it holds (`Spelled`). `Lemmas/FileNames.lean` proves an invariant of the tokens: where the scanner may read keywords as names (`Sane b c`: `b` whether keywords are checked, `c` whether no enumeration has begun), and then for every rule of the grammar that the names it takes stand outside of it; `lex_sane` goes over the steps of the scanner, `parsed_spelled` over the derivations. `C78_names_partial`: for every input. `C78_tables_partial` and `C78_templates_partial` compose it with C77 and C76: from the bytes of a file, with `TypesNamed`, `Numbered`, `Wordy` and `Legible` proved and not assumed. `C78_arrow_false`: the value `->`. Names in set expressions, equations and lifetimes are left out: in the nodeset after an enumeration keywords may be read as names (C60), and the checks refuse them as unknown. |
| C79 | `actions` (`Model/ActionText.lean`): the text of `actions.h`, written by `DGAHast` and its parts and `DGTAinode`, from what the phase `semantic` leaves. | `Spec/ActionText.lean` has a reader of prototypes and `typedef`, written apart from the generator, and says which functions are needed (`Needed`), what a function for nodes is (`NodeFn`: the two ways to write its type), and what `vtables.c` needs (`Covers`). `C79_header_partial`: from the bytes of a file that is read and accepted, the text is read as the name for the type followed by prototypes for exactly the functions needed, by induction over traversals, sets, passes and nodes; no function is called like the type if and only if no pass is called `ccn_node`. `C79_covers_partial` composes it with C77 and C78: whatever the arrays of functions for nodes in `vtables.c` name is declared in `actions.h` or the library. False for a pass `ccn_node` (`C79_typedef_false`) and for a pass with `func` (`C79_func_false`). |
| C80 | `GDag_dot_add_graph` and its parts (`Model/DotAg.lean`), on the graphs of `Model/Graph.lean`. The text is represented by its parts: clusters, vertices and edges; the letters between them are not (C75 does so for the diagrams of `cocogen/dot/gen_dot.c`). | `Spec/DotAg.lean` says when a diagram shows a graph (`Shows`, for some naming of attributes that tells them apart). Proved for all graphs with `Sound` (no node twice, edges between nodes; an assumption here, not derived from the scheduler) and names with `Legible` (`C80_shows_partial`). False for a child called like its production but for letter case (`C80_seen_false`), for names with two underscores (`C80_underscore_false`), and with partitions (`C80_format_false`, for every graph whose first attribute has one). |

## 4. Disagreements between code and property

* C02: `HTclear` does not reset the element counter.
* C03: `HTremove` on an empty bucket dereferences NULL (`hash_table.c:158`).
* C04, C05: iteration and copying after `HTclear` run into the assertion because the counter is stale.
* C08: `STRsubStr` with `start + len > INT_MAX` overflows a signed int.
* C11: `STRsuffix` with a NULL suffix dereferences NULL; `STReqci` agrees with `STRlower` for 7-bit characters only.
* C15: `dynamic_core.h` offers `TRAVpush` and `TRAVpop` to handlers; a handler that pushes without popping leaves the started
  traversal current after `TRAVstart` (`C15_unpaired_false`).  The partial theorems assume handlers that pair them
  (`Paired`), and tables that agree on which traversals have data.
* C16: in `NODE_CHILDREN(n)[i] = TRAVopt(NODE_CHILDREN(n)[i])` C leaves open whether the pointer on the left side is read
  before the call; a handler that changes that pointer is undefined behaviour in the model.
* C18: a phase nested in a cycle resets the shared iteration counter and the fixed-point flag: notifications raised
  before the nested phase are lost, a cycle with a nested phase can run forever, and a nested cycle starts with the
  outer cycle's count (all three proved with witnesses).
* C21: a narrowed breakpoint path also matches deeper actions of the same name (components are matched greedily,
  unmatched phases are passed over).
  A breakpoint set by `CCNsetBreakpoint` from inside a phase that narrowed the path is overwritten when the phase ends.
* C23: resolving a reference traverses *all* children of the nodeset, including its `next` link, so a reference that is
  being resolved can be resolved and freed by the inner call and then freed again (use after free): proved as
  `C23_forward_false`.  The partial theorem covers nodesets that refer to earlier declarations or to literals.
* C24: reporting a duplicate pass target function hands a node pointer to `%s` (undefined behaviour).
* C28: a traversal whose set of nodes is empty (`{x} - {x}`) is taken for a traversal without a set and visits all nodes
  (`C28_empty_false`).  The search also goes on from a nodeset to all later nodesets; that only makes more nodes be passed
  through (stated as `seems` in `TableEntry`).
* C29: the id pass follows the `next` link of the start phase and renumbers the phases behind it, which are the phases
  written before the start phase and all phases written inside it (`C29_inline_false`; for every such specification
  `C29_behind_false`).  A phase used twice keeps only its last numbering (`C29_twice_false`).
* C30: the id after a phase is computed from its last *direct* action (`C30_nested_end_false`; `C30_exact_partial` says by
  how much it is off).
* C13: `@` is used as the mark for a break, so an `@` in a message is lost and ends a line (`C13_at_false`).  A word that does
  not fit ends the search for breaks: later lines of short words are not wrapped (`C13_stop_false`).  A word that just fits
  behind a break counts as not fitting, because the break itself is counted (`C13_width_false`).
* C14: the counters are `int`s that can overflow after 2^31 errors (`C14_overflow_false`).
* C47: for a message of 2^31-2 characters the size of the buffer overflows (`C47_long_false`); longer ones fail an assertion.
* C48: `ctinfo.h:40` says that 0 and NULL are not displayed but handled: without line and column `0:0` is printed
  (`C48_zero_false`), without file name NULL is given to `%s` (`C48_file_false`).  For ranges over lines, the marker below the
  first line goes up to the last column, which belongs to another line (`C48_lines_false`).
* C49: proved with the hypothesis that no two passes share a target function (C24).  Equations and lifetimes are not looked at
  by this pass.
* C50: a specification without root node or start phase passes all checks and the generator of the header dereferences
  NULL (`C50_missing_false`; with assertions on, a missing start phase fails `assign_id_to_actions.c:22`); a node or enum is
  accepted as an action (`C50_action_false`).
* C51: the parameter of an attribute with a user type is printed in lower case while the body uses the name as written
  (`C51_user_false`); an enum written in another letter case than in its declaration gives an undeclared tag
  (`C51_enum_false`); a child `Node` in the constructor has the name of the local variable (`C51_node_false`).  That computed
  attributes are not in the constructor is an assumption (`AttrOk.ctor`; see C45).  Types of parameters are looked at only for
  enums.
* C52: a child `opt` (or `start`, `do`, `push`, …, list `travWords`) gives a second function of that name
  (`C52_clash_false`).
* C53: false with underscores (`C53_underscore_false`), for a node `Children` (`C53_children_false`), for a child `Else`
  (`C53_keyword_false`: the lexer compares the name as written) or `True` (`C53_stdbool_false`) and for a nodeset `Node` (`C53_nodeset_false`; a C compiler
  may only warn about a macro defined twice, the macro of the nodeset is lost all the same).  `Plain` is sufficient and is not
  claimed to be necessary.
* C54: assumes that the members of a nodeset have its attributes, with the same kind (C44); the C types of the two are not
  compared.  Assertions are on (`NDEBUG` not defined).
* C55: two children of one node type whose visit has several outputs give a variable declared twice (`C55_twice_false`); the
  generator dereferences NULL if the first member of a nodeset has no output and another has (`C55_first_false`); an
  inherited attribute that only a member of a nodeset has gives an undeclared variable (`C55_input_false`); names of
  variables clash with underscores (`C55_names_false`) and for a child `visit` with an attribute `output`
  (`C55_result_false`).  Types of attributes are not compared, and access expressions are the subject of C53 and C54.
* C56: if the first member of a nodeset needs no visit, it is missing in the chain and a child of that type ends the program
  (`C56_dummy_false`).  `DBUG_ASSERT` is that of a debug build; in other builds a node of an unexpected type is passed on.
* C31: only the first lifetime of a node, child or attribute is checked (`C31_second_false`); `allowed` with a range on a
  child or attribute writes a call of `CTIerror`, which does not exist (`C31_builds_false`).
* C32: a self-dependency is not reported (`C32_self_false`); an equation that names the same argument twice makes the
  compiler fail an assertion in `add_edge_internal` (`C32_repeated_false`; `check_product_rules.c:7` has a TODO for it).
* C59: two faults that make the generated code use attributes before they are computed.  The visits of a nodeset and of its
  members are partitioned separately, and a member may take an attribute as input of an earlier visit than the nodeset does;
  the member then uses it before the parent has computed it (`C59_nodeset_false`, a specification of three nodes).  A sequence
  may evaluate an inherited attribute of its own node, for which there is no equation, because the visit of a child needs it and the
  node gets it with a later visit only (`C59_inherited_false`, without nodesets; edges that would prevent this are commented out in the code).
  `C59_evaluates_partial` has the absence of both as hypotheses on the plan; `C59_oneVisit` and `C59_topDown` prove it for
  specifications with one visit per node.  That equations exist for all attributes (`Equipped`) is established by earlier checks
  (C26, C27) and a hypothesis here; a child whose type is an empty nodeset is excluded (`Filled`, see C43).
* C57, C58: the same two faults: a self-dependency is not reported (`C57_self_false`, `C58_self_false`) and a repeated argument
  fails an assertion (`C57_repeated_false`).  The check is stricter than C58: a grammar can be rejected though no tree is
  circular (`C58_converse_false`), as usual for ordered attribute grammars.  What earlier phases establish is a hypothesis
  (`Checked`); that members of a nodeset have its attributes, of the same kind, is C44.
* C41: `QUdelete` on a non-empty queue frees an item and then reads its `next` (`C41_delete_false`; both users drain the
  queue first).  `QUpeek` returns the list block instead of the item (it has no callers in the scheduler).
* C35: a sequence may evaluate an inherited attribute of the node itself that the parent provides only for a later visit
  (`C35_inherited_false`); the visits of a nodeset and of its members need not agree (`C35_nodeset_false`); after a visit
  that the first member of a nodeset does not have, an assertion fails (`C35_dummy_false`).
* C36: a child spelt like the keyword `this` up to case (`This` is an identifier) is confused with the node itself: for the
  own attribute the function of the child's equation is called (`C36_this_false`).  Names of functions of different
  equations can be equal: `b.c_d` and `b_c.d` both get `EVALa_b_c_d` (`C36_names_false`).  With 64 optional children the
  generator shifts by the word size (`C36_too_many`).  If all arguments of a function belong to missing children, the
  header declares it with `()` instead of `(void)`.
* C37: inherited and synthesized attributes are not copied (`C37_inherited_false`; a comment in
  `gen_copy_traversal.c:95` says so).  The partial theorem treats their values as not part of the tree.
* C38: for an inherited or synthesized string attribute `y`, the generated `DELx` names the member `y`, but the struct has
  `_y`: the generated compiler cannot be built although the checks accept the declaration (`C38_builds_false`).
* C39: the action array has no entry for `check`, so the entries of `free` and `cleanup` are shifted (`C39_system_false`).
* C40: nothing forbids the name `null`, for which `NT_NULL` is declared twice (`C40_null_false`); the same holds for
  nodesets, uids of traversals, passes and actions, and for traversals with names like `ccn_free` (`Named` in
  `Spec/Tables.lean` lists these).
* C46: `CEXiactions` accepts any known name, so an action may be given by its uid (or be a node); the table of ids then has
  an undeclared name (`C46_uid_false`).
* C43: a nodeset whose expression is empty gets no entry in the table of visits; a node type without visits that has a
  child of that type makes the compiler fail an assertion (`C43_empty_nodeset_false`).
* C45: `CHAattribute` does not go on to the next attribute, so only the first attribute of each node and nodeset is checked
  (`C45_first_only_false`).  Propagated attributes are put in front, which hides declared ones.
* C60: values of an enumeration called `enum` and `values`, in that order, leave `in_enum` and `in_values` set, so that the next
  braces are read without keywords (`C60_false`: `children` of the next node is a name).  An arrow among the values is a name `->`.
  Numbers out of range become the largest one (`C60_range_false`), a comment without end is not reported (`C60_comment_false`).
* C61: a string over several lines is said to start in the column of its first line but on its last line, and the columns of
  tokens behind it are counted from the first line; the line table has no entry for its other lines (`C61_false`).
* C62: of a traversal with information and data but no nodes the information is lost (`C62_info_false`, third production of
  `traversal`).  Written as in the manual but refused: a gate without function (`C62_gate_false`), lifetimes of a node that has
  neither children nor attributes (`C62_lifetime_false`), a cycle with information, uid and gate, whose production has no commas
  (`C62_cycle_false`), `[->]` (`C62_range_false`), parentheses around one operand or around parentheses (`C62_group_false`), an
  equation without braces (`C62_equation_false`), the manual's own example for equations (`C62_manual_false`).  Not in the manual
  but accepted: ranges with their brackets the other way round (`C62_brackets_false`).  The data of a traversal is in the tree in
  reverse order, which the manual does not speak about.
* C63: an equation that uses an inherited attribute of a child, which the manual allows, reads it from the child before the visit
  that stores it there (`C63_inherited_false`; the code that used the local variable is commented out).  For a root without visits,
  where there is nothing to compute, `CCNevaluateAttributes` ends the program instead of doing nothing (`C63_start_false`).
  Otherwise C63 inherits the restrictions of C55 (`Generable`) and C59 (`Agree`).  `C63_oneVisit` replaces these two by conditions
  on the specification (`OneVisit`, `Plain`) and one on the plan (`even`: no member of a nodeset lacks visits the nodeset has).
* C64: what the scheduler relies on is not all checked before it.  An attribute may be declared to be inherited and synthesized
  (`C64_kinds_false`); an attribute may be used for itself, and is accepted though every tree is circular (`C64_self_false`); an
  equation may use an attribute twice, which fails an assertion of the scheduler (`C64_twice_false`); there may be two equations for
  one attribute (`C64_double_false`); a nodeset without members may be the type of a child, which fails an assertion
  (`C64_empty_false`); the check of attributes reports its errors to the phase only, so the scheduler runs on what it was to reject and
  an assertion fails (`C64_phase_false`); a nodeset may name a later one, with undefined behaviour (`C64_forward_false`).  The
  conditions `Earlier`, `Tidy`, `OneKind` and `Peopled` on the description exclude these; then the hypotheses of C57, C58, C59 and C63
  on the specification are proved, not assumed (`C64_needs_partial`, `C64_acyclic_partial`, `C64_evaluates_partial`); what is checked
  of attributes is `C64_rules_partial`, whose rules on single attributes speak of the first one only (C45).
* C65: phases written inside the first one are numbered wrongly (C29), so that a node that is forbidden from an action of such a phase on
  is not reported while it runs (`C65_inline_false`); a second lifetime marks a child as mandatory for the evaluator, but the check lets
  it be NULL (`C65_second_false`); a phase that contains itself passes all checks, and the generator recurses without end
  (`C65_loops_false`); a description without first phase passes all checks, and an assertion fails (`C65_start_false`).
* C66: an action can be referred to by its unique id, as far as the generator is concerned, but then the generated code does not compile
  (`C66_uid_false`); with a unique id `null` it compiles, and the actions from there on are left out (`C66_null_false`); a phase called
  `cleanup` defines `cleanup_ids_table` a second time (`C66_cleanup_false`).
* C67: a traversal whose set of nodes is empty, such as `{X} - {X}`, is accepted, and is then for all nodes, as if no set had been given
  (`C67_empty_false`).
* C68: for a pass with a `func`, such as the one in `docs/source/codegen.rst:115-119`, the header declares the unique id and the name of the
  pass, not the function (`gen_action_header.c:37-47`), so `vtables.c` does not compile (`C68_func_false`).  A node `init` or `fini` clashes
  with the functions for data of a traversal (`C68_node_false`), a pass can have the name of the function of a traversal
  (`C68_pass_false`), and two passes can get the same function (`C68_twice_false`); none of this is reported.
* C69: the values of an enum are not checked: `add, Add` gives an entry twice (`C69_value_false`).  An enum can be called `nodesettype`
  (`C69_tag_false`), a prefix can start with a reserved one (`NT_X` with a node `X_Null`, `C69_prefix_false`), and a node can be called
  `Null` (`C69_null_false`).  The manual says that the C enum has the name in lower case (`docs/source/codegen.rst:11-12`) and shows it
  without the NULL value; the generator keeps the letter case (`C69_lower_false`) and adds the value.
* C70: the witnesses of C51 and C53 are accepted descriptions, so nothing in the front end keeps them from the generators; only the node name
  `Node` is refused.  A computed attribute in a constructor is refused only if it is the first attribute (C45), otherwise the constructor
  assigns to a macro that is no lvalue (`C70_ctor_false`).
* C71: a traversal called `Switch` (the lexer refuses `switch` only) with data gives a member `switch` (`C71_word_false`); enums can be called
  `data_rn` or `TRAV_DATA`, which are tags of `trav_data.h` (`C71_tag_false`, `C71_union_false`, the latter even if no traversal has data);
  a node `Data` with a child `RN_Get` has the macro of a traversal `RN` (`C71_macro_false`).  None of this is reported.  The macro of a
  traversal does not check which traversal is current: in another one it gives the data of that one with a wrong type
  (`gen_trav_data_getters.c:13-14`); `C71_get` is for the right one.
* C72: a string that is inherited or synthesized is accepted, and `DELx` uses the member `y` of a structure in which it is called `_y`
  (`C72_string_false`; C38 has the same fault without the description).  A node `Maybe` with a field `unused` has the macro
  `MAYBE_UNUSED`, which `ccn_copy.c` defines without parameters (`C72_unused_false`; a constraint violation, which compilers may report as a warning).
* C73: an equation with a result or an argument that is a link to a node gives a header `ccngen/equations/x.h` with `node_st`, and nothing that
  declares it (`gen_equation_functions.c:56-93`); `visit.c` and `user/eq_x.c` do not compile (`C73_link`).  The template for an equation for a
  string or link returns `NULL`, which nothing declares there (`gen_user_equations.c`; `C73_null`).  The header for the node `user_types` is found
  instead of that of the user (`C73_types_false`).  With `--backend static`, or `typed`, which the help names, `action_handling.c` includes
  `ccngen/enum.h`, which is not generated then (`C73_backend`).  An empty `--gen-dir` reads the byte before the string (`C73_empty_false`).
  `--gen-dir a/b` without `a` ends with an error of `mkdir`; this is why `Room` asks for the directory above.
* C74: the help says `--verbose/-v`, but `--verbose` only sets a variable that nothing reads (`cocogen/commandline.c:74`, `C74_verbose_false`).
  It says `--breakpoint/-b`, but `-b` is no option (`C74_short_false`).  `--ag-scheduler-max-iter` takes `3x` for 3 and `-1` for the largest number
  (`C74_number_false`).  Any text is taken for a backend (`C74_backend_false`), and only the dynamic one gives code that compiles (`C74_backend`).
  `--gen-dir ""` and a program without a name are undefined (`C74_empty_false`).  `--profiling`, `--breakpoints`, `--inspectpoints`, `--serialise`
  and `--dot` (which asks for a value) are accepted and do nothing; `gen_user_files` (case 29) cannot be set by any option.
* C75: cocogen takes names without regard to letter case, but the diagram has them as written at each place (`cocogen/dot/gen_dot.c:57,69,81`), so a
  child `expr e` of a nodeset `Expr`, or a member `num` of a node `Num`, gives a vertex of its own (`C75_case_false`, `C75_member_false`).  Names are
  not quoted, so that a node `Edge`, `Graph`, `Subgraph`, `Digraph` or `Strict` gives a text that is no diagram (`C75_word_false`).  The table `seen`
  is never filled (`cocogen/dot/gen_dot.c:82`), so it has no effect.
* C76: the information on a traversal is written into a comment as it is (`cocogen/dynamic_backend/gen_user_traversals.c:35-37`), so that a
  traversal with `info = "Handles a */ b."` gives a file that is no C (`C76_comment_false`), and text between `*/` and `/*` becomes code
  (`C76_inject_false`).
* C77: the table of a traversal is called like the traversal in small letters with `_vtable` (`cocogen/dynamic_backend/gen_trav_v_table.c:25-35`),
  and nothing keeps a traversal from being called `ccn_trav`, `ccn_pass`, `trav_data_init` or `trav_data_free`; `vtables.c` then defines an array
  twice, with different types or values (`C77_once_false`).
* C78: while the values of an enumeration are read, `LEX_KEYWORD` returns every keyword as a name, and `->` is written as a keyword
  (`cocogen/frontend/scanAndParse/dsl-lexer.l:16-21`, `157`). `enum op { prefix = BO, values { -> } };` is accepted without message, and `enum.h` has `BO_->`
  (`C78_arrow_false`).
* C79: `actions.h` begins with `typedef struct ccn_node ccn_node;` (`cocogen/gen_helpers.h:4`), and nothing keeps a pass from being called
  `ccn_node`; the file is accepted without message, and the header declares the name once more, as a function (`C79_typedef_false`).  The disagreement
  about `func` of C68 is there in the text of both files, too (`C79_func_false`).
* C80: clusters are found again by names in small letters (`cocogen/dot/gen_dot_ag.c:77`), so for a node `Expr` with a child `expr` the child is not
  drawn, and what depends on it seems to depend on itself (`C80_seen_false`).  `__` is put between names that may have `__` themselves, so two attributes
  may have one vertex (`C80_underscore_false`).  Partitions are `size_t` and printed with `%d` (`106`, `108`), which C does not define
  (`C80_format_false`; where `int` and `size_t` are passed in the same way the number is printed as meant).  An attribute that is not in a table with
  other attributes leads to keys of the table, which are texts, being used as attributes (`54-57`).

## 5. Seeded faults

`seeded/LOG.jsonl` has one line per wrong program tried on a scratch copy of the Lean tree: the definition, the edit, the
claim it breaks and the theorems whose proof no longer compiles.

* The first 63 lines: `theorems_failed` lists the theorems reported by Lean *and* the theorems that use them (found by
  text search, not observed failing, as Lean does not get to them).
* Later lines: `theorems_failed` has only the theorems Lean reported; `dependants` are those found by text search: their
  proofs use a failed theorem, which does not show that they are false under the mutant.
* A `note` says where a failure was confirmed in another way, for instance by proving the negation under the mutant.
* Some batches were run twice, because the script missed a theorem name or because the sample of the first run did not
  show the claim to be false; only the last run of a fault is in the log.
* "refuted" samples are runs at fixed limits (fuel, iterations); they show that the mutant breaks the claim there.
* `sample` names the file in `seeded/samples/` with the definitions used in the `note`; appended to them, the text in the
  note compiles against the tree with the edit applied.  Lines without `sample` were confirmed without such definitions
  or not confirmed beyond the failing proofs.
* Edits after which the model itself no longer compiles test nothing and are not in the log.
* The batches for C78, C79 and C80 were built only up to the modules that these theorems need, so `theorems_failed` has only theorems of those
  modules.  The search for `dependants` does not follow qualified names, so it is empty for C78.  The batch for C78 was stopped
  before its end for lack of time: 12 of the 21 faults planned were tried.  Two of the 12 have no `note`: the run of their samples was
  ended from outside or without output, so only the failing proofs were seen.
