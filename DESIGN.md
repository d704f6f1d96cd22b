# A Lean 4 model of bkuczenski/lca-tools

## Layout

* `lean/Verif/Base/` – Python containers used by several models (insertion-ordered dict).
* `lean/Verif/Model/<Topic>.lean` – the code, function by function.  Each definition cites the file and
  lines of `/repo` it models; simplifications are stated there.
* `lean/Verif/Spec/<Topic>.lean` – vocabulary the property statements use, defined from the input data
  alone, without the model's helper functions.
* `lean/Verif/Lemmas/<Topic>*.lean` – invariants and helper lemmas.
* `lean/Verif/Props/<Topic>.lean` – the property theorems (some carry the property id, as in
  `C01_...`, the others are descriptive; `MANIFEST.json` maps ids to names) with, beside each, an `example` in which a concrete non-trivial case meets its hypotheses.

## Conventions

* Python functions are total Lean functions on a state value.  An exception is a value: an error
  constructor together with the state at the moment of the raise, so "raises after having changed the
  state" is visible.
* `while`/recursion without a structural bound takes fuel.  Where the code would loop or overflow,
  running out of fuel is a distinct result; termination is a separate theorem that gives enough fuel.
* Floats are rationals (ℚ): rounding, NaN and infinity are outside the model (part of the trusted base).
* Entities are represented by their keys, or by the attributes the code reads.
* Python `set` iteration order is arbitrary: where it can influence a result, it is a parameter
  (a permutation of the members), and theorems quantify over it.
* Where the code violates the property as a user would state it, the model follows the code; the violation
  is proved on a concrete witness (`..._fails`), and the part that does hold is proved with
  the suffix `_partial`, its hypotheses naming what is excluded.

## Trusted base

* Lean 4.33.0's kernel; Mathlib's definitions used in statements (lists, ℚ, relations, `Finset` sums,
  matrices).
* Axioms: `propext`, `Classical.choice`, `Quot.sound` only (checked with `#print axioms` outside the
  tree, and by `vcheck`). No axioms of our own, no compiled evaluation.
* The transcription from Python to Lean, by reading; the tests in `seeded/LOG.jsonl` show that the theorems
  notice wrong transcriptions/programs, they do not show that the transcription is right.
* `lcatools/interfaces/abstract_query.py` has unresolved conflict markers (lines 122, 134, 135) at the pinned commit, so Python cannot
  import it as it stands; it is read as if they were removed, keeping the lines between them.

## What is modelled and what is not

Each model file begins with a comment giving its simplifications; this is the summary.

| model | code | left out |
|---|---|---|
| Base/Dict, Base/Py | Python `dict` (insertion order), character/strings helpers | hashing, mutation during iteration unless stated |
| Archive | `entity_store.py`, `basic_archive.py`, `lc_archive.py`: keys, references, add, child add, upstream, counts, naming of sources | JSON and file I/O, `_fetch` of providers |
| AutoRange | `autorange.py` and its uses in `lcia_results.py` | floats (rationals) |
| Catalog | `catalog/catalog.py` (queries, lookup, nicknames), `catalog_query.py` (`get`, `get_item`, `resolve`), `abstract_query.py`, `implementations/basic.py` | what loading a resource does (given as a function), the background interface made on demand |
| Compartment | `flowdb/compartments.py` | files, interactive merging |
| Configure | `implementations/configure.py` | re-indexing, printing, unresolved references |
| Engine, Tstack, Lci | `background_engine.py`, `tarjan_stack.py`, `product_flow.py`, `emission.py`, `flat_background.py` (split, flatten, LCI) | `spsolve`/`factorized` solvers, HDF/mat files, floats |
| FlatBg | `flat_background.py` construction from the engine, `dependencies`, `emissions`, `consumers`, `foreground`, membership tests | reading and writing files, `CONTEXT_STATUS_` other than compat, `_FLATTEN_AF` True |
| Flow | `characterizations.py`, `flows.py`, `quantities.py` (unit conversion) | free-text attributes |
| Flowables, SynList | `synlist/*` | attached `_entity` objects, `search` (regular expressions) |
| Foreground | `foreground.py` storage: names, links, UUIDs, add, merge | loading, upstream |
| Fragment, FragmentEdit | `fragments.py`, `terminations.py`, `fragment_flows.py` (`group_ios`), `fragment_editor.py` | contexts, unit scores, stages, printing |
| Index | `implementations/index.py`, `interfaces/iindex.py` terminate / originate | text search |
| Lcia | `lcia_results.py`, `frag_flow_lcia`, `do_lcia` | display |
| Qdb | `qdb/qdb.py`: `CLookup`, `add_cf`, readers, `convert`, `convert_reference`, `do_lcia` | loading, adding quantities and synonyms (given as positions), printing, origins |
| LowerDict | `lower_dict.py` | – |
| Process | `exchanges.py`, `processes.py` | free-text attributes |
| Resolver | `lc_resource.py`, `lc_resolver.py` | file contents other than the resource lists, downloads |
| Privacy | `authorization.py`, `AntelopeV2Pub` of `lc_pub.py` | files, the query object, AntelopeV1Pub |
| ProcessJson | `serialize` of `processes.py` and `exchanges.py`, `_process_from_json` of `lc_archive.py` | other properties of the process, comments of exchanges, float conversion |
| Equality | `__eq__` and `__hash__` of entities, references, exchanges, RxRef, characterizations, terminations, fragment flows, DetailedLciaResult | compartments (Model/Compartment), product flows and emissions, SummaryLciaResult |
| FlowJson, EntityJson | writing and reading of flows, characterizations, quantities and archives of them | drop_fields, upstream archives, units other than their string, `update` |
| FlowRef, RefItems | `cf`, `profile` of FlowRef; `_localitem`, `__setitem__`, `get_item`, `lookup`, `serialize`, `from_json`, `merge`, `make_ref`, setters of origin and external_ref | reference entities of references, validation of queries, extra JSON entries of FlowRef and QuantityRef |
| FragStore | `fragments`, `frag`, `linked_terms`, `del_orphans`, `save_fragments`, `_load_fragments`, `_do_load` of the foreground; `serialize`, `from_json`, `finish_json_load` of fragments; `serialize`, `from_json` of terminations | score caches, subdirectories, tuples as scenario names of terminations, merging on a link that is taken; to_uuid, str.lower and catalog fetch are parameters |
| CatFiles | `_localize_source`, `abs_path`, `download_file`, `delete_resource`, `create_source_cache`, `create_foreground`, `configure_resource` of the catalog; `add_config`, `_serialize_config` of resources | the archives; hashes, network, local_ref are parameters; rewriting the index file of a configured internal index; roots with regular-expression characters; rmtree, which is unreachable |
| FragmentClone | `observe` (accept_all), `terminate` in any scenario, `clone_fragment` | interactive observation; stage names; score caches |
| FragmentSet | `set_child_exchanges`, `scale_evs`, `reverse_direction` | the inventory query itself |
| Forest | `create_forest`, `_new_node`, `has_child`, `split_subfragment` | storing and observing the new fragments; the query for the foreground; `terminate`'s refusal is an oracle |
| Inventory | `_gen_exchanges`, `find_exchange`, `reference`, `has_reference`, `inventory`, `is_allocated` of processes; `exchange_values`, `exchange_relation` of the inventory interface | terminations that are no strings; fragments; LCIA |
| BgImpl | `TarjanBackgroundImplementation` (queries over the flat background), proxy `BackgroundImplementation`, `default_rx` and queries of `ProcessRef`, `write_to_file`/`from_file` of flat backgrounds | ad, bf, lci (numerical solution); the Matlab file format; setting up the background |
| UnitScore | `FlowTermination.compute_unit_score`, `_unobserved_exchanges`, `score_cache` and its changes; `frag_flow_lcia` with scores computed on demand | several quantities, scenarios of results, autorange |
| Spold2 | `EcospoldV2Archive._create_process_and_single_reference`, `_collect_exchanges`, `_create_flow`, `_fetch`, `_load_all`; `retrieve_or_fetch_entity` | XML, names, classifications, geography, LCIA scores in datasets |
| Spold1 | `EcospoldV1Archive._create_flow`, `_extract_exchanges`, `_create_process`, `_fetch`, `_load_all`, `conversion_dict` | XML, names, categories; UUID clashes between numbers, units and names |
| Olca | `OpenLcaJsonLdArchive._create_unit`, `_create_quantity`, `_create_flow`, `_add_exchange`, `_create_allocation_quantity`, `_apply_olca_allocation`, `_create_process` | names, categories, locations, other flow properties, LCIA methods |
| Search, IndexCat | `BasicArchive.search`, `_narrow_search`, `EntityStore.find_partial_id`, `index_archive`, `construct_new_ref`, `LcCatalog._index_source`, `index_ref`, `LcResource.check`, `make_index` | regular expressions (any answer), files other than index files |
| Uid, Ilcd, FileStore | `to_uuid`, `uuid_regex`, lookups by UUID, `IlcdArchive._create_unit`, `_create_quantity`, `_create_flow`, `_create_process`, `_fetch`, `_check_or_retrieve_child`, `FileStore` | names, comments, categories of ILCD data sets; regular expressions in prefixes; XML |
| FragNode, LciaBox | `create_fragment_from_node`, `_create_fragment_from_node`, `find_or_create_term`; `LciaResults` | observed exchange values set later; printing |
| Scenarios, Cutoffs | `scenarios`, `cutoffs`, `inventory` of LcFragment | the LCI of background processes (a parameter) |
| QtyImpl | `QuantityImplementation._init_flowables`, `_fb`, `flowables`, `compartments`, `factors` | archives and their search (parameters), `synonyms`, `quantity_relation` (not implemented in the code) |
| CompartmentOps | `merge_subs`, `_collapse`, `collapse`, `delete`, `known_names`, `_load_compartments`, `_merge_compartment`, interactive `find_matching`, `save` | the JSON text, printing, `show`, `add_branch_from_json`, None in names of interactive queries |
| LciaTables | TRACI: CAS transforms, `_load_all`, `_add_flowable`, `_create_flow`, `cf_for_method_and_compartment`, `row_for_key`, `factors`, `compartments`; ecoinvent: `_load_all`, keys, `_get_value` | reading the workbook, `XlDict`, units, `flowables`, `get_canonical` of entities |
| IlcdLcia | `_load_factor`, `load_lcia_method`, `load_lcia`, `generate_factors`; `factors` and `flowables` of the quantity implementation; `has_characterization`, `cf` of flows | XML, uris, versions, units, upstream archives |
| FragTerm | `terminate_fragment`, `_child_fragments`, `find_or_create_term` | stage names, comments; the inventory query and the background query are given |
| ArcFile | `EntityStore.__init__`, `write_to_file`, `serialize`, `create_descendant`, `from_file`, `from_already_open_file`, `load_from_dict` | only names: entities are in C100–C106; JSON and gzip keep what is written |
| Charts | `contrib_query`, `contrib_new`, `WaterfallChart`, `PosNegChart`, `_one_bar`, `stack_bars`, `spread_scenario_compare` | rationals; a colour is known by how often it was faded; no texts or sizes |
| V1Client | `AntelopeInventoryImplementation`, `AntelopeV1Client`, `from_antelope_v1` | the server is a table; objects are numbers; rationals |
| QdbQty | `_get_q_ind`, `_add_or_merge_quantity`, `_get_canonical`, `add_synonyms` of quantities | the archive is left out; set order is a parameter |
| Tables, FlowCells | `BaseTableOutput`, `AllocationGrid`, cells of `FlowablesGrid` | no formatting; an exchange is what a table reads of it; set order is a parameter |
| NewFlowable | `Qdb.add_new_flowable`, `find_flowables`, `_flow_terms` | as Flowables; printing left out |
| ScoreFile | `_serialize_score_cache`, `_deserialize_score_cache`, `add_lcia_score` | results are a quantity and products; the catalog is a parameter |
| EiSheet | `_load_all`, `_create_flow`, `_create_quantity`, `load_activities` | uuids of names are names; rows are records; optional fields of activities left out |
| BgManager | `dependencies`, `emissions`, `inventory`, `foreground_dependencies`, `foreground_emissions` | product flow known to the engine; printing left out |
| BgManager | also `foreground`, `make_foreground` of one product flow as matrices | |
| Es2Scores | `retrieve_lcia_scores`, `_collect_impact_scores` | dataset, process and quantities given |
| OldSyn | `SynList` of flowdb/synlist.py, `_add_set` | keys are an abstract type with a trimming function; Flowables (CAS numbers, lower case) and searching left out |
| OldSyn (2) | `serialize`, `from_json` of SynList | the JSON text itself is not modelled |

Not modelled at all: the data providers and their parsers (apart from the dataset loaders listed above), HTTP client and server, the reports and charts,
the interactive console, everything that reads or writes files apart from the resource lists and the arrays of a flat background.

## Plan by property

| id | what is modelled | how proved |
|----|------------------|------------|
| C01 | `_traverse_term_exchanges`, `_add_ref_product`, lowlinks, stack, `label_scc` (Model/Engine) | Tarjan invariant (white/grey/black, lowlink soundness and completeness), induction on recursion depth |
| C02 | same | same invariant, plus termination with enough stack depth |
| C03 | `add_to_graph`, `_set_background`, `_set_downstream`, `_generate_bg_index` (Model/Tstack) | component DAG from C01; closure by induction on fuel |
| C04 | `_generate_bg_index`, `_generate_foreground_index`, `fg_dict`… | enumeration of a duplicate-free list |
| C05 | `_generate_foreground_index` | invariant of the while loop; termination from acyclicity |
| C06 | `_foreground_components`, `foreground` | BFS invariant, sort lemma |
| C07 | `add_interior`, `add_cutoff`, `_update_component_graph`, `_construct_a_matrix`, `_construct_b_matrix`, `_pad_b_matrix` | each record is filtered into exactly one list; sums |
| C08 | `compute_bg_lci`, `_iterate_a_matrix` | loop invariant over the geometric series, Mathlib matrices over ℚ |
| C09 | `adjust_ev`, `add_interior`, `MatrixEntry` normalisation | case analysis, fold over self-exchanges; failing cases by witness |
| C10–C13 | `synlist/synlist.py` (Model/SynList) | invariant over all histories of calls; failing methods by witness |
| C14 | `pad_cas`, `trim_cas` on character lists | list lemmas |
| C15 | `synlist/flowables.py` | invariant over histories |
| C16 | `lower_dict.py` (Model/LowerDict) | refinement to a map on lower-cased keys |
| C17–C21 | `entity_store.py`, `basic_archive.py`, `lc_archive.py` (Model/Archive) | invariants over histories |
| C22–C24 | `exchanges.py`, `processes.py` (Model/Process) | algebra over ℚ, case analysis of `__getitem__` |
| C25 | `MarketExchange` | sums over ℚ |
| C26–C27, C47 | `characterizations.py`, `flows.py`, `quantities.py` (Model/Flow) | algebra over ℚ |
| C28–C32, C45, C48 | `fragments.py`, `terminations.py`, `fragment_flows.py`, `fragment_editor.py` (Model/Fragment…) | induction on fuel / tree; sums; string lemmas |
| C33–C35 | `lcia_results.py` (Model/Lcia) | sums over lists; failing cases by witness |
| C36–C38 | `compartments.py` (Model/Compartment) | induction on the tree |
| C39–C41 | `lc_resolver.py`, `lc_resource.py` (Model/Resolver) | list/dict lemmas, invariants over histories |
| C42 | `autorange.py` | bounds on the shift loop |
| C43 | `index.py` | refinement to a comprehension over the processes |
| C44 | `foreground.py` `name_fragment` | invariant over the two indexes |
| C46, C56, C57 | `configure.py` | idempotence of the three operations; effect of each entry; witnesses |
| C58 | `flat_background.py` construction from the engine model (sparse matrices as stored entries) | from the engine invariants (Tarjan components, ordering): built iff some component has two members; membership as reachability |
| C59 | `dependencies`, `emissions`: columns of the matrices, `nonzero()` against stored values | column lemma for summed coordinate lists, then sums per supplier; witnesses for background, cancelling, waste |
| C60 | `foreground`: breadth-first search with a fuel for the `while` loop | search invariant (done ++ queue has no duplicates, done is closed), fuel bounded by the number of foreground flows |
| C61 | `consumers`: rows of the matrices | row lemma; witnesses for no foreground and exterior flows |
| C62 | `CLookup.find` on an abstract hierarchy | levels as a list of lists in the specification; case analysis; witness at the root |
| C63 | the three dictionaries of `Qdb`, `add_cf` and the readers, over histories | induction over histories; witnesses for updates and `is_known` |
| C64 | `convert` and its helpers; a consistent database is one with a weight `μ` per quantity | soundness through every branch; order independence as a corollary; iff for None; witnesses |
| C65 | the same, as state transformers on a heap of flows | frame lemmas; extension relation between first and second call; witness at other locations |
| C66 | `do_lcia` with the factor cached on the flow | frame, settled flows, agreement of states on what a flow can see; witnesses for locations, refresh, second quantity, compartments |
| C49 | engine state after a raised error; clean-up `_rm_product_flow_children` specified by what it keeps (`Cleaned`), error specification by induction on fuel and exchange loop | raised iff ambiguous, answers unchanged; three witnesses where the code violates it |
| C50 | `split`/`flatten` of the LCI matrices (Model/Lci) | sums over blocks |
| C51 | `GhostFragment`/`LcFragment.__init__` (Model/Fragment) | case analysis; witnesses |
| C52, C53 | `frag_flow_lcia`, `apply_weighting` (Model/Lcia) | induction on the list of fragment flows; witness |
| C54 | `find_matching` and its cache (Model/Compartment) | invariant of the cache |
| C55 | `LcForeground.add` and merge (Model/Foreground) | invariant over histories |
| C67–C90 | the parts of C03, C07, C14, C17, C22, C27, C30, C31, C33, C34, C39, C40, C42, C44, C48, C49, C52, C55, C58, C62–C66 that the code meets in full, stated on their own | the theorems of those properties that need no restriction beyond the statement |
| C91–C98 | queries to the catalog: `_sorted_resources`, `gen_interfaces`, `_perform_query`, `CatalogQuery.get`, `lookup`, `fetch`, `query`, nicknames (Model/Catalog on top of Model/Resolver) | the loop against the sorted list, specification by 'comes sooner'; invariant over histories for the cache of query objects; counterexamples for the rest |
| C99 | `PrivacyDeclaration`, `AntelopeV2Pub` (Model/Privacy) | the loop over keywords as a fold, then case analysis; specification on the dict the publisher wrote |
| C100, C101 | `serialize` of processes and exchanges, `_process_from_json` (Model/ProcessJson) on the state of Model/Process | specification of the loops of the reader on files with distinct keys (`loadRefs_spec`, `loadRest_spec`), then the exchange relation and inventories compared up to permutation |
| C102–C104 | `__eq__`, `__hash__` (Model/Equality) with an arbitrary hash function; Python's set membership | case analysis; prefixes of a list are comparable for transitivity; `Lawful` as specification and membership by induction on the set |
| C105–C106 | `serialize`, `_flow_from_json`, `entity_from_json`, `load_from_dict` (Model/FlowJson, Model/EntityJson) | content of the file given up to order (`SameJ`); lookup after assigning distinct names; induction over the loop; round trip of a flow as a lemma for the archive |
| C107–C111 | FlowRef (Model/FlowRef), items, JSON, merge and identity of references and entities (Model/RefItems) | invariants over call sequences; lookup after `update`; universal theorems for the failing cases |
| C112–C118 | foreground store: listing, lookup, deletion, saving and loading fragments (Model/FragStore) | trees by a rank; recursion over children by induction on fuel; loading by an invariant over the records (parents first), then over their terminations; failing cases universal where possible |
| C119–C125 | files of a catalog: paths, downloads, deletion, caches, foregrounds, configuration (Model/CatFiles) | paths as strings; the file system as a table; list induction for configure; failing cases universal where possible |
| C126, C127 | observing and cloning fragments (Model/FragmentClone) | simulation: two heaps that a traversal reads alike give the same flows (Props/FragmentSim); the tree below a fragment by induction on recursion depth; cloning node by node with an invariant on old and new uuids |
| C128, C129 | `set_child_exchanges`, `reverse_direction`, `scale_evs` (Model/FragmentSet) | invariant over the loop over the inventory; a traversal apart from the reversed fragment is unchanged (congruence, induction on depth), below it by linearity (C28) with factor -1 |
| C130 | `create_forest`, `has_child`, `split_subfragment` on numbered fragments (Model/Forest) | one invariant over all steps (ForestInv), a relation that says what steps keep (ForestStep), both by induction over the exchanges and passes; completeness by induction on the distance from the first process |
| C131 | the traversal and `terminate` of Model/Fragment, Model/FragmentEdit with a recursion limit | induction on the limit, with a rank for fragments without loops and a set closed under 'goes on to' for loops; that a traversal which does not list a reference fragment does not come to its flows: induction on the limit |
| C132, C133 | `_gen_exchanges`, `find_exchange`, `inventory`, `exchange_relation`, with `_exch_map` (Model/Inventory on Model/Process) | invariant of the index over histories; the candidates as a set; case analysis by their number; sums |
| C134 | `has_reference`, `exchange_values` (Model/Inventory) | as C132 |
| C135–C145 | the parts of C91, C93, C95, C103, C108, C110, C111, C119, C126, C129–C131 that the code meets in full | see there |
| C146–C150 | `implementation.py` of antelope_background, the proxy background, background queries of process references, saving and loading of flat backgrounds (Model/BgImpl) | from the invariants of the flat background (C58); cases over the forms of arguments; saving: the stored entries determine the matrix |
| C151–C154 | unit scores, their cache, and the LCIA of fragment flows over them (Model/UnitScore) | LCIA of exchanges is a parameter that is a sum over exchanges (and is, for C22's model); mutual induction over nested fragment flows |
| C155–C157 | loading of EcoSpold v2 datasets into processes and flows of an archive (Model/Spold2, over Model/Process) | invariant of a process with the datasets of a list of references loaded, independent of their order; faults for all histories |
| C158–C160 | loading of EcoSpold v1 datasets (Model/Spold1, over Model/Process) | invariant: factors of flows agree with a valuation of units; induction over entries and over histories |
| C161–C163 | loading of OpenLCA JSON-LD processes (Model/Olca, over Model/Process) | invariants over the loops over exchanges, references and allocation factors |
| C164–C168 | searching and indexing of archives (Model/Search, Model/IndexCat, over Model/Archive and Model/Resolver) | the loops characterised by what they yield, references by splitting at dots, the registry by refinement |
| C169–C174 | recognition of UUIDs (Model/Uid), the ILCD provider (Model/Ilcd, over Model/Process), file stores (Model/FileStore) | UUIDs by the shape of the text; the loader by invariants of the archive through its loops; paths by their parts |
| C175–C176 | creation of fragments from processes (Model/FragNode), containers of LCIA results (Model/LciaBox) | induction over the loop with the archive of fragments growing; invariants of histories |
| C177–C178 | lists of scenarios (Model/Scenarios), cut-offs and inventories (Model/Cutoffs), both over Model/Fragment | reachability; congruence of traversals under scenario arguments that the fragments met do not tell apart; sums over fragment flows |
| C179–C181 | the index of flowables and the queries of the quantity interface (Model/QtyImpl) over Model/Flowables | invariant of the synonym list; the table of keys as a partition, joined by one list of keys at a time; connected components |
| C182–C183 | rearranging compartments, the local file, the interactive merge (Model/CompartmentOps) | induction on fuel with an invariant that bounds reachability and names from above and below; termination by the height of the merged tree |
| C184–C187 | tables of characterization factors: CAS numbers, TRACI, ecoinvent LCIA (Model/LciaTables) | digits by strong induction; the load as a fold whose state is related to the list of factors of the table; keys by the last comma |
| C188–C189 | LCIA factors of ILCD archives (Model/IlcdLcia) | the load as a fold per flow; the archive compared with a view in which all flows are read |
| C190–C192 | `terminate_fragment` over the fragments of Model/FragmentClone (Model/FragTerm) | a relation between states that says what steps keep (Ext), a description of a child flow stable under it (Kid), induction over the inventory; observing by C126 |
| C193–C195 | names of an archive through files (Model/ArcFile) over the table of C20 | what a registration does to the listing, by cases; induction over the sources of the document; reachability of tables from C20 |
| C196–C202 | charts (Model/Charts): the numbers given to the plotting library | rows as running sums; Forall₂ between results and rows; induction over data |
| C203–C208 | the client of an Antelope v1 server (Model/V1Client) | invariant of results and of the archive; induction over components, documents, retrievals |
| C209-C211 | quantities of a Qdb over the synonym list: register, canonical, add_synonyms | invariant Live over registrations; the two branches of add_set characterised once |
| C212–C214 | tables of allocations and flowables (Model/Tables, Model/FlowCells) | the table represents a list of columns, invariant over additions; sums regrouped by row and name; the renaming loop ends by counting names |
| C215–C217 | taking flows into a Qdb (Model/NewFlowable over Model/Flowables) | an invariant (padded and plain CAS known together, all items live, half-padded never known) over loads and calls; case split by what the known terms lead to |
| C218 | the score cache of a termination on file (Model/ScoreFile) | the file lists the entries of the dict in order (no key begins another); induction over the entries when loading |
| C219–C220 | loader of ecoinvent activity overviews (Model/EiSheet) | invariants of the folds over rows: what the archive holds for each key after a prefix of the rows |
| C221–C223 | queries of a background manager (Model/BgManager) | from the theorems on the engine (C06–C10, C59): entries of the foreground and columns of the background matrices in terms of the inventory data |
| C224 | `BackgroundManager.foreground` (Model/BgManager) | from C06, C07: `_af` has an entry exactly for the uses among the nodes; the loop over a matrix without stored zeros |
| C225 | LCIA scores of an Ecospold2 dataset (Model/Es2Scores) | invariants of the loops over quantities and scores |
| C226–C228 | old synonym lists (Model/OldSyn) | invariant: a key's index and the set that has it agree; inductions over the keys and over the merged indices |
| C229 | writing and reading an old synonym list (Model/OldSyn) | from C226: the sets written are disjoint and trimmed, so that each becomes a new set; induction over them |
