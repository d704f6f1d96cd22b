{"id": "C01", "title": "Product-flow components are exactly the mutual-dependency classes", "statement": "After BackgroundEngine.add_all_ref_products() (or any sequence of add_ref_product calls that each return normally), two product flows are reported in the same component (tstack.scc_id equal / is_in_scc) if and only if each one depends, directly or through a chain of terminated intermediate exchanges, on the other.", "quantifier": "every finite product system (any graph of interior exchanges, including self-loops and multi-edges), every order in which reference products are added, every order in which a process inventory is enumerated", "why_tests_cant": "The claim is about every digraph and every DFS schedule; unit tests only cover a few databases, and a low-link bug shows only on particular visiting orders.", "anchors": ["antelope_background/engine/background_engine.py::BackgroundEngine._traverse_term_exchanges", "antelope_background/engine/background_engine.py::BackgroundEngine.add_ref_product", "antelope_background/engine/tarjan_stack.py::TarjanStack.label_scc", "antelope_background/engine/tarjan_stack.py::TarjanStack.add_to_stack", "antelope_background/engine/product_flow.py::ProductFlow.update_low_link"]}
{"id": "C02", "title": "Every discovered product flow is classified once and the work stack drains", "statement": "After each add_ref_product call returns normally, no product flow is left on the engine's stack, and every product flow known to the engine belongs to exactly one component; components never share a member and never change on later add_ref_product calls.", "quantifier": "every product system and every sequence of add_ref_product calls", "why_tests_cant": "It is an invariant of all histories of a recursive algorithm with mutable stack; tests look only at final states of a few histories.", "anchors": ["antelope_background/engine/background_engine.py::BackgroundEngine._traverse_term_exchanges", "antelope_background/engine/tarjan_stack.py::TarjanStack.label_scc", "antelope_background/engine/tarjan_stack.py::TarjanStack.check_stack"]}
{"id": "C03", "title": "The background is the largest nontrivial component plus everything it depends on", "statement": "After the ordering is generated, a product flow is reported as background (is_background true, listed by background_flows(), and absent from the non-output part of foreground_flows()) if and only if there is a component with more than one member and the flow is, or is a direct or indirect dependency of, a member of the largest such component. If no component has more than one member there is no background.", "quantifier": "every product system; every component graph", "why_tests_cant": "Reachability closure over arbitrary graphs; a test database exercises one shape.", "anchors": ["antelope_background/engine/tarjan_stack.py::TarjanStack.add_to_graph", "antelope_background/engine/tarjan_stack.py::TarjanStack._set_background", "antelope_background/engine/tarjan_stack.py::TarjanStack._set_downstream", "antelope_background/engine/tarjan_stack.py::TarjanStack._generate_bg_index"]}
{"id": "C04", "title": "Foreground and background positions are inverse to each other", "statement": "For every product flow, fg_dict/bg_dict give a column position and fg_node/bg_node of this position give the flow back; positions are 0..n-1 without gaps or repeats, a product flow has a foreground position exactly when it is not background, and the position dimensions ndim/pdim are the counts.", "quantifier": "every product system and ordering", "why_tests_cant": "It is a bijection claim over all orderings; a gap or repeat silently puts exchange data in the wrong matrix column.", "anchors": ["antelope_background/engine/tarjan_stack.py::TarjanStack._generate_bg_index", "antelope_background/engine/tarjan_stack.py::TarjanStack._generate_foreground_index", "antelope_background/engine/tarjan_stack.py::TarjanStack.fg_dict", "antelope_background/engine/tarjan_stack.py::TarjanStack.bg_dict", "antelope_background/engine/tarjan_stack.py::TarjanStack.fg_node", "antelope_background/engine/tarjan_stack.py::TarjanStack.bg_node"]}
{"id": "C05", "title": "Foreground order is topological", "statement": "In the ordering of foreground product flows, if product flow P (not in the same component as Q) depends on foreground product flow Q then P is placed before Q, so that the foreground matrix is block lower triangular.", "quantifier": "every product system", "why_tests_cant": "A claim about every pair of flows in every acyclic component graph.", "anchors": ["antelope_background/engine/tarjan_stack.py::TarjanStack._generate_foreground_index", "antelope_background/engine/tarjan_stack.py::TarjanStack.foreground"]}
{"id": "C06", "title": "foreground(process) lists the queried flow first and exactly its non-background dependencies", "statement": "tstack.foreground(pf) for a non-background pf returns pf first, contains every non-background product flow that pf directly or indirectly depends on, contains nothing else, and has no repeats.", "quantifier": "every product system, every queried product flow", "why_tests_cant": "Reachability over unbounded graphs.", "anchors": ["antelope_background/engine/tarjan_stack.py::TarjanStack.foreground", "antelope_background/background/flat_background.py::FlatBackground.foreground"]}
{"id": "C07", "title": "No interior exchange or emission is lost or double counted when the matrices are built", "statement": "After the engine builds its matrices, every recorded interior exchange (parent, term, value) contributes its value to exactly one of the A*, Ad or Af entry lists, and every recorded cutoff/emission contributes to exactly one of B* and Bf: for each ordered pair of product flows the summed entry equals the sum of the recorded values for the pair (and likewise for emissions).", "quantifier": "every product system with any number of repeated exchanges per pair; any value signs", "why_tests_cant": "Sums over arbitrary multisets and a four-way split by background status.", "anchors": ["antelope_background/engine/background_engine.py::BackgroundEngine._construct_a_matrix", "antelope_background/engine/background_engine.py::BackgroundEngine._construct_b_matrix", "antelope_background/engine/background_engine.py::BackgroundEngine.make_foreground", "antelope_background/engine/background_engine.py::BackgroundEngine._pad_b_matrix"]}
{"id": "C08", "title": "Background LCI iteration computes a truncated geometric series and is exact when it says so", "statement": "compute_bg_lci / _iterate_a_matrix with demand y and at most n iterations returns y + A y + ... + A^k y for the k at which it stopped; when it stops reporting 'exact result' the returned x satisfies x = y + A x; in particular for an acyclic (nilpotent) A, threshold 0 and count at least the dimension it always returns the exact solution; the LCI of a foreground product flow is then the exterior total of the exact activity levels of the whole system.", "quantifier": "every square matrix A over the rationals, demand y, threshold, and iteration cap", "why_tests_cant": "Ranges over all matrices and all stopping points.", "anchors": ["antelope_background/engine/background_engine.py::BackgroundEngine.compute_bg_lci", "antelope_background/background/flat_background.py::_iterate_a_matrix"]}
{"id": "C09", "title": "A self-consuming product flow is normalised once and never counted as its own dependency", "statement": "If a process consumes its own reference product with amount v, then the product flow's inbound exchange value is reduced by v (unless the net would be zero, which is rejected or handled as the code says), it appears in no interior list as a dependency of itself, and all its columns are divided by the same adjusted inbound value.", "quantifier": "every product flow, every number of self exchanges, any values", "why_tests_cant": "Arithmetic over all values; zero/negative corner cases.", "anchors": ["antelope_background/engine/product_flow.py::ProductFlow.adjust_ev", "antelope_background/engine/background_engine.py::BackgroundEngine.add_interior", "antelope_background/engine/background_engine.py::MatrixProto"]}
{"id": "C10", "title": "A term names at most one item and item listings agree with lookup", "statement": "In a SynList every known term resolves to exactly one index; the synonyms listed for an index are exactly the terms that resolve to it; indices of different items list disjoint synonyms.", "quantifier": "every history of add_set / add_term / add_synonyms / merge / split_term / set_name calls, including calls that raise", "why_tests_cant": "An invariant over all operation histories, including failed calls that leave partial state.", "anchors": ["synlist/synlist.py::SynList._new_term", "synlist/synlist.py::SynList.add_set", "synlist/synlist.py::SynList.merge", "synlist/synlist.py::SynList.split_term"]}
{"id": "C11", "title": "Merging items loses no synonym", "statement": "After merge(dominant, *terms) returns, every term that resolved to dominant or to the item of one of the terms resolves to dominant's index, all other terms resolve as before, and no known term becomes unknown.", "quantifier": "every synonym list state and every argument list, including arguments that name the same item twice or name the dominant item", "why_tests_cant": "All aliasing patterns of arguments in all states.", "anchors": ["synlist/synlist.py::SynList.merge", "synlist/synlist.py::SynList._merge"]}
{"id": "C12", "title": "Splitting a term moves exactly the matching terms to a new item", "statement": "After split_term(term) the term resolves to an item whose synonyms are exactly the split-off terms, and the remaining terms keep their item and their name.", "quantifier": "every synonym list state and term", "why_tests_cant": "State-space universal.", "anchors": ["synlist/synlist.py::SynList.split_term", "synlist/synlist.py::SynList._matches"]}
{"id": "C13", "title": "Synonym lists survive serialisation", "statement": "SynList.from_json(s.serialize()) answers are_synonyms(a, b), index-equality, and name(term) as s does for all terms.", "quantifier": "every reachable synonym list (any number of items, merges, names)", "why_tests_cant": "Round trip over all states.", "anchors": ["synlist/synlist.py::SynList.serialize", "synlist/synlist.py::SynList.from_json"]}
{"id": "C14", "title": "CAS numbers are recognised modulo leading zeros", "statement": "For every string that looks like a CAS number, padded and trimmed forms resolve to the same flowable: pad(trim(c)) = pad(c), trim(pad(c)) = trim(c), both are idempotent, and two CAS strings have the same padded form iff they have the same trimmed form.", "quantifier": "all strings", "why_tests_cant": "All strings; regex corner cases (no leading digits, all zeros, newline).", "anchors": ["synlist/flowables.py::pad_cas", "synlist/flowables.py::trim_cas", "synlist/flowables.py::find_cas"]}
{"id": "C15", "title": "A flowable carries at most one CAS number", "statement": "In a Flowables list, after any history of calls (with multi_cas not requested), no two distinct CAS numbers resolve to the same flowable, and cas(item) is that CAS number.", "quantifier": "every history of Flowables calls", "why_tests_cant": "Invariant over histories incl. exceptions.", "anchors": ["synlist/flowables.py::Flowables._new_term", "synlist/flowables.py::Flowables.merge", "synlist/flowables.py::Flowables.cas"]}
{"id": "C16", "title": "LowerDict is a map modulo letter case", "statement": "After any sequence of assignments, pops and lookups, d[k] returns the value most recently assigned under any key equal to k ignoring case, and `k in d` holds iff such an assignment exists and was not popped; keys() has no two keys equal ignoring case.", "quantifier": "every sequence of operations and all strings", "why_tests_cant": "Refinement over all histories.", "anchors": ["lcatools/entities/lower_dict.py::LowerDict"]}
{"id": "C17", "title": "An archive never silently replaces an entity", "statement": "Once an entity is stored under a key, every later add/retrieve/load on the archive returns the same entity for this key; adding a different entity under the same key raises KeyError and leaves the archive unchanged.", "quantifier": "every history of archive calls", "why_tests_cant": "Histories are unbounded; includes failing calls.", "anchors": ["lcatools/archives/entity_store.py::EntityStore._add", "lcatools/archives/entity_store.py::EntityStore.__getitem__", "lcatools/archives/basic_archive.py::BasicArchive.add"]}
{"id": "C18", "title": "Entity counts equal contents", "statement": "count_by_type(t) equals the number of stored entities of type t, and entities_by_type(t) yields exactly those entities, once each.", "quantifier": "every history of adds", "why_tests_cant": "Invariant over all histories.", "anchors": ["lcatools/archives/entity_store.py::EntityStore._add", "lcatools/archives/entity_store.py::EntityStore.count_by_type", "lcatools/archives/entity_store.py::EntityStore.entities_by_type"]}
{"id": "C19", "title": "Upstream archive takes precedence", "statement": "archive[key] returns upstream[key] whenever an upstream archive exists and knows the key, otherwise the local entity, otherwise None.", "quantifier": "every pair of archive states and chain of upstreams", "why_tests_cant": "Chains of arbitrary length.", "anchors": ["lcatools/archives/entity_store.py::EntityStore.__getitem__", "lcatools/archives/entity_store.py::EntityStore._set_upstream"]}
{"id": "C20", "title": "A data source has exactly one semantic reference", "statement": "In an archive's name table, a source is listed under at most one reference at any time; registering a source under a second reference either moves it (rewrite) or raises, and never leaves it under both.", "quantifier": "every history of name registrations", "why_tests_cant": "Histories.", "anchors": ["lcatools/archives/entity_store.py::EntityStore._add_name", "lcatools/archives/entity_store.py::EntityStore.names", "lcatools/archives/entity_store.py::EntityStore.get_sources"]}
{"id": "C21", "title": "Adding a process adds everything it mentions", "statement": "After add_entity_and_children(e) returns, every flow of every exchange of e, and every quantity characterising any of those flows, is retrievable from the archive; nothing previously stored changes.", "quantifier": "every entity graph and archive state", "why_tests_cant": "Recursion over arbitrary entity graphs.", "anchors": ["lcatools/archives/lc_archive.py::LcArchive._add_children", "lcatools/archives/basic_archive.py::BasicArchive.add_entity_and_children"]}
{"id": "C22", "title": "Quantity allocation is conservative", "statement": "If a process is allocated by a quantity with nonzero total, then for every non-reference exchange x the allocated amounts per unit of each reference flow, weighted by the reference amounts, add up to x's unallocated value; allocation_factors sum to one; and the factor of a reference flow is proportional to its amount times its characterisation.", "quantifier": "every process with any number of references and exchanges and any values", "why_tests_cant": "Identity over all rational inputs, including negative and zero factors.", "anchors": ["lcatools/exchanges.py::ExchangeValue.__getitem__", "lcatools/entities/processes.py::LcProcess.allocate_by_quantity", "lcatools/entities/processes.py::LcProcess.allocation_factors"]}
{"id": "C23", "title": "Exchange relation between reference exchanges is the identity", "statement": "For reference exchanges r, s of a process, the value of r with respect to s is 1 when r and s denote the same exchange and 0 otherwise, in every allocation state.", "quantifier": "every process and allocation state", "why_tests_cant": "All states.", "anchors": ["lcatools/exchanges.py::ExchangeValue.__getitem__"]}
{"id": "C24", "title": "Exchange values are not overwritten", "statement": "Adding an exchange with an already-present key and a value either is refused/leaves the stored value, or (with add_dups) adds to it; a stored value is never silently replaced by a different one and the number of exchanges with a given key is at most one.", "quantifier": "every history of add_exchange calls", "why_tests_cant": "Histories and value corner cases (None, 0).", "anchors": ["lcatools/entities/processes.py::LcProcess.add_exchange", "lcatools/exchanges.py::ExchangeValue.value", "lcatools/exchanges.py::ExchangeValue.add_to_value"]}
{"id": "C25", "title": "Market shares sum to one", "statement": "For a MarketExchange with nonzero total, the shares market[k] over all suppliers k sum to one, and share ratios equal the ratios of the supplied amounts.", "quantifier": "every market and any amounts", "why_tests_cant": "All rational inputs.", "anchors": ["lcatools/exchanges.py::MarketExchange"]}
{"id": "C26", "title": "Characterisation lookup falls back only to GLO", "statement": "flow.cf(q, locale) is the value stored for that locale if there is one, else the 'GLO' value if there is one, else 0.0 if other locations only are known, and None when a characterisation without values is present; 0.0 when the quantity is unknown; no stored value changes by looking up, and a stored location value cannot be changed without overwrite.", "quantifier": "every characterisation state, locale and history", "why_tests_cant": "All maps.", "anchors": ["lcatools/characterizations.py::Characterization", "lcatools/entities/flows.py::LcFlow.cf", "lcatools/entities/flows.py::LcFlow.add_characterization"]}
{"id": "C27", "title": "Changing the reference quantity preserves conversions", "statement": "Making a characterised quantity the flow's reference quantity leaves every quantity-to-quantity conversion flow.convert(v, to, fr) unchanged and gives the new reference a factor of one.", "quantifier": "every flow with any set of characterisations and locations", "why_tests_cant": "Algebra over all factor tables.", "anchors": ["lcatools/entities/flows.py::LcFlow._set_reference", "lcatools/entities/flows.py::LcFlow.add_characterization", "lcatools/entities/flows.py::LcFlow.convert"]}
{"id": "C28", "title": "Fragment traversal is linear in the node weight", "statement": "For k other than 0, traversing a fragment with node weight k*w yields the same sequence of fragment flows as traversing with weight w, every magnitude and node weight multiplied by k, and unit (per-activity) inventories unchanged.", "quantifier": "every fragment tree of any depth and shape (foreground, background, cutoff, subfragment, balance flows), every scenario, every k other than 0", "why_tests_cant": "Trees of unbounded depth.", "anchors": ["lcatools/entities/fragments.py::LcFragment._traverse_node", "lcatools/entities/fragments.py::LcFragment._traverse_fg_node", "lcatools/entities/fragments.py::LcFragment._traverse_subfragment"]}
{"id": "C29", "title": "A balance flow closes the balance", "statement": "At a foreground node with a balance child, traversal assigns the balance child the amount for which the signed sum over reference flow and all children of amount times the balance quantity's characterisation factor is zero.", "quantifier": "every node, every list of children, every sign and direction", "why_tests_cant": "All reals and list lengths.", "anchors": ["lcatools/entities/fragments.py::LcFragment._traverse_fg_node", "lcatools/entities/fragments.py::LcFragment.set_balance_flow"]}
{"id": "C30", "title": "Scenario resolution of exchange values", "statement": "The exchange value used for a scenario specification is: the value of the one matching scenario, and a conflict is raised if several match; else the observed value if observed evaluation is asked for; else the cached value. The exchange value of a scenario that was set is returned for this scenario whatever other scenarios are set before or after.", "quantifier": "every exchange-value table, every history of settings, and every scenario argument", "why_tests_cant": "All tables.", "anchors": ["lcatools/entities/fragments.py::LcFragment.exchange_value", "lcatools/entities/fragments.py::LcFragment._match_scenario_ev", "lcatools/entities/fragments.py::LcFragment.set_exchange_value"]}
{"id": "C31", "title": "Grouping of fragment in/outs conserves each flow", "statement": "group_ios returns at most one entry per flow, and for each flow other than the reference flow the signed amount (input minus output) of the returned entry equals the signed sum over the null-terminated fragment flows; flows with zero net are dropped; the reference flow entry accounts for auto-consumption.", "quantifier": "every list of fragment flows", "why_tests_cant": "All lists.", "anchors": ["lcatools/fragment_flows.py::group_ios"]}
{"id": "C32", "title": "Exchange-value tables survive serialisation", "statement": "Saving and reloading a fragment restores the cached, observed and every scenario exchange value, for scenario names not containing the tuple delimiter.", "quantifier": "every exchange-value table", "why_tests_cant": "Round trip over all tables.", "anchors": ["lcatools/entities/fragments.py::LcFragment._serialize_evs", "lcatools/entities/fragments.py::LcFragment.from_json"]}
{"id": "C33", "title": "LCIA totals do not depend on how results are grouped", "statement": "For an LciaResult, total() is the sum of all scores times the scale; aggregate(), flatten() and contrib_new() (with the balance) preserve this total for every grouping key.", "quantifier": "every LCIA result, nesting depth of summaries, grouping function and scale", "why_tests_cant": "All nested results.", "anchors": ["lcatools/lcia_results.py::LciaResult.aggregate", "lcatools/lcia_results.py::LciaResult.flatten", "lcatools/lcia_results.py::LciaResult.contrib_new", "lcatools/lcia_results.py::LciaResult.total"]}
{"id": "C34", "title": "LCIA scores add up linearly", "statement": "A score is value * direction sign * factor; adding results of two inventories gives the result of the concatenated inventory, scaling a result scales its total.", "quantifier": "all inventories and factors", "why_tests_cant": "All lists.", "anchors": ["lcatools/lcia_results.py::DetailedLciaResult", "lcatools/lcia_results.py::LciaResult.add_score", "lcatools/lcia_results.py::LciaResult.__add__", "lcatools/lcia_results.py::LciaResults.scale"]}
{"id": "C35", "title": "Summaries combine without changing the sum", "statement": "Adding two SummaryLciaResults either raises or returns a summary whose cumulative result is the sum of the operands' cumulative results.", "quantifier": "all pairs of summaries", "why_tests_cant": "All case combinations of static/non-static, weights and unit scores.", "anchors": ["lcatools/lcia_results.py::SummaryLciaResult.__add__"]}
{"id": "C36", "title": "Elementary status is inherited and well defined", "statement": "After set_elementary on a compartment, every compartment below it at any depth is elementary and nothing else changes; a compartment is a subcompartment of each of its ancestors and of no other compartment.", "quantifier": "every compartment tree", "why_tests_cant": "All trees.", "anchors": ["lcatools/flowdb/compartments.py::Compartment.set_elementary", "lcatools/flowdb/compartments.py::Compartment.is_subcompartment_of"]}
{"id": "C37", "title": "A compartment path that was added is found again", "statement": "After add_compartments(path) (no conflicting synonyms) find_matching(path) succeeds and returns the compartment the add returned; adding the path again creates nothing.", "quantifier": "every tree and path", "why_tests_cant": "All trees and paths.", "anchors": ["lcatools/flowdb/compartments.py::CompartmentManager.add_compartments", "lcatools/flowdb/compartments.py::Compartment._crawl_compartments", "lcatools/flowdb/compartments.py::Compartment.add_subs"]}
{"id": "C38", "title": "Compartment trees survive serialisation", "statement": "from_json(serialize(c)) restores name, synonyms, elementary flags and the tree shape.", "quantifier": "every compartment tree", "why_tests_cant": "All trees.", "anchors": ["lcatools/flowdb/compartments.py::Compartment.serialize", "lcatools/flowdb/compartments.py::Compartment.from_json"]}
{"id": "C39", "title": "Origin resolution follows the semantic hierarchy", "statement": "resolve(origin) yields exactly the resources whose reference equals the origin or has it as a dot-separated prefix (only equality when strict) and that satisfy one of the requested interfaces; if no registered reference matches, UnknownOrigin is raised.", "quantifier": "every catalogue content and origin string", "why_tests_cant": "All strings.", "anchors": ["antelope_catalog/catalog/lc_resolver.py::LcCatalogResolver.resolve", "antelope_catalog/lc_resource.py::LcResource.satisfies"]}
{"id": "C40", "title": "get_resource returns a minimum-priority match or refuses", "statement": "get_resource returns a resource matching all the given filters whose priority is minimal among matches; under strict it refuses when several match; it never returns a non-matching resource.", "quantifier": "every catalogue content and filter", "why_tests_cant": "All states.", "anchors": ["antelope_catalog/catalog/lc_resolver.py::LcCatalogResolver.get_resource", "antelope_catalog/lc_resource.py::LcResource.matches"]}
{"id": "C41", "title": "Resource registry operations are idempotent and exact", "statement": "add_resource of an already registered resource changes nothing; delete_resource removes exactly that resource; a resource is registered iff it was added and not deleted since; saved resource files contain one record per source and reloading them restores the registry.", "quantifier": "every history of adds, deletes, saves", "why_tests_cant": "Histories.", "anchors": ["antelope_catalog/catalog/lc_resolver.py::LcCatalogResolver.add_resource", "antelope_catalog/catalog/lc_resolver.py::LcCatalogResolver.delete_resource", "antelope_catalog/lc_resource.py::LcResource.write_to_file", "antelope_catalog/lc_resource.py::LcResource.from_json"]}
{"id": "C42", "title": "AutoRange displays an equal quantity with a readable mantissa", "statement": "For a positive quantity, adjust scales the value so that value*scale_factor*unit-prefix equals the original, and the scaled range lies in [1, 1000] whenever a prefix exists.", "quantifier": "all positive ranges", "why_tests_cant": "All magnitudes.", "anchors": ["lcatools/autorange.py::AutoRange"]}
{"id": "C43", "title": "Terminations found by the index are exactly the complementary references", "statement": "index.terminate(flow, direction) yields exactly the processes having a reference exchange with that flow and the complementary direction (all directions when None), each once per matching (direction, process) pair, according to the index state at the last re_index.", "quantifier": "every archive content", "why_tests_cant": "All archives.", "anchors": ["lcatools/implementations/index.py::IndexImplementation.terminate", "lcatools/implementations/index.py::IndexImplementation._index_terminations"]}
{"id": "C44", "title": "Renaming a fragment keeps all its lookups consistent", "statement": "After name_fragment(frag, name), the fragment is retrievable by its new name, new link and UUID, is counted once in the fragments, no other entity's retrieval changes, and a taken name is refused without any change.", "quantifier": "every foreground state and name", "why_tests_cant": "All states.", "anchors": ["antelope_catalog/foreground/foreground.py::LcForeground.name_fragment", "antelope_catalog/foreground/foreground.py::LcForeground._key_to_id"]}
{"id": "C45", "title": "Interposing or splitting keeps the modelled amounts", "statement": "interpose(fragment) and split_subfragment(fragment) leave the traversal magnitudes of all pre-existing fragments, under every scenario, unchanged.", "quantifier": "every fragment tree and scenario", "why_tests_cant": "All trees.", "anchors": ["lcatools/entities/fragment_editor.py::FragmentEditor.interpose", "lcatools/entities/fragment_editor.py::FragmentEditor.split_subfragment", "lcatools/entities/fragment_editor.py::FragmentEditor.transfer_evs"]}
{"id": "C46", "title": "Configuration is idempotent", "statement": "Applying the same configuration twice has the same effect on references, characterisations and allocations as applying it once.", "quantifier": "every archive and configuration", "why_tests_cant": "Stated by the API docstring for all configurations.", "anchors": ["lcatools/implementations/configure.py::ConfigureImplementation.apply_config"]}
{"id": "C47", "title": "Unit conversion is consistent", "statement": "For a quantity with a unit conversion table, convert(a,b)*convert(b,c) = convert(a,c), convert(a,a)=1 and convert(a,b)*convert(b,a)=1 whenever defined.", "quantifier": "every table with nonzero entries", "why_tests_cant": "All tables.", "anchors": ["lcatools/entities/quantities.py::LcQuantity.convert"]}
{"id": "C48", "title": "Fragment tree parent and child links agree", "statement": "After any history of set_parent / unset_parent / creation, a fragment is listed among the child flows of exactly the fragment reported as its reference entity.", "quantifier": "every history of tree edits", "why_tests_cant": "Histories.", "anchors": ["lcatools/entities/fragments.py::LcFragment.set_parent", "lcatools/entities/fragments.py::LcFragment.unset_parent", "lcatools/entities/fragments.py::LcFragment.add_child", "lcatools/entities/fragments.py::LcFragment.remove_child"]}
{"id": "C49", "title": "A refused ambiguous termination leaves no trace", "statement": "If adding a reference product fails because an exchange has several candidate terminations and the strategy is 'abort', the caller gets a TerminationError, and the engine's answers about all product flows are as before the call.", "quantifier": "all inventories, all engine histories, all positions of the ambiguous exchange", "why_tests_cant": "Depends on where in an arbitrarily deep traversal the ambiguity occurs and on what was on the stack and in the incoming lists at that moment.", "anchors": ["antelope_background/engine/background_engine.py:_rm_product_flow_children", "antelope_background/engine/background_engine.py:_add_ref_product", "antelope_background/engine/background_engine.py:terminate"]}
{"id": "C50", "title": "Flattening the foreground does not change inventories", "statement": "flatten(af, ad, bf) yields matrices for which every foreground demand has the same background demand and the same emissions as with the original matrices; split_af splits the matrix into two that add up to it.", "quantifier": "all matrices, all choices of component indices, all demands", "why_tests_cant": "An algebraic identity over all matrices and demands.", "anchors": ["antelope_background/background/flat_background.py:flatten", "antelope_background/background/flat_background.py:split_af"]}
{"id": "C51", "title": "A fragment creation that raises leaves the tree as it was", "statement": "If making a fragment under a parent raises (a second balance flow, or an exchange value for a child of a subfragment), the parent has the same child flows as before and can still be traversed.", "quantifier": "every fragment tree, parent, value and flags", "why_tests_cant": "must hold in every state of the tree from which a creation can fail", "anchors": ["lcatools/entities/fragments.py:LcFragment.__init__", "lcatools/entities/fragments.py:LcFragment.set_balance_flow", "lcatools/entities/fragments.py:LcFragment.cached_ev"]}
{"id": "C52", "title": "The LCIA of a traversal is the sum over its fragment flows", "statement": "The total of the LCIA of a list of fragment flows is the sum of node weight times unit score over all flows with a termination, negative where the directions collide; a contribution that cannot be added is recorded among the failed ones, never lost.", "quantifier": "every list of fragment flows, weights, unit scores, nesting", "why_tests_cant": "All traversals, including those that visit a fragment several times.", "anchors": ["lcatools/fragment_flows.py::frag_flow_lcia", "lcatools/lcia_results.py::LciaResult.add_summary"]}
{"id": "C53", "title": "Weighting gives the weighted sum of the totals", "statement": "apply_weighting(weights, quantity) returns a result whose total is the sum of weight times total over the weighted results.", "quantifier": "all results and weights", "why_tests_cant": "All results.", "anchors": ["lcatools/lcia_results.py::LciaResults.apply_weighting"]}
{"id": "C54", "title": "What find_matching answers does not depend on earlier queries", "statement": "On a hierarchy that does not change, find_matching(names) gives the same compartment whatever was asked before.", "quantifier": "every hierarchy and every history of queries", "why_tests_cant": "All histories of queries against the cache.", "anchors": ["lcatools/flowdb/compartments.py::CompartmentManager.find_matching", "lcatools/flowdb/compartments.py::compartment_string"]}
{"id": "C55", "title": "Adding to a foreground stores each entity once and merges repeated ones", "statement": "After add(entity), an entity whose link is new is found under its link and its UUID, is listed once under its type, and lookups by keys not containing its UUID are unchanged; adding an entity whose link is stored merges its missing properties into the stored entity of that link, keeps the properties the stored one has, and changes nothing else.", "quantifier": "every foreground state reached by creating, adding and naming; every entity or reference; every iteration order", "why_tests_cant": "All states, and the choice among entities that share a UUID is nondeterministic.", "anchors": ["antelope_catalog/foreground/foreground.py::LcForeground.add", "lcatools/archives/entity_store.py::EntityStore._add", "lcatools/entities/entities.py::LcEntity.merge", "lcatools/entity_refs/base.py::BaseRef.merge"]}
{"id": "C56", "title": "unset_reference without a process unmarks every instance", "statement": "unset_reference(None, flow, direction) marks the flow's exchanges of that direction non-reference in all processes of the archive.", "quantifier": "every archive, flow and direction", "why_tests_cant": "All archives.", "anchors": ["lcatools/implementations/configure.py::ConfigureImplementation.unset_reference"]}
{"id": "C57", "title": "Each configuration entry does what it says and nothing else", "statement": "set_reference makes the exchange a reference (finding the direction if only one fits, raising otherwise); characterize_flow gives the factor to an uncharacterized flow and replaces it only when overwriting, never for the reference quantity; allocate_by_quantity allocates a process unless an allocation is detected or, overwriting, after removing allocated values; other processes, references and factors are unchanged.", "quantifier": "every archive and every entry", "why_tests_cant": "All process histories.", "anchors": ["lcatools/implementations/configure.py::ConfigureImplementation"]}
{"id": "C58", "title": "A flat background exists for every ordered database and classifies product flows correctly", "statement": "FlatBackground.from_index builds a flat background for every database the engine can order; is_in_background(process, flow) is true exactly for what a largest group of mutually dependent product flows requires, directly or indirectly; is_in_scc is true exactly for known product flows that depend on another one which depends on them, and a KeyError for unknown ones.", "quantifier": "every inventory database, strategy and iteration order of sets", "why_tests_cant": "All graphs; the largest component and everything below it.", "anchors": ["antelope_background/background/flat_background.py::FlatBackground.from_index", "antelope_background/background/flat_background.py::FlatBackground.from_background_engine", "antelope_background/background/flat_background.py::FlatBackground.is_in_background", "antelope_background/background/flat_background.py::FlatBackground.is_in_scc"]}
{"id": "C59", "title": "dependencies() and emissions() report the inventory per unit of net output", "statement": "For every known product flow, the exchanges yielded by dependencies() add up, per supplied product flow and with direction, to the inventory's amounts divided by the net output; no product flow is listed twice, every listed one is a real dependency with a positive amount; likewise for emissions() and exterior flows.", "quantifier": "every inventory database with a cycle, every known product flow, foreground or background", "why_tests_cant": "All inventories: duplicated, cancelling and self-consuming exchanges, input and output references.", "anchors": ["antelope_background/background/flat_background.py::FlatBackground.dependencies", "antelope_background/background/flat_background.py::FlatBackground.emissions", "antelope_background/background/flat_background.py::FlatBackground._generate_exch_defs", "antelope_background/background/flat_background.py::FlatBackground._generate_em_defs"]}
{"id": "C60", "title": "foreground() lists every foreground link once and terminates", "statement": "foreground(process, flow) yields the reference exchange first and then, for every foreground product flow the given one depends on directly or indirectly (itself first), its links to foreground product flows with the inventory's amounts, each exactly once; it terminates, also when the foreground has cycles; for anything but a foreground product flow it raises KeyError.", "quantifier": "every inventory database, every foreground product flow", "why_tests_cant": "All graphs, shared suppliers and foreground cycles included; termination.", "anchors": ["antelope_background/background/flat_background.py::FlatBackground.foreground"]}
{"id": "C61", "title": "consumers() lists exactly the product flows that use the given one", "statement": "consumers(process, flow) yields every known product flow other than the given one with a nonzero net use of it, each once, and nothing else.", "quantifier": "every inventory database, every known product flow and exterior flow", "why_tests_cant": "All graphs.", "anchors": ["antelope_background/background/flat_background.py::FlatBackground.consumers", "antelope_background/background/flat_background.py::FlatBackground.index_of"]}
{"id": "C62", "title": "The search for factors climbs the compartments level by level", "statement": "CLookup.find(compartment, dist, return_first) returns, with return_first, exactly the factors of the nearest level that has any: the compartment itself, its subcompartments (dist 1), its parent (dist 2), then each further ancestor (dist 3); without it, those of all levels up to dist. It never raises.", "quantifier": "every hierarchy, every store of factors, every compartment, distance and flag", "why_tests_cant": "All hierarchies and stores.", "anchors": ["lcatools/qdb/qdb.py::CLookup.find", "lcatools/qdb/qdb.py::CLookup.__getitem__", "lcatools/qdb/qdb.py::CLookup.__setitem__"]}
{"id": "C63", "title": "The store of factors holds what was added", "statement": "After any history of add_cf and of read calls, the factors of a flowable and a quantity at a compartment are those added there (the latest of equal ones), flows_for_quantity lists exactly the flowables with a factor in order, cfs_for_quantity the factors, and is_known says whether a quantity has any.", "quantifier": "every history of calls, every flow, quantity and compartment", "why_tests_cant": "Histories are unbounded.", "anchors": ["lcatools/qdb/qdb.py::Qdb.add_cf", "lcatools/qdb/qdb.py::Qdb.flows_for_quantity", "lcatools/qdb/qdb.py::Qdb.cfs_for_quantity", "lcatools/qdb/qdb.py::Qdb.is_known"]}
{"id": "C64", "title": "convert() returns the proportion between quantities", "statement": "If the factors in the database are consistent (every one is the proportion between its quantity and the reference quantity of its flow), convert returns the proportion between the query quantity and the reference quantity of the flow, whatever the order of sets; it returns None exactly if there is no factor nearby; it does not raise for lack of data.", "quantifier": "every database, hierarchy, flow, quantity, location and set order", "why_tests_cant": "All databases, including ones where conversions go by way of a third quantity or of the inverse of a factor.", "anchors": ["lcatools/qdb/qdb.py::Qdb.convert", "lcatools/qdb/qdb.py::Qdb._convert_values", "lcatools/qdb/qdb.py::Qdb._lookfor_conversion", "lcatools/qdb/qdb.py::Qdb._conversion_from_flow", "lcatools/qdb/qdb.py::Qdb._lookup_cfs", "lcatools/qdb/qdb.py::Qdb.convert_reference"]}
{"id": "C65", "title": "convert() changes at most the flow it is asked about, and repeats", "statement": "convert changes nothing but the characterizations of its flow (adding, never changing the reference); for a flowable it changes nothing. Asked again it returns the same.", "quantifier": "every database state, flow, quantity, location", "why_tests_cant": "All states; the first call writes to the flow the second call reads.", "anchors": ["lcatools/qdb/qdb.py::Qdb.convert", "lcatools/qdb/qdb.py::Qdb._convert_values"]}
{"id": "C66", "title": "do_lcia scores each exchange by the factor of its flow, reproducibly", "statement": "do_lcia over an inventory gives each exchange its value times the factor that convert finds for its flow and the location, signed by direction; exchanges without a factor are left out; the total does not depend on the order of the inventory; a second run gives the same result; flows outside the inventory and the store are not changed; refresh takes the factors from the database again.", "quantifier": "every inventory, database state, quantity, location", "why_tests_cant": "All inventories and orders, and histories of assessments.", "anchors": ["lcatools/qdb/qdb.py::Qdb.do_lcia", "lcatools/lcia_results.py::LciaResult.add_score", "lcatools/characterizations.py::Characterization.set_natural_direction"]}
{"id": "C67", "title": "After add_all_ref_products the background is a largest group and all it needs", "statement": "After BackgroundEngine.add_all_ref_products() returns: if two product flows depend on each other, then the product flows reported as background, by is_background and by background_flows(), are exactly the members of one largest group of mutually dependent product flows and everything they depend on (of equally large groups, the one labelled first); otherwise nothing is background.", "quantifier": "every product system; every component graph", "why_tests_cant": "Reachability closure over arbitrary graphs; a test database exercises one shape.", "anchors": ["antelope_background/engine/tarjan_stack.py::TarjanStack.add_to_graph", "antelope_background/engine/tarjan_stack.py::TarjanStack._set_background", "antelope_background/engine/tarjan_stack.py::TarjanStack._set_downstream", "antelope_background/engine/tarjan_stack.py::TarjanStack._generate_bg_index"]}
{"id": "C68", "title": "After add_all_ref_products every exchange is in exactly one matrix", "statement": "After BackgroundEngine.add_all_ref_products() returns, for every known product flow and every other product flow or exterior flow, the entry of the A and B matrices (background), of af, ad and bf of make_foreground() (foreground), and of make_foreground(pf) is the net amount in the inventory divided by the inbound exchange value; every dependency has a row, and nothing is reported as lost.", "quantifier": "every product system with any number of repeated exchanges per pair; any value signs", "why_tests_cant": "Sums over arbitrary multisets and a four-way split by background status.", "anchors": ["antelope_background/engine/background_engine.py::BackgroundEngine._construct_a_matrix", "antelope_background/engine/background_engine.py::BackgroundEngine._construct_b_matrix", "antelope_background/engine/background_engine.py::BackgroundEngine.make_foreground", "antelope_background/engine/background_engine.py::BackgroundEngine._pad_b_matrix"]}
{"id": "C69", "title": "No ambiguous termination is passed over under 'abort'", "statement": "If additions of reference products under the strategy 'abort' return, then no exchange of any product flow they give rise to, directly or indirectly, has several candidate terminations.", "quantifier": "all inventories, all engine histories, all positions of the ambiguous exchange", "why_tests_cant": "Depends on where in an arbitrarily deep traversal the ambiguity occurs and on what was on the stack and in the incoming lists at that moment.", "anchors": ["antelope_background/engine/background_engine.py:_rm_product_flow_children", "antelope_background/engine/background_engine.py:_add_ref_product", "antelope_background/engine/background_engine.py:terminate"]}
{"id": "C70", "title": "Padding and trimming of CAS numbers are inverse up to leading zeros", "statement": "pad_cas returns exactly for strings that look like a CAS number; the result has six digits and differs only by leading zeros; pad(trim c) = pad c, trim(pad c) = trim c, both are idempotent; two CAS numbers have the same padded form iff they have the same trimmed form.", "quantifier": "all strings", "why_tests_cant": "All strings; regex corner cases (no leading digits, all zeros, newline).", "anchors": ["synlist/flowables.py::pad_cas", "synlist/flowables.py::trim_cas", "synlist/flowables.py::find_cas"]}
{"id": "C71", "title": "Assigning a new reference quantity to a flow preserves its conversions", "statement": "If flow['referenceQuantity'] = q returns for a flow that has a reference quantity, every conversion between two quantities at every location gives the same result as before (or the same error), q is the reference quantity, and a new reference quantity has the factor one. It returns whenever q has a nonzero 'GLO' factor and the flow has a compartment; a call that raises changes nothing.", "quantifier": "every flow with any set of characterisations and locations", "why_tests_cant": "Algebra over all factor tables.", "anchors": ["lcatools/entities/flows.py::LcFlow._set_reference", "lcatools/entities/flows.py::LcFlow.add_characterization", "lcatools/entities/flows.py::LcFlow.convert"]}
{"id": "C72", "title": "An archive without upstream never replaces an entity", "statement": "In an archive without upstream, an entity found under a key is found under it after every further history of calls, including calls that raise; adding an entity whose uuid is taken raises KeyError; a call of add that raises changes nothing, and one that returns stores the entity under its uuid and changes no other.", "quantifier": "every history of archive calls", "why_tests_cant": "Histories are unbounded; includes failing calls.", "anchors": ["lcatools/archives/entity_store.py::EntityStore._add", "lcatools/archives/entity_store.py::EntityStore.__getitem__", "lcatools/archives/basic_archive.py::BasicArchive.add"]}
{"id": "C73", "title": "Grouping of fragment in/outs conserves amounts", "statement": "group_ios gives for every flow other than the reference flow exactly one entry if it is cut off anywhere, with the net amount and a magnitude not negative, and none otherwise; the entries of the reference flow, one or two, add up to the reference flow plus the net amount of its cut-offs, and are one leaving entry when less than the reference flow is cut off; it raises exactly when the reference flow is cut off with a net amount against its direction; the internal flows are the others in order.", "quantifier": "every list of fragment flows", "why_tests_cant": "All lists.", "anchors": ["lcatools/fragment_flows.py::group_ios"]}
{"id": "C74", "title": "A named scenario's value is used, several conflict", "statement": "The value of a scenario (named neither '0' nor '1') that was set is returned for this scenario, observed or not, whatever else was set before and is set after, until this scenario is set again or the values are cleared; if one scenario of a specification has a value it is used, if several have one a conflict is raised; if none has one and observed values are asked for, the observed value is used (for an unobserved reference fragment the cached one). The order of the scenarios does not matter.", "quantifier": "every exchange-value table, every history of settings, and every scenario argument", "why_tests_cant": "All tables.", "anchors": ["lcatools/entities/fragments.py::LcFragment.exchange_value", "lcatools/entities/fragments.py::LcFragment._match_scenario_ev", "lcatools/entities/fragments.py::LcFragment.set_exchange_value"]}
{"id": "C75", "title": "A fragment is listed under its reference entity", "statement": "After any history of set_parent, unset_parent, creation and the other edits, including calls that raise, a fragment is listed among the child flows of the fragment reported as its reference entity.", "quantifier": "every history of tree edits", "why_tests_cant": "Histories.", "anchors": ["lcatools/entities/fragments.py::LcFragment.set_parent", "lcatools/entities/fragments.py::LcFragment.unset_parent", "lcatools/entities/fragments.py::LcFragment.add_child", "lcatools/entities/fragments.py::LcFragment.remove_child"]}
{"id": "C76", "title": "Totals, contributions and flattening agree", "statement": "total() of an LciaResult is the sum of all scores at any depth, each multiplied by the weights and scales above it; the contributions returned by contrib_new and its balance add up to the total, a queried component gets its score, and the balance is 0 with '*'; whenever flatten() returns, its result is flat and has the total (times the applied scale).", "quantifier": "every LCIA result, nesting depth of summaries, grouping function and scale", "why_tests_cant": "All nested results.", "anchors": ["lcatools/lcia_results.py::LciaResult.aggregate", "lcatools/lcia_results.py::LciaResult.flatten", "lcatools/lcia_results.py::LciaResult.contrib_new", "lcatools/lcia_results.py::LciaResult.total"]}
{"id": "C77", "title": "The LCIA of a traversal loses no contribution", "statement": "Whenever frag_flow_lcia returns, its total and the sum of the contributions recorded as failed together are the sum of the contributions of all fragment flows.", "quantifier": "every list of fragment flows, weights, unit scores, nesting", "why_tests_cant": "All traversals, including those that visit a fragment several times.", "anchors": ["lcatools/fragment_flows.py::frag_flow_lcia", "lcatools/lcia_results.py::LciaResult.add_summary"]}
{"id": "C78", "title": "Inventories are assessed additively", "statement": "do_lcia returns the sum of value times direction sign times factor over the exchanges whose global factor is not zero; the result of two inventories together is the sum of their results; the order does not matter.", "quantifier": "all inventories and factors", "why_tests_cant": "All lists.", "anchors": ["lcatools/lcia_results.py::DetailedLciaResult", "lcatools/lcia_results.py::LciaResult.add_score", "lcatools/lcia_results.py::LciaResult.__add__", "lcatools/lcia_results.py::LciaResults.scale"]}
{"id": "C79", "title": "resolve() yields exactly the resources of the origin's hierarchy", "statement": "resolve(origin, interfaces, strict) returns exactly the resources listed under a reference that equals the origin or (unless strict) has it as a dot-separated prefix and that provide one of the interfaces, each once if it is listed once; it raises UnknownOrigin exactly when no reference in the resolver's table is hit.", "quantifier": "every catalogue content and origin string", "why_tests_cant": "All strings.", "anchors": ["antelope_catalog/catalog/lc_resolver.py::LcCatalogResolver.resolve", "antelope_catalog/lc_resource.py::LcResource.satisfies"]}
{"id": "C80", "title": "get_resource without a source returns a minimum-priority match or refuses", "statement": "get_resource(origin, interfaces), without a source, returns a resource that matches all filters and whose priority is minimal among the matches; when strict it is the only match. If every resource is listed once, it refuses as ambiguous exactly when strict and several match, and with UnknownOrigin or 'no resource' exactly when none matches.", "quantifier": "every catalogue content and filter", "why_tests_cant": "All states.", "anchors": ["antelope_catalog/catalog/lc_resolver.py::LcCatalogResolver.get_resource", "antelope_catalog/lc_resource.py::LcResource.matches"]}
{"id": "C81", "title": "AutoRange shifts every nonzero range into [1, 1000], with the least shift", "statement": "For every nonzero range the search for the shift ends, and the shift is the smallest in absolute value that brings the range between 1 and 1000; several results shown with their own factors are brought to the largest factor, which is the one of the chart's unit.", "quantifier": "all positive ranges", "why_tests_cant": "All magnitudes.", "anchors": ["lcatools/autorange.py::AutoRange"]}
{"id": "C82", "title": "A flat background classifies product flows correctly", "statement": "Once the engine has ordered its database, FlatBackground.from_index returns if and only if two known product flows depend on each other, and raises AttributeError otherwise; then is_in_background(process, flow) is true exactly for what a largest group of mutually dependent product flows requires, and is_in_scc is true exactly for known product flows that depend on another one which depends on them, false for the other known ones and a KeyError for unknown ones.", "quantifier": "every inventory database, strategy and iteration order of sets", "why_tests_cant": "All graphs; the largest component and everything below it.", "anchors": ["antelope_background/background/flat_background.py::FlatBackground.from_index", "antelope_background/background/flat_background.py::FlatBackground.from_background_engine", "antelope_background/background/flat_background.py::FlatBackground.is_in_background", "antelope_background/background/flat_background.py::FlatBackground.is_in_scc"]}
{"id": "C83", "title": "What the search for factors returns and when it raises", "statement": "Whenever CLookup.find(compartment, dist, return_first) returns, it has, with return_first, exactly the factors of the nearest level that has any, without it those of all levels up to dist; it raises (AttributeError) exactly when it is told to climb to the root (dist 3) and starts at the root, with return_first only if there is no factor there or in a subcompartment.", "quantifier": "every hierarchy, every store of factors, every compartment, distance and flag", "why_tests_cant": "All hierarchies and stores.", "anchors": ["lcatools/qdb/qdb.py::CLookup.find", "lcatools/qdb/qdb.py::CLookup.__getitem__", "lcatools/qdb/qdb.py::CLookup.__setitem__"]}
{"id": "C84", "title": "The store of factors holds the factors that were added first", "statement": "After any history of add_cf and of read calls, the factors of a flowable and a quantity at a compartment are those added there, of equal ones the first; flows_for_quantity lists exactly the flowables with a factor, in order, and cfs_for_quantity the factors.", "quantifier": "every history of calls, every flow, quantity and compartment", "why_tests_cant": "Histories are unbounded.", "anchors": ["lcatools/qdb/qdb.py::Qdb.add_cf", "lcatools/qdb/qdb.py::Qdb.flows_for_quantity", "lcatools/qdb/qdb.py::Qdb.cfs_for_quantity", "lcatools/qdb/qdb.py::Qdb.is_known"]}
{"id": "C85", "title": "convert() returns the proportion between quantities if the factors are consistent", "statement": "If the factors in the database and of the flow are consistent (every one is the proportion between its quantity and the reference quantity of its flow), whatever number convert returns for a flow or flowable that is not quelled is the proportion between the query quantity and the reference quantity, whatever the order of sets; for a flow with another reference quantity it returns None exactly if the flow is not quelled and there is no factor in the compartment, below it or in its parent; a quelled flow gets 0 and nothing is written.", "quantifier": "every database, hierarchy, flow, quantity, location and set order", "why_tests_cant": "All databases, including ones where conversions go by way of a third quantity or of the inverse of a factor.", "anchors": ["lcatools/qdb/qdb.py::Qdb.convert", "lcatools/qdb/qdb.py::Qdb._convert_values", "lcatools/qdb/qdb.py::Qdb._lookfor_conversion", "lcatools/qdb/qdb.py::Qdb._conversion_from_flow", "lcatools/qdb/qdb.py::Qdb._lookup_cfs", "lcatools/qdb/qdb.py::Qdb.convert_reference"]}
{"id": "C86", "title": "convert() writes to no flow but its own", "statement": "convert, whether it returns or raises, changes no flow but the one it is asked about and nothing of the stored factors; for a flowable it changes nothing.", "quantifier": "every database state, flow, quantity, location", "why_tests_cant": "All states; the first call writes to the flow the second call reads.", "anchors": ["lcatools/qdb/qdb.py::Qdb.convert", "lcatools/qdb/qdb.py::Qdb._convert_values"]}
{"id": "C87", "title": "do_lcia changes only the flows it assesses and repeats", "statement": "do_lcia, whether it returns or raises, changes no flow outside of the inventory and nothing of the store; a second run with the same quantity and location gives the same result and changes nothing.", "quantifier": "every inventory, database state, quantity, location", "why_tests_cant": "All inventories and orders, and histories of assessments.", "anchors": ["lcatools/qdb/qdb.py::Qdb.do_lcia", "lcatools/lcia_results.py::LciaResult.add_score", "lcatools/characterizations.py::Characterization.set_natural_direction"]}
{"id": "C88", "title": "Allocating by a quantity is conservative", "statement": "In every reachable state of a process and every quantity by which the flows are characterised, with nonzero total over the references: allocate_by_quantity returns, and then for every exchange that is no reference the amounts per unit of each reference flow, weighted by the reference amounts, add up to its value, each proportional to the factor of the reference flow; the allocation factors, one for every reference with a value, add up to one and are proportional to amount times factor.", "quantifier": "every process with any number of references and exchanges and any values", "why_tests_cant": "Identity over all rational inputs, including negative and zero factors.", "anchors": ["lcatools/exchanges.py::ExchangeValue.__getitem__", "lcatools/entities/processes.py::LcProcess.allocate_by_quantity", "lcatools/entities/processes.py::LcProcess.allocation_factors"]}
{"id": "C89", "title": "A new entity added to a foreground is found and disturbs no other", "statement": "After add(entity) of a known type whose link is new, it is found under its link and, unless that is a custom name, under its UUID; every other key that does not contain its UUID gives what it gave before; its type has exactly one entity more, the other types are as before.", "quantifier": "every foreground state reached by creating, adding and naming; every entity or reference; every iteration order", "why_tests_cant": "All states, and the choice among entities that share a UUID is nondeterministic.", "anchors": ["antelope_catalog/foreground/foreground.py::LcForeground.add", "lcatools/archives/entity_store.py::EntityStore._add", "lcatools/entities/entities.py::LcEntity.merge", "lcatools/entity_refs/base.py::BaseRef.merge"]}
{"id": "C90", "title": "A refused name changes nothing", "statement": "name_fragment with a name under which something is found raises ValueError and changes nothing; a fragment that has a name already or is not stored is refused without change.", "quantifier": "every foreground state and name", "why_tests_cant": "All states.", "anchors": ["antelope_catalog/foreground/foreground.py::LcForeground.name_fragment", "antelope_catalog/foreground/foreground.py::LcForeground._key_to_id"]}
{"id": "C91", "title": "A query is answered by the first resource that can", "statement": "A query of an origin is answered by a resource registered for the origin or below it (only for it, if strict) that provides the interface, and every such resource that comes sooner (loaded and static ones first, then by priority, then those of the origin itself) was asked and had no answer. If one of them has an answer the query is answered, and only if none has, the exception of the query is raised; an unknown origin is refused.", "quantifier": "all catalogs of resources, all archives behind them, all histories of catalog and query operations", "why_tests_cant": "which resource answers depends on priorities, references, static archives and what earlier queries loaded; tests fix one catalog and one history", "anchors": ["antelope_catalog/catalog/catalog.py:LcCatalog._sorted_resources", "antelope_catalog/catalog/catalog.py:LcCatalog.gen_interfaces", "lcatools/interfaces/abstract_query.py:AbstractQuery._perform_query", "antelope_catalog/catalog_query.py:CatalogQuery"]}
{"id": "C92", "title": "A query loads only what it asks", "statement": "A query that is answered loads the resource that answers and besides only resources that were asked before it and had no answer; answered or not, it changes nothing else of the catalog.", "quantifier": "all catalogs of resources, all archives behind them, all histories of catalog and query operations", "why_tests_cant": "which resource answers depends on priorities, references, static archives and what earlier queries loaded; tests fix one catalog and one history", "anchors": ["antelope_catalog/catalog/catalog.py:LcCatalog._sorted_resources", "antelope_catalog/catalog/catalog.py:LcCatalog.gen_interfaces", "lcatools/interfaces/abstract_query.py:AbstractQuery._perform_query", "antelope_catalog/catalog_query.py:CatalogQuery"]}
{"id": "C93", "title": "get() finds an entity exactly if a resource has it", "statement": "get(id) of a query returns the entity of the first resource, at or below its origin, that has the entity; it raises EntityNotFound exactly if no such resource has it.", "quantifier": "all catalogs of resources, all archives behind them, all histories of catalog and query operations", "why_tests_cant": "which resource answers depends on priorities, references, static archives and what earlier queries loaded; tests fix one catalog and one history", "anchors": ["antelope_catalog/catalog/catalog.py:LcCatalog._sorted_resources", "antelope_catalog/catalog/catalog.py:LcCatalog.gen_interfaces", "lcatools/interfaces/abstract_query.py:AbstractQuery._perform_query", "antelope_catalog/catalog_query.py:CatalogQuery", "antelope_catalog/catalog_query.py:CatalogQuery.get", "lcatools/implementations/basic.py:BasicImplementation._fetch"]}
{"id": "C94", "title": "A query object never changes its answer", "statement": "Once get(id) of a query object has returned an entity, it returns the same entity after every history of operations on the catalog, without loading anything; and whatever it returns is what a resource at or below the origin has under this identifier.", "quantifier": "all catalogs of resources, all archives behind them, all histories of catalog and query operations", "why_tests_cant": "quantifies over all histories of the catalog, among them registrations of better resources, loading and deletion", "anchors": ["antelope_catalog/catalog/catalog.py:LcCatalog._sorted_resources", "antelope_catalog/catalog/catalog.py:LcCatalog.gen_interfaces", "lcatools/interfaces/abstract_query.py:AbstractQuery._perform_query", "antelope_catalog/catalog_query.py:CatalogQuery", "antelope_catalog/catalog_query.py:CatalogQuery.get"]}
{"id": "C95", "title": "lookup() and fetch() agree with the lowest-priority resource", "statement": "lookup(origin, id) gives the origin of the lowest-priority resource that has the entity, and fetch(origin, id) the entity; both raise EntityNotFound exactly if none has it.", "quantifier": "all catalogs of resources, all archives behind them, all histories of catalog and query operations", "why_tests_cant": "which resource answers depends on priorities, references, static archives and what earlier queries loaded; tests fix one catalog and one history", "anchors": ["antelope_catalog/catalog/catalog.py:LcCatalog._sorted_resources", "antelope_catalog/catalog/catalog.py:LcCatalog.gen_interfaces", "lcatools/interfaces/abstract_query.py:AbstractQuery._perform_query", "antelope_catalog/catalog_query.py:CatalogQuery", "antelope_catalog/catalog/catalog.py:LcCatalog.lookup", "antelope_catalog/catalog/catalog.py:LcCatalog.fetch"]}
{"id": "C96", "title": "The catalog keeps one query object per origin", "statement": "query(origin) returns a query of this origin exactly if a resource is registered that the origin hits, and otherwise raises and changes nothing; the same object is returned after every history in which the origin is not refreshed; a refresh makes a new object that remembers nothing and leaves all others as they are.", "quantifier": "all catalogs of resources, all archives behind them, all histories of catalog and query operations", "why_tests_cant": "quantifies over all histories", "anchors": ["antelope_catalog/catalog/catalog.py:LcCatalog.query"]}
{"id": "C97", "title": "A nickname stands for its source", "statement": "add_nickname(source, name) is accepted exactly if a resource has the source; then get_resource(name) returns only resources with this source, of minimal priority and, if strict, the only one; no other name is affected.", "quantifier": "all catalogs of resources, all archives behind them, all histories of catalog and query operations", "why_tests_cant": "quantifies over all registries and names", "anchors": ["antelope_catalog/catalog/catalog.py:LcCatalog.add_nickname", "antelope_catalog/catalog/catalog.py:LcCatalog.get_resource"]}
{"id": "C98", "title": "Strict queries, unknown origins and names are respected", "statement": "A query that was asked for with strict=True answers only from resources of the origin itself; a query for an origin without resources raises UnknownOrigin; adding a nickname does not change which resource an existing origin gives.", "quantifier": "all catalogs of resources, all archives behind them, all histories of catalog and query operations", "why_tests_cant": "quantifies over all catalogs and histories", "anchors": ["antelope_catalog/catalog/catalog.py:LcCatalog.query", "antelope_catalog/catalog/catalog.py:LcCatalog.add_nickname"]}
{"id": "C99", "title": "A privacy declaration lets through exactly whom the publisher allows", "statement": "A request with a scope and a score is granted exactly if the scope exists and the score does not exceed the limit the publisher wrote for this scope or, if there is none, for 'base'; a negative limit lets nobody through, no limit everybody; lower scores are never worse off; scopes do not influence each other; a publication grants only publishable interfaces; writing a publication to a file and reading it again changes no decision.", "quantifier": "all privacy dicts and numbers, all scopes, all scores", "why_tests_cant": "ranges over all declarations and all integers; a leak is a single combination a test does not try", "anchors": ["antelope_v2_server/antelope/authorization.py:PrivacyDeclaration", "antelope_v2_server/antelope/lc_pub.py:AntelopeV2Pub"]}
{"id": "C100", "title": "A process survives being written and read", "statement": "A process that is written completely to a JSON file and read again has the same exchanges with the same values, the same reference exchanges and allocation quantity, and every exchange relation and every inventory gives the same numbers as before.", "quantifier": "all processes reachable by any sequence of calls, with any co-products, value dicts, terminations and allocation; any order of the entries in the file", "why_tests_cant": "the reader rebuilds the process by calls to add_exchange and add_reference in the sorted order of the file; that this sequence reaches an equivalent state holds only by an invariant over all processes", "anchors": ["lcatools/entities/processes.py:serialize", "lcatools/exchanges.py:serialize", "lcatools/archives/lc_archive.py:_process_from_json"]}
{"id": "C101", "title": "What a file without values keeps of a process", "statement": "A process written without values is read as exactly its reference exchanges, without amounts and without allocation, whether or not exchanges were asked for.", "quantifier": "all reachable processes", "why_tests_cant": "ranges over all processes", "anchors": ["lcatools/entities/processes.py:serialize", "lcatools/archives/lc_archive.py:_process_from_json"]}
{"id": "C102", "title": "Equality of entities and catalog references is an equivalence that agrees with hashing", "statement": "Comparing entities or references never raises, is reflexive, symmetric and transitive, and equal objects have equal hashes, so that a set or dict finds an entity under anything equal to it.", "quantifier": "all entities and references, all hash functions, sets of any size", "why_tests_cant": "quantifies over all pairs and triples of objects and over the hash function (randomised per process in Python)", "anchors": ["lcatools/entities/entities.py:LcEntity.__eq__", "lcatools/entities/entities.py:LcEntity.__hash__", "lcatools/entity_refs/base.py:BaseRef.__eq__", "lcatools/entity_refs/base.py:BaseRef.__hash__"]}
{"id": "C103", "title": "Equality of exchanges agrees with hashing", "statement": "Exchanges are equal exactly if process, flow, direction and termination are the same, reference exchanges stored in process references compare in the same way, and equal exchanges have equal hashes; so do characterizations and details of LCIA results.", "quantifier": "all exchanges and reference exchanges, all hash functions", "why_tests_cant": "quantifies over all pairs of objects and hash functions", "anchors": ["lcatools/exchanges.py:Exchange.__eq__", "lcatools/entities/processes.py:RxRef.__eq__", "lcatools/characterizations.py:Characterization.__eq__", "lcatools/lcia_results.py:DetailedLciaResult.__eq__"]}
{"id": "C104", "title": "Terminations and fragment flows can be compared", "statement": "Comparing terminations or fragment flows never raises and is an equivalence that distinguishes the node terminated; equal fragment flows have equal hashes.", "quantifier": "all terminations and fragment flows", "why_tests_cant": "quantifies over all pairs and triples", "anchors": ["lcatools/terminations.py:FlowTermination.__eq__", "lcatools/fragment_flows.py:FragmentFlow.__eq__"]}
{"id": "C105", "title": "A flow keeps its characterizations through a JSON file", "statement": "A flow written with all its characterizations and values and read again has the same reference quantity, the same quantities and, for every quantity and location, the same factor.", "quantifier": "all flows reachable through the API, all quantities and locations, any order of the entries in the file", "why_tests_cant": "quantifies over all histories of characterizations and over all locations asked for", "anchors": ["lcatools/characterizations.py:Characterization.serialize", "lcatools/characterizations.py:Characterization.value", "lcatools/entities/flows.py:LcFlow.serialize", "lcatools/archives/basic_archive.py:BasicArchive._flow_from_json"]}
{"id": "C106", "title": "An archive of flows and quantities is the same after writing and reading it", "statement": "Writing an archive with all values to JSON and reading it again gives the same entities with the same type, uuid, external reference, origin, unit, properties (ignoring case), reference quantity and factors; sets become sorted lists, references to entities become dicts, other objects become text and None is dropped; a second round changes no value.", "quantifier": "all archives of flows and quantities made through the API, all property values, any order in the file, with and without domestication", "why_tests_cant": "quantifies over all archives and property names", "anchors": ["lcatools/entities/entities.py:LcEntity.serialize", "lcatools/archives/basic_archive.py:BasicArchive.entity_from_json", "lcatools/archives/basic_archive.py:BasicArchive.load_from_dict", "lcatools/archives/basic_archive.py:BasicArchive.serialize"]}
{"id": "C107", "title": "A flow reference reports the factors of its database whatever was asked before", "statement": "For every quantity and location, `cf` of a flow reference is what the database answers, independently of earlier calls of `cf` and `profile`.", "quantifier": "all flows, quantities, locations and sequences of calls", "why_tests_cant": "quantifies over all call histories", "anchors": ["lcatools/entity_refs/flow_ref.py:FlowRef.cf", "lcatools/entity_refs/flow_ref.py:FlowRef.profile", "lcatools/entity_refs/flow_ref.py:FlowRef.add_characterization"]}
{"id": "C108", "title": "Properties of catalog references", "statement": "A property assigned to a catalog reference is read back; a property once read stays the same until it is assigned or a query is forced; `has_property` tells what can be read without the database; looking up a reference in a catalog does not change what the reference found says.", "quantifier": "all references, property names, database answers and call sequences", "why_tests_cant": "quantifies over all names and histories, with a database that may answer differently each time", "anchors": ["lcatools/entity_refs/base.py:BaseRef.__setitem__", "lcatools/entity_refs/base.py:BaseRef._localitem", "lcatools/entity_refs/base.py:EntityRef.get_item", "lcatools/entity_refs/catalog_ref.py:CatalogRef.lookup"]}
{"id": "C109", "title": "A catalog reference is the same after writing and reading it", "statement": "A reference written to JSON and read again has the same type, origin, external reference, uuid and items.", "quantifier": "all references and items", "why_tests_cant": "quantifies over all references and item names", "anchors": ["lcatools/entity_refs/base.py:BaseRef.serialize", "lcatools/entity_refs/base.py:EntityRef.serialize", "lcatools/entity_refs/catalog_ref.py:CatalogRef.from_json"]}
{"id": "C110", "title": "Merging adds what is missing and changes nothing else", "statement": "Merging an entity or reference with another of the same type and external reference keeps every property of the first and adds those it lacks, including characterizations of flows; otherwise it is refused without change.", "quantifier": "all entities and references", "why_tests_cant": "quantifies over all pairs of objects", "anchors": ["lcatools/entities/entities.py:LcEntity.merge", "lcatools/entities/flows.py:LcFlow.merge", "lcatools/entity_refs/base.py:BaseRef.merge"]}
{"id": "C111", "title": "The identity of an entity is set once", "statement": "Type and uuid of an entity never change; origin and external reference can be set once, a second time raises and changes nothing; only map_origin changes an origin; make_ref gives a reference with the entity's origin and external reference.", "quantifier": "all sequences of calls", "why_tests_cant": "quantifies over all histories", "anchors": ["lcatools/entities/entities.py:LcEntity.origin", "lcatools/entities/entities.py:LcEntity.external_ref", "lcatools/entities/entities.py:LcEntity.map_origin", "lcatools/entities/entities.py:LcEntity.make_ref"]}
{"id": "C112", "title": "Listing the fragments of a foreground", "statement": "`fragments(show_all=True)` yields every fragment of every tree whose reference fragment is in the foreground and has the background status asked for, each exactly once; `fragments()` yields the reference fragments only, each once.", "quantifier": "all foregrounds whose fragments form trees, of any depth", "why_tests_cant": "quantifies over all forests", "anchors": ["antelope_catalog/foreground/foreground.py:LcForeground.fragments", "antelope_catalog/foreground/foreground.py:LcForeground._fragments", "antelope_catalog/foreground/foreground.py:LcForeground._show_frag_children"]}
{"id": "C113", "title": "Finding a fragment by the beginning of its uuid", "statement": "`frag(s)` returns the only fragment whose uuid begins with s in lower case; raises an ambiguous reference exactly if there are several and StopIteration exactly if there is none; with strict=False returns some fragment that matches if there is one.", "quantifier": "all foregrounds and strings", "why_tests_cant": "quantifies over all sets of uuids", "anchors": ["antelope_catalog/foreground/foreground.py:LcForeground.frag"]}
{"id": "C114", "title": "Finding what is terminated to a fragment", "statement": "`linked_terms(f)` yields exactly the terminations, in any scenario of any fragment of the foreground, whose node is f.", "quantifier": "all foregrounds and fragments", "why_tests_cant": "quantifies over all forests and scenarios", "anchors": ["antelope_catalog/foreground/foreground.py:LcForeground.linked_terms", "antelope_catalog/foreground/foreground.py:LcForeground._find_links"]}
{"id": "C115", "title": "Deleting orphans", "statement": "`del_orphans()` removes exactly the background fragments that nothing is terminated to; without for_real nothing changes.", "quantifier": "all foregrounds", "why_tests_cant": "quantifies over all forests", "anchors": ["antelope_catalog/foreground/foreground.py:LcForeground.del_orphans", "antelope_catalog/foreground/foreground.py:LcForeground._del_f"]}
{"id": "C116", "title": "What saving leaves in the fragment directory", "statement": "After `save_fragments()` the directory holds one file per reference fragment, named after its uuid, with exactly the fragments of its tree, each once, and no other file.", "quantifier": "all foregrounds, and all previous contents of the directory", "why_tests_cant": "quantifies over all forests and earlier files", "anchors": ["antelope_catalog/foreground/foreground.py:LcForeground.save_fragments", "antelope_catalog/foreground/foreground.py:LcForeground._recurse_frags", "lcatools/entities/fragments.py:LcFragment.serialize"]}
{"id": "C117", "title": "A save that raises keeps the earlier files", "statement": "If `save_fragments()` raises, what was saved before can still be loaded.", "quantifier": "all foregrounds, directories and reasons to raise", "why_tests_cant": "quantifies over the point of failure", "anchors": ["antelope_catalog/foreground/foreground.py:LcForeground.save_fragments"]}
{"id": "C118", "title": "Saving a foreground and loading it gives the same fragments", "statement": "Loading the directory that `save_fragments()` wrote, in whatever order the files are listed, gives exactly the fragments of the foreground, in the same trees, with the same names, flows, directions, flags, exchange values, properties and terminations in every scenario, and each is found by its uuid and its name.", "quantifier": "all foregrounds, orders of directory listing and of sets", "why_tests_cant": "quantifies over all forests, names and listing orders", "anchors": ["antelope_catalog/foreground/foreground.py:LcForeground.save_fragments", "antelope_catalog/foreground/foreground.py:LcForeground._load_fragments", "antelope_catalog/foreground/foreground.py:LcForeground._do_load", "lcatools/entities/fragments.py:LcFragment.from_json", "lcatools/entities/fragments.py:LcFragment.finish_json_load", "lcatools/terminations.py:FlowTermination.from_json", "lcatools/terminations.py:FlowTermination.serialize"]}
{"id": "C119", "title": "Paths inside a catalog survive moving it", "statement": "`abs_path` of a localized absolute path is that path; localizing twice is localizing once; a path inside the catalog that was stored by a catalog that has been moved is found at the same place inside the new one, and a path outside is unchanged.", "quantifier": "all roots and paths", "why_tests_cant": "quantifies over all strings", "anchors": ["antelope_catalog/catalog/catalog.py:LcCatalog._localize_source", "antelope_catalog/catalog/catalog.py:LcCatalog.abs_path"]}
{"id": "C120", "title": "A downloaded file has the digest asked for", "statement": "Whenever `download_file(url, md5sum)` returns, the file it names has that digest; a file that is there is not fetched again unless forced; no other file changes.", "quantifier": "all catalogs, urls, digests and answers of the network", "why_tests_cant": "quantifies over histories of downloads", "anchors": ["antelope_catalog/catalog/catalog.py:LcCatalog.download_file"]}
{"id": "C121", "title": "What deleting a resource removes", "statement": "`delete_resource` removes the resource from the registry; it removes the source exactly if this is not forbidden, the source is a file, no other resource uses it, and the resource is internal or deletion was asked for; and then the caches of the source.", "quantifier": "all catalogs, resources and options", "why_tests_cant": "quantifies over all registries and file systems", "anchors": ["antelope_catalog/catalog/catalog.py:LcCatalog.delete_resource"]}
{"id": "C122", "title": "A cache that was made is used", "statement": "After `create_source_cache(source)` the cached contents are read when a resource with that source is loaded.", "quantifier": "all catalogs and sources", "why_tests_cant": "quantifies over all paths", "anchors": ["antelope_catalog/catalog/catalog.py:LcCatalog.create_source_cache", "antelope_catalog/catalog/catalog.py:LcCatalog.cache_file", "antelope_catalog/lc_resource.py:LcResource._instantiate"]}
{"id": "C123", "title": "Creating a foreground twice gives the same one", "statement": "`create_foreground(path)` registers a resource whose source is the path; calling it again, by name or by path and with any reference, returns the same resource and changes nothing; a relative path that is more than a name is refused without effect.", "quantifier": "all catalogs whose directory holds only registered resources, names, paths and references", "why_tests_cant": "quantifies over all registries and strings", "anchors": ["antelope_catalog/catalog/catalog.py:LcCatalog.create_foreground", "antelope_catalog/catalog/catalog.py:LcCatalog.new_resource", "antelope_catalog/catalog/lc_resolver.py:LcCatalogResolver.add_resource"]}
{"id": "C124", "title": "Configuring applies to all resources of a reference", "statement": "`configure_resource(ref, …)` applies the configuration to every resource of the reference that accepts it, saves those that are not internal, deletes internal resources that do not accept it, and leaves the rest alone.", "quantifier": "all catalogs and references", "why_tests_cant": "quantifies over all registries", "anchors": ["antelope_catalog/catalog/catalog.py:LcCatalog.configure_resource", "antelope_catalog/lc_resource.py:LcResource.add_config", "antelope_catalog/catalog/lc_resolver.py:LcCatalogResolver.resolve"]}
{"id": "C125", "title": "A resource's configuration is stored and read back", "statement": "A resource made from what `serialize()` stored has exactly the same configuration entries; storing fails only with an entry without arguments.", "quantifier": "all configurations, and orders of sets", "why_tests_cant": "quantifies over all configurations and iteration orders", "anchors": ["antelope_catalog/lc_resource.py:LcResource._add_config", "antelope_catalog/lc_resource.py:LcResource._serialize_config", "antelope_catalog/lc_resource.py:LcResource.__init__"]}
{"id": "C126", "title": "Observing a fragment adopts its cached values", "statement": "`observe(accept_all=True)` gives every fragment of the tree that has an amount of its own (reference flows, and flows that are neither balances nor below a subfragment termination) its cached value as observed value, or as value of the named scenario, and changes nothing else; doing it again changes nothing; afterwards the traversal with observed values (or in the scenario) gives what the traversal with cached values gave.", "quantifier": "all fragments, scenarios and values", "why_tests_cant": "quantifies over all trees and values", "anchors": ["lcatools/entities/fragments.py:LcFragment.observe", "lcatools/entities/fragments.py:LcFragment._auto_observe", "lcatools/entities/fragments.py:LcFragment._check_observability"]}
{"id": "C127", "title": "A cloned fragment is a copy", "statement": "`clone_fragment` makes a copy of a reference fragment and of all fragments below it: same flows, directions, values, terminations, conserved quantities, marks, names and comments; nothing else changes, and the copy is traversed with the same result in every scenario.", "quantifier": "all fragments, scenarios and orders of the new uuids", "why_tests_cant": "quantifies over all trees, scenarios and uuids", "anchors": ["lcatools/entities/fragment_editor.py:FragmentEditor.clone_fragment", "lcatools/entities/fragment_editor.py:FragmentEditor.transfer_evs", "lcatools/entities/fragment_editor.py:FragmentEditor.create_fragment", "lcatools/entities/fragments.py:LcFragment.terminate", "lcatools/entities/fragments.py:LcFragment.to_foreground"]}
{"id": "C128", "title": "Child flows take their values from the inventory", "statement": "`set_child_exchanges` on a fragment terminated to a process gives every child flow the value of the inventory exchange meant for it (same flow and direction; if several child flows fit, the first that is terminated to what the exchange names), as observed value, as cached value or as value of the named scenario, and an observed traversal then uses it; flows with no exchange, balance flows, other entries and other fragments are as before; a fragment not terminated to a process is refused and unchanged.", "quantifier": "all fragments, inventories and scenarios", "why_tests_cant": "quantifies over all trees and inventories", "anchors": ["lcatools/entities/fragment_editor.py:set_child_exchanges", "lcatools/entities/fragments.py:LcFragment.set_exchange_value", "lcatools/entities/fragments.py:LcFragment.observed_ev", "lcatools/entities/fragments.py:LcFragment.cached_ev"]}
{"id": "C129", "title": "Reversing and scaling exchange values", "statement": "`reverse_direction` turns a fragment's direction and negates its values and so has no effect on traversals; twice is once undone; `scale_evs` multiplies all values; both raise if some value is None, and then leave the fragment as it was.", "quantifier": "all fragments, values, scenarios", "why_tests_cant": "quantifies over all trees, values and scenarios", "anchors": ["lcatools/entities/fragments.py:LcFragment.reverse_direction", "lcatools/entities/fragments.py:LcFragment.scale_evs", "lcatools/entities/fragments.py:LcFragment.exchange_value", "lcatools/entities/fragments.py:LcFragment._traverse_node"]}
{"id": "C130", "title": "create_forest spans the foreground", "statement": "`create_forest` returns a reference fragment for the process; every process gets at most one node, and none if the archive had one; a node invoked by one flow is a child fragment, a node invoked by several is a reference fragment to which all of these are terminated; every flow of a new node comes from an exchange of the foreground (with its value) or from a dependency, and every exchange and dependency becomes a flow; fragments that were in the archive are unchanged, except that one may be split, a new fragment then taking its place; if a fragment stands for the process already it is returned and nothing else happens.", "quantifier": "all archives, foregrounds (exchange lists in any order), dependencies", "why_tests_cant": "quantifies over all graphs and orders of exchanges", "anchors": ["antelope_catalog/implementations/foreground.py:ForegroundImplementation.create_forest", "antelope_catalog/implementations/foreground.py:ForegroundImplementation._new_node", "lcatools/entities/fragments.py:LcFragment.has_child", "lcatools/entities/fragment_editor.py:FragmentEditor.split_subfragment"]}
{"id": "C131", "title": "Traversals end, and terminations make no loops", "statement": "If no fragment depends on itself, `traverse` ends, and what it returns does not depend on the recursion limit. If one does (by non-zero amounts), it never returns a result. `terminate` is to refuse a termination to a fragment that depends on the flow's own fragment.", "quantifier": "all archives of fragments, scenarios, amounts; all recursion limits", "why_tests_cant": "quantifies over all fragment graphs; a loop shows only as a stack overflow", "anchors": ["lcatools/entities/fragments.py:LcFragment.traverse", "lcatools/entities/fragments.py:LcFragment._traverse_node", "lcatools/entities/fragments.py:LcFragment.terminate", "lcatools/entities/fragments.py:LcFragment.top"]}
{"id": "C132", "title": "Exchanges of a process are found by flow, direction and role", "statement": "`find_exchange`, `reference`, `exchange_values` (unless only references are asked for) and `is_allocated` answer by the exchanges the process has, whatever was done to it and in whatever order sets are iterated: the only exchange that fits, or else the only one without termination, otherwise the exception for the case. `inventory(ref_flow)` takes the reference exchange of the flow, if there is one only, whatever other exchanges the flow has, and lists every exchange that is no reference once, allocated to it and per unit of it; with respect to a cut-off exchange it lists all others, unallocated; with respect to a terminated one it raises.", "quantifier": "all histories of calls on the process (raising ones included), all set orders, flows, directions, amounts", "why_tests_cant": "quantifies over histories and set orders", "anchors": ["lcatools/entities/processes.py:LcProcess._gen_exchanges", "lcatools/entities/processes.py:LcProcess.find_exchange", "lcatools/entities/processes.py:LcProcess.reference", "lcatools/entities/processes.py:LcProcess.has_reference", "lcatools/entities/processes.py:LcProcess.inventory", "lcatools/entities/processes.py:LcProcess.is_allocated", "lcatools/implementations/inventory.py:InventoryImplementation.exchange_values", "lcatools/implementations/inventory.py:InventoryImplementation.inventory"]}
{"id": "C133", "title": "The exchange relation is the amount per unit of the reference", "statement": "`exchange_relation(process, ref_flow, exch_flow, direction, termination)` returns the amount of the exchanges with the flow, direction (and termination) per unit of the reference flow.", "quantifier": "all histories of calls on the process, all flows, amounts, terminations", "why_tests_cant": "quantifies over histories and amounts", "anchors": ["lcatools/implementations/inventory.py:InventoryImplementation.exchange_relation", "lcatools/entities/processes.py:LcProcess.inventory", "lcatools/entities/processes.py:LcProcess.reference"]}
{"id": "C134", "title": "Whether a process has a reference, and its reference exchanges of a flow", "statement": "`has_reference(flow)` tells whether the process has a reference exchange (with the flow, if given); `exchange_values(…, reference=True)` yields the reference exchanges of the flow in the direction asked for.", "quantifier": "all histories of calls on the process, all set orders", "why_tests_cant": "quantifies over histories", "anchors": ["lcatools/entities/processes.py:LcProcess.has_reference", "lcatools/entities/processes.py:LcProcess.references", "lcatools/implementations/inventory.py:InventoryImplementation.exchange_values"]}
{"id": "C135", "title": "No query skips a resource that has the answer", "statement": "Whatever a query returns is the answer of a resource registered for the origin or below it (only for it, if strict) that provides the interface; every such resource that comes sooner was asked and had no answer. A query of an origin the catalog does not know raises UnknownOrigin and changes nothing.", "quantifier": "all catalogs of resources, all archives behind them, all histories of catalog and query operations", "why_tests_cant": "which resource answers depends on priorities, references, static archives and what earlier queries loaded; tests fix one catalog and one history", "anchors": ["antelope_catalog/catalog/catalog.py:LcCatalog._sorted_resources", "antelope_catalog/catalog/catalog.py:LcCatalog.gen_interfaces", "lcatools/interfaces/abstract_query.py:AbstractQuery._perform_query", "antelope_catalog/catalog_query.py:CatalogQuery"]}
{"id": "C136", "title": "get() and lookup() name a resource that has the entity", "statement": "Whatever entity get(id) returns for an id not asked before is that of a resource at or below the origin, and the resources that come sooner lack it; whatever origin lookup(origin, id) returns is that of an archive that has the entity, and those that come sooner lack it.", "quantifier": "all catalogs of resources, all archives behind them, all histories of catalog and query operations", "why_tests_cant": "which resource answers depends on priorities, references, static archives and what earlier queries loaded; tests fix one catalog and one history", "anchors": ["antelope_catalog/catalog/catalog.py:LcCatalog._sorted_resources", "antelope_catalog/catalog/catalog.py:LcCatalog.gen_interfaces", "lcatools/interfaces/abstract_query.py:AbstractQuery._perform_query", "antelope_catalog/catalog_query.py:CatalogQuery", "antelope_catalog/catalog_query.py:CatalogQuery.get", "lcatools/implementations/basic.py:BasicImplementation._fetch"]}
{"id": "C137", "title": "Exchanges proper, characterizations and result details compare lawfully", "statement": "Two exchanges compare equal exactly if their hashes are equal, so == is an equivalence that agrees with hash(); without hash collisions it means the same process, flow, direction and termination. Two characterizations are equal exactly if flow and quantity are; details of LCIA results exactly if exchange, factor and direction are; equal ones have equal hashes.", "quantifier": "all exchanges (not reference exchanges of process references), characterizations, details; all hash functions", "why_tests_cant": "quantifies over all pairs of objects and hash functions", "anchors": ["lcatools/exchanges.py:Exchange.__eq__", "lcatools/entities/processes.py:RxRef.__eq__", "lcatools/characterizations.py:Characterization.__eq__", "lcatools/lcia_results.py:DetailedLciaResult.__eq__"]}
{"id": "C138", "title": "A property read from a catalog reference stays the same", "statement": "A property that was read from a catalog reference is read again with the same value, whatever the database says by then, unless it is assigned or a query is forced; has_property tells exactly whether the property can be read without the database.", "quantifier": "all references, property names, database answers and call sequences", "why_tests_cant": "quantifies over all names and histories, with a database that may answer differently each time", "anchors": ["lcatools/entity_refs/base.py:BaseRef.__setitem__", "lcatools/entity_refs/base.py:BaseRef._localitem", "lcatools/entity_refs/base.py:EntityRef.get_item", "lcatools/entity_refs/catalog_ref.py:CatalogRef.lookup"]}
{"id": "C139", "title": "Merging unlike things is refused", "statement": "Merging entities of different type or external reference, or references of different type or to different external references, raises and leaves the first as it was.", "quantifier": "all entities and references", "why_tests_cant": "quantifies over all pairs of objects", "anchors": ["lcatools/entities/entities.py:LcEntity.merge", "lcatools/entities/flows.py:LcFlow.merge", "lcatools/entity_refs/base.py:BaseRef.merge"]}
{"id": "C140", "title": "Origin and external reference are set once", "statement": "Type and uuid of an entity never change. The origin can be set once and then changes only by map_origin; an external reference that was set never changes; a second setting raises and changes nothing.", "quantifier": "all sequences of calls", "why_tests_cant": "quantifies over all histories", "anchors": ["lcatools/entities/entities.py:LcEntity.origin", "lcatools/entities/entities.py:LcEntity.external_ref", "lcatools/entities/entities.py:LcEntity.map_origin", "lcatools/entities/entities.py:LcEntity.make_ref"]}
{"id": "C141", "title": "Localizing a path loses nothing", "statement": "abs_path of a localized absolute path is that path; localizing twice is localizing once; a path inside the catalog root that was stored by a catalog moved since is found at the same place below the new root.", "quantifier": "all roots and paths (roots without regular-expression characters)", "why_tests_cant": "quantifies over all strings", "anchors": ["antelope_catalog/catalog/catalog.py:LcCatalog._localize_source", "antelope_catalog/catalog/catalog.py:LcCatalog.abs_path"]}
{"id": "C142", "title": "Observing sets exactly the fragment's own amounts", "statement": "observe(accept_all=True) gives every fragment of the tree that has an amount of its own its cached value as observed value (or as value of the named scenario) and changes nothing else in the archive; doing it again changes nothing. A traversal depends only on the fragments it reaches.", "quantifier": "all fragments, scenarios and values", "why_tests_cant": "quantifies over all trees and values", "anchors": ["lcatools/entities/fragments.py:LcFragment.observe", "lcatools/entities/fragments.py:LcFragment._auto_observe", "lcatools/entities/fragments.py:LcFragment._check_observability"]}
{"id": "C143", "title": "Reversing a fragment is undone by reversing it again", "statement": "reverse_direction raises exactly if some value of the fragment is None, and then changes nothing; whenever it succeeds, calling it again restores the fragment exactly.", "quantifier": "all fragments, values, scenarios", "why_tests_cant": "quantifies over all trees, values and scenarios", "anchors": ["lcatools/entities/fragments.py:LcFragment.reverse_direction", "lcatools/entities/fragments.py:LcFragment.scale_evs", "lcatools/entities/fragments.py:LcFragment.exchange_value", "lcatools/entities/fragments.py:LcFragment._traverse_node"]}
{"id": "C144", "title": "create_forest makes one node per process", "statement": "create_forest returns a new reference fragment for the process (or the one that was there); no process gets two nodes, nor one if the archive had one; a node invoked by one flow is a child fragment, a node invoked by several is a reference fragment to which all of these are terminated; every flow of a new node comes from an exchange of the foreground, with its value, or from a dependency, and every dependency becomes a flow; fragments that were there are unchanged, except that one may be split.", "quantifier": "all archives, foregrounds (exchange lists in any order), dependencies", "why_tests_cant": "quantifies over all graphs and orders of exchanges", "anchors": ["antelope_catalog/implementations/foreground.py:ForegroundImplementation.create_forest", "antelope_catalog/implementations/foreground.py:ForegroundImplementation._new_node", "lcatools/entities/fragments.py:LcFragment.has_child", "lcatools/entities/fragment_editor.py:FragmentEditor.split_subfragment"]}
{"id": "C145", "title": "Traversals of fragments without loops end", "statement": "If no fragment depends on itself, `traverse` ends, and what it returns does not depend on the recursion limit once this is large enough. If a fragment depends on itself by non-zero amounts, traverse never returns a result, whatever the limit.", "quantifier": "all archives of fragments, scenarios, amounts; all recursion limits", "why_tests_cant": "quantifies over all fragment graphs; a loop shows only as a stack overflow", "anchors": ["lcatools/entities/fragments.py:LcFragment.traverse", "lcatools/entities/fragments.py:LcFragment._traverse_node", "lcatools/entities/fragments.py:LcFragment.terminate", "lcatools/entities/fragments.py:LcFragment.top"]}
{"id": "C146", "title": "Background queries answer for the product flow their arguments name", "statement": "is_in_background, is_in_scc, foreground, dependencies, emissions and consumers of the background interface answer for the product flow that the arguments name (a process and a reference flow, a process with its only reference, or a reference exchange), as the flat background of the database says; arguments that name no product flow raise.", "quantifier": "every database, index, process and flow; every way of giving the arguments", "why_tests_cant": "All databases and all forms of arguments.", "anchors": ["antelope_background/background/implementation.py::TarjanBackgroundImplementation._check_ref", "antelope_background/background/implementation.py::TarjanBackgroundImplementation.is_in_background", "antelope_background/background/implementation.py::TarjanBackgroundImplementation.is_in_scc", "antelope_background/background/implementation.py::TarjanBackgroundImplementation.foreground", "antelope_background/background/implementation.py::TarjanBackgroundImplementation.dependencies", "antelope_background/background/implementation.py::TarjanBackgroundImplementation.emissions", "antelope_background/background/implementation.py::TarjanBackgroundImplementation.consumers", "lcatools/implementations/background.py::BackgroundImplementation.bg_lcia"]}
{"id": "C147", "title": "The background interface lists every product flow once", "statement": "foreground_flows and background_flows of the background interface together list every product flow of the ordered database exactly once, as the reference exchange of its process with its direction, background_flows exactly those for which is_in_background is true; a search gives the flows found by it only.", "quantifier": "every database, strategy and search", "why_tests_cant": "All databases.", "anchors": ["antelope_background/background/implementation.py::TarjanBackgroundImplementation.foreground_flows", "antelope_background/background/implementation.py::TarjanBackgroundImplementation.background_flows", "antelope_background/background/implementation.py::TarjanBackgroundImplementation._exchange_from_term_ref"]}
{"id": "C148", "title": "A saved flat background is loaded as it was", "statement": "A flat background with a foreground that was written to a file completely and loaded again is the same and answers every query in the same way; one that was written without the complete matrices is loaded without what was left out.", "quantifier": "every database that can be ordered", "why_tests_cant": "All databases, all matrices.", "anchors": ["antelope_background/background/flat_background.py::FlatBackground.write_to_file", "antelope_background/background/flat_background.py::FlatBackground._write_mat", "antelope_background/background/flat_background.py::FlatBackground.from_file", "antelope_background/background/flat_background.py::FlatBackground._write_ordering", "antelope_background/background/flat_background.py::TermRef"]}
{"id": "C149", "title": "A proxy background knows every process as background", "statement": "Without a background engine, background_flows lists every reference exchange of every process the search finds, foreground_flows nothing, foreground(process) its reference exchange, is_in_background is true of the known processes, and exterior_flows lists the flows that no process produces.", "quantifier": "every archive and search", "why_tests_cant": "All archives.", "anchors": ["lcatools/implementations/background.py::BackgroundImplementation.background_flows", "lcatools/implementations/background.py::BackgroundImplementation.foreground_flows", "lcatools/implementations/background.py::BackgroundImplementation.foreground", "lcatools/implementations/background.py::BackgroundImplementation.exterior_flows", "lcatools/implementations/background.py::BackgroundImplementation.is_in_background"]}
{"id": "C150", "title": "Queries of a process reference are for the reference flow meant", "statement": "The background and inventory queries of a catalog reference to a process are those of the interface for the flow given, or else for the default reference flow, which is the only reference unless it was set to one of them.", "quantifier": "every process reference, query and form of the reference flow", "why_tests_cant": "All forms of arguments.", "anchors": ["lcatools/entity_refs/process_ref.py::ProcessRef.default_rx", "lcatools/entity_refs/process_ref.py::ProcessRef._use_ref_exch", "lcatools/entity_refs/process_ref.py::ProcessRef.exchange_relation", "lcatools/entity_refs/process_ref.py::ProcessRef.is_in_background", "lcatools/entity_refs/process_ref.py::ProcessRef.lci"]}
{"id": "C151", "title": "The unit score of a process node is the impact its child flows do not cover", "statement": "The unit score of a flow terminated to a process is the impact, at the location of the process, of its inventory (of its LCI for a background flow) without the reference flow and without the exchanges that child flows represent; a subfragment that is followed has none of its own and one that is aggregated has that of its flows.", "quantifier": "every termination, inventory, set of child flows and LCIA method that is a sum over exchanges", "why_tests_cant": "All inventories and all sets of child flows.", "anchors": ["lcatools/terminations.py::FlowTermination._unobserved_exchanges", "lcatools/terminations.py::FlowTermination.compute_unit_score", "lcatools/terminations.py::FlowTermination.term_is_bg", "lcatools/terminations.py::FlowTermination.is_subfrag"]}
{"id": "C152", "title": "A foreground node counts the impact of its own flow once", "statement": "A flow that terminates in its own fragment (an emission) contributes the amount of the flow, in the units of the terminating flow, times its factor, and emissions in their natural direction count positively.", "quantifier": "every flow, conversion, direction and factor", "why_tests_cant": "All conversions and all directions.", "anchors": ["lcatools/terminations.py::FlowTermination._unobserved_exchanges", "lcatools/terminations.py::FlowTermination.node_weight_multiplier", "lcatools/fragment_flows.py::frag_flow_lcia"]}
{"id": "C153", "title": "Cached unit scores are the current ones", "statement": "A unit score that is asked for is the current one: a repeated query gives the same result, refresh or clearing of the cache gives the one of the present child flows, inventory and factors, a score that was given is used, and other scores are not changed.", "quantifier": "every history of queries, changes, refreshes and clearings", "why_tests_cant": "All histories.", "anchors": ["lcatools/terminations.py::FlowTermination.score_cache", "lcatools/terminations.py::FlowTermination.clear_score_cache", "lcatools/terminations.py::FlowTermination.add_lcia_score"]}
{"id": "C154", "title": "The LCIA of a fragment is the sum over its flows of node weight times unit score", "statement": "The LCIA of fragment flows is the sum over the flows that are not cut off of node weight times unit score, or times the LCIA of the aggregated flows of a subfragment, with the sign given by the directions; it changes no unit score and is the same when repeated.", "quantifier": "every list of fragment flows of any depth, and every cache", "why_tests_cant": "Nesting and length are unbounded.", "anchors": ["lcatools/fragment_flows.py::frag_flow_lcia", "lcatools/terminations.py::FlowTermination.score_cache"]}
{"id": "C155", "title": "A linked EcoSpold v2 process holds the amounts of its datasets", "statement": "A process loaded from the linked datasets of its reference products has exactly these as references, all of them outputs, and its exchange relation with each reference is the amount the dataset of the reference lists, divided by that of the reference, and zero where only another dataset lists it; the order in which the datasets are loaded does not matter; a dataset that lists an exchange twice or without direction is refused.", "quantifier": "every set of datasets, of any length, in any order", "why_tests_cant": "Unboundedly many datasets, exchanges and orders.", "anchors": ["antelope_catalog/providers/ecospold2/ecospold2.py::EcospoldV2Archive._create_process_and_single_reference", "antelope_catalog/providers/ecospold2/ecospold2.py::EcospoldV2Archive._collect_exchanges", "antelope_catalog/providers/ecospold2/ecospold2.py::EcospoldV2Archive._fetch"]}
{"id": "C156", "title": "An unlinked EcoSpold v2 process holds the exchanges of its dataset in their units", "statement": "A process loaded from an unlinked dataset has exactly the exchanges of the dataset, with their amounts (also zero) and links; its references are the unlinked reference products and allocatable by-products; amounts are in the unit of the flow.", "quantifier": "every dataset", "why_tests_cant": "Datasets are unbounded.", "anchors": ["antelope_catalog/providers/ecospold2/ecospold2.py::EcospoldV2Archive._create_process_and_single_reference", "antelope_catalog/providers/ecospold2/ecospold2.py::EcospoldV2Archive._collect_exchanges", "antelope_catalog/providers/ecospold2/ecospold2.py::EcospoldV2Archive._create_flow"]}
{"id": "C157", "title": "A process whose EcoSpold v2 dataset could not be loaded is not in the archive", "statement": "If loading a dataset fails, a later query for the process loads it again or fails; loading all processes fails if one fails; a process loaded without exchanges gets them when they are asked for.", "quantifier": "every history of loads and failures", "why_tests_cant": "All histories.", "anchors": ["antelope_catalog/providers/ecospold2/ecospold2.py::EcospoldV2Archive._create_process_and_single_reference", "antelope_catalog/providers/ecospold2/ecospold2.py::EcospoldV2Archive._load_all", "lcatools/archives/entity_store.py::EntityStore.retrieve_or_fetch_entity"]}
{"id": "C158", "title": "Amounts of an EcoSpold v1 process are right in whatever unit its flows are kept", "statement": "A process loaded from an EcoSpold v1 dataset has exactly the flows and directions of the dataset; the amount of each, in the unit in which the archive keeps the flow, is worth the sum of the listed amounts in their own units, for every state of the archive, so that the order in which datasets are loaded does not matter; its references are the outputs of group 0 or 2, and the amount per unit of a reference is the ratio of the totals; entries without direction are left out.", "quantifier": "every dataset, every history of the archive, all units and conversions that are consistent", "why_tests_cant": "All datasets, units, conversions and loading orders.", "anchors": ["antelope_catalog/providers/ecospold.py::EcospoldV1Archive._create_flow", "antelope_catalog/providers/ecospold.py::EcospoldV1Archive._extract_exchanges", "antelope_catalog/providers/ecospold.py::EcospoldV1Archive._create_process", "antelope_catalog/providers/ecospold.py::conversion_dict"]}
{"id": "C159", "title": "A failed EcoSpold v1 load leaves no process", "statement": "If loading a dataset fails, the processes are as they were and a later query loads it again; a process once loaded stays as it is and is what queries return.", "quantifier": "every history of loads and failures", "why_tests_cant": "All histories.", "anchors": ["antelope_catalog/providers/ecospold.py::EcospoldV1Archive._create_process", "antelope_catalog/providers/ecospold.py::EcospoldV1Archive._fetch", "lcatools/archives/entity_store.py::EntityStore.retrieve_or_fetch_entity"]}
{"id": "C160", "title": "Every EcoSpold v1 dataset of an archive is available as a process", "statement": "Loading all gives a process for each dataset, and asking for a dataset by the name of its file returns its process.", "quantifier": "every collection of files", "why_tests_cant": "All collections of datasets.", "anchors": ["antelope_catalog/providers/ecospold.py::EcospoldV1Archive._create_process", "antelope_catalog/providers/ecospold.py::EcospoldV1Archive._fetch", "antelope_catalog/providers/ecospold.py::EcospoldV1Archive._load_all"]}
{"id": "C161", "title": "An OpenLCA process has the exchanges of its file", "statement": "A process loaded from an OpenLCA JSON-LD file has exactly the flows and directions of the file; the amount of each is the sum of the listed amounts, each converted from its unit to the reference unit of the flow property; its references are the quantitative references of the file and the products of its allocation factors that are not zero; other processes are unchanged; an exchange given in another flow property than the reference property of its flow is converted.", "quantifier": "every file, unit group and state of the archive", "why_tests_cant": "All files and unit groups.", "anchors": ["antelope_catalog/providers/openlca_jsonld.py::OpenLcaJsonLdArchive._create_unit", "antelope_catalog/providers/openlca_jsonld.py::OpenLcaJsonLdArchive._create_quantity", "antelope_catalog/providers/openlca_jsonld.py::OpenLcaJsonLdArchive._create_flow", "antelope_catalog/providers/openlca_jsonld.py::OpenLcaJsonLdArchive._add_exchange", "antelope_catalog/providers/openlca_jsonld.py::OpenLcaJsonLdArchive._create_process"]}
{"id": "C162", "title": "An OpenLCA process is allocated by its default method", "statement": "What an exchange is per unit of a reference of a loaded process that has a default allocation method is its amount times the share of the factor of the reference in the sum of the factors, over the amount of the reference.", "quantifier": "every file, all factors", "why_tests_cant": "All files and factors.", "anchors": ["antelope_catalog/providers/openlca_jsonld.py::OpenLcaJsonLdArchive._apply_olca_allocation", "antelope_catalog/providers/openlca_jsonld.py::OpenLcaJsonLdArchive._create_allocation_quantity", "antelope_catalog/providers/openlca_jsonld.py::OpenLcaJsonLdArchive._create_process"]}
{"id": "C163", "title": "A failed OpenLCA load leaves no process", "statement": "If loading a process fails, asking for it again does not return a truncated process.", "quantifier": "every history of loads", "why_tests_cant": "All histories.", "anchors": ["antelope_catalog/providers/openlca_jsonld.py::OpenLcaJsonLdArchive._create_process", "antelope_catalog/providers/openlca_jsonld.py::OpenLcaJsonLdArchive._fetch", "lcatools/archives/entity_store.py::EntityStore.retrieve_or_fetch_entity"]}
{"id": "C164", "title": "Searching an archive finds what matches", "statement": "Searching an archive, and the archives upstream of it, by regular expressions for properties yields exactly the stored entities of the type that have each named property and whose value for it matches each expression given, whatever the spelling of the property in upper and lower case.", "quantifier": "every archive, every set of expressions, any regular-expression matcher", "why_tests_cant": "All archives, property values and expressions.", "anchors": ["lcatools/archives/basic_archive.py::BasicArchive.search", "lcatools/archives/basic_archive.py::BasicArchive._narrow_search"]}
{"id": "C165", "title": "A partial id finds every entity whose id has it", "statement": "Looking up entities by part of an id, of an archive and if asked the archives upstream, yields exactly the entities whose ids pass the test, those of the archive first.", "quantifier": "every archive, chain of upstream archives and test", "why_tests_cant": "All chains and tests.", "anchors": ["lcatools/archives/entity_store.py::EntityStore.find_partial_id"]}
{"id": "C166", "title": "An index holds exactly the entities of the archive", "statement": "The index made of an archive holds exactly the entities of the archive that are of its entity types, each under its own id.", "quantifier": "every archive", "why_tests_cant": "All archives.", "anchors": ["lcatools/archives/archive_index.py::index_archive"]}
{"id": "C167", "title": "The index of an archive belongs to its origin", "statement": "The reference given to an index is not that of the archive, and queries of the origin of the archive find it; different archives get different references.", "quantifier": "every reference and date", "why_tests_cant": "All references.", "anchors": ["lcatools/archives/entity_store.py::construct_new_ref", "antelope_catalog/catalog/lc_resolver.py::LcCatalogResolver.resolve"]}
{"id": "C168", "title": "Indexing a source registers its index, and indexing again changes nothing or renews it", "statement": "Indexing a source registers exactly one new resource, for the index, under the reference that is returned, with the entities of the archive, stored if the source is; indexing it again without force returns the same reference and changes nothing; with force the new index replaces the old one.", "quantifier": "every catalog, source and day", "why_tests_cant": "All catalog states.", "anchors": ["antelope_catalog/catalog/catalog.py::LcCatalog._index_source", "antelope_catalog/catalog/catalog.py::LcCatalog.index_ref", "antelope_catalog/lc_resource.py::LcResource.make_index"]}
{"id": "C169", "title": "An entity is found by a text that contains its UUID", "statement": "An entity of an archive is found by any text in which its UUID stands, however the UUID is written: in capitals or small letters, with or without hyphens; and the UUID under which an entity is kept is in the usual form.", "quantifier": "every text and every archive without upstream", "why_tests_cant": "All texts around, and all spellings of, a UUID.", "anchors": ["lcatools/interfaces/__init__.py::to_uuid", "lcatools/archives/entity_store.py::EntityStore.__getitem__", "lcatools/archives/entity_store.py::EntityStore._key_to_id", "lcatools/entities/entities.py::LcEntity.__init__"]}
{"id": "C170", "title": "The unit of an ILCD flow property is the reference unit of its unit group", "statement": "A flow property of an ILCD archive has the reference unit of its unit group as its unit, and the conversion table lists each unit of the group with its factor.", "quantifier": "every unit group", "why_tests_cant": "All unit groups.", "anchors": ["antelope_catalog/providers/ilcd/ilcd.py::IlcdArchive._create_unit", "antelope_catalog/providers/ilcd/ilcd.py::IlcdArchive._create_quantity"]}
{"id": "C171", "title": "An ILCD process has the exchanges of its file", "statement": "A process loaded from an ILCD archive has exactly the exchanges of its file, duplicates added up, with its reference flow as its reference; its flows are in the archive, and other processes are unchanged.", "quantifier": "every archive, every process file and every set of flow files that belong to the references to them", "why_tests_cant": "All data sets.", "anchors": ["antelope_catalog/providers/ilcd/ilcd.py::IlcdArchive._create_process", "antelope_catalog/providers/ilcd/ilcd.py::IlcdArchive._create_process_entity", "antelope_catalog/providers/ilcd/ilcd.py::IlcdArchive._create_flow", "antelope_catalog/providers/ilcd/ilcd.py::IlcdArchive._fetch", "antelope_catalog/providers/ilcd/ilcd.py::IlcdArchive._check_or_retrieve_child"]}
{"id": "C172", "title": "A failed ILCD load leaves no process, and data sets in order load", "statement": "Loading a process from an ILCD archive fails only if its file is in error, and then no process is added to the archive.", "quantifier": "every archive and data set", "why_tests_cant": "All data sets and failures.", "anchors": ["antelope_catalog/providers/ilcd/ilcd.py::IlcdArchive._create_process", "antelope_catalog/providers/ilcd/ilcd.py::IlcdArchive._create_process_entity", "antelope_catalog/providers/ilcd/ilcd.py::IlcdArchive._fetch", "antelope_catalog/providers/ilcd/ilcd.py::IlcdArchive._check_or_retrieve_child"]}
{"id": "C173", "title": "The files a store lists are the files it reads", "statement": "A store of files (a directory, a zip or 7z file), with or without a prefix, lists exactly the files under its prefix, and reading a file by the name listed gives its content.", "quantifier": "every store and prefix", "why_tests_cant": "All sets of file names.", "anchors": ["antelope_catalog/providers/file_store.py::FileStore.listfiles", "antelope_catalog/providers/file_store.py::FileStore._gen_files", "antelope_catalog/providers/file_store.py::FileStore.readfile", "antelope_catalog/providers/file_store.py::FileStore._prefix", "antelope_catalog/providers/file_store.py::FileStore._de_prefix", "antelope_catalog/providers/file_store.py::FileStore.internal_prefix", "antelope_catalog/providers/file_store.py::FileStore._int_dirs_zip"]}
{"id": "C174", "title": "A file of a web address is the one under the address, and is kept", "statement": "Reading a file of a web address gives the file of that name under the address; if there is a cache it is kept, and later reads give the same without the web; other files of the cache stay.", "quantifier": "every address, file name, cache and state of the web", "why_tests_cant": "All histories of reads.", "anchors": ["antelope_catalog/providers/file_store.py::FileStore.readfile", "antelope_catalog/providers/file_store.py::FileStore.writefile", "antelope_catalog/providers/file_store.py::FileStore._create_cache_dir"]}
{"id": "C175", "title": "A fragment created from a process has its exchanges as child flows, rightly terminated", "statement": "A fragment created from a process has one child flow for each exchange other than its reference, of the same flow, direction and amount, terminated to what the exchange ends in: to a fragment of the supplying process, to a background fragment, to itself where processes form a loop, or left a cut-off; elementary flows are emissions. Fragments made before stay.", "quantifier": "every database, every process and every foreground", "why_tests_cant": "All databases, with any loops.", "anchors": ["antelope_catalog/implementations/foreground.py::ForegroundImplementation.create_fragment_from_node", "antelope_catalog/implementations/foreground.py::ForegroundImplementation._create_fragment_from_node", "antelope_catalog/implementations/foreground.py::ForegroundImplementation.find_or_create_term", "lcatools/terminations.py::FlowTermination.terminates"]}
{"id": "C176", "title": "LCIA results of a container are found by number, key or beginning of key and are at its scale", "statement": "A result in a container of LCIA results is found by its number, by its key or by the beginning of its key; the first such key is taken; all results are at the scale of the container.", "quantifier": "every history of stores, scalings, updates, deletions and clearings", "why_tests_cant": "All histories.", "anchors": ["lcatools/lcia_results.py::LciaResults.__getitem__", "lcatools/lcia_results.py::LciaResults.__setitem__", "lcatools/lcia_results.py::LciaResults.add", "lcatools/lcia_results.py::LciaResults.scale", "lcatools/lcia_results.py::LciaResults.update", "lcatools/lcia_results.py::LciaResults.clear", "lcatools/lcia_results.py::LciaResults.to_list"]}
{"id": "C177", "title": "The scenarios a fragment lists are the ones its traversal depends on", "statement": "A fragment lists, once and in order, the scenarios for which it, or a fragment below it or in its subfragments, has a value or a termination; a scenario that is not listed has no effect on its traversal.", "quantifier": "every set of fragments, every fragment and every set of scenarios", "why_tests_cant": "All fragments and scenario sets.", "anchors": ["lcatools/entities/fragments.py::LcFragment.scenarios", "lcatools/terminations.py::FlowTermination.is_subfrag", "lcatools/entities/fragments.py::LcFragment._match_scenario_ev", "lcatools/entities/fragments.py::LcFragment._match_scenario_term"]}
{"id": "C178", "title": "Cut-offs and inventories report what the traversal leaves open", "statement": "The cut-offs of a fragment are what its traversal leaves open, net amounts per flow and each flow once (or each by itself, if not aggregated), with the cut-offs of its background processes at their node weights; the inventory is the unit inventory scaled. Inputs come first.", "quantifier": "every set of fragments, every fragment, scenario and background", "why_tests_cant": "All fragments.", "anchors": ["lcatools/entities/fragments.py::LcFragment.cutoffs", "lcatools/entities/fragments.py::LcFragment.inventory", "lcatools/fragment_flows.py::group_ios"]}
{"id": "C179", "title": "Flows of an archive are one flowable exactly if names or CAS numbers connect them", "statement": "Two names, links or CAS numbers of flows of an archive are taken for the same flowable if and only if their flows are connected by a chain of equal names (up to case and spaces) or equal CAS numbers (up to leading zeros), whatever the order of the flows.", "quantifier": "every archive, every order of its flows and of sets", "why_tests_cant": "All archives and orders.", "anchors": ["lcatools/implementations/quantity.py::QuantityImplementation._init_flowables", "synlist/flowables.py::Flowables", "synlist/synlist.py::SynList"]}
{"id": "C180", "title": "Factors for a flowable are those of its flows", "statement": "factors(quantity, flowable, compartment) yields, in the order of the archive, exactly the factors for the quantity of the flows in the compartment that are the flowable asked for.", "quantifier": "every archive, quantity, flowable and compartment", "why_tests_cant": "All archives and queries.", "anchors": ["lcatools/implementations/quantity.py::QuantityImplementation.factors", "lcatools/implementations/quantity.py::QuantityImplementation.get_canonical", "lcatools/implementations/quantity.py::QuantityImplementation._fb"]}
{"id": "C181", "title": "Flowables lists each flowable once", "statement": "flowables(quantity, compartment) yields one pair of CAS number and name for each flowable with a flow that has a factor for the quantity and is in the compartment, sorted by name; compartments yields each compartment once.", "quantifier": "every archive, quantity and compartment, every order of sets", "why_tests_cant": "All archives and queries.", "anchors": ["lcatools/implementations/quantity.py::QuantityImplementation.flowables", "lcatools/implementations/quantity.py::QuantityImplementation.compartments"]}
{"id": "C182", "title": "Merging, collapsing and deleting compartments loses no names", "statement": "merge_subs of two subcompartments, and collapse of a subcompartment, leave the set of names known at the compartment and above it as it is; the absorbed compartment is not listed any more, its names denote the one that absorbed it, compartments elsewhere are unchanged; elementary status is kept; delete removes only empty compartments; known_names lists exactly the names at and below the compartment.", "quantifier": "every hierarchy, compartment, arguments, and order of sets", "why_tests_cant": "All hierarchies and iteration orders.", "anchors": ["lcatools/flowdb/compartments.py::Compartment.merge_subs", "lcatools/flowdb/compartments.py::Compartment.collapse", "lcatools/flowdb/compartments.py::Compartment.delete", "lcatools/flowdb/compartments.py::Compartment.known_names", "lcatools/flowdb/compartments.py::Compartment._merge_sub"]}
{"id": "C183", "title": "The local file and interactive merging only add what they should", "statement": "Loading a local compartment file keeps all known names and adds exactly those of its root and of its branches for intermediate and elementary flows. An interactive find_matching adds at most the names asked for and loses none, whatever the answers; if it returns a compartment, asking again gives it and the hierarchy was saved; if it raises, the hierarchy is unchanged.", "quantifier": "every hierarchy, file, name, answers of the user, and order of sets", "why_tests_cant": "All hierarchies, files and answers.", "anchors": ["lcatools/flowdb/compartments.py::CompartmentManager._load_compartments", "lcatools/flowdb/compartments.py::CompartmentManager._merge_compartment", "lcatools/flowdb/compartments.py::CompartmentManager.find_matching", "lcatools/flowdb/compartments.py::CompartmentManager.save", "lcatools/flowdb/compartments.py::Compartment.uproot", "lcatools/flowdb/compartments.py::Compartment.from_json"]}
{"id": "C184", "title": "CAS numbers keep their identity between number and text", "statement": "The TRACI provider writes a CAS number with dashes before the last three and the last digit, and reads the same number back from that text; different numbers have different texts. A text with dashes is accepted as it is, and a query with the text of a CAS number finds the rows with that number.", "quantifier": "every number and every text", "why_tests_cant": "All numbers; the failing ones (ten digits) are rare in data.", "anchors": ["antelope_catalog/providers/traci/quantity.py::CAS_regexp", "antelope_catalog/providers/traci/quantity.py::transform_numeric_cas", "antelope_catalog/providers/traci/traci_2_1_spreadsheet.py::transform_string_cas", "antelope_catalog/providers/traci/traci_2_1_spreadsheet.py::Traci21Factors.row_for_key"]}
{"id": "C185", "title": "Loading TRACI stores the factors of the table", "statement": "After load_all the factor of a substance in a compartment for a category is the first non-zero one the table lists for it; flows exist exactly for substances and compartments with a factor, with their name and compartment; load_all returns exactly when every row with a factor has a CAS number that can be read.", "quantifier": "every table, column description (compartments without comma), and lower-case function", "why_tests_cant": "All tables.", "anchors": ["antelope_catalog/providers/traci/traci_2_1_spreadsheet.py::Traci21Factors._load_all", "antelope_catalog/providers/traci/traci_2_1_spreadsheet.py::Traci21Factors._add_flowable", "antelope_catalog/providers/traci/traci_2_1_spreadsheet.py::Traci21Factors._create_flow", "antelope_catalog/providers/traci/traci_2_1_spreadsheet.py::Traci21Factors._flow_key"]}
{"id": "C186", "title": "A query of TRACI gives all factors of the table and agrees with the loaded ones", "statement": "factors gives the factor of every non-zero cell of the rows asked for, in the order of the sheet, and changes no factor in the archive; for a substance asked by name the loaded factor is the first of them; compartments gives those of the first row of the substance, each once.", "quantifier": "every table, column description, archive state, category, substance and compartment", "why_tests_cant": "All tables and queries.", "anchors": ["antelope_catalog/providers/traci/traci_2_1_spreadsheet.py::Traci21Factors.cf_for_method_and_compartment", "antelope_catalog/providers/traci/traci_2_1_spreadsheet.py::Traci21Factors.row_for_key", "antelope_catalog/providers/traci/quantity.py::Traci21QuantityImplementation.factors", "antelope_catalog/providers/traci/quantity.py::Traci21QuantityImplementation.compartments"]}
{"id": "C187", "title": "Loading the ecoinvent LCIA table stores every factor or raises", "statement": "_load_all returns exactly when every row has a number (the known issue, if there is one, else the value) and no two rows have the same flow and quantity; then every row's factor is stored on the flow with its name, compartment and subcompartment, and there are no others; otherwise it stops at the first bad row, and the archive holds the factors of the rows before it.", "quantifier": "every table", "why_tests_cant": "All tables, and where the bad row is.", "anchors": ["antelope_catalog/providers/ecoinvent_lcia.py::EcoinventLcia._load_all", "antelope_catalog/providers/ecoinvent_lcia.py::EcoinventLcia._create_flow", "antelope_catalog/providers/ecoinvent_lcia.py::EcoinventLcia._create_quantity", "antelope_catalog/providers/ecoinvent_lcia.py::EcoinventLcia._get_value", "antelope_catalog/providers/ecoinvent_lcia.py::EcoinventLcia._flow_key"]}
{"id": "C188", "title": "Loading an ILCD method stores the factors of its file", "statement": "load_lcia_method returns exactly when each factor it has to load is a number for a flow that is there or can be read; then every flow has, for each location, the first factor the file lists for it, and its global factor; flows are added only with load_all_flows; factors for other quantities are unchanged; loading again changes nothing.", "quantifier": "every archive, method file, quantity and option", "why_tests_cant": "All files and all orders of the factors in them.", "anchors": ["antelope_catalog/providers/ilcd/ilcd_lcia.py::IlcdLcia.load_lcia_method", "antelope_catalog/providers/ilcd/ilcd_lcia.py::IlcdLcia._load_factor", "antelope_catalog/providers/ilcd/ilcd_lcia.py::IlcdLcia._create_lcia_quantity", "lcatools/entities/flows.py::LcFlow.has_characterization", "lcatools/entities/flows.py::LcFlow.cf"]}
{"id": "C189", "title": "Methods and queries of an ILCD archive", "statement": "load_lcia brings in every method listed, with the values of its file for every flow; a query for the factors of a quantity gives one per entry of the file, in order, filtered by name or CAS number, and leaves the flows with these values; flowables lists CAS number and name of its flows, each once.", "quantifier": "every archive, list of methods, files and query", "why_tests_cant": "All archives and histories before the call.", "anchors": ["antelope_catalog/providers/ilcd/ilcd_lcia.py::IlcdLcia.load_lcia", "antelope_catalog/providers/ilcd/ilcd_lcia.py::IlcdLcia.generate_factors", "antelope_catalog/providers/ilcd/quantity.py::IlcdQuantityImplementation.factors", "antelope_catalog/providers/ilcd/quantity.py::IlcdQuantityImplementation.flowables"]}
{"id": "C190", "title": "Terminating a fragment to a process makes one child flow per exchange", "statement": "terminate_fragment(fragment, process) terminates the fragment to the process and gives it exactly one new child flow per product flow of the process's inventory (and per elementary flow with include_elementary), in order, with flow, direction and amount of the exchange; elementary flows become foreground emissions, flows in the background are terminated to a background fragment for that process and flow (an existing one, else a new one), other flows to an existing foreground fragment, else they stay cut-offs that remember the process. The observed value of each child flow is the amount of its exchange. No other fragment changes.", "quantifier": "every foreground, fragment without child flows, inventory, background answer", "why_tests_cant": "All inventories, all archives of fragments.", "anchors": ["antelope_catalog/implementations/foreground.py::ForegroundImplementation.terminate_fragment", "antelope_catalog/implementations/foreground.py::ForegroundImplementation._child_fragments", "antelope_catalog/implementations/foreground.py::ForegroundImplementation.find_or_create_term", "lcatools/terminations.py::FlowTermination.terminates", "lcatools/entities/fragments.py::LcFragment.cached_ev"]}
{"id": "C191", "title": "Terminating a fragment in a scenario leaves the default scenario as it was", "statement": "terminate_fragment(fragment, process, scenario=s) sets the termination of scenario s only: the default termination and those of other scenarios are what they were; child flows get the amounts of the exchanges as values in scenario s.", "quantifier": "every foreground, fragment without child flows, scenario name, inventory", "why_tests_cant": "All inventories, all archives of fragments.", "anchors": ["antelope_catalog/implementations/foreground.py::ForegroundImplementation.terminate_fragment", "antelope_catalog/implementations/foreground.py::ForegroundImplementation._child_fragments", "lcatools/entities/fragment_editor.py::FragmentEditor.create_fragment", "lcatools/entities/fragments.py::LcFragment.to_foreground"]}
{"id": "C192", "title": "terminate_fragment refuses what it cannot do, without a change", "statement": "A fragment that is terminated already is refused and left alone; terminating a fragment again after clearing the termination does not repeat child flows, nor touch what was observed for those it has; a fragment may be given as the termination.", "quantifier": "every foreground, fragment, termination, scenario", "why_tests_cant": "All states of the fragments.", "anchors": ["antelope_catalog/implementations/foreground.py::ForegroundImplementation.terminate_fragment", "antelope_catalog/implementations/foreground.py::ForegroundImplementation._child_fragments", "lcatools/entities/fragments.py::LcFragment.inventory", "lcatools/entities/fragments.py::LcFragment.observe"]}
{"id": "C193", "title": "A saved archive opens again under its reference", "statement": "An archive written with write_to_file and opened from that file with from_file (or archive_from_json) has the semantic reference it had, the file is its source, and it knows every source it knew under the same reference, and the file.", "quantifier": "every archive after any history of name registrations, every new file, with or without gzip", "why_tests_cant": "All tables of names, all histories.", "anchors": ["lcatools/archives/entity_store.py::EntityStore.write_to_file", "lcatools/archives/entity_store.py::EntityStore.serialize", "lcatools/archives/basic_archive.py::BasicArchive.from_file", "lcatools/archives/basic_archive.py::BasicArchive.from_already_open_file", "lcatools/archives/basic_archive.py::BasicArchive.load_from_dict"]}
{"id": "C194", "title": "A descendant archive opens again under its reference", "statement": "create_descendant gives the archive a new reference, different from the old one, and the new file as its source; names known before stay; an existing file is replaced only with force; the file, opened, is the descendant.", "quantifier": "every archive after any history, every signifier and path", "why_tests_cant": "All tables of names, all histories.", "anchors": ["lcatools/archives/entity_store.py::EntityStore.create_descendant", "lcatools/archives/entity_store.py::EntityStore._set_source", "lcatools/archives/entity_store.py::EntityStore.write_to_file", "lcatools/archives/basic_archive.py::BasicArchive.from_file"]}
{"id": "C195", "title": "Reading a file into an archive keeps its reference and adds the file's names", "statement": "load_from_dict (update_archive, used for caches) into an archive with a source: if the file and the archive agree on the reference of every source, the archive knows what it knew and what the file lists, the file itself under the reference of the archive, and its own source and reference are unchanged; if they disagree, SourceAlreadyKnown is raised.", "quantifier": "every archive, every file of the present form", "why_tests_cant": "All tables of names, all documents.", "anchors": ["lcatools/archives/basic_archive.py::BasicArchive.load_from_dict", "lcatools/archives/entity_store.py::EntityStore._add_name", "lcatools/archives/__init__.py::update_archive"]}
{"id": "C196", "title": "contrib_query answers for the stages asked", "statement": "contrib_query(stages) has one number per stage in order: the cumulative result of the component with that key, or 0 if there is none; '*' gives the total; it raises just when the total is 0 and the numbers' sum is not. contrib_query() has the numbers of all components, which add up to the total.", "quantifier": "every result, every list of stages", "why_tests_cant": "All tables of components and queries.", "anchors": ["lcatools/lcia_results.py::LciaResult.contrib_query", "lcatools/lcia_results.py::LciaResult.component_entities", "antelope_reports/charts/base.py::has_nonzero", "antelope_reports/charts/base.py::has_pos_neg"]}
{"id": "C197", "title": "A waterfall chart adds up to the total", "statement": "In every row of a WaterfallChart the first bar starts at the origin, every other where the one before ended; a stage's bar has the length of that component in the chart's unit, which is the same for all rows and the largest of the results' scales (1 without auto-ranging); the bars add up to the total but for a remainder of less than 10 ppb of the row's span, none with '*' among the stages. With the remainder bar (default) and a scale for every result a chart is always drawn.", "quantifier": "every list of results, every list of stages, with or without auto-ranging", "why_tests_cant": "All results, all stages, all scales.", "anchors": ["antelope_reports/charts/waterfall.py::WaterfallChart.__init__", "antelope_reports/charts/waterfall.py::WaterfallChart._adjust_autorange", "antelope_reports/charts/waterfall.py::_data_range", "lcatools/lcia_results.py::LciaResult.contrib_new"]}
{"id": "C198", "title": "Negative bars of a waterfall are faded, others are not", "statement": "A bar's colour is faded once if it is negative and not at all if not.", "quantifier": "every chart, every row and stage", "why_tests_cant": "All results, all stages.", "anchors": ["antelope_reports/charts/waterfall.py::WaterfallChart._waterfall_horiz"]}
{"id": "C199", "title": "The span of a waterfall covers its bars", "statement": "All bars of all rows are within the chart's span, whose limits are the origin or the end of a bar.", "quantifier": "every list of results and of stages", "why_tests_cant": "All results, all stages, all scales.", "anchors": ["antelope_reports/charts/waterfall.py::_data_range", "antelope_reports/charts/waterfall.py::WaterfallChart._adjust_autorange", "antelope_reports/charts/waterfall.py::WaterfallChart.int_threshold"]}
{"id": "C200", "title": "A chart of positive and negative parts shows the total", "statement": "PosNegChart draws for every result a bar from the origin to the sum of its positive components, and, just if there are negative ones, a bar from there to the total and a line from the origin to the total; bars of one result and of different results do not overlap for a bar width of at most a third. It raises just if a result is private.", "quantifier": "every list of results, every bar width up to a third, every scale", "why_tests_cant": "All results, any number of them.", "anchors": ["antelope_reports/charts/pos_neg.py::PosNegChart.__init__", "antelope_reports/charts/pos_neg.py::PosNegChart._pos_neg_vert"]}
{"id": "C201", "title": "Stacked bars show every datum once, in order, within the axis", "statement": "stack_bars draws a bar per series: its positive data one after the other to the right of the origin up to their sum, the negative ones to the left up to theirs, one segment per datum that is not 0; the sums are printed; the net marker is at the total and is drawn just if there are data of both signs; series lie below each other without overlap, within the limits of the axis. With fewer colours than data it raises, unless all data are 0.", "quantifier": "every list of series", "why_tests_cant": "All data, any number of series.", "anchors": ["antelope_reports/charts/combi.py::_one_bar", "antelope_reports/charts/combi.py::stack_bars"]}
{"id": "C202", "title": "Scenarios side by side tile their group", "statement": "spread_scenario_compare: at every stage the bars of the scenarios lie next to each other in order, fill exactly the group's width, centred at the stage; groups of different stages do not overlap.", "quantifier": "every number of scenarios and stages, every group width below 1", "why_tests_cant": "Any number of scenarios and stages.", "anchors": ["antelope_reports/charts/vertical.py::spread_scenario_compare", "antelope_reports/charts/vertical.py::spread_bars"]}
{"id": "C203", "title": "An LCIA result of a process from a v1 server is what the server said", "statement": "lcia(process) raises, or returns a result whose only component is the process, with nothing lost, whose total is the sum of quantity × factor over the details of the answer (its cumulative result without details), within 1e-8 of the server's total. It raises if the answer has no or several components, is about another process, or its amount is off; an answer with only the server's total is accepted.", "quantifier": "every answer of the server, every list of stages, every location of the process", "why_tests_cant": "All answers, any number of details.", "anchors": ["antelope_catalog/providers/v1_client/inventory.py::AntelopeInventoryImplementation.lcia", "antelope_catalog/providers/v1_client/inventory.py::AntelopeInventoryImplementation.add_lcia_component", "antelope_catalog/providers/v1_client/inventory.py::AntelopeInventoryImplementation._add_lcia_detail", "antelope_catalog/providers/v1_client/inventory.py::AntelopeInventoryImplementation.check_total"]}
{"id": "C204", "title": "An LCIA result of a fragment from a v1 server adds up every component", "statement": "fragment_lcia raises, or returns a result whose value under every key is the sum of the amounts of the answer's components about it (process, fragment flow, or the stage's name), none lost, with the total of all amounts, within 1e-8 of the server's. No answer is an empty result. An answer of listed stages that adds up to the total is accepted; one whose amounts are off, with details for something else than a process, or with a component that is about nothing known raises.", "quantifier": "every answer of the server, every list of stages", "why_tests_cant": "All answers, any number of components.", "anchors": ["antelope_catalog/providers/v1_client/inventory.py::AntelopeInventoryImplementation.fragment_lcia", "antelope_catalog/providers/v1_client/inventory.py::AntelopeInventoryImplementation.add_lcia_component", "antelope_catalog/providers/v1_client/inventory.py::AntelopeInventoryImplementation.check_total"]}
{"id": "C205", "title": "Every listed stage has its name", "statement": "get_stage_name(id) returns the name listed for the id.", "quantifier": "every list of stages with distinct ids, every id", "why_tests_cant": "All lists of stages.", "anchors": ["antelope_catalog/providers/v1_client/inventory.py::AntelopeInventoryImplementation.get_stage_name"]}
{"id": "C206", "title": "An entity of a v1 server is one object, the one asked for", "statement": "What is retrieved under kind/id describes the entity of that kind and id; retrieved again, after any sequence of other retrievals, it is the same object, without a request; retrieving by an uuid works for entities the client has come across.", "quantifier": "every consistent server, every state of the archive, every sequence of retrievals", "why_tests_cant": "All servers, all histories.", "anchors": ["antelope_catalog/providers/v1_client/antelope_v1.py::AntelopeV1Client.retrieve_or_fetch_entity", "antelope_catalog/providers/v1_client/antelope_v1.py::AntelopeV1Client._fetch", "antelope_catalog/providers/v1_client/antelope_v1.py::AntelopeV1Client._parse_and_save_entity", "antelope_catalog/providers/v1_client/antelope_v1.py::AntelopeV1Client._parse_and_save_flow", "antelope_catalog/providers/v1_client/antelope_v1.py::AntelopeV1Client._parse_and_save_fragment"]}
{"id": "C207", "title": "Listing the entities of a v1 server", "statement": "The first listing of a kind gives one object for each document of the server, in its order; later ones make no request, change nothing, and give the objects kept, each once (flow properties that are methods, and methods that are not, left out), ordered by the id as a text; the same again.", "quantifier": "every consistent server, every state of the archive", "why_tests_cant": "All servers, all histories.", "anchors": ["antelope_catalog/providers/v1_client/antelope_v1.py::AntelopeV1Client.entities_by_type", "antelope_catalog/providers/v1_client/antelope_v1.py::AntelopeV1Client.__init__"]}
{"id": "C208", "title": "Fragment flows of a v1 server", "statement": "traverse gives one flow per fragment flow of the server, roots first and then by id; inbound exchange value × node weight = magnitude; what was known of flows is unchanged and what the server says of them is known, or close to it; traversing again gives the same and adds nothing.", "quantifier": "every list of fragment flows, every table of characterizations", "why_tests_cant": "All lists of fragment flows, all histories.", "anchors": ["antelope_catalog/providers/v1_client/inventory.py::AntelopeInventoryImplementation.traverse", "antelope_catalog/providers/v1_client/antelope_v1.py::AntelopeV1Client.make_fragment_flow", "lcatools/fragment_flows.py::FragmentFlow.from_antelope_v1"]}
{"id": "C209", "title": "The canonical quantity of a term never changes", "statement": "Whatever quantities are registered, a term that has a canonical quantity keeps it. A flow property is refused exactly if its terms (uuid, link, name, synonyms) are known for two different quantities; otherwise all its terms stand for one quantity, the one known before or else the new one, and registering it again gives the same index.", "quantifier": "every state reachable by registering quantities, every sequence of quantities, every order of sets", "why_tests_cant": "All histories, any number of quantities and synonyms.", "anchors": ["lcatools/qdb/qdb.py::Qdb._add_or_merge_quantity", "lcatools/qdb/qdb.py::Qdb._get_q_ind", "lcatools/qdb/qdb.py::Qdb._get_canonical", "lcatools/qdb/qdb.py::Qdb._q_terms", "synlist/synlist.py::SynList.add_set"]}
{"id": "C210", "title": "An LCIA method has one index", "statement": "Registering an LCIA method gives it an index of its own, and the same whenever it is registered again.", "quantifier": "every state, every method, every order of sets", "why_tests_cant": "All histories, any number of methods and synonyms.", "anchors": ["lcatools/qdb/qdb.py::Qdb._add_or_merge_quantity", "lcatools/qdb/qdb.py::Qdb._get_q_ind", "synlist/synlist.py::SynList.add_set", "synlist/synlist.py::SynList._new_set"]}
{"id": "C211", "title": "Adding synonyms to a quantity", "statement": "add_synonyms raises exactly if the main term is unknown or one of the others stands for another quantity; otherwise all of them have the canonical quantity of the main term, and every term keeps the one it had.", "quantifier": "every state, every main term, every list of synonyms, every order of sets", "why_tests_cant": "All states, any number of synonyms.", "anchors": ["lcatools/qdb/qdb.py::Qdb.add_synonyms", "synlist/synlist.py::SynList.add_set", "synlist/synlist.py::SynList._merge_set_with_index"]}
{"id": "C212", "title": "An allocation table shows every exchange, once, and adds up", "statement": "The columns of an AllocationGrid are, for each process in order, the unallocated inventory (if asked for) and one per reference, leaving out those without any valued exchange. There is one group of lines per row (direction, reference or not, compartment, name), in a fixed order, with one line per name; each cell is the sum of the amounts of the column's exchanges in that row under that name, or empty; the cells of a column add up to the amounts of its exchanges plus 1 per reference. The lines come in a definite order.", "quantifier": "every list of processes, every inventory, every order of sets", "why_tests_cant": "All inventories, any number of columns, rows and names.", "anchors": ["antelope_reports/tables/allocation.py::AllocationGrid.add_column", "antelope_reports/tables/allocation.py::AllocationGrid._add_alloc_column", "antelope_reports/tables/allocation.py::AllocationGrid._add_alloc_refs", "antelope_reports/tables/allocation.py::AllocationGrid._extract_data_from_item", "antelope_reports/tables/allocation.py::AllocationGrid._sorted_rows", "antelope_reports/tables/base.py::BaseTableOutput._build_row", "antelope_reports/tables/base.py::BaseTableOutput._add_rowitem"]}
{"id": "C213", "title": "The headings of an allocation table tell the rows", "statement": "Reading down the first lines of the groups, with the ditto mark standing for the direction above in the printed table, gives the directions of the rows, and exactly the rows of references are marked.", "quantifier": "every list of processes, every inventory, printed or as a data frame", "why_tests_cant": "All tables.", "anchors": ["antelope_reports/tables/allocation.py::AllocationGrid._build_near_header", "antelope_reports/tables/base.py::BaseTableOutput.text", "antelope_reports/tables/base.py::BaseTableOutput.dataframe"]}
{"id": "C214", "title": "The cells of a flowables table", "statement": "The cell of a column of characterizations shows every nonzero factor at every location under the name of its flow or location, and no other nonzero amount; naming always ends. The cell of exchanges or results has under each name the sum of the amounts. The table can be printed.", "quantifier": "every list of items of a cell", "why_tests_cant": "All lists of factors, any number of clashes of names.", "anchors": ["antelope_reports/tables/flowables.py::FlowablesGrid._extract_data_from_item", "antelope_reports/tables/base.py::BaseTableOutput.text", "antelope_reports/tables/base.py::BaseTableOutput._build_row"]}
{"id": "C215", "title": "Taking in a flow never moves a known term, and makes its terms known", "statement": "add_new_flowable (add_flowable_from_flow, add_cf) never changes which flowable a known term leads to, whether it returns or raises. If it returns, every nonempty term given leads to a flowable, which find_flowables lists.", "quantifier": "every history of loading records and taking in flows, calls that raise included; every list of terms; every order of sets", "why_tests_cant": "All histories and all terms.", "anchors": ["lcatools/qdb/qdb.py::Qdb.add_new_flowable", "lcatools/qdb/qdb.py::Qdb.add_flowable_from_flow", "lcatools/qdb/qdb.py::Qdb.find_flowables", "lcatools/qdb/qdb.py::Qdb._flow_terms", "synlist/synlist.py::SynList.add_set", "synlist/synlist.py::SynList._new_set", "synlist/flowables.py::Flowables._new_term", "synlist/flowables.py::Flowables._merge_set_with_index"]}
{"id": "C216", "title": "Which flowable a flow is given", "statement": "With nothing known, add_new_flowable makes a new flowable of all terms. If the known terms lead to one flowable, the other terms are added to it and it is returned, unless their CAS number is another, in which case they become a new flowable. If they lead to several, the other terms are added to the highest one, or None is returned if there are none.", "quantifier": "every reachable list of flowables, every list of terms, every order of sets", "why_tests_cant": "All states and lists of terms.", "anchors": ["lcatools/qdb/qdb.py::Qdb.add_new_flowable", "synlist/synlist.py::SynList.add_set", "synlist/synlist.py::SynList.find_indices", "synlist/synlist.py::SynList.add_synonyms", "synlist/flowables.py::Flowables._merge_set_with_index"]}
{"id": "C217", "title": "A flow can always be taken in", "statement": "add_new_flowable never raises, and a call that raises leaves no trace.", "quantifier": "every reachable list of flowables, every list of terms, every order of sets", "why_tests_cant": "All states and lists of terms.", "anchors": ["lcatools/qdb/qdb.py::Qdb.add_new_flowable", "synlist/flowables.py::Flowables._merge_set_with_index", "synlist/flowables.py::Flowables._new_term", "synlist/synlist.py::SynList.new_item"]}
{"id": "C218", "title": "Unit scores survive saving and loading", "statement": "If a foreground is saved with unit scores, then loading it gives each background termination the same cached quantities, in the same sequence, with the same totals; nothing is written for other terminations or if not asked for.", "quantifier": "every cache made by storing results and clearing, every catalog", "why_tests_cant": "All caches of any size.", "anchors": ["lcatools/terminations.py::FlowTermination._serialize_score_cache", "lcatools/terminations.py::FlowTermination._deserialize_score_cache", "lcatools/terminations.py::FlowTermination.add_lcia_score", "lcatools/terminations.py::FlowTermination.serialize", "lcatools/terminations.py::FlowTermination.from_json", "lcatools/lcia_results.py::LciaResults"]}
{"id": "C219", "title": "The exchanges of an ecoinvent spreadsheet become flows and quantities", "statement": "After the two sheets of exchanges are read, each unit is a quantity and each key of a row (the name, or for elementary rows the name with the compartments) is a flow; the flow has the name, compartments and unit of the first such row, and each other field from the last such row that has it. Nothing else is in the archive, and the sequence in which the set of units is met does not matter.", "quantifier": "every pair of sheets, every order of the units", "why_tests_cant": "All sheets, with repeated rows, and all set orders.", "anchors": ["antelope_catalog/providers/ecoinvent_spreadsheet.py::EcoinventSpreadsheet._create_quantity", "antelope_catalog/providers/ecoinvent_spreadsheet.py::EcoinventSpreadsheet._create_flow", "antelope_catalog/providers/ecoinvent_spreadsheet.py::EcoinventSpreadsheet._create_quantities", "antelope_catalog/providers/ecoinvent_spreadsheet.py::EcoinventSpreadsheet._elementary_key", "antelope_catalog/providers/ecoinvent_spreadsheet.py::EcoinventSpreadsheet._external_intermediate", "antelope_catalog/providers/ecoinvent_spreadsheet.py::EcoinventSpreadsheet._external_elementary", "antelope_catalog/providers/ecoinvent_spreadsheet.py::EcoinventSpreadsheet._internal_intermediate", "antelope_catalog/providers/ecoinvent_spreadsheet.py::EcoinventSpreadsheet._internal_elementary"]}
{"id": "C220", "title": "The activities of an ecoinvent spreadsheet become processes", "statement": "Loading returns exactly if each activity has a valid uuid and a product that is known. Then the processes are exactly the activities in the sheet, one for all spellings of a uuid, each with the name and place of its first row, one output for each product, and those marked as reference products as references; flows and quantities are not changed.", "quantifier": "every spreadsheet", "why_tests_cant": "All sheets of activities with any number of rows per activity.", "anchors": ["antelope_catalog/providers/ecoinvent_spreadsheet.py::EcoinventSpreadsheet.load_activities", "antelope_catalog/providers/ecoinvent_spreadsheet.py::EcoinventSpreadsheet._load_all"]}
{"id": "C221", "title": "A background manager reports the dependencies of a product flow", "statement": "The dependencies of a product flow are its exchanges with the product flows of the background, with whom, in which direction and how much per unit of net output; those of a foreground product flow come sorted by position in the background.", "quantifier": "every inventory database, every set of reference products, every product flow whose net output is not zero, every order of sets", "why_tests_cant": "All databases, with cycles, self use, wastes and cancelling exchanges.", "anchors": ["antelope_background/engine/background_manager.py::BackgroundManager.dependencies", "antelope_background/engine/background_manager.py::BackgroundManager._background_dependencies", "antelope_background/engine/background_engine.py::BackgroundEngine.foreground_dependencies", "antelope_background/engine/background_engine.py::BackgroundEngine.make_foreground"]}
{"id": "C222", "title": "A background manager reports the emissions of a product flow", "statement": "The emissions of a product flow are its exchanges with the exterior, per unit of net output: one for one for a foreground product flow, in one total per exterior flow for a background one (no total being zero).", "quantifier": "every inventory database, every set of reference products, every product flow whose net output is not zero, every order of sets", "why_tests_cant": "All databases and histories.", "anchors": ["antelope_background/engine/background_manager.py::BackgroundManager.emissions", "antelope_background/engine/background_manager.py::BackgroundManager._background_emissions", "antelope_background/engine/background_engine.py::BackgroundEngine.foreground_emissions"]}
{"id": "C223", "title": "A background manager reports the inventory of a product flow", "statement": "The inventory of a product flow is its reference exchange, its exchanges with other product flows in their direction and (positive) amount, and its exchanges with the exterior, per unit of net output.", "quantifier": "every inventory database, every set of reference products, every product flow whose net output is not zero, every order of sets", "why_tests_cant": "All databases: whether the code is right depends on whether the product flow is in the background, emits, or has by-products.", "anchors": ["antelope_background/engine/background_manager.py::BackgroundManager.inventory"]}
{"id": "C224", "title": "A background manager reports the foreground of a product flow", "statement": "The foreground of a product flow is its reference exchange and then the exchanges between the product flows outside the background that it depends on directly or indirectly: supplier by supplier in the order of the foreground with the queried flow first, for each supplier one exchange per user with the direction and the total per unit of the user's net output. A background product flow has no more than its reference exchange.", "quantifier": "every inventory database, every set of reference products, every known product flow, every order of sets", "why_tests_cant": "All databases with foregrounds of any depth.", "anchors": ["antelope_background/engine/background_manager.py::BackgroundManager.foreground", "antelope_background/engine/background_engine.py::BackgroundEngine.make_foreground"]}
{"id": "C225", "title": "The LCIA scores of an Ecospold2 dataset are found by the names of the methods", "statement": "retrieve_lcia_scores returns exactly if no two of the methods asked for have one name and each score in the dataset is a number. Then it has one result for each method of which the dataset has a score, under the uuid of the method, whose total is that score (the last, if there are several), and which is a score of the process.", "quantifier": "every dataset, every list of quantities with different uuids", "why_tests_cant": "All datasets and lists of quantities.", "anchors": ["antelope_catalog/providers/ecospold2/ecospold2.py::EcospoldV2Archive.retrieve_lcia_scores", "antelope_catalog/providers/ecospold2/ecospold2.py::EcospoldV2Archive._collect_impact_scores"]}
{"id": "C226", "title": "A key of an old synonym list is in one set, the one its index names", "statement": "In a list built by add_key, add_set and _add_set with trimmed keys, merge_indices, and add_synonym of keys that are not in another set, index(k) is i exactly if the set at i has the trimmed key, and no key is in two sets.", "quantifier": "every history of these operations, every order in which a set of indices is gone through, every outcome of merge_indices", "why_tests_cant": "All histories and iteration orders.", "anchors": ["lcatools/flowdb/synlist.py::SynList._new_key", "lcatools/flowdb/synlist.py::SynList.new_set", "lcatools/flowdb/synlist.py::SynList.add_set", "lcatools/flowdb/synlist.py::SynList.merge_indices", "lcatools/flowdb/synlist.py::SynList.add_synonym", "antelope_utilities/flowables/create_synonyms.py::_add_set"]}
{"id": "C227", "title": "Adding keys to an old synonym list moves no key that is in it", "statement": "add_set is refused exactly if two of the keys are in different sets. Otherwise it puts the keys that were unknown in the set it returns, which is the one that had some of them if merging was asked for and there is one, and a new one with the name given otherwise; every other key stays where it was. add_key returns the index of the key, or of a new set with it. After add_synonym both keys are found under the index returned.", "quantifier": "every list built by the methods, every set of trimmed keys, both values of merge", "why_tests_cant": "All lists and sets of keys.", "anchors": ["lcatools/flowdb/synlist.py::SynList.add_key", "lcatools/flowdb/synlist.py::SynList.find_indices", "lcatools/flowdb/synlist.py::SynList.merge_set_with_index", "lcatools/flowdb/synlist.py::SynList.new_set", "lcatools/flowdb/synlist.py::SynList.add_set", "lcatools/flowdb/synlist.py::SynList.add_synonym"]}
{"id": "C228", "title": "Merging sets of an old synonym list loses no key", "statement": "merge_indices of sets that are there puts their keys in the set of lowest index, empties the others, and leaves every other key where it was. _add_set of synonyms that are in different sets merges these, adds nothing, and returns no index.", "quantifier": "every list built by the methods, every set of indices, every order in which it is gone through", "why_tests_cant": "All lists, sets of indices and iteration orders.", "anchors": ["lcatools/flowdb/synlist.py::SynList._merge", "lcatools/flowdb/synlist.py::SynList.merge_indices", "antelope_utilities/flowables/create_synonyms.py::_add_set"]}
{"id": "C229", "title": "An old synonym list that is written and read again groups its keys in the same way", "statement": "from_json of what serialize writes returns, whatever the order in which the keys of a set are listed. The list has the same keys; two keys are in one set exactly if they were in one set before, and each set has its name. Indices may change, as the sets that were merged away are not written.", "quantifier": "every list built by the methods from trimmed keys, every order in which the keys of a set are listed", "why_tests_cant": "All lists and iteration orders.", "anchors": ["lcatools/flowdb/synlist.py::SynList.serialize", "lcatools/flowdb/synlist.py::SynList._serialize_set", "lcatools/flowdb/synlist.py::SynList.from_json"]}
