C01 | proved | Engine.C01_components_all Engine.C01_components_incremental | full claim, for add_all_ref_products and for any history of add_ref_product
C02 | proved | Engine.C02_classified_once Engine.C02_stable Engine.C02_terminates Engine.C02_add_all_returns | plus termination under explicit conditions
C03 | partial | Engine.C03_background Engine.C03_first_largest Engine.C03_fails_incremental | holds for add_all_ref_products; false for incremental adds (witness)
C04 | proved | Engine.C04_positions | after add_all_ref_products
C05 | proved | Engine.C05_topological Engine.C05_outputs | after add_all_ref_products
C06 | proved | Engine.C06_foreground | after add_all_ref_products
C07 | partial | Engine.C07_background Engine.C07_foreground_all Engine.C07_foreground_one Engine.C07_fails_incremental | holds for add_all_ref_products; false for incremental adds (witness)
C08 | proved | Lci.C08_series Lci.C08_exact Lci.C08_nilpotent Lci.C08_compute_lci Lci.C08_flat_lci Lci.C08_threshold_cuts_acyclic | the acyclic part needs threshold 0 (witness)
C09 | partial | Engine.C09_self_consumption_partial Engine.C09_fails_input_reference Engine.C09_fails_order | false for Input references and for totals of one or more (witnesses)
C49 | partial | Engine.C49_refusal_partial Engine.C49_never_silent Engine.C49_raises_iff_partial Engine.C49_fails_index_error Engine.C49_fails_stale Engine.C49_fails_later | the code violates the property as stated (three witnesses: wrong exception while nothing is recorded, stale component ids, records counted twice by a later addition); proved: no ambiguity passes silently, the error is raised exactly when the product flow depends on an ambiguity, and a TerminationError leaves every answer about known product flows unchanged
C50 | proved | Lci.C50_split Lci.C50_split_block Lci.C50_flatten |
C10 | partial | Syn.C10_partial Syn.C10_fails_addSynonym Syn.C10_fails_selfMerge | holds for all histories without TermFound from add_synonym, self-merge and a returning split_term; false for those (witnesses)
C11 | partial | Syn.C11_partial Syn.C10_fails_selfMerge | holds when the dominant item is not among the merged ones; otherwise the item is erased (witness)
C12 | partial | Syn.C12_partial Syn.C12_fails | whenever split_term returns, the split-off terms get no item: proved for all states; what does hold is in C12_partial
C13 | partial | Syn.C13_partial Syn.C13_fails | holds for lists without empty items; add_term('') breaks from_json (witness)
C14 | partial | Flw.C14_pad_trim Flw.C14_same_number Flw.C14_resolve_partial Flw.C14_fails_intermediate Flw.C15_fails_dead | the algebra of pad and trim holds for all strings; resolution of both forms holds for merge-free histories and fails after a merge (witness)
C15 | partial | Flw.C15_partial Flw.C15_fails_dead Flw.C15_fails_two Flw.C15_fails_polluted | holds for all histories, raising calls included, whose merges do not raise half-way; witnesses for the rest
C16 | proved | LDict.C16_lower_dict LDict.C16_get_fails | full claim; additionally the inherited get is shown not to ignore case
C22 | partial | Proc.allocate_then_conserves Proc.allocation_conserves Proc.allocation_conserves_partial Proc.allocate_fresh Proc.allocation_factors_sum Proc.allocation_factors_complete Proc.fresh_step Proc.allocation_stale Proc.allocation_stale_zero | holds right after allocate_by_quantity in every reachable state and over all histories that keep the reference amounts (or re-allocate with nonzero total); witnesses of a stale total otherwise
C23 | proved | Proc.reference_relation | full claim
C24 | partial | Proc.values_kept_partial Proc.values_kept_other Proc.second_value_refused Proc.second_allocated_value_refused Proc.add_dups_adds Proc.value_replaced Proc.value_lost | holds for string terminations; a non-string termination silently replaces the stored exchange (witness)
C25 | proved | Market.shares Market.market_kept | full claim, over all histories of assignments
C26 | partial | Flo.cf_lookup_partial Flo.cf_lookup_fails Flo.factors_kept_partial Flo.addChar_keeps Flo.second_factor_refused Flo.overwrite_replaces Flo.factor_replaced | lookup proved for every locale but the strings 'quantity' and 'flow' (witness); values kept over all histories without overwrite; a dict value overwrites without being asked (witness)
C27 | partial | Flo.conversions_kept Flo.setReference_err Flo.setReference_succeeds Flo.conversions_kept_addChar_partial Flo.addChar_reference_raises Flo.reference_factor_one Flo.conversions_changed Flo.no_factor_one | full for flow['referenceQuantity'] = q on a flow with a reference; add_characterization(reference=True) raises after changing the state; witnesses for overwrite with a location and for flows without reference
C47 | proved | Unit'.convert_trans Unit'.convert_self Unit'.convert_inverse Unit'.convert_value Unit'.missing_reference_unit | full claim
C17 | partial | Arc.entity_kept Arc.taken_refused Arc.add_outcome Arc.entity_kept_upstream Arc.upstream_replaces | full for an archive without upstream, over all histories including failing calls; with an upstream, adding to the archive itself keeps its answers, but adding the key to the upstream replaces the answer (witness)
C18 | proved | Arc.count_by_type | full claim
C19 | proved | Arc.upstream_first Arc.upstream_precedence Arc.upstream_cycle | full claim for every finite chain; a cyclic chain raises RecursionError
C20 | proved | ArcNames.one_reference ArcNames.second_reference_refused ArcNames.rewrite_moves ArcNames.same_reference ArcNames.new_source ArcNames.own_source_moves ArcNames.invalid_reference ArcNames.names_of_source ArcNames.own_source_drops_others | full claim; the archive's own source under its default local reference is moved without rewrite (as the code documents), which can drop other sources of the target reference (witness)
C21 | partial | Arc.add_children_partial Arc.add_process_partial Arc.add_children_history Arc.retry_adds_nothing Arc.stale_flow | holds from every state in which stored flows and processes are complete, which is kept by all histories of calls that return with unchanged entities; witnesses: an earlier attempt that raised, and a stored flow that got a further quantity
C28 | proved | Frg.traversal_linear Frg.traversal_zero | for every nonzero k; with weight 0 the traversal stops at the first fragment (traversal_zero)
C29 | partial | Frg.balance_sum Frg.balance_closes_partial Frg.balance_conversion Frg.balance_reference_process | balance_sum: the amount of the balance child is the one given by the code's own stock, at every node; balance_closes_partial: the sum is zero for foreground nodes whose termination needs no flow conversion; witnesses: a node terminated through a flow conversion, and a reference fragment terminated to a process, whose sums are not zero
C31 | partial | Frg.group_ios_flow Frg.group_ios_ref Frg.group_ios_autoconsumption Frg.group_ios_raises Frg.group_ios_internal Frg.zero_flows_kept Frg.pass_through_two_entries | the amounts are conserved for every flow; false parts with witnesses: flows with zero net are kept, and the reference flow can have two entries
C30 | partial | Frg.set_value_kept Frg.scenario_value Frg.scenario_conflict Frg.scenario_observed Frg.scenario_observed_ref Frg.scenario_cached Frg.scenario_cached_zero Frg.scenario_order Frg.set_raises Frg.cached_zero_is_one Frg.name_one_not_read | full for named scenarios and every history; false parts with witnesses: a cached value of 0 or None is reported as 1, and the name '1' is set as the observed value but reads the cached one
C32 | partial | Frg.load_save_partial Frg.wellNamed_run Frg.wellNamed_load Frg.balance_not_loaded Frg.delimiter_lost | full for every table reached by setting values under names without the delimiter and by loading, except a balance flow whose cached value is not 1 (witness: it cannot be loaded); witness that names with the delimiter are lost
C45 | partial | Frg.split_keeps_partial Frg.interpose_listed_twice Frg.interpose_twice Frg.interpose_observed Frg.fork_balance Frg.split_conversion | proved for split_subfragment of a foreground fragment (not a balance flow, no other fragment terminated into its subtree, terminated without a flow conversion, its own flow not cut off below it): every traversal of every other fragment, in every named scenario and with or without observed values, returns and models the same amounts; cut-offs inside the split subtree are netted per flow. False of interpose (always lists the fragment under both parents) and of splitting with a flow conversion or of a balance flow, shown by witnesses
C48 | partial | Frg.listed_under_parent Frg.listed_iff_partial Frg.listed_twice | listed under its parent: all histories; listed nowhere else: histories where set_parent is called on fragments without a parent; witness for the others
C51 | partial | Frg.construct_reference Frg.construct_child Frg.failed_creation_stays Frg.failed_creation_stays_subfragment | false of the code (witnesses); the circumstances in which creation does not raise are proved
C33 | partial | Lcia.total_leaves Lcia.aggregate_total Lcia.aggregate_star Lcia.aggregate_total_partial Lcia.aggregate_scale Lcia.aggregate_raises Lcia.contrib_total Lcia.flatten_total Lcia.flatten_ok_partial Lcia.flatten_private Lcia.flatten_static | total and contrib_new fully; flatten keeps the total whenever it returns (proved for every nesting), and returns for results of detailed scores without private parts; it raises on nested private results and on some static scores (witnesses). aggregate multiplies the total by the scale (witness), so it keeps it exactly for scale 1; it raises if the key function does (against its documentation)
C34 | partial | Lcia.doLcia_total Lcia.lcia_append Lcia.lcia_perm Lcia.lcia_total_partial Lcia.lcia_scale Lcia.scale_total_partial Lcia.add_total_partial Lcia.local_factor_skipped Lcia.add_common Lcia.add_underscore Lcia.add_scale Lcia.add_rescaled | the claim holds for do_lcia on inventories whose locally characterized flows have a global factor, and for + on results without common components; the witnesses show where the code violates the rest
C35 | proved | Lcia.summary_add | 
C52 | partial | Lcia.fragLcia_conserved Lcia.fragLcia_total_partial Lcia.fragLcia_dropped | total plus failed is always the sum; the total alone is, if no fragment occurs twice; otherwise contributions are dropped from the total (witness)
C53 | partial | Lcia.weighting_raises | the code violates the claim: apply_weighting raises on every input with a component
C36 | partial | Cmp.set_elementary_partial Cmp.setElementary_marks Cmp.isSubOf_iff Cmp.addSub_tree Cmp.same_name_not_listed Cmp.uproot_not_elementary Cmp.unset_sets_children | proved for trees in which parents and children agree, which add_sub keeps unless the name is one of the parent's; otherwise, and after uproot, the claim fails (witnesses)
C37 | partial | Cmp.added_path_found_partial Cmp.added_path_matching_partial Cmp.addSubs_again Cmp.same_name_lost Cmp.unspecified_not_found Cmp.wrong_branch_found Cmp.added_not_found | proved when each name of the path names one compartment and none ends with 'unspecified'; false in general (witnesses)
C38 | partial | Cmp.load_serialized_partial Cmp.root_flag_lost Cmp.flag_gained | proved for hierarchies with a root that is not elementary and inherited flags; an elementary root loses its flag, and a compartment below an elementary one gains it (witnesses)
C54 | partial | Cmp.queries_fresh_partial Cmp.check_elem_cached Cmp.joined_names_cached | proved for histories of queries without check_elem whose joined names differ; false otherwise (witnesses)
C39 | partial | Rsv.resolve_exact Rsv.resolve_unknown Rsv.unknown_iff_partial Rsv.resolve_nodup Rsv.has_resource_makes_known Rsv.delete_temp_raises | what is yielded is exact for all strings and catalogues; UnknownOrigin is exact for the table of references, and for registered resources after the histories of C41; has_resource and failed deletions leave references without resources (witnesses)
C40 | partial | Rsv.getResource_partial Rsv.getResource_refuses_partial Rsv.getResource_source_partial Rsv.source_ignores_ref | proved without a source filter; with a source the other filters are ignored (witness)
C41 | partial | Rsv.history_partial Rsv.step_refines Rsv.registered_iff_partial Rsv.add_again_partial Rsv.delete_spec Rsv.stored_returns_partial Rsv.save_raises Rsv.delete_temp_raises Rsv.download_clash Rsv.filetype_changes_source Rsv.damaged_file_overwritten | proved over all histories for resources with a source and without the argument filetype; outside of this the claim fails (witnesses)
C42 | partial | AR.shift_in_range AR.adjUnit_equal AR.adjUnit_raises AR.result_shown AR.adjustAll_common AR.base_taken_for_prefix AR.unclear_wrong AR.zero_range | every nonzero range: the loop ends, the range is shown in [1,1000], with the smallest shift; equal quantity and exact condition for KeyError for every unit that is read as written. False of the code for base units that begin with a prefix letter (m, Pa, unit, person), shown by witnesses and in general (unclear_wrong). Rational arithmetic instead of floating point
C43 | proved | Ix.terminate_all Ix.terminate_direction Ix.terminate_invalid Ix.check_direction_iff Ix.stale_index | over every history of edits, implementations made, re-indexings and lookups, and every iteration order; flows are known by external reference, as in the index; stale_index shows that the index is not updated by edits, nor by a new implementation
C44 | partial | Fg.name_fragment_partial Fg.name_taken Fg.name_refused Fg.inv_run_partial Fg.name_overwrites Fg.name_flow_raises | full for every consistent foreground when no stored entity has the link that the fragment would get; the code does not check this: name_overwrites shows a local flow lost. name_flow_raises: naming what is no fragment raises half-way
C55 | partial | Fg.add_new Fg.add_known_partial Fg.merge_entity_partial Fg.inv_run_partial Fg.add_merges_wrong Fg.merge_ref_overwrites | new entities: full; known entities: nothing is stored twice, one entity with the UUID takes the properties. False of the code: it may be an entity of another origin (add_merges_wrong), and references are overwritten (merge_ref_overwrites)
C46 | partial | Cfg.config_again_partial Cfg.config_idempotent_partial Cfg.config_idempotent_no_references Cfg.config_idempotent_up_to_date_partial Cfg.config_not_idempotent Cfg.config_not_idempotent_stale Cfg.config_again_raises | for all archives and configurations: the second application succeeds, changes nothing but recorded totals that were out of date, and the third changes nothing; without set/unset entries the second changes nothing. The full statement is false in the code (witnesses: an allocated process to which an uncharacterized reference is added).
C56 | partial | Cfg.unset_anywhere_partial Cfg.unset_anywhere_undirected Cfg.unset_one Cfg.unset_anywhere_raises | false in the code: the call raises RuntimeError after the first instance; proved what it does for every archive, and the full effect for calls with a process.
C57 | proved | Cfg.set_one Cfg.set_undirected Cfg.unset_one Cfg.characterize_one Cfg.allocate_one Cfg.allocate_over | 
C58 | partial | FlatBg.C58_constructed_iff_cyclic FlatBg.C58_background FlatBg.C58_in_scc | classification proved in full; construction is false in the code for acyclic databases (AttributeError), proved as an iff.
C59 | partial | FlatBg.C59_dependencies_partial FlatBg.C59_dependencies_directions_partial FlatBg.C59_emissions_partial FlatBg.C59_emissions_directions_partial FlatBg.C59_fails_background FlatBg.C59_fails_cancelling FlatBg.C59_fails_waste | false in the code: dependencies of any background product flow raise, cancelling exchanges shift amounts to the wrong supplier, directions are reversed when references differ in direction, emissions of input references have the wrong sign; proved for the rest.
C60 | partial | FlatBg.C60_foreground_partial FlatBg.C60_foreground_refused FlatBg.fgQueue_eq | for foregrounds of products without cancelling exchanges and with self-consumption below one unit; foreground cycles included.
C61 | partial | FlatBg.C61_consumers_partial FlatBg.C61_fails_no_foreground FlatBg.C61_fails_exterior | full for known product flows when there is a foreground; false in the code otherwise (TypeError) and for exterior flows.
C62 | partial | Qdb.find_first Qdb.find_all Qdb.find_error_iff Qdb.find_fails_root | levels proved in full; from the root with dist 3 the search raises AttributeError, proved as an iff.
C63 | partial | Qdb.stored_eq Qdb.stored_iff Qdb.listed_iff Qdb.flowsFor_spec Qdb.cfsFor_spec Qdb.add_cf_fails_update Qdb.is_known_fails | proved over all histories, except that of equal factors the first, not the latest, is kept, and that asking makes a quantity known (both proved as failures).
C64 | partial | Qdb.convert_sound Qdb.convert_sound_flowable Qdb.convert_order Qdb.convert_none_iff Qdb.quelled_iff Qdb.convert_quelled Qdb.lookupCfs_nil Qdb.convert_fails_order Qdb.convert_fails_warning Qdb.convert_fails_root Qdb.convert_fails_values Qdb.convert_reference_fails | soundness, order independence and the None case proved; the code raises in several cases for lack of data, proved as failures.
C65 | partial | Qdb.convert_frame Qdb.convert_frame_flowable Qdb.convert_repeat_partial Qdb.convert_repeat_fails | frame proved in full; repetition proved at the global location; false at others.
C66 | partial | Qdb.doLcia_frame Qdb.doLcia_repeat Qdb.doLcia_each Qdb.doLcia_perm Qdb.lciaOne_new Qdb.adjust_eq Qdb.obtain_settled Qdb.doLcia_fails_locale Qdb.doLcia_fails_refresh Qdb.doLcia_fails_second Qdb.doLcia_fails_missing | frame, repetition at the same location and order independence (factors held by flows outside the inventory) proved; false in the code for a second location, a second quantity at a location, refresh and missing compartments.
C67 | proved | Engine.C03_background Engine.C03_first_largest | the part of C03 about a single call of add_all_ref_products
C68 | proved | Engine.C07_background Engine.C07_foreground_all Engine.C07_foreground_one | the part of C07 about a single call of add_all_ref_products
C69 | proved | Engine.C49_never_silent | the part of C49 that the code meets
C70 | proved | Flw.C14_pad_trim Flw.C14_same_number | the algebraic part of C14
C71 | proved | Flo.conversions_kept Flo.setReference_err Flo.setReference_succeeds | the part of C27 about assignment; add_characterization(reference=True) is in C27
C72 | proved | Arc.entity_kept Arc.taken_refused Arc.add_outcome | the part of C17 about archives without upstream
C73 | proved | Frg.group_ios_flow Frg.group_ios_ref Frg.group_ios_autoconsumption Frg.group_ios_raises Frg.group_ios_internal | C31 with zero-net flows kept, as in the code
C74 | proved | Frg.set_value_kept Frg.scenario_value Frg.scenario_conflict Frg.scenario_observed Frg.scenario_observed_ref Frg.scenario_order | the part of C30 without the default for cached values of 0
C75 | proved | Frg.listed_under_parent | one direction of C48
C76 | proved | Lcia.total_leaves Lcia.contrib_total Lcia.flatten_total | the part of C33 the code meets
C77 | proved | Lcia.fragLcia_conserved | the part of C52 the code meets
C78 | proved | Lcia.doLcia_total Lcia.lcia_append Lcia.lcia_perm | the part of C34 the code meets
C79 | proved | Rsv.resolve_exact Rsv.resolve_unknown Rsv.resolve_nodup | C39 with respect to the resolver's own table of references
C80 | proved | Rsv.getResource_by_reference Rsv.getResource_refuses | C40 without a source filter
C81 | proved | AR.shift_in_range AR.adjustAll_common | the part of C42 about the numbers, not the unit strings
C85 | proved | Qdb.convert_sound Qdb.convert_sound_flowable Qdb.convert_order Qdb.convert_none_iff Qdb.quelled_iff Qdb.convert_quelled | C64 without the claim that it never raises
C82 | proved | FlatBg.C58_background FlatBg.C58_in_scc FlatBg.C58_constructed_iff_cyclic | C58 with the circumstances in which the constructor fails
C83 | proved | Qdb.find_first Qdb.find_all Qdb.find_error_iff | C62 with the circumstances in which the search raises
C84 | proved | Qdb.stored_eq Qdb.stored_iff Qdb.listed_iff Qdb.flowsFor_spec Qdb.cfsFor_spec | C63 with the first of equal factors, as in the code
C86 | proved | Qdb.convert_frame Qdb.convert_frame_flowable | the frame part of C65
C87 | proved | Qdb.doLcia_frame Qdb.doLcia_repeat | the frame and repetition parts of C66
C88 | proved | Proc.allocate_then_conserves Proc.allocation_factors_sum Proc.allocation_factors_complete | the part of C22 about the state right after the call
C89 | proved | Fg.add_new | the part of C55 about new entities
C90 | proved | Fg.name_taken Fg.name_refused | the part of C44 about refusals
C91 | partial | Cat.query_answer Cat.query_complete_partial Cat.query_unknown Cat.not_implemented_ends Cat.key_error_ends Cat.get_item_first_only Cat.get_item_empty_process Cat.secure_default_raises | completeness holds only if no resource raises anything but the exception of the query: a resource that raises NotImplementedError or KeyError ends the search (not_implemented_ends, key_error_ends), so get_item asks only the first resource; CatalogQuery.resolve() without argument always raises
C92 | proved | Cat.query_loads Cat.query_only_loads | 
C93 | partial | Cat.get_first Cat.get_iff_partial Cat.not_implemented_ends Cat.key_error_ends | the iff holds if no resource raises; otherwise the search ends at the resource that raises, witnesses included
C94 | proved | Cat.get_stable Cat.get_sound | 
C95 | partial | Cat.lookup_first Cat.fetch_iff_partial Cat.loaded_static_first | lookup prefers static resources loaded before to those of lower priority, so its answer depends on earlier queries (loaded_static_first); the iff holds if nothing raises and archives carry the reference of their resource
C96 | proved | Cat.query_iff Cat.query_memo Cat.query_refresh | 
C97 | proved | Cat.nickname_spec Cat.nickname_refused | 
C98 | partial | Cat.strict_query_is_not Cat.query_stop_iteration Cat.nickname_hides | the code violates all three; each theorem is a counterexample in a reachable catalog
C99 | proved | Prv.test_iff Prv.test_num Prv.test_mono Prv.test_frame Prv.publication_round_trip Prv.publication_interfaces | 
C100 | partial | Proc.reload_partial Proc.reload_drops_unvalued Proc.reload_loses_zero Proc.reload_moves_allocation Proc.reload_raises Proc.reload_loses_allocation | proved if every exchange has a value or nonzero allocated amounts, no flow with amounts allocated is a reference in both directions, the allocation is fresh and its quantity is in the archive. Each of these is necessary: without them exchanges are lost, numbers change, amounts move to another reference, reading raises, or the allocation is lost (witnesses)
C101 | proved | Proc.reload_without_values | 
C102 | partial | PyEq.entity_lawful_partial PyEq.entity_equivalence PyEq.ref_lawful_partial PyEq.ref_trans_partial PyEq.set_of_refs PyEq.inSet_spec PyEq.entity_hash_differs PyEq.no_origin PyEq.ref_not_transitive PyEq.ref_unrelated_equal PyEq.ref_hash_differs PyEq.ref_of_entity_not_found PyEq.entity_ref_asymmetric | proved for entities whose external reference determines the uuid and for references to one origin. Fails otherwise (witnesses): equal entities with different uuids have different hashes; references to 'a.b', 'a', 'a.c' are not transitive; 'uslci' and 'uslci2' are equal; an entity and its own reference are equal but never found in a set with each other; comparing a reference with an entity without origin raises
C103 | partial | PyEq.exchange_lawful_partial PyEq.exchange_proper PyEq.char_lawful PyEq.detail_lawful PyEq.rx_not_lawful | proved for exchanges, and for mixtures with reference exchanges of one process (hash without collisions). Reference exchanges of different processes are equal with different hashes, and compared with an exchange the answer depends on the order
C104 | partial | PyEq.term_equivalence_partial PyEq.fflow_hash_partial PyEq.term_null_raises PyEq.term_ignores_origin | an equivalence among null, or among non-null terminations with entities as flows. Comparing any termination with a null one raises AttributeError, and nodes with the same external reference in different databases are not distinguished
C105 | partial | Flo.flow_reload_partial Flo.flow_reload_loses_region Flo.flow_reload_spreads_region Flo.flow_reload_loses_reference Flo.flow_reload_drops_quantity | proved if every factor is global, or given for at least two regions and not globally, the reference quantity has its factor 1, and the archive finds the quantities. Otherwise (witnesses): a regional factor beside a global one is lost, a single regional factor becomes global, a reference quantity without characterization is lost, unknown quantities are dropped silently
C106 | partial | EJ.archive_reload_partial EJ.reads_twice EJ.wf_of_made EJ.tags_unreadable EJ.external_ref_unreadable EJ.bad_external_ref EJ.missing_quantity | proved if no property has one of seven names the reader takes for something else, the archive has the quantities of its flows and factors are as in C105. Otherwise (witnesses): a property 'tags' or 'external_ref' makes the file unreadable; an external reference that does not lead to the uuid is replaced by the uuid; a flow without its quantity loses reference and factors. Processes: C100
C107 | partial | FlowRef.cf_one_locale_partial FlowRef.cf_after_profile_partial FlowRef.asked_elsewhere_zero FlowRef.asked_global_first FlowRef.cf_order_matters FlowRef.cf_zero_sticks | proved if each quantity is asked for one location only, or if the profile is read first. Otherwise it fails in general: after asking for a region every other location, 'GLO' included, gets factor zero; after asking for 'GLO' every region gets the global factor; a failed lookup is zero for ever
C108 | partial | RefI.assigned_read_partial RefI.read_stable RefI.hasProperty_spec RefI.lookup_keeps_partial RefI.assigned_not_read RefI.capital_not_read RefI.force_hides RefI.lookup_overwrites | assignment is read back only for names in lower case that were not looked up or given before; a name with a capital letter is stored in lower case and never found (proved for all such names); a forced query hides an assigned value for good; `lookup` overwrites a local item that differs in case
C109 | partial | RefI.ref_reload_partial RefI.catalog_ref_type_lost RefI.catalog_type_lost RefI.ref_uuid_lost | proved for typed references without reserved item names, except that the uuid becomes the external reference; a CatalogRef always loses its type (proved for all)
C110 | partial | RefI.merge_entity_partial RefI.merge_entity_refused RefI.merge_ref_refused RefI.merge_ref_right_dominant RefI.merge_flow_characterizations RefI.merge_entity_overwrites RefI.merge_ref_overwrites RefI.merge_flow_raises | proved for entities if common properties are spelled alike. A property spelled otherwise is overwritten; merging references overwrites always (the comment says the left is dominant); merging flows raises AttributeError if the other has a quantity that is not known (proved iff), so characterizations are never added
C111 | partial | RefI.identity_kept RefI.identity_set_once RefI.make_ref_once RefI.make_ref_names_partial RefI.make_ref_stale | identity proved in full; make_ref memoizes the first reference for any query (proved), so it names the entity only if origin and external reference do not change after the first call and the query has the entity's origin
C112 | proved | FgS.fragments_all FgS.fragments_refs | for runs that do not exhaust the recursion limit
C113 | proved | FgS.frag_strict FgS.frag_loose | 
C114 | proved | FgS.linked_terms | 
C115 | partial | FgS.del_orphans_dry FgS.del_orphans_raises | only the dry run is right. With for_real the code looks for the fragment under its uuid although entities are stored under their links: it is proved that for every foreground nothing is deleted, and that it raises KeyError whenever there is an orphan
C116 | proved | FgS.save_directory | for property tables that a record can hold (no None values, no names of record entries); C117 and C118 say what happens otherwise
C117 | partial | FgS.save_raises_partial FgS.save_typeError_unloadable FgS.serialize_null | proved: only files before the point of failure were rewritten, completely, none is deleted, and the one being written is either untouched or, if a property cannot be written as JSON, emptied. In that last case the claim is false: it is proved that the directory can never be loaded after it. A property that is None makes every save raise KeyError
C118 | partial | FgS.load_save_partial FgS.reserved_property_unloadable FgS.balance_value_unloadable FgS.unreachable_unloadable FgS.none_named_adopts FgS.null_scenario_overwrites FgS.lost_flow_replaced | proved when names and uuids are unambiguous, the catalog and the entity file give back flows and processes, no fragment is named 'None', no scenario 'default' or 'null', balance flows have cached value 1. Outside: proved for all foregrounds that a property named like a record entry, a balance flow with another cached value, or one termination that the catalog does not find makes loading raise; with witnesses for the rest
C119 | partial | CatF.abs_localize CatF.localize_idem CatF.moved_inside CatF.moved_beside | the part about paths outside is false for a path beside the catalog whose name merely begins with that of the root: proved for every root that it is taken to be inside, and changes when the catalog is moved. Roots without regular-expression characters
C120 | partial | CatF.download_partial CatF.download_again CatF.bad_download_accepted | proved when the file was not there or is forced. Otherwise false: proved for all catalogs that a download whose digest was wrong stays, and is returned by the next call with the same digest
C121 | partial | CatF.delete_files CatF.delete_without_source CatF.delete_keeps_cache CatF.delete_used_by_another_name | proved with 'uses' read as 'names by the same string'; a resource that names the file by another path loses it (witness). A resource without a source: TypeError after it is gone from the registry (universal). Caches stay whenever the source is not a file (universal)
C122 | partial | CatF.cache_found_partial CatF.cache_lost | proved for sources stored in localized form or outside the catalog. For sources stored as an absolute path inside the catalog it is proved that the cache never is read
C123 | proved | CatF.createForeground_again CatF.createForeground_source CatF.name_or_path CatF.relative_refused | 
C124 | partial | CatF.configure_partial CatF.configure_unknown CatF.configure_unloaded CatF.configure_skips CatF.configure_sole_internal | proved if all resources concerned have a source and are loaded and internal ones accept. Otherwise false, universally: an unloaded resource raises AttributeError; the resource after a deleted one is skipped; an internal resource alone under its reference makes the call raise
C125 | proved | CatF.config_round_trip CatF.serialize_fails_iff | arguments are strings
C126 | partial | Frg.observe_sets Frg.observe_again Frg.observe_traverse_partial Frg.observe_ok_partial Frg.traverse_local Frg.observe_subfragment | what is set, and idempotence, in full. The part about traversals is proved if the subfragments reached have been observed and, for a named scenario, it has no values yet; without the former it is false (witness). Also: a traversal depends only on the fragments it reaches
C127 | partial | Frg.clone_copy_partial Frg.clone_traverse_partial Frg.clone_combination Frg.clone_cleared Frg.clone_emission Frg.clone_scenario_amount Frg.clone_order Frg.meta_clone Frg.meta_other_origin | proved under the conditions `Clonable`. False otherwise: a value for a combination of scenarios makes the call raise (universal); a termination cleared in a scenario, the terminating flow of a foreground emission, and amounts below a default subfragment termination are lost (witnesses); child flows may come in another order, which can matter (witness); a fragment with child flows cannot be cloned to another origin (universal)
C128 | partial | Frg.set_child_exchanges_sets Frg.set_child_exchanges_used Frg.set_child_exchanges_refuses Frg.set_child_exchanges_balance_raises Frg.set_child_exchanges_loses | proved in the default scenario, and else if no exchange is meant for a balance flow. Otherwise the call raises half way (universal). An inventory that lists a flow twice for one child keeps the later value, and a zero is cached as one (witnesses)
C129 | partial | Frg.reverse_raises_iff Frg.reverse_twice Frg.reverse_cutoff_partial Frg.reverse_subfragment_partial Frg.reverse_reference_partial Frg.reverse_foreground_negates Frg.reverse_has_effect Frg.reverse_zero_changes Frg.travNode_apart Frg.scale_evs_scales Frg.scale_evs_value Frg.scale_evs_none_raises | no effect: proved for cutoffs, flows to subfragments and foreground reference fragments with a nonzero cached value. For interior foreground nodes and processes all flows below change sign (universal), and a cached zero is not reversed (witness). `scale_evs` with a None leaves the values scaled half way (universal)
C130 | partial | Fst.forest_top Fst.forest_one_node Fst.forest_sub_iff Fst.forest_sub_ref Fst.forest_from_links Fst.forest_deps Fst.forest_old Fst.forest_follows Fst.forest_complete Fst.forest_ordered Fst.forest_exists Fst.forest_gives_up Fst.forest_loop | proved for all archives and exchange lists, except that exchanges may be given up: none whose process is within ten exchanges of the first one, none at all if each exchange comes after one that leads to its process; a chain of twelve in the wrong order is cut (witness). An exchange that leads back to the first process makes a fragment terminated within itself (universal). Not modelled: origins (processes are taken as their external references, as the code does), archive storage, observation
C131 | partial | Frg.traverse_returns Frg.traverse_limit_irrelevant Frg.traverse_stuck Frg.terminate_keeps_traversal_partial Frg.terminate_same_tree_loops Frg.terminate_reference_loops Frg.terminate_hidden_loops | the parts about traverse are proved in full. What the check in terminate achieves is proved for a flow inside a fragment, a reference fragment as target and terminations that show the flows of their subfragments; it is false otherwise: a flow terminated to another flow of its own tree, an unterminated reference fragment terminated to a user of it (both universal) and a loop through a termination that hides flows (witness) are accepted and make the fragments impossible to traverse
C132 | proved | Ivt.map_spec Ivt.gen_spec Ivt.find_spec Ivt.find_order Ivt.resolve_onlyRef Ivt.resolve_two_refs Ivt.inventory_plain Ivt.inventory_allocated Ivt.inventory_cutoff Ivt.inventory_terminated Ivt.exchangeValues_spec Ivt.isAllocated_spec | terminations are strings; inventories of processes with amounts allocated to single references: see also C22-C24
C133 | partial | Ivt.relation_inventory Ivt.relation_twice Ivt.relation_right_iff Ivt.relation_without_flow | false: the inventory is per unit of the reference already and is divided by the reference amount once more (relation_inventory, for any allocation); without allocation the result is right exactly if the reference amount is 1 or there is nothing to report. It is right for processes with one reference if called with None for the reference flow
C134 | partial | Ivt.hasReference_partial Ivt.hasReference_raises Ivt.exchangeValues_reference | has_reference is right for a flow that is not a reference twice; for every process with two references has_reference() raises (universal). exchange_values(reference=True) yields the references of the flow in both directions (universal)
C135 | proved | Cat.query_answer Cat.query_unknown | the parts of C91 that hold in full
C136 | proved | Cat.get_first Cat.lookup_first | the parts of C93 and C95 that hold in full
C137 | proved | PyEq.exchange_proper PyEq.char_lawful PyEq.detail_lawful | the parts of C103 that hold in full
C138 | proved | RefI.read_stable RefI.hasProperty_spec | the parts of C108 that hold in full
C139 | proved | RefI.merge_entity_refused RefI.merge_ref_refused | the part of C110 about refusals
C140 | proved | RefI.identity_kept RefI.identity_set_once | the part of C111 about identity
C141 | proved | CatF.abs_localize CatF.localize_idem CatF.moved_inside | the parts of C119 that hold in full
C142 | proved | Frg.observe_sets Frg.observe_again Frg.traverse_local | the parts of C126 that hold in full
C143 | proved | Frg.reverse_raises_iff Frg.reverse_twice | the parts of C129 that hold in full
C144 | proved | Fst.forest_top Fst.forest_one_node Fst.forest_sub_iff Fst.forest_sub_ref Fst.forest_from_links Fst.forest_deps Fst.forest_old Fst.forest_follows Fst.forest_exists | C130 without the claim that no exchange is given up
C145 | proved | Frg.traverse_returns Frg.traverse_limit_irrelevant Frg.traverse_stuck | the part of C131 about traverse
C146 | partial | BgI.queries_named_partial BgI.is_in_background_partial BgI.consumers_named_partial BgI.queries_refused BgI.process_object_fails BgI.ambiguous_reference BgI.bg_lcia_raises | holds for processes named by their external reference, catalog references and exchanges; for a process given as object is_in_background is never true and every other query raises; bg_lcia raises for all arguments; a catalog reference to a process with several references is answered for the first (theorems)
C147 | partial | BgI.flows_listed_partial BgI.search_ignored | the search is ignored (theorem)
C148 | proved | BgI.saved_same BgI.saved_same_answers BgI.saved_incomplete | the Matlab container itself is a parameter: what is modelled are the arrays that are put into it; a flat background without a foreground is not covered
C149 | partial | BgI.proxy_background_flows BgI.proxy_foreground BgI.proxy_in_background_partial BgI.proxy_exterior_raises | exterior_flows never lists anything and raises as soon as there is an exterior flow; with the archive's own index is_in_background is true of unknown processes too (theorems)
C150 | partial | BgI.ref_query_partial BgI.ref_query_string_raises BgI.ref_relation_none_raises BgI.default_is_reference BgI.default_used | a reference flow given by its external reference always raises AttributeError; exchange_relation(None, …) always raises (theorems)
C151 | partial | USc.score_process USc.score_subfragment USc.represented_irrelevant USc.Ex.twin_lost USc.local_process_raises USc.private_raises USc.bg_fragment_raises | what a child flow represents is only its flow and direction: other supplies of the same flow are lost (theorem and witness); processes of the fragment's own origin, private databases and background fragments terminated to fragments always raise (theorems)
C152 | partial | USc.fg_score USc.fg_conversion_squared USc.fg_reference_unit USc.emission_negative | holds up to sign when both flows have the same quantity; the conversion is counted twice and the sign of emissions is negative (theorems)
C153 | partial | USc.score_again USc.score_stale USc.score_current USc.score_frame USc.added_used USc.missing_becomes_zero | a score once cached stays whatever changes (theorem); one that was missing becomes zero for everyone after a query that ignored it (theorem)
C154 | partial | USc.fragment_total_partial USc.fragment_again USc.fragment_raises USc.Ex.stale_double | for distinct fragments in each list; with the cached scores, which may be out of date (witness); a node of the fragment's own origin makes the whole LCIA raise (theorem)
C155 | proved | Spold.linked_loaded Spold.linked_order Spold.repeated_refused Spold.unreadable_refused | amounts are rational numbers; the XML parser is not modelled
C156 | partial | Spold.unlinked_loaded Spold.unit_ignored Spold.Ex.grams_as_kg | the unit of an amount is ignored if the flow is already there with another unit (theorem and witness)
C157 | partial | Spold.loadAll_each Spold.failed_kept Spold.without_exchanges_kept Spold.Ex.truncated | fails: the truncated process stays and is returned without error ever after, and so is one loaded without exchanges (theorems and witness); proved is that loading all reports the first failure
C158 | proved | Spold1.loaded Spold1.loaded_relation Spold1.loaded_order Spold1.loads Spold1.directionless_dropped Spold1.Ex.conv_agrees | amounts are rational numbers; conversions and the answers of the user are consistent (and those of the code are)
C159 | proved | Spold1.failed_absent Spold1.failed_again Spold1.kept Spold1.retrieve_kept | the flows made before the failure stay, with right factors
C160 | partial | Spold1.all_named Spold1.same_name_ignored Spold1.misnamed_none Spold1.Ex.lost | there is one process for each name, but a second dataset of the same name is ignored (theorem, witness), and one whose name differs from that of its file is loaded while None is returned (theorem)
C161 | partial | Olca.loaded Olca.other_property_fails | proved for all loads that succeed; an exchange in another flow property than that of its flow always fails (the message is formatted with too few arguments), proved
C162 | partial | Olca.allocated Olca.same_name_fails Olca.Ex.not_allocated Olca.Ex.own_use | proved for methods other than CAUSAL_ALLOCATION when no process of the same name was loaded; a second process of the same name and product always fails to load (theorem), and what happens without factors or when a product is also an input is shown by witnesses
C163 | partial | Olca.failed_kept Olca.Ex.truncated | fails: what had been loaded when the failure came is returned ever after, without error (theorem for all failures, witness)
C164 | partial | Srch.search_exact Srch.search_exact_all Srch.search_ok Srch.text_iff Srch.upstream_not_searched Srch.spelling_matters Srch.number_raises Srch.Ex.upstream_missed Srch.Ex.lower_case_missed Srch.Ex.dict_names_searched | proved for the archive itself, for the spelling in which the property was first set; fails upstream (never searched, theorem), for other spellings (theorem), and a number among the values ends the search with TypeError (theorem); of a dict the names are searched and not the values (witness)
C165 | proved | Srch.find_partial_id | 
C166 | proved | Srch.index_exact | 
C167 | partial | Inx.index_found_iff Inx.same_index_reference Inx.Ex.dated_origin | proved: it is another reference always, and belongs to the origin if and only if the last part of the origin does not end in six or more digits and hyphens; references that differ in a date at the end only get the same reference for their indexes (theorem)
C168 | partial | Inx.index_made Inx.index_again Inx.reindex_stale Inx.Ex.stale_index | the first two parts are proved; the third fails: with force on the same day the file is renewed, but the resource goes on answering with the old index for as long as the catalog lives (theorem, witness)
C169 | partial | Uid.found Uid.other_spelling_not_found Uid.entityUuid_canon Uid.entityUuid_idem Uid.Ex.capitals_missed | proved for UUIDs in the usual form (small letters, hyphens) in any text; fails for all others: a text that is a UUID in capitals or without hyphens never finds the entity (theorem)
C170 | partial | Ilcd.units_right Ilcd.units_from_one Ilcd.Ex.wrong_unit | proved if the internal identifiers of the units are their positions counted from zero; if they are counted from one the unit is never the reference unit (theorem)
C171 | partial | Ilcd.loaded | all proved but for the reference: the process has it if and only if the file writes the UUID of the reference flow in the usual form (same theorem)
C172 | partial | Ilcd.capitals_twice_fail Ilcd.failed_kept Ilcd.missing_file_fails Ilcd.Ex.failed_process_stays Ilcd.Ex.zero_with_comment | fails: processes that list a flow in capitals twice always fail to load, a file missing from a directory ends the load (from a zip file it does not), and what failed while exchanges were added stays in the archive and is returned, incomplete, ever after (theorems)
C173 | partial | Fil.listed_read Fil.dir_exact Fil.zip_exact Fil.folder_listed Fil.folder_only Fil.openDir_folder Fil.prefix_appended Fil.list_filtered Fil.sibling_listed Fil.shadowed_not_listed Fil.one_letter_not_listed Fil.outside_listed Fil.Ex.list_and_read_disagree Fil.Ex.directory_lists_outside | proved for files that are in the folder of the prefix and not next to a folder of almost the same name; fails otherwise (theorems): entries beside the folder whose name begins with the prefix are listed and cannot be read; files of zip files are not listed if their name without the last letter is a folder; a directory whose prefix is set afterwards lists what is outside
C174 | partial | Fil.read_again Fil.downloaded Fil.no_slash Fil.only_http Fil.Ex.slash_matters | proved for http addresses that end in a slash; without the slash the file of another folder is asked for, and nothing is read from https addresses (theorems)
C175 | partial | Fno.created Fno.failed_complete Fno.only_loops_cut Fno.fuel_enough Fno.other_origin_used Fno.Ex.second_product_background Fno.Ex.wrong_database | proved but for two exceptions (theorems): the second product of a process already seen is taken from the background although it is no loop, and a fragment of a process with the same reference of another origin is used
C176 | partial | Lbx.text_first Lbx.text_none Lbx.key_found Lbx.num_found Lbx.history Lbx.set_found Lbx.update_numbers Lbx.update_not_scaled Lbx.delete_keeps_number Lbx.Ex.updated_unscaled Lbx.Ex.shorter_key Lbx.Ex.deleted | proved for results stored one by one under keys of one length; fails (theorems) for results stored by update, which are not scaled, and for deletions, which leave the numbers
C177 | partial | Frg.scenarios_listed Frg.scenarios_own Frg.scenarios_sorted Frg.traverse_listed_partial Frg.traverse_unlisted_partial Frg.scenarios_total Frg.scenarios_loop Frg.ScenEx.background_not_listed Frg.ScenEx.upstream_not_listed Frg.ScenEx.mixed_not_listed Frg.ScenEx.loop_not_listed | the list is proved complete; that others have no effect is proved if subfragments are reference fragments and background fragments have no scenarios of their own, and fails otherwise (theorems); there is no list if fragments form a loop, or if names are texts and tuples (theorems)
C178 | partial | Frg.cutoffs_total Frg.cutoffs_net Frg.cutoffs_once Frg.cutoffs_each Frg.cutoffs_sorted Frg.inventory_spec Frg.inventory_net Frg.background_cutoffs_missed Frg.CutEx.background_missed | proved for fragments that are background themselves; where flows are terminated to background fragments, which is how foregrounds are made, their cut-offs are never listed (theorem)
C179 | partial | Qim.index_iff Qim.two_cas_raise Qim.some_zeros_raise Qim.blank_name_joins Qim.placeholder_joins Qim.empty_name_raises | proved, with an exact condition for failure, for names that are not blank and CAS numbers with six digits in front or no leading zeros; outside: two flows of one name with different CAS numbers make every query raise (theorem); blank names, placeholders and CAS numbers with some of their leading zeros (witnesses)
C180 | partial | Qim.factors_spec_partial Qim.unknown_flowable_all Qim.unknown_quantity | proved for flowables the archive knows, under the conditions of C179; one it does not know is no filter at all: all factors are yielded (theorem)
C181 | partial | Qim.flowables_spec Qim.unknown_quantity Qim.stale_raises Qim.compartments_spec | proved for the index made from the archive as it is, under the conditions of C179; a quantity that is not known is no filter, a flow added after the first query makes flowables raise, compartments ignores its arguments and raises for compartments that are lists (theorems)
C182 | partial | Cmp.known_names_spec Cmp.known_names_ends Cmp.merge_subs_names Cmp.merge_subs_denotes Cmp.merge_subs_refused Cmp.collapse_names Cmp.collapse_returns Cmp.delete_spec Cmp.merge_changes_status | names, lists and frame proved; the elementary status of a name is not kept: merge_subs compares the flags of the two compartments only, not those below them (witness)
C183 | partial | Cmp.from_json_frame Cmp.load_local_names Cmp.merge_compartment_names Cmp.find_interact_spec Cmp.merge_failed_changes | all but the last part proved; a call that raises MissingCompartment (Merge failed) may have added compartments, which are not saved (witness)
C184 | partial | Ltab.cas_text Ltab.cas_matches Ltab.cas_round_trip Ltab.cas_injective Ltab.cas_cell_number Ltab.cas_cell_text Ltab.cas_cell_own_text Ltab.rows_for_cas | text, round trip and injectivity proved for every number; acceptance and query hold exactly for numbers of three to nine digits (proved as an equivalence): a CAS number of ten digits raises ValueError, and a query with one looks for a name
C185 | proved | Ltab.flow_key_injective Ltab.load_all_first Ltab.load_all_returns Ltab.load_all_stops_at_long_cas | later factors for the same substance are dropped (part of the statement)
C186 | proved | Ltab.factors_spec Ltab.factors_and_load Ltab.compartments_first_row | `flowables` is not modelled
C187 | partial | Ltab.ecoinvent_load Ltab.ecoinvent_load_stops Ltab.ecoinvent_load_returns Ltab.key3_injective Ltab.ecoinvent_flow_named Ltab.ecoinvent_key_collision | proved by key; the flow has the name and compartment of the row when compartments hold no comma; with a comma two flows can share a key and the factor lands on the wrong flow (witness)
C188 | partial | Ilm.load_method_returns Ilm.load_method_values Ilm.global_factor_partial Ilm.global_factor_lost Ilm.load_method_again | all proved but the global factor: it is stored only when it is the first factor of the flow in the file; a global factor after one for a location is dropped and cf gives 0 (proved for every file: global_factor_lost)
C189 | partial | Ilm.load_lcia_values Ilm.load_lcia_skips Ilm.factors_values Ilm.flowables_values | proved, except that load_lcia skips a method that is in the archive already, even if its factors were never read (proved for every archive: load_lcia_skips)
C190 | partial | Fti.terminate_children_partial Fti.zero_observed_as_one | All but one part is proved for every call that returns. Violated: an exchange of amount 0 is observed as 1, always (the cached value 0 reads as 1.0).
C191 | partial | Fti.terminate_scenario_partial Fti.scenario_changes_default | Proved for fragments that are nodes by default. Violated for every fragment that is a cut-off by default, if the process has an exchange: the fragment becomes a foreground node by default, and is no longer a background fragment.
C192 | partial | Fti.terminate_again Fti.children_doubled Fti.terminate_frag_raises Fti.terminate_frag_sets | Refusal is proved. Violated: child flows are always repeated and observed values of the earlier ones replaced by cached values; with a fragment as termination the call always raises, leaving the termination set where terminate() succeeds.
C193 | partial | Arf.reopen_saved Arf.reopen_renamed Arf.open_ok Arf.open_err Arf.write_new | Proved while the archive has the reference it was created with. Violated always otherwise: an archive that got another reference writes its first one as initArgs.dataReference and itself under the other, so opening raises SourceAlreadyKnown unless the caller names the reference (then it works, proved).
C194 | partial | Arf.descendant_ok Arf.descendant_reopen Arf.descendant_lost | All but opening is proved for every call that returns. Violated always: the file has the initial reference of the ancestor, so from_file raises SourceAlreadyKnown; opened with its reference named (as a catalog does) it is the descendant, proved.
C195 | proved | Arf.load_agrees Arf.load_disagrees | Files with a dataReference at the top level (older ones) are in the model but not in these theorems. The disagreement theorem is for archives whose reference is not the default one for their source.
C196 | partial | Charts.query_values Charts.query_star Charts.query_raises Charts.query_all Charts.query_all_lost Charts.query_private | The part without stages is proved for results in which each component's key is its entity. Violated always when no entity is a key (as after aggregate): components are looked up by entity, all numbers are 0, has_nonzero and has_pos_neg are False.
C197 | partial | Charts.waterfall_bars Charts.waterfall_unit Charts.waterfall_exists Charts.waterfall_no_net Charts.waterfall_null | include_net=False never leaves the remainder out: whenever a result has one, no chart is drawn (IndexError), proved; auto-ranging fails if one of the results is null, proved.
C198 | partial | Charts.waterfall_fade Charts.waterfall_fade_first Charts.waterfall_fade_later | Proved for the first row. The rows share the styles: a colour is faded as often as rows so far have a negative bar at that stage (proved), so any later bar of a stage that was once negative is faded, positive or not.
C199 | partial | Charts.waterfall_span Charts.waterfall_span_false | Proved without auto-ranging and when all results have one scale. Violated otherwise: the span is taken before rows are brought to the common unit (a chart with bars up to 3000 and a span of 9).
C200 | proved | ChartsBars.drawn_total ChartsBars.posNeg_ok ChartsBars.posNeg_iff ChartsBars.drawn_extent ChartsBars.apart | posNeg_ok gives the sums for every result and its place; drawn_total is about one result with those sums. Texts, sizes and the scale of auto-ranging (which fails if the span is 0) are not modelled.
C201 | proved | ChartsBars.one_bar ChartsBars.stacked_within ChartsBars.series_apart ChartsBars.limits_cover ChartsBars.too_few_colors | Numbers are rationals. Labels of segments are not modelled.
C202 | proved | ChartsBars.spread ChartsBars.spread_tiles | Positions only; the heights are those of C196.
C203 | proved | Av1.lcia_ok Av1.lcia_raises Av1.lcia_accepts | Numbers are rationals; the process is assumed to be retrievable.
C204 | partial | Av1.fragmentLcia_ok Av1.about_unique Av1.fragmentLcia_none Av1.fragmentLcia_stages Av1.fragmentLcia_raises | Acceptance is proved for stages whose id is not above the number of stages; the others raise (C205). Stages of one name are one component.
C205 | partial | Av1.stageName_iff Av1.stageName_above | Proved for ids up to the number of stages, and exactly for these. Violated for all others: IndexError even if the stage is listed, because the id is first used as a position.
C206 | partial | Av1.retrieve_describes Av1.retrieve_again Av1.retrieve_others Av1.retrieve_stable Av1.retrieve_text Av1.init_sound | All but uuids. Violated for uuids: any key not of the form kind/id raises KeyError, although the docstring says it works (retrieve_text).
C207 | proved | Av1.listing_first Av1.listing_later Av1.listing_repeat Av1.listing_replaces Av1.init_sound | Listings are read to the end. listing_replaces: the first listing makes every entity another object, even those retrieved before (the old one stays in the archive's own table); so identity of objects does not hold across it.
C208 | partial | Av1.traverse_ok Av1.traverse_chars Av1.traverse_again Av1.traverse_zero_raises Av1.traverse_weight_raises | Proved if it returns. It does not for any fragment in which one flow has a magnitude 0 and elsewhere another one in the same flow property (ValueError): 0 is taken for the flow's characterization, proved for all such; nor with a magnitude and a node weight 0. Terminations and fetching the flows are not modelled.
C209 | proved | Qdq.register_live Qdq.canonical_stable Qdq.canonical_history Qdq.property_refused Qdq.property_merged Qdq.property_again | The archive the quantity is added to, and synonyms written into the entity, are not modelled. Repeating needs a term that is not empty (the uuid never is).
C210 | partial | Qdq.method_new Qdq.method_split Qdq.method_blank | Proved for methods whose uuid is not known. Violated universally otherwise: the same method from another origin (method_split) gets a new index first and the old one afterwards, so the factors stored first are not found again; a method with an empty synonym (method_blank) gets a new index whenever it is registered.
C211 | proved | Qdq.synonyms_ok Qdq.synonyms_refused | The synonyms written into the entity are not modelled.
C212 | partial | Tab.grid_lines Tab.grid_total Tab.grid_short Tab.lines_order_depends | All but the last sentence, and for names of two letters or more (with a shorter one it raises IndexError, grid_short: always). The lines of a row are sorted by the last letter but one of their name, so lines of equal letters come in the order of a set (lines_order_depends). Formatting, pandas and excel are not modelled.
C213 | proved | Tab.grid_headings Tab.text_allocation | If no direction is the ditto mark itself.
C214 | partial | Tab.flowCell_total Tab.factors_shown Tab.plain_sum Tab.text_raises Tab.text_unvalued Tab.text_flowables | The last sentence fails for every table: the header has one text less than the format (text_flowables), unless a subclass sets the far headings. Even then text raises IndexError exactly if a row has no amount at all or too short a name; so for every row of exchanges without a value (text_unvalued). Factors of equal value under one name are shown once.
C215 | partial | NewF.C215_stable NewF.C215_known NewF.C215_half | The second sentence fails for half-padded CAS numbers such as 0050-00-0, which are never known (C215_half: in every state); proved for all other terms.
C216 | proved | NewF.C216_new NewF.C216_one NewF.C216_one_clash NewF.C216_several | For CAS numbers that are written without blanks around them and are not half-padded. C216_several also says when that case raises: exactly if the CAS numbers clash.
C217 | partial | NewF.C217_two_numbers NewF.C217_half NewF.C216_several NewF.C216_new NewF.C216_one NewF.C216_one_clash | Both parts fail: with two different CAS numbers among the unknown terms it always raises ConflictingCas, leaving a flowable without terms (C217_two_numbers); with a half-padded form of a known CAS number and otherwise unknown terms it always raises (C217_half). The theorems C216_* say that it returns in the other cases.
C218 | partial | Scf.scores_round_trip Scf.scores_not_saved Scf.scores_lost | If no key is the beginning of another and the catalog gives, for the quantity of each cached result, a quantity whose uuid is the key. Fails otherwise: a score cached under a quantity other than that of the result is filed under the latter and not found again (scores_lost). Components of results are not kept, by design.
C219 | partial | Eis.sheet_flows Eis.sheet_units Eis.sheet_same_key | For rows whose key is not a unit. A row whose key is a unit gives no flow: its fields are written into the quantity (sheet_units). Rows with one key are one flow even if they have different units or come from different sheets (sheet_same_key).
C220 | proved | Eis.sheet_returns Eis.sheet_activities | A product that has the name of a unit is known too: the exchange then has a quantity in place of a flow.
C221 | partial | BgMgr.manager_deps_fg BgMgr.manager_deps_bg BgMgr.manager_deps_bg_fails_waste BgMgr.manager_deps_bg_fails_cancelling | True as stated of foreground product flows (one report per exchange). In the background there is one report per partner with the total, if no total is zero; but the direction is the complement of the reference direction of the partner and the amount is signed as an input, so what goes to a waste treatment is an Output of a negative amount, and if a total is zero the amounts are those of other partners: witnesses.
C222 | proved | BgMgr.manager_emissions | Direction and sign are those of the inventory data.
C223 | partial | BgMgr.inventory_fg BgMgr.inventory_fg_iff BgMgr.inventory_bg BgMgr.inventory_fails_waste | In the foreground true exactly if the product flow gives nothing to other product flows (inventory_fg_iff): what it gives is an Output of a negative amount. In the background the call fails with an AttributeError for each product flow that has an exchange with the exterior, and is right for the others (inventory_bg, no totals zero).
C224 | partial | BgMgr.manager_foreground BgMgr.manager_foreground_bg BgMgr.manager_foreground_fails_waste | For databases where exchanges with one product flow do not cancel and net outputs are positive. The direction is the complement of the supplier's reference direction, so what goes to a waste treatment is an Output of a negative amount (witness).
C225 | partial | Es2Score.retrieve_returns Es2Score.retrieve_scores Es2Score.collect_scores Es2Score.retrieve_fails_commas | A score is identified by its three texts joined by commas: two indicators with different texts may have one name, and the score of the wrong one is reported (witness).
C226 | partial | OldSyn.C226_keys_and_sets_agree OldSyn.C226_fails_untrimmed_key_in_two_sets OldSyn.C226_fails_synonym_of_another_set OldSyn.C226_fails_whenever_synonym_of_another_set | Without the conditions it fails: new_set looks for a key before it trims it, and add_synonym takes a key from another set without removing it there (witnesses). Flowables (CAS numbers) is left out.
C227 | proved | OldSyn.C227_add_set OldSyn.C227_add_key OldSyn.C227_add_synonym OldSyn.C227_new_set_name | For lists and keys as in C226.
C228 | proved | OldSyn.C228_merge_indices OldSyn.C228_inconsistent_synonyms_are_dropped | That the new synonyms are dropped is what the code does; the comment in the code does not say whether it is meant.
C229 | proved | OldSyn.C229_write_then_read | For SynList; Flowables (CAS numbers) is left out.
