{
 "claims": [
  {
   "property": "C01",
   "status": "proved",
   "theorems": [
    "Engine.C01_components_all",
    "Engine.C01_components_incremental"
   ],
   "note": "full claim, for add_all_ref_products and for any history of add_ref_product"
  },
  {
   "property": "C02",
   "status": "proved",
   "theorems": [
    "Engine.C02_classified_once",
    "Engine.C02_stable",
    "Engine.C02_terminates",
    "Engine.C02_add_all_returns"
   ],
   "note": "plus termination under explicit conditions"
  },
  {
   "property": "C03",
   "status": "partial",
   "theorems": [
    "Engine.C03_background",
    "Engine.C03_first_largest",
    "Engine.C03_fails_incremental"
   ],
   "note": "holds for add_all_ref_products; false for incremental adds (witness)"
  },
  {
   "property": "C04",
   "status": "proved",
   "theorems": [
    "Engine.C04_positions"
   ],
   "note": "after add_all_ref_products"
  },
  {
   "property": "C05",
   "status": "proved",
   "theorems": [
    "Engine.C05_topological",
    "Engine.C05_outputs"
   ],
   "note": "after add_all_ref_products"
  },
  {
   "property": "C06",
   "status": "proved",
   "theorems": [
    "Engine.C06_foreground"
   ],
   "note": "after add_all_ref_products"
  },
  {
   "property": "C07",
   "status": "partial",
   "theorems": [
    "Engine.C07_background",
    "Engine.C07_foreground_all",
    "Engine.C07_foreground_one",
    "Engine.C07_fails_incremental"
   ],
   "note": "holds for add_all_ref_products; false for incremental adds (witness)"
  },
  {
   "property": "C08",
   "status": "proved",
   "theorems": [
    "Lci.C08_series",
    "Lci.C08_exact",
    "Lci.C08_nilpotent",
    "Lci.C08_compute_lci",
    "Lci.C08_flat_lci",
    "Lci.C08_threshold_cuts_acyclic"
   ],
   "note": "the acyclic part needs threshold 0 (witness)"
  },
  {
   "property": "C09",
   "status": "partial",
   "theorems": [
    "Engine.C09_self_consumption_partial",
    "Engine.C09_fails_input_reference",
    "Engine.C09_fails_order"
   ],
   "note": "false for Input references and for totals of one or more (witnesses)"
  },
  {
   "property": "C49",
   "status": "partial",
   "theorems": [
    "Engine.C49_refusal_partial",
    "Engine.C49_never_silent",
    "Engine.C49_raises_iff_partial",
    "Engine.C49_fails_index_error",
    "Engine.C49_fails_stale",
    "Engine.C49_fails_later"
   ],
   "note": "the code violates the property as stated (three witnesses: wrong exception while nothing is recorded, stale component ids, records counted twice by a later addition); proved: no ambiguity passes silently, the error is raised exactly when the product flow depends on an ambiguity, and a TerminationError leaves every answer about known product flows unchanged"
  },
  {
   "property": "C50",
   "status": "proved",
   "theorems": [
    "Lci.C50_split",
    "Lci.C50_split_block",
    "Lci.C50_flatten"
   ],
   "note": ""
  },
  {
   "property": "C10",
   "status": "partial",
   "theorems": [
    "Syn.C10_partial",
    "Syn.C10_fails_addSynonym",
    "Syn.C10_fails_selfMerge"
   ],
   "note": "holds for all histories without TermFound from add_synonym, self-merge and a returning split_term; false for those (witnesses)"
  },
  {
   "property": "C11",
   "status": "partial",
   "theorems": [
    "Syn.C11_partial",
    "Syn.C10_fails_selfMerge"
   ],
   "note": "holds when the dominant item is not among the merged ones; otherwise the item is erased (witness)"
  },
  {
   "property": "C12",
   "status": "partial",
   "theorems": [
    "Syn.C12_partial",
    "Syn.C12_fails"
   ],
   "note": "whenever split_term returns, the split-off terms get no item: proved for all states; what does hold is in C12_partial"
  },
  {
   "property": "C13",
   "status": "partial",
   "theorems": [
    "Syn.C13_partial",
    "Syn.C13_fails"
   ],
   "note": "holds for lists without empty items; add_term('') breaks from_json (witness)"
  },
  {
   "property": "C14",
   "status": "partial",
   "theorems": [
    "Flw.C14_pad_trim",
    "Flw.C14_same_number",
    "Flw.C14_resolve_partial",
    "Flw.C14_fails_intermediate",
    "Flw.C15_fails_dead"
   ],
   "note": "the algebra of pad and trim holds for all strings; resolution of both forms holds for merge-free histories and fails after a merge (witness)"
  },
  {
   "property": "C15",
   "status": "partial",
   "theorems": [
    "Flw.C15_partial",
    "Flw.C15_fails_dead",
    "Flw.C15_fails_two",
    "Flw.C15_fails_polluted"
   ],
   "note": "holds for all histories, raising calls included, whose merges do not raise half-way; witnesses for the rest"
  },
  {
   "property": "C16",
   "status": "proved",
   "theorems": [
    "LDict.C16_lower_dict",
    "LDict.C16_get_fails"
   ],
   "note": "full claim; additionally the inherited get is shown not to ignore case"
  },
  {
   "property": "C22",
   "status": "partial",
   "theorems": [
    "Proc.allocate_then_conserves",
    "Proc.allocation_conserves",
    "Proc.allocation_conserves_partial",
    "Proc.allocate_fresh",
    "Proc.allocation_factors_sum",
    "Proc.allocation_factors_complete",
    "Proc.fresh_step",
    "Proc.allocation_stale",
    "Proc.allocation_stale_zero"
   ],
   "note": "holds right after allocate_by_quantity in every reachable state and over all histories that keep the reference amounts (or re-allocate with nonzero total); witnesses of a stale total otherwise"
  },
  {
   "property": "C23",
   "status": "proved",
   "theorems": [
    "Proc.reference_relation"
   ],
   "note": "full claim"
  },
  {
   "property": "C24",
   "status": "partial",
   "theorems": [
    "Proc.values_kept_partial",
    "Proc.values_kept_other",
    "Proc.second_value_refused",
    "Proc.second_allocated_value_refused",
    "Proc.add_dups_adds",
    "Proc.value_replaced",
    "Proc.value_lost"
   ],
   "note": "holds for string terminations; a non-string termination silently replaces the stored exchange (witness)"
  },
  {
   "property": "C25",
   "status": "proved",
   "theorems": [
    "Market.shares",
    "Market.market_kept"
   ],
   "note": "full claim, over all histories of assignments"
  },
  {
   "property": "C26",
   "status": "partial",
   "theorems": [
    "Flo.cf_lookup_partial",
    "Flo.cf_lookup_fails",
    "Flo.factors_kept_partial",
    "Flo.addChar_keeps",
    "Flo.second_factor_refused",
    "Flo.overwrite_replaces",
    "Flo.factor_replaced"
   ],
   "note": "lookup proved for every locale but the strings 'quantity' and 'flow' (witness); values kept over all histories without overwrite; a dict value overwrites without being asked (witness)"
  },
  {
   "property": "C27",
   "status": "partial",
   "theorems": [
    "Flo.conversions_kept",
    "Flo.setReference_err",
    "Flo.setReference_succeeds",
    "Flo.conversions_kept_addChar_partial",
    "Flo.addChar_reference_raises",
    "Flo.reference_factor_one",
    "Flo.conversions_changed",
    "Flo.no_factor_one"
   ],
   "note": "full for flow['referenceQuantity'] = q on a flow with a reference; add_characterization(reference=True) raises after changing the state; witnesses for overwrite with a location and for flows without reference"
  },
  {
   "property": "C47",
   "status": "proved",
   "theorems": [
    "Unit'.convert_trans",
    "Unit'.convert_self",
    "Unit'.convert_inverse",
    "Unit'.convert_value",
    "Unit'.missing_reference_unit"
   ],
   "note": "full claim"
  },
  {
   "property": "C17",
   "status": "partial",
   "theorems": [
    "Arc.entity_kept",
    "Arc.taken_refused",
    "Arc.add_outcome",
    "Arc.entity_kept_upstream",
    "Arc.upstream_replaces"
   ],
   "note": "full for an archive without upstream, over all histories including failing calls; with an upstream, adding to the archive itself keeps its answers, but adding the key to the upstream replaces the answer (witness)"
  },
  {
   "property": "C18",
   "status": "proved",
   "theorems": [
    "Arc.count_by_type"
   ],
   "note": "full claim"
  },
  {
   "property": "C19",
   "status": "proved",
   "theorems": [
    "Arc.upstream_first",
    "Arc.upstream_precedence",
    "Arc.upstream_cycle"
   ],
   "note": "full claim for every finite chain; a cyclic chain raises RecursionError"
  },
  {
   "property": "C20",
   "status": "proved",
   "theorems": [
    "ArcNames.one_reference",
    "ArcNames.second_reference_refused",
    "ArcNames.rewrite_moves",
    "ArcNames.same_reference",
    "ArcNames.new_source",
    "ArcNames.own_source_moves",
    "ArcNames.invalid_reference",
    "ArcNames.names_of_source",
    "ArcNames.own_source_drops_others"
   ],
   "note": "full claim; the archive's own source under its default local reference is moved without rewrite (as the code documents), which can drop other sources of the target reference (witness)"
  },
  {
   "property": "C21",
   "status": "partial",
   "theorems": [
    "Arc.add_children_partial",
    "Arc.add_process_partial",
    "Arc.add_children_history",
    "Arc.retry_adds_nothing",
    "Arc.stale_flow"
   ],
   "note": "holds from every state in which stored flows and processes are complete, which is kept by all histories of calls that return with unchanged entities; witnesses: an earlier attempt that raised, and a stored flow that got a further quantity"
  },
  {
   "property": "C28",
   "status": "proved",
   "theorems": [
    "Frg.traversal_linear",
    "Frg.traversal_zero"
   ],
   "note": "for every nonzero k; with weight 0 the traversal stops at the first fragment (traversal_zero)"
  },
  {
   "property": "C29",
   "status": "partial",
   "theorems": [
    "Frg.balance_sum",
    "Frg.balance_closes_partial",
    "Frg.balance_conversion",
    "Frg.balance_reference_process"
   ],
   "note": "balance_sum: the amount of the balance child is the one given by the code's own stock, at every node; balance_closes_partial: the sum is zero for foreground nodes whose termination needs no flow conversion; witnesses: a node terminated through a flow conversion, and a reference fragment terminated to a process, whose sums are not zero"
  },
  {
   "property": "C31",
   "status": "partial",
   "theorems": [
    "Frg.group_ios_flow",
    "Frg.group_ios_ref",
    "Frg.group_ios_autoconsumption",
    "Frg.group_ios_raises",
    "Frg.group_ios_internal",
    "Frg.zero_flows_kept",
    "Frg.pass_through_two_entries"
   ],
   "note": "the amounts are conserved for every flow; false parts with witnesses: flows with zero net are kept, and the reference flow can have two entries"
  },
  {
   "property": "C30",
   "status": "partial",
   "theorems": [
    "Frg.set_value_kept",
    "Frg.scenario_value",
    "Frg.scenario_conflict",
    "Frg.scenario_observed",
    "Frg.scenario_observed_ref",
    "Frg.scenario_cached",
    "Frg.scenario_cached_zero",
    "Frg.scenario_order",
    "Frg.set_raises",
    "Frg.cached_zero_is_one",
    "Frg.name_one_not_read"
   ],
   "note": "full for named scenarios and every history; false parts with witnesses: a cached value of 0 or None is reported as 1, and the name '1' is set as the observed value but reads the cached one"
  },
  {
   "property": "C32",
   "status": "partial",
   "theorems": [
    "Frg.load_save_partial",
    "Frg.wellNamed_run",
    "Frg.wellNamed_load",
    "Frg.balance_not_loaded",
    "Frg.delimiter_lost"
   ],
   "note": "full for every table reached by setting values under names without the delimiter and by loading, except a balance flow whose cached value is not 1 (witness: it cannot be loaded); witness that names with the delimiter are lost"
  },
  {
   "property": "C45",
   "status": "partial",
   "theorems": [
    "Frg.split_keeps_partial",
    "Frg.interpose_listed_twice",
    "Frg.interpose_twice",
    "Frg.interpose_observed",
    "Frg.fork_balance",
    "Frg.split_conversion"
   ],
   "note": "proved for split_subfragment of a foreground fragment (not a balance flow, no other fragment terminated into its subtree, terminated without a flow conversion, its own flow not cut off below it): every traversal of every other fragment, in every named scenario and with or without observed values, returns and models the same amounts; cut-offs inside the split subtree are netted per flow. False of interpose (always lists the fragment under both parents) and of splitting with a flow conversion or of a balance flow, shown by witnesses"
  },
  {
   "property": "C48",
   "status": "partial",
   "theorems": [
    "Frg.listed_under_parent",
    "Frg.listed_iff_partial",
    "Frg.listed_twice"
   ],
   "note": "listed under its parent: all histories; listed nowhere else: histories where set_parent is called on fragments without a parent; witness for the others"
  },
  {
   "property": "C51",
   "status": "partial",
   "theorems": [
    "Frg.construct_reference",
    "Frg.construct_child",
    "Frg.failed_creation_stays",
    "Frg.failed_creation_stays_subfragment"
   ],
   "note": "false of the code (witnesses); the circumstances in which creation does not raise are proved"
  },
  {
   "property": "C33",
   "status": "partial",
   "theorems": [
    "Lcia.total_leaves",
    "Lcia.aggregate_total",
    "Lcia.aggregate_star",
    "Lcia.aggregate_total_partial",
    "Lcia.aggregate_scale",
    "Lcia.aggregate_raises",
    "Lcia.contrib_total",
    "Lcia.flatten_total",
    "Lcia.flatten_ok_partial",
    "Lcia.flatten_private",
    "Lcia.flatten_static"
   ],
   "note": "total and contrib_new fully; flatten keeps the total whenever it returns (proved for every nesting), and returns for results of detailed scores without private parts; it raises on nested private results and on some static scores (witnesses). aggregate multiplies the total by the scale (witness), so it keeps it exactly for scale 1; it raises if the key function does (against its documentation)"
  },
  {
   "property": "C34",
   "status": "partial",
   "theorems": [
    "Lcia.doLcia_total",
    "Lcia.lcia_append",
    "Lcia.lcia_perm",
    "Lcia.lcia_total_partial",
    "Lcia.lcia_scale",
    "Lcia.scale_total_partial",
    "Lcia.add_total_partial",
    "Lcia.local_factor_skipped",
    "Lcia.add_common",
    "Lcia.add_underscore",
    "Lcia.add_scale",
    "Lcia.add_rescaled"
   ],
   "note": "the claim holds for do_lcia on inventories whose locally characterized flows have a global factor, and for + on results without common components; the witnesses show where the code violates the rest"
  },
  {
   "property": "C35",
   "status": "proved",
   "theorems": [
    "Lcia.summary_add"
   ],
   "note": ""
  },
  {
   "property": "C52",
   "status": "partial",
   "theorems": [
    "Lcia.fragLcia_conserved",
    "Lcia.fragLcia_total_partial",
    "Lcia.fragLcia_dropped"
   ],
   "note": "total plus failed is always the sum; the total alone is, if no fragment occurs twice; otherwise contributions are dropped from the total (witness)"
  },
  {
   "property": "C53",
   "status": "partial",
   "theorems": [
    "Lcia.weighting_raises"
   ],
   "note": "the code violates the claim: apply_weighting raises on every input with a component"
  },
  {
   "property": "C36",
   "status": "partial",
   "theorems": [
    "Cmp.set_elementary_partial",
    "Cmp.setElementary_marks",
    "Cmp.isSubOf_iff",
    "Cmp.addSub_tree",
    "Cmp.same_name_not_listed",
    "Cmp.uproot_not_elementary",
    "Cmp.unset_sets_children"
   ],
   "note": "proved for trees in which parents and children agree, which add_sub keeps unless the name is one of the parent's; otherwise, and after uproot, the claim fails (witnesses)"
  },
  {
   "property": "C37",
   "status": "partial",
   "theorems": [
    "Cmp.added_path_found_partial",
    "Cmp.added_path_matching_partial",
    "Cmp.addSubs_again",
    "Cmp.same_name_lost",
    "Cmp.unspecified_not_found",
    "Cmp.wrong_branch_found",
    "Cmp.added_not_found"
   ],
   "note": "proved when each name of the path names one compartment and none ends with 'unspecified'; false in general (witnesses)"
  },
  {
   "property": "C38",
   "status": "partial",
   "theorems": [
    "Cmp.load_serialized_partial",
    "Cmp.root_flag_lost",
    "Cmp.flag_gained"
   ],
   "note": "proved for hierarchies with a root that is not elementary and inherited flags; an elementary root loses its flag, and a compartment below an elementary one gains it (witnesses)"
  },
  {
   "property": "C54",
   "status": "partial",
   "theorems": [
    "Cmp.queries_fresh_partial",
    "Cmp.check_elem_cached",
    "Cmp.joined_names_cached"
   ],
   "note": "proved for histories of queries without check_elem whose joined names differ; false otherwise (witnesses)"
  },
  {
   "property": "C39",
   "status": "partial",
   "theorems": [
    "Rsv.resolve_exact",
    "Rsv.resolve_unknown",
    "Rsv.unknown_iff_partial",
    "Rsv.resolve_nodup",
    "Rsv.has_resource_makes_known",
    "Rsv.delete_temp_raises"
   ],
   "note": "what is yielded is exact for all strings and catalogues; UnknownOrigin is exact for the table of references, and for registered resources after the histories of C41; has_resource and failed deletions leave references without resources (witnesses)"
  },
  {
   "property": "C40",
   "status": "partial",
   "theorems": [
    "Rsv.getResource_partial",
    "Rsv.getResource_refuses_partial",
    "Rsv.getResource_source_partial",
    "Rsv.source_ignores_ref"
   ],
   "note": "proved without a source filter; with a source the other filters are ignored (witness)"
  },
  {
   "property": "C41",
   "status": "partial",
   "theorems": [
    "Rsv.history_partial",
    "Rsv.step_refines",
    "Rsv.registered_iff_partial",
    "Rsv.add_again_partial",
    "Rsv.delete_spec",
    "Rsv.stored_returns_partial",
    "Rsv.save_raises",
    "Rsv.delete_temp_raises",
    "Rsv.download_clash",
    "Rsv.filetype_changes_source",
    "Rsv.damaged_file_overwritten"
   ],
   "note": "proved over all histories for resources with a source and without the argument filetype; outside of this the claim fails (witnesses)"
  },
  {
   "property": "C42",
   "status": "partial",
   "theorems": [
    "AR.shift_in_range",
    "AR.adjUnit_equal",
    "AR.adjUnit_raises",
    "AR.result_shown",
    "AR.adjustAll_common",
    "AR.base_taken_for_prefix",
    "AR.unclear_wrong",
    "AR.zero_range"
   ],
   "note": "every nonzero range: the loop ends, the range is shown in [1,1000], with the smallest shift; equal quantity and exact condition for KeyError for every unit that is read as written. False of the code for base units that begin with a prefix letter (m, Pa, unit, person), shown by witnesses and in general (unclear_wrong). Rational arithmetic instead of floating point"
  },
  {
   "property": "C43",
   "status": "proved",
   "theorems": [
    "Ix.terminate_all",
    "Ix.terminate_direction",
    "Ix.terminate_invalid",
    "Ix.check_direction_iff",
    "Ix.stale_index"
   ],
   "note": "over every history of edits, implementations made, re-indexings and lookups, and every iteration order; flows are known by external reference, as in the index; stale_index shows that the index is not updated by edits, nor by a new implementation"
  },
  {
   "property": "C44",
   "status": "partial",
   "theorems": [
    "Fg.name_fragment_partial",
    "Fg.name_taken",
    "Fg.name_refused",
    "Fg.inv_run_partial",
    "Fg.name_overwrites",
    "Fg.name_flow_raises"
   ],
   "note": "full for every consistent foreground when no stored entity has the link that the fragment would get; the code does not check this: name_overwrites shows a local flow lost. name_flow_raises: naming what is no fragment raises half-way"
  },
  {
   "property": "C55",
   "status": "partial",
   "theorems": [
    "Fg.add_new",
    "Fg.add_known_partial",
    "Fg.merge_entity_partial",
    "Fg.inv_run_partial",
    "Fg.add_merges_wrong",
    "Fg.merge_ref_overwrites"
   ],
   "note": "new entities: full; known entities: nothing is stored twice, one entity with the UUID takes the properties. False of the code: it may be an entity of another origin (add_merges_wrong), and references are overwritten (merge_ref_overwrites)"
  },
  {
   "property": "C46",
   "status": "partial",
   "theorems": [
    "Cfg.config_again_partial",
    "Cfg.config_idempotent_partial",
    "Cfg.config_idempotent_no_references",
    "Cfg.config_idempotent_up_to_date_partial",
    "Cfg.config_not_idempotent",
    "Cfg.config_not_idempotent_stale",
    "Cfg.config_again_raises"
   ],
   "note": "for all archives and configurations: the second application succeeds, changes nothing but recorded totals that were out of date, and the third changes nothing; without set/unset entries the second changes nothing. The full statement is false in the code (witnesses: an allocated process to which an uncharacterized reference is added)."
  },
  {
   "property": "C56",
   "status": "partial",
   "theorems": [
    "Cfg.unset_anywhere_partial",
    "Cfg.unset_anywhere_undirected",
    "Cfg.unset_one",
    "Cfg.unset_anywhere_raises"
   ],
   "note": "false in the code: the call raises RuntimeError after the first instance; proved what it does for every archive, and the full effect for calls with a process."
  },
  {
   "property": "C57",
   "status": "proved",
   "theorems": [
    "Cfg.set_one",
    "Cfg.set_undirected",
    "Cfg.unset_one",
    "Cfg.characterize_one",
    "Cfg.allocate_one",
    "Cfg.allocate_over"
   ],
   "note": ""
  },
  {
   "property": "C58",
   "status": "partial",
   "theorems": [
    "FlatBg.C58_constructed_iff_cyclic",
    "FlatBg.C58_background",
    "FlatBg.C58_in_scc"
   ],
   "note": "classification proved in full; construction is false in the code for acyclic databases (AttributeError), proved as an iff."
  },
  {
   "property": "C59",
   "status": "partial",
   "theorems": [
    "FlatBg.C59_dependencies_partial",
    "FlatBg.C59_dependencies_directions_partial",
    "FlatBg.C59_emissions_partial",
    "FlatBg.C59_emissions_directions_partial",
    "FlatBg.C59_fails_background",
    "FlatBg.C59_fails_cancelling",
    "FlatBg.C59_fails_waste"
   ],
   "note": "false in the code: dependencies of any background product flow raise, cancelling exchanges shift amounts to the wrong supplier, directions are reversed when references differ in direction, emissions of input references have the wrong sign; proved for the rest."
  },
  {
   "property": "C60",
   "status": "partial",
   "theorems": [
    "FlatBg.C60_foreground_partial",
    "FlatBg.C60_foreground_refused",
    "FlatBg.fgQueue_eq"
   ],
   "note": "for foregrounds of products without cancelling exchanges and with self-consumption below one unit; foreground cycles included."
  },
  {
   "property": "C61",
   "status": "partial",
   "theorems": [
    "FlatBg.C61_consumers_partial",
    "FlatBg.C61_fails_no_foreground",
    "FlatBg.C61_fails_exterior"
   ],
   "note": "full for known product flows when there is a foreground; false in the code otherwise (TypeError) and for exterior flows."
  },
  {
   "property": "C62",
   "status": "partial",
   "theorems": [
    "Qdb.find_first",
    "Qdb.find_all",
    "Qdb.find_error_iff",
    "Qdb.find_fails_root"
   ],
   "note": "levels proved in full; from the root with dist 3 the search raises AttributeError, proved as an iff."
  },
  {
   "property": "C63",
   "status": "partial",
   "theorems": [
    "Qdb.stored_eq",
    "Qdb.stored_iff",
    "Qdb.listed_iff",
    "Qdb.flowsFor_spec",
    "Qdb.cfsFor_spec",
    "Qdb.add_cf_fails_update",
    "Qdb.is_known_fails"
   ],
   "note": "proved over all histories, except that of equal factors the first, not the latest, is kept, and that asking makes a quantity known (both proved as failures)."
  },
  {
   "property": "C64",
   "status": "partial",
   "theorems": [
    "Qdb.convert_sound",
    "Qdb.convert_sound_flowable",
    "Qdb.convert_order",
    "Qdb.convert_none_iff",
    "Qdb.quelled_iff",
    "Qdb.convert_quelled",
    "Qdb.lookupCfs_nil",
    "Qdb.convert_fails_order",
    "Qdb.convert_fails_warning",
    "Qdb.convert_fails_root",
    "Qdb.convert_fails_values",
    "Qdb.convert_reference_fails"
   ],
   "note": "soundness, order independence and the None case proved; the code raises in several cases for lack of data, proved as failures."
  },
  {
   "property": "C65",
   "status": "partial",
   "theorems": [
    "Qdb.convert_frame",
    "Qdb.convert_frame_flowable",
    "Qdb.convert_repeat_partial",
    "Qdb.convert_repeat_fails"
   ],
   "note": "frame proved in full; repetition proved at the global location; false at others."
  },
  {
   "property": "C66",
   "status": "partial",
   "theorems": [
    "Qdb.doLcia_frame",
    "Qdb.doLcia_repeat",
    "Qdb.doLcia_each",
    "Qdb.doLcia_perm",
    "Qdb.lciaOne_new",
    "Qdb.adjust_eq",
    "Qdb.obtain_settled",
    "Qdb.doLcia_fails_locale",
    "Qdb.doLcia_fails_refresh",
    "Qdb.doLcia_fails_second",
    "Qdb.doLcia_fails_missing"
   ],
   "note": "frame, repetition at the same location and order independence (factors held by flows outside the inventory) proved; false in the code for a second location, a second quantity at a location, refresh and missing compartments."
  },
  {
   "property": "C67",
   "status": "proved",
   "theorems": [
    "Engine.C03_background",
    "Engine.C03_first_largest"
   ],
   "note": "the part of C03 about a single call of add_all_ref_products"
  },
  {
   "property": "C68",
   "status": "proved",
   "theorems": [
    "Engine.C07_background",
    "Engine.C07_foreground_all",
    "Engine.C07_foreground_one"
   ],
   "note": "the part of C07 about a single call of add_all_ref_products"
  },
  {
   "property": "C69",
   "status": "proved",
   "theorems": [
    "Engine.C49_never_silent"
   ],
   "note": "the part of C49 that the code meets"
  },
  {
   "property": "C70",
   "status": "proved",
   "theorems": [
    "Flw.C14_pad_trim",
    "Flw.C14_same_number"
   ],
   "note": "the algebraic part of C14"
  },
  {
   "property": "C71",
   "status": "proved",
   "theorems": [
    "Flo.conversions_kept",
    "Flo.setReference_err",
    "Flo.setReference_succeeds"
   ],
   "note": "the part of C27 about assignment; add_characterization(reference=True) is in C27"
  },
  {
   "property": "C72",
   "status": "proved",
   "theorems": [
    "Arc.entity_kept",
    "Arc.taken_refused",
    "Arc.add_outcome"
   ],
   "note": "the part of C17 about archives without upstream"
  },
  {
   "property": "C73",
   "status": "proved",
   "theorems": [
    "Frg.group_ios_flow",
    "Frg.group_ios_ref",
    "Frg.group_ios_autoconsumption",
    "Frg.group_ios_raises",
    "Frg.group_ios_internal"
   ],
   "note": "C31 with zero-net flows kept, as in the code"
  },
  {
   "property": "C74",
   "status": "proved",
   "theorems": [
    "Frg.set_value_kept",
    "Frg.scenario_value",
    "Frg.scenario_conflict",
    "Frg.scenario_observed",
    "Frg.scenario_observed_ref",
    "Frg.scenario_order"
   ],
   "note": "the part of C30 without the default for cached values of 0"
  },
  {
   "property": "C75",
   "status": "proved",
   "theorems": [
    "Frg.listed_under_parent"
   ],
   "note": "one direction of C48"
  },
  {
   "property": "C76",
   "status": "proved",
   "theorems": [
    "Lcia.total_leaves",
    "Lcia.contrib_total",
    "Lcia.flatten_total"
   ],
   "note": "the part of C33 the code meets"
  },
  {
   "property": "C77",
   "status": "proved",
   "theorems": [
    "Lcia.fragLcia_conserved"
   ],
   "note": "the part of C52 the code meets"
  },
  {
   "property": "C78",
   "status": "proved",
   "theorems": [
    "Lcia.doLcia_total",
    "Lcia.lcia_append",
    "Lcia.lcia_perm"
   ],
   "note": "the part of C34 the code meets"
  },
  {
   "property": "C79",
   "status": "proved",
   "theorems": [
    "Rsv.resolve_exact",
    "Rsv.resolve_unknown",
    "Rsv.resolve_nodup"
   ],
   "note": "C39 with respect to the resolver's own table of references"
  },
  {
   "property": "C80",
   "status": "proved",
   "theorems": [
    "Rsv.getResource_by_reference",
    "Rsv.getResource_refuses"
   ],
   "note": "C40 without a source filter"
  },
  {
   "property": "C81",
   "status": "proved",
   "theorems": [
    "AR.shift_in_range",
    "AR.adjustAll_common"
   ],
   "note": "the part of C42 about the numbers, not the unit strings"
  },
  {
   "property": "C85",
   "status": "proved",
   "theorems": [
    "Qdb.convert_sound",
    "Qdb.convert_sound_flowable",
    "Qdb.convert_order",
    "Qdb.convert_none_iff",
    "Qdb.quelled_iff",
    "Qdb.convert_quelled"
   ],
   "note": "C64 without the claim that it never raises"
  },
  {
   "property": "C82",
   "status": "proved",
   "theorems": [
    "FlatBg.C58_background",
    "FlatBg.C58_in_scc",
    "FlatBg.C58_constructed_iff_cyclic"
   ],
   "note": "C58 with the circumstances in which the constructor fails"
  },
  {
   "property": "C83",
   "status": "proved",
   "theorems": [
    "Qdb.find_first",
    "Qdb.find_all",
    "Qdb.find_error_iff"
   ],
   "note": "C62 with the circumstances in which the search raises"
  },
  {
   "property": "C84",
   "status": "proved",
   "theorems": [
    "Qdb.stored_eq",
    "Qdb.stored_iff",
    "Qdb.listed_iff",
    "Qdb.flowsFor_spec",
    "Qdb.cfsFor_spec"
   ],
   "note": "C63 with the first of equal factors, as in the code"
  },
  {
   "property": "C86",
   "status": "proved",
   "theorems": [
    "Qdb.convert_frame",
    "Qdb.convert_frame_flowable"
   ],
   "note": "the frame part of C65"
  },
  {
   "property": "C87",
   "status": "proved",
   "theorems": [
    "Qdb.doLcia_frame",
    "Qdb.doLcia_repeat"
   ],
   "note": "the frame and repetition parts of C66"
  },
  {
   "property": "C88",
   "status": "proved",
   "theorems": [
    "Proc.allocate_then_conserves",
    "Proc.allocation_factors_sum",
    "Proc.allocation_factors_complete"
   ],
   "note": "the part of C22 about the state right after the call"
  },
  {
   "property": "C89",
   "status": "proved",
   "theorems": [
    "Fg.add_new"
   ],
   "note": "the part of C55 about new entities"
  },
  {
   "property": "C90",
   "status": "proved",
   "theorems": [
    "Fg.name_taken",
    "Fg.name_refused"
   ],
   "note": "the part of C44 about refusals"
  },
  {
   "property": "C91",
   "status": "partial",
   "theorems": [
    "Cat.query_answer",
    "Cat.query_complete_partial",
    "Cat.query_unknown",
    "Cat.not_implemented_ends",
    "Cat.key_error_ends",
    "Cat.get_item_first_only",
    "Cat.get_item_empty_process",
    "Cat.secure_default_raises"
   ],
   "note": "completeness holds only if no resource raises anything but the exception of the query: a resource that raises NotImplementedError or KeyError ends the search (not_implemented_ends, key_error_ends), so get_item asks only the first resource; CatalogQuery.resolve() without argument always raises"
  },
  {
   "property": "C92",
   "status": "proved",
   "theorems": [
    "Cat.query_loads",
    "Cat.query_only_loads"
   ],
   "note": ""
  },
  {
   "property": "C93",
   "status": "partial",
   "theorems": [
    "Cat.get_first",
    "Cat.get_iff_partial",
    "Cat.not_implemented_ends",
    "Cat.key_error_ends"
   ],
   "note": "the iff holds if no resource raises; otherwise the search ends at the resource that raises, witnesses included"
  },
  {
   "property": "C94",
   "status": "proved",
   "theorems": [
    "Cat.get_stable",
    "Cat.get_sound"
   ],
   "note": ""
  },
  {
   "property": "C95",
   "status": "partial",
   "theorems": [
    "Cat.lookup_first",
    "Cat.fetch_iff_partial",
    "Cat.loaded_static_first"
   ],
   "note": "lookup prefers static resources loaded before to those of lower priority, so its answer depends on earlier queries (loaded_static_first); the iff holds if nothing raises and archives carry the reference of their resource"
  },
  {
   "property": "C96",
   "status": "proved",
   "theorems": [
    "Cat.query_iff",
    "Cat.query_memo",
    "Cat.query_refresh"
   ],
   "note": ""
  },
  {
   "property": "C97",
   "status": "proved",
   "theorems": [
    "Cat.nickname_spec",
    "Cat.nickname_refused"
   ],
   "note": ""
  },
  {
   "property": "C98",
   "status": "partial",
   "theorems": [
    "Cat.strict_query_is_not",
    "Cat.query_stop_iteration",
    "Cat.nickname_hides"
   ],
   "note": "the code violates all three; each theorem is a counterexample in a reachable catalog"
  },
  {
   "property": "C99",
   "status": "proved",
   "theorems": [
    "Prv.test_iff",
    "Prv.test_num",
    "Prv.test_mono",
    "Prv.test_frame",
    "Prv.publication_round_trip",
    "Prv.publication_interfaces"
   ],
   "note": ""
  },
  {
   "property": "C100",
   "status": "partial",
   "theorems": [
    "Proc.reload_partial",
    "Proc.reload_drops_unvalued",
    "Proc.reload_loses_zero",
    "Proc.reload_moves_allocation",
    "Proc.reload_raises",
    "Proc.reload_loses_allocation"
   ],
   "note": "proved if every exchange has a value or nonzero allocated amounts, no flow with amounts allocated is a reference in both directions, the allocation is fresh and its quantity is in the archive. Each of these is necessary: without them exchanges are lost, numbers change, amounts move to another reference, reading raises, or the allocation is lost (witnesses)"
  },
  {
   "property": "C101",
   "status": "proved",
   "theorems": [
    "Proc.reload_without_values"
   ],
   "note": ""
  },
  {
   "property": "C102",
   "status": "partial",
   "theorems": [
    "PyEq.entity_lawful_partial",
    "PyEq.entity_equivalence",
    "PyEq.ref_lawful_partial",
    "PyEq.ref_trans_partial",
    "PyEq.set_of_refs",
    "PyEq.inSet_spec",
    "PyEq.entity_hash_differs",
    "PyEq.no_origin",
    "PyEq.ref_not_transitive",
    "PyEq.ref_unrelated_equal",
    "PyEq.ref_hash_differs",
    "PyEq.ref_of_entity_not_found",
    "PyEq.entity_ref_asymmetric"
   ],
   "note": "proved for entities whose external reference determines the uuid and for references to one origin. Fails otherwise (witnesses): equal entities with different uuids have different hashes; references to 'a.b', 'a', 'a.c' are not transitive; 'uslci' and 'uslci2' are equal; an entity and its own reference are equal but never found in a set with each other; comparing a reference with an entity without origin raises"
  },
  {
   "property": "C103",
   "status": "partial",
   "theorems": [
    "PyEq.exchange_lawful_partial",
    "PyEq.exchange_proper",
    "PyEq.char_lawful",
    "PyEq.detail_lawful",
    "PyEq.rx_not_lawful"
   ],
   "note": "proved for exchanges, and for mixtures with reference exchanges of one process (hash without collisions). Reference exchanges of different processes are equal with different hashes, and compared with an exchange the answer depends on the order"
  },
  {
   "property": "C104",
   "status": "partial",
   "theorems": [
    "PyEq.term_equivalence_partial",
    "PyEq.fflow_hash_partial",
    "PyEq.term_null_raises",
    "PyEq.term_ignores_origin"
   ],
   "note": "an equivalence among null, or among non-null terminations with entities as flows. Comparing any termination with a null one raises AttributeError, and nodes with the same external reference in different databases are not distinguished"
  },
  {
   "property": "C105",
   "status": "partial",
   "theorems": [
    "Flo.flow_reload_partial",
    "Flo.flow_reload_loses_region",
    "Flo.flow_reload_spreads_region",
    "Flo.flow_reload_loses_reference",
    "Flo.flow_reload_drops_quantity"
   ],
   "note": "proved if every factor is global, or given for at least two regions and not globally, the reference quantity has its factor 1, and the archive finds the quantities. Otherwise (witnesses): a regional factor beside a global one is lost, a single regional factor becomes global, a reference quantity without characterization is lost, unknown quantities are dropped silently"
  },
  {
   "property": "C106",
   "status": "partial",
   "theorems": [
    "EJ.archive_reload_partial",
    "EJ.reads_twice",
    "EJ.wf_of_made",
    "EJ.tags_unreadable",
    "EJ.external_ref_unreadable",
    "EJ.bad_external_ref",
    "EJ.missing_quantity"
   ],
   "note": "proved if no property has one of seven names the reader takes for something else, the archive has the quantities of its flows and factors are as in C105. Otherwise (witnesses): a property 'tags' or 'external_ref' makes the file unreadable; an external reference that does not lead to the uuid is replaced by the uuid; a flow without its quantity loses reference and factors. Processes: C100"
  },
  {
   "property": "C107",
   "status": "partial",
   "theorems": [
    "FlowRef.cf_one_locale_partial",
    "FlowRef.cf_after_profile_partial",
    "FlowRef.asked_elsewhere_zero",
    "FlowRef.asked_global_first",
    "FlowRef.cf_order_matters",
    "FlowRef.cf_zero_sticks"
   ],
   "note": "proved if each quantity is asked for one location only, or if the profile is read first. Otherwise it fails in general: after asking for a region every other location, 'GLO' included, gets factor zero; after asking for 'GLO' every region gets the global factor; a failed lookup is zero for ever"
  },
  {
   "property": "C108",
   "status": "partial",
   "theorems": [
    "RefI.assigned_read_partial",
    "RefI.read_stable",
    "RefI.hasProperty_spec",
    "RefI.lookup_keeps_partial",
    "RefI.assigned_not_read",
    "RefI.capital_not_read",
    "RefI.force_hides",
    "RefI.lookup_overwrites"
   ],
   "note": "assignment is read back only for names in lower case that were not looked up or given before; a name with a capital letter is stored in lower case and never found (proved for all such names); a forced query hides an assigned value for good; `lookup` overwrites a local item that differs in case"
  },
  {
   "property": "C109",
   "status": "partial",
   "theorems": [
    "RefI.ref_reload_partial",
    "RefI.catalog_ref_type_lost",
    "RefI.catalog_type_lost",
    "RefI.ref_uuid_lost"
   ],
   "note": "proved for typed references without reserved item names, except that the uuid becomes the external reference; a CatalogRef always loses its type (proved for all)"
  },
  {
   "property": "C110",
   "status": "partial",
   "theorems": [
    "RefI.merge_entity_partial",
    "RefI.merge_entity_refused",
    "RefI.merge_ref_refused",
    "RefI.merge_ref_right_dominant",
    "RefI.merge_flow_characterizations",
    "RefI.merge_entity_overwrites",
    "RefI.merge_ref_overwrites",
    "RefI.merge_flow_raises"
   ],
   "note": "proved for entities if common properties are spelled alike. A property spelled otherwise is overwritten; merging references overwrites always (the comment says the left is dominant); merging flows raises AttributeError if the other has a quantity that is not known (proved iff), so characterizations are never added"
  },
  {
   "property": "C111",
   "status": "partial",
   "theorems": [
    "RefI.identity_kept",
    "RefI.identity_set_once",
    "RefI.make_ref_once",
    "RefI.make_ref_names_partial",
    "RefI.make_ref_stale"
   ],
   "note": "identity proved in full; make_ref memoizes the first reference for any query (proved), so it names the entity only if origin and external reference do not change after the first call and the query has the entity's origin"
  },
  {
   "property": "C112",
   "status": "proved",
   "theorems": [
    "FgS.fragments_all",
    "FgS.fragments_refs"
   ],
   "note": "for runs that do not exhaust the recursion limit"
  },
  {
   "property": "C113",
   "status": "proved",
   "theorems": [
    "FgS.frag_strict",
    "FgS.frag_loose"
   ],
   "note": ""
  },
  {
   "property": "C114",
   "status": "proved",
   "theorems": [
    "FgS.linked_terms"
   ],
   "note": ""
  },
  {
   "property": "C115",
   "status": "partial",
   "theorems": [
    "FgS.del_orphans_dry",
    "FgS.del_orphans_raises"
   ],
   "note": "only the dry run is right. With for_real the code looks for the fragment under its uuid although entities are stored under their links: it is proved that for every foreground nothing is deleted, and that it raises KeyError whenever there is an orphan"
  },
  {
   "property": "C116",
   "status": "proved",
   "theorems": [
    "FgS.save_directory"
   ],
   "note": "for property tables that a record can hold (no None values, no names of record entries); C117 and C118 say what happens otherwise"
  },
  {
   "property": "C117",
   "status": "partial",
   "theorems": [
    "FgS.save_raises_partial",
    "FgS.save_typeError_unloadable",
    "FgS.serialize_null"
   ],
   "note": "proved: only files before the point of failure were rewritten, completely, none is deleted, and the one being written is either untouched or, if a property cannot be written as JSON, emptied. In that last case the claim is false: it is proved that the directory can never be loaded after it. A property that is None makes every save raise KeyError"
  },
  {
   "property": "C118",
   "status": "partial",
   "theorems": [
    "FgS.load_save_partial",
    "FgS.reserved_property_unloadable",
    "FgS.balance_value_unloadable",
    "FgS.unreachable_unloadable",
    "FgS.none_named_adopts",
    "FgS.null_scenario_overwrites",
    "FgS.lost_flow_replaced"
   ],
   "note": "proved when names and uuids are unambiguous, the catalog and the entity file give back flows and processes, no fragment is named 'None', no scenario 'default' or 'null', balance flows have cached value 1. Outside: proved for all foregrounds that a property named like a record entry, a balance flow with another cached value, or one termination that the catalog does not find makes loading raise; with witnesses for the rest"
  },
  {
   "property": "C119",
   "status": "partial",
   "theorems": [
    "CatF.abs_localize",
    "CatF.localize_idem",
    "CatF.moved_inside",
    "CatF.moved_beside"
   ],
   "note": "the part about paths outside is false for a path beside the catalog whose name merely begins with that of the root: proved for every root that it is taken to be inside, and changes when the catalog is moved. Roots without regular-expression characters"
  },
  {
   "property": "C120",
   "status": "partial",
   "theorems": [
    "CatF.download_partial",
    "CatF.download_again",
    "CatF.bad_download_accepted"
   ],
   "note": "proved when the file was not there or is forced. Otherwise false: proved for all catalogs that a download whose digest was wrong stays, and is returned by the next call with the same digest"
  },
  {
   "property": "C121",
   "status": "partial",
   "theorems": [
    "CatF.delete_files",
    "CatF.delete_without_source",
    "CatF.delete_keeps_cache",
    "CatF.delete_used_by_another_name"
   ],
   "note": "proved with 'uses' read as 'names by the same string'; a resource that names the file by another path loses it (witness). A resource without a source: TypeError after it is gone from the registry (universal). Caches stay whenever the source is not a file (universal)"
  },
  {
   "property": "C122",
   "status": "partial",
   "theorems": [
    "CatF.cache_found_partial",
    "CatF.cache_lost"
   ],
   "note": "proved for sources stored in localized form or outside the catalog. For sources stored as an absolute path inside the catalog it is proved that the cache never is read"
  },
  {
   "property": "C123",
   "status": "proved",
   "theorems": [
    "CatF.createForeground_again",
    "CatF.createForeground_source",
    "CatF.name_or_path",
    "CatF.relative_refused"
   ],
   "note": ""
  },
  {
   "property": "C124",
   "status": "partial",
   "theorems": [
    "CatF.configure_partial",
    "CatF.configure_unknown",
    "CatF.configure_unloaded",
    "CatF.configure_skips",
    "CatF.configure_sole_internal"
   ],
   "note": "proved if all resources concerned have a source and are loaded and internal ones accept. Otherwise false, universally: an unloaded resource raises AttributeError; the resource after a deleted one is skipped; an internal resource alone under its reference makes the call raise"
  },
  {
   "property": "C125",
   "status": "proved",
   "theorems": [
    "CatF.config_round_trip",
    "CatF.serialize_fails_iff"
   ],
   "note": "arguments are strings"
  },
  {
   "property": "C126",
   "status": "partial",
   "theorems": [
    "Frg.observe_sets",
    "Frg.observe_again",
    "Frg.observe_traverse_partial",
    "Frg.observe_ok_partial",
    "Frg.traverse_local",
    "Frg.observe_subfragment"
   ],
   "note": "what is set, and idempotence, in full. The part about traversals is proved if the subfragments reached have been observed and, for a named scenario, it has no values yet; without the former it is false (witness). Also: a traversal depends only on the fragments it reaches"
  },
  {
   "property": "C127",
   "status": "partial",
   "theorems": [
    "Frg.clone_copy_partial",
    "Frg.clone_traverse_partial",
    "Frg.clone_combination",
    "Frg.clone_cleared",
    "Frg.clone_emission",
    "Frg.clone_scenario_amount",
    "Frg.clone_order",
    "Frg.meta_clone",
    "Frg.meta_other_origin"
   ],
   "note": "proved under the conditions `Clonable`. False otherwise: a value for a combination of scenarios makes the call raise (universal); a termination cleared in a scenario, the terminating flow of a foreground emission, and amounts below a default subfragment termination are lost (witnesses); child flows may come in another order, which can matter (witness); a fragment with child flows cannot be cloned to another origin (universal)"
  },
  {
   "property": "C128",
   "status": "partial",
   "theorems": [
    "Frg.set_child_exchanges_sets",
    "Frg.set_child_exchanges_used",
    "Frg.set_child_exchanges_refuses",
    "Frg.set_child_exchanges_balance_raises",
    "Frg.set_child_exchanges_loses"
   ],
   "note": "proved in the default scenario, and else if no exchange is meant for a balance flow. Otherwise the call raises half way (universal). An inventory that lists a flow twice for one child keeps the later value, and a zero is cached as one (witnesses)"
  },
  {
   "property": "C129",
   "status": "partial",
   "theorems": [
    "Frg.reverse_raises_iff",
    "Frg.reverse_twice",
    "Frg.reverse_cutoff_partial",
    "Frg.reverse_subfragment_partial",
    "Frg.reverse_reference_partial",
    "Frg.reverse_foreground_negates",
    "Frg.reverse_has_effect",
    "Frg.reverse_zero_changes",
    "Frg.travNode_apart",
    "Frg.scale_evs_scales",
    "Frg.scale_evs_value",
    "Frg.scale_evs_none_raises"
   ],
   "note": "no effect: proved for cutoffs, flows to subfragments and foreground reference fragments with a nonzero cached value. For interior foreground nodes and processes all flows below change sign (universal), and a cached zero is not reversed (witness). `scale_evs` with a None leaves the values scaled half way (universal)"
  },
  {
   "property": "C130",
   "status": "partial",
   "theorems": [
    "Fst.forest_top",
    "Fst.forest_one_node",
    "Fst.forest_sub_iff",
    "Fst.forest_sub_ref",
    "Fst.forest_from_links",
    "Fst.forest_deps",
    "Fst.forest_old",
    "Fst.forest_follows",
    "Fst.forest_complete",
    "Fst.forest_ordered",
    "Fst.forest_exists",
    "Fst.forest_gives_up",
    "Fst.forest_loop"
   ],
   "note": "proved for all archives and exchange lists, except that exchanges may be given up: none whose process is within ten exchanges of the first one, none at all if each exchange comes after one that leads to its process; a chain of twelve in the wrong order is cut (witness). An exchange that leads back to the first process makes a fragment terminated within itself (universal). Not modelled: origins (processes are taken as their external references, as the code does), archive storage, observation"
  },
  {
   "property": "C131",
   "status": "partial",
   "theorems": [
    "Frg.traverse_returns",
    "Frg.traverse_limit_irrelevant",
    "Frg.traverse_stuck",
    "Frg.terminate_keeps_traversal_partial",
    "Frg.terminate_same_tree_loops",
    "Frg.terminate_reference_loops",
    "Frg.terminate_hidden_loops"
   ],
   "note": "the parts about traverse are proved in full. What the check in terminate achieves is proved for a flow inside a fragment, a reference fragment as target and terminations that show the flows of their subfragments; it is false otherwise: a flow terminated to another flow of its own tree, an unterminated reference fragment terminated to a user of it (both universal) and a loop through a termination that hides flows (witness) are accepted and make the fragments impossible to traverse"
  },
  {
   "property": "C132",
   "status": "proved",
   "theorems": [
    "Ivt.map_spec",
    "Ivt.gen_spec",
    "Ivt.find_spec",
    "Ivt.find_order",
    "Ivt.resolve_onlyRef",
    "Ivt.resolve_two_refs",
    "Ivt.inventory_plain",
    "Ivt.inventory_allocated",
    "Ivt.inventory_cutoff",
    "Ivt.inventory_terminated",
    "Ivt.exchangeValues_spec",
    "Ivt.isAllocated_spec"
   ],
   "note": "terminations are strings; inventories of processes with amounts allocated to single references: see also C22-C24"
  },
  {
   "property": "C133",
   "status": "partial",
   "theorems": [
    "Ivt.relation_inventory",
    "Ivt.relation_twice",
    "Ivt.relation_right_iff",
    "Ivt.relation_without_flow"
   ],
   "note": "false: the inventory is per unit of the reference already and is divided by the reference amount once more (relation_inventory, for any allocation); without allocation the result is right exactly if the reference amount is 1 or there is nothing to report. It is right for processes with one reference if called with None for the reference flow"
  },
  {
   "property": "C134",
   "status": "partial",
   "theorems": [
    "Ivt.hasReference_partial",
    "Ivt.hasReference_raises",
    "Ivt.exchangeValues_reference"
   ],
   "note": "has_reference is right for a flow that is not a reference twice; for every process with two references has_reference() raises (universal). exchange_values(reference=True) yields the references of the flow in both directions (universal)"
  },
  {
   "property": "C135",
   "status": "proved",
   "theorems": [
    "Cat.query_answer",
    "Cat.query_unknown"
   ],
   "note": "the parts of C91 that hold in full"
  },
  {
   "property": "C136",
   "status": "proved",
   "theorems": [
    "Cat.get_first",
    "Cat.lookup_first"
   ],
   "note": "the parts of C93 and C95 that hold in full"
  },
  {
   "property": "C137",
   "status": "proved",
   "theorems": [
    "PyEq.exchange_proper",
    "PyEq.char_lawful",
    "PyEq.detail_lawful"
   ],
   "note": "the parts of C103 that hold in full"
  },
  {
   "property": "C138",
   "status": "proved",
   "theorems": [
    "RefI.read_stable",
    "RefI.hasProperty_spec"
   ],
   "note": "the parts of C108 that hold in full"
  },
  {
   "property": "C139",
   "status": "proved",
   "theorems": [
    "RefI.merge_entity_refused",
    "RefI.merge_ref_refused"
   ],
   "note": "the part of C110 about refusals"
  },
  {
   "property": "C140",
   "status": "proved",
   "theorems": [
    "RefI.identity_kept",
    "RefI.identity_set_once"
   ],
   "note": "the part of C111 about identity"
  },
  {
   "property": "C141",
   "status": "proved",
   "theorems": [
    "CatF.abs_localize",
    "CatF.localize_idem",
    "CatF.moved_inside"
   ],
   "note": "the parts of C119 that hold in full"
  },
  {
   "property": "C142",
   "status": "proved",
   "theorems": [
    "Frg.observe_sets",
    "Frg.observe_again",
    "Frg.traverse_local"
   ],
   "note": "the parts of C126 that hold in full"
  },
  {
   "property": "C143",
   "status": "proved",
   "theorems": [
    "Frg.reverse_raises_iff",
    "Frg.reverse_twice"
   ],
   "note": "the parts of C129 that hold in full"
  },
  {
   "property": "C144",
   "status": "proved",
   "theorems": [
    "Fst.forest_top",
    "Fst.forest_one_node",
    "Fst.forest_sub_iff",
    "Fst.forest_sub_ref",
    "Fst.forest_from_links",
    "Fst.forest_deps",
    "Fst.forest_old",
    "Fst.forest_follows",
    "Fst.forest_exists"
   ],
   "note": "C130 without the claim that no exchange is given up"
  },
  {
   "property": "C145",
   "status": "proved",
   "theorems": [
    "Frg.traverse_returns",
    "Frg.traverse_limit_irrelevant",
    "Frg.traverse_stuck"
   ],
   "note": "the part of C131 about traverse"
  },
  {
   "property": "C146",
   "status": "partial",
   "theorems": [
    "BgI.queries_named_partial",
    "BgI.is_in_background_partial",
    "BgI.consumers_named_partial",
    "BgI.queries_refused",
    "BgI.process_object_fails",
    "BgI.ambiguous_reference",
    "BgI.bg_lcia_raises"
   ],
   "note": "holds for processes named by their external reference, catalog references and exchanges; for a process given as object is_in_background is never true and every other query raises; bg_lcia raises for all arguments; a catalog reference to a process with several references is answered for the first (theorems)"
  },
  {
   "property": "C147",
   "status": "partial",
   "theorems": [
    "BgI.flows_listed_partial",
    "BgI.search_ignored"
   ],
   "note": "the search is ignored (theorem)"
  },
  {
   "property": "C148",
   "status": "proved",
   "theorems": [
    "BgI.saved_same",
    "BgI.saved_same_answers",
    "BgI.saved_incomplete"
   ],
   "note": "the Matlab container itself is a parameter: what is modelled are the arrays that are put into it; a flat background without a foreground is not covered"
  },
  {
   "property": "C149",
   "status": "partial",
   "theorems": [
    "BgI.proxy_background_flows",
    "BgI.proxy_foreground",
    "BgI.proxy_in_background_partial",
    "BgI.proxy_exterior_raises"
   ],
   "note": "exterior_flows never lists anything and raises as soon as there is an exterior flow; with the archive's own index is_in_background is true of unknown processes too (theorems)"
  },
  {
   "property": "C150",
   "status": "partial",
   "theorems": [
    "BgI.ref_query_partial",
    "BgI.ref_query_string_raises",
    "BgI.ref_relation_none_raises",
    "BgI.default_is_reference",
    "BgI.default_used"
   ],
   "note": "a reference flow given by its external reference always raises AttributeError; exchange_relation(None, \u2026) always raises (theorems)"
  },
  {
   "property": "C151",
   "status": "partial",
   "theorems": [
    "USc.score_process",
    "USc.score_subfragment",
    "USc.represented_irrelevant",
    "USc.Ex.twin_lost",
    "USc.local_process_raises",
    "USc.private_raises",
    "USc.bg_fragment_raises"
   ],
   "note": "what a child flow represents is only its flow and direction: other supplies of the same flow are lost (theorem and witness); processes of the fragment's own origin, private databases and background fragments terminated to fragments always raise (theorems)"
  },
  {
   "property": "C152",
   "status": "partial",
   "theorems": [
    "USc.fg_score",
    "USc.fg_conversion_squared",
    "USc.fg_reference_unit",
    "USc.emission_negative"
   ],
   "note": "holds up to sign when both flows have the same quantity; the conversion is counted twice and the sign of emissions is negative (theorems)"
  },
  {
   "property": "C153",
   "status": "partial",
   "theorems": [
    "USc.score_again",
    "USc.score_stale",
    "USc.score_current",
    "USc.score_frame",
    "USc.added_used",
    "USc.missing_becomes_zero"
   ],
   "note": "a score once cached stays whatever changes (theorem); one that was missing becomes zero for everyone after a query that ignored it (theorem)"
  },
  {
   "property": "C154",
   "status": "partial",
   "theorems": [
    "USc.fragment_total_partial",
    "USc.fragment_again",
    "USc.fragment_raises",
    "USc.Ex.stale_double"
   ],
   "note": "for distinct fragments in each list; with the cached scores, which may be out of date (witness); a node of the fragment's own origin makes the whole LCIA raise (theorem)"
  },
  {
   "property": "C155",
   "status": "proved",
   "theorems": [
    "Spold.linked_loaded",
    "Spold.linked_order",
    "Spold.repeated_refused",
    "Spold.unreadable_refused"
   ],
   "note": "amounts are rational numbers; the XML parser is not modelled"
  },
  {
   "property": "C156",
   "status": "partial",
   "theorems": [
    "Spold.unlinked_loaded",
    "Spold.unit_ignored",
    "Spold.Ex.grams_as_kg"
   ],
   "note": "the unit of an amount is ignored if the flow is already there with another unit (theorem and witness)"
  },
  {
   "property": "C157",
   "status": "partial",
   "theorems": [
    "Spold.loadAll_each",
    "Spold.failed_kept",
    "Spold.without_exchanges_kept",
    "Spold.Ex.truncated"
   ],
   "note": "fails: the truncated process stays and is returned without error ever after, and so is one loaded without exchanges (theorems and witness); proved is that loading all reports the first failure"
  },
  {
   "property": "C158",
   "status": "proved",
   "theorems": [
    "Spold1.loaded",
    "Spold1.loaded_relation",
    "Spold1.loaded_order",
    "Spold1.loads",
    "Spold1.directionless_dropped",
    "Spold1.Ex.conv_agrees"
   ],
   "note": "amounts are rational numbers; conversions and the answers of the user are consistent (and those of the code are)"
  },
  {
   "property": "C159",
   "status": "proved",
   "theorems": [
    "Spold1.failed_absent",
    "Spold1.failed_again",
    "Spold1.kept",
    "Spold1.retrieve_kept"
   ],
   "note": "the flows made before the failure stay, with right factors"
  },
  {
   "property": "C160",
   "status": "partial",
   "theorems": [
    "Spold1.all_named",
    "Spold1.same_name_ignored",
    "Spold1.misnamed_none",
    "Spold1.Ex.lost"
   ],
   "note": "there is one process for each name, but a second dataset of the same name is ignored (theorem, witness), and one whose name differs from that of its file is loaded while None is returned (theorem)"
  },
  {
   "property": "C161",
   "status": "partial",
   "theorems": [
    "Olca.loaded",
    "Olca.other_property_fails"
   ],
   "note": "proved for all loads that succeed; an exchange in another flow property than that of its flow always fails (the message is formatted with too few arguments), proved"
  },
  {
   "property": "C162",
   "status": "partial",
   "theorems": [
    "Olca.allocated",
    "Olca.same_name_fails",
    "Olca.Ex.not_allocated",
    "Olca.Ex.own_use"
   ],
   "note": "proved for methods other than CAUSAL_ALLOCATION when no process of the same name was loaded; a second process of the same name and product always fails to load (theorem), and what happens without factors or when a product is also an input is shown by witnesses"
  },
  {
   "property": "C163",
   "status": "partial",
   "theorems": [
    "Olca.failed_kept",
    "Olca.Ex.truncated"
   ],
   "note": "fails: what had been loaded when the failure came is returned ever after, without error (theorem for all failures, witness)"
  },
  {
   "property": "C164",
   "status": "partial",
   "theorems": [
    "Srch.search_exact",
    "Srch.search_exact_all",
    "Srch.search_ok",
    "Srch.text_iff",
    "Srch.upstream_not_searched",
    "Srch.spelling_matters",
    "Srch.number_raises",
    "Srch.Ex.upstream_missed",
    "Srch.Ex.lower_case_missed",
    "Srch.Ex.dict_names_searched"
   ],
   "note": "proved for the archive itself, for the spelling in which the property was first set; fails upstream (never searched, theorem), for other spellings (theorem), and a number among the values ends the search with TypeError (theorem); of a dict the names are searched and not the values (witness)"
  },
  {
   "property": "C165",
   "status": "proved",
   "theorems": [
    "Srch.find_partial_id"
   ],
   "note": ""
  },
  {
   "property": "C166",
   "status": "proved",
   "theorems": [
    "Srch.index_exact"
   ],
   "note": ""
  },
  {
   "property": "C167",
   "status": "partial",
   "theorems": [
    "Inx.index_found_iff",
    "Inx.same_index_reference",
    "Inx.Ex.dated_origin"
   ],
   "note": "proved: it is another reference always, and belongs to the origin if and only if the last part of the origin does not end in six or more digits and hyphens; references that differ in a date at the end only get the same reference for their indexes (theorem)"
  },
  {
   "property": "C168",
   "status": "partial",
   "theorems": [
    "Inx.index_made",
    "Inx.index_again",
    "Inx.reindex_stale",
    "Inx.Ex.stale_index"
   ],
   "note": "the first two parts are proved; the third fails: with force on the same day the file is renewed, but the resource goes on answering with the old index for as long as the catalog lives (theorem, witness)"
  },
  {
   "property": "C169",
   "status": "partial",
   "theorems": [
    "Uid.found",
    "Uid.other_spelling_not_found",
    "Uid.entityUuid_canon",
    "Uid.entityUuid_idem",
    "Uid.Ex.capitals_missed"
   ],
   "note": "proved for UUIDs in the usual form (small letters, hyphens) in any text; fails for all others: a text that is a UUID in capitals or without hyphens never finds the entity (theorem)"
  },
  {
   "property": "C170",
   "status": "partial",
   "theorems": [
    "Ilcd.units_right",
    "Ilcd.units_from_one",
    "Ilcd.Ex.wrong_unit"
   ],
   "note": "proved if the internal identifiers of the units are their positions counted from zero; if they are counted from one the unit is never the reference unit (theorem)"
  },
  {
   "property": "C171",
   "status": "partial",
   "theorems": [
    "Ilcd.loaded"
   ],
   "note": "all proved but for the reference: the process has it if and only if the file writes the UUID of the reference flow in the usual form (same theorem)"
  },
  {
   "property": "C172",
   "status": "partial",
   "theorems": [
    "Ilcd.capitals_twice_fail",
    "Ilcd.failed_kept",
    "Ilcd.missing_file_fails",
    "Ilcd.Ex.failed_process_stays",
    "Ilcd.Ex.zero_with_comment"
   ],
   "note": "fails: processes that list a flow in capitals twice always fail to load, a file missing from a directory ends the load (from a zip file it does not), and what failed while exchanges were added stays in the archive and is returned, incomplete, ever after (theorems)"
  },
  {
   "property": "C173",
   "status": "partial",
   "theorems": [
    "Fil.listed_read",
    "Fil.dir_exact",
    "Fil.zip_exact",
    "Fil.folder_listed",
    "Fil.folder_only",
    "Fil.openDir_folder",
    "Fil.prefix_appended",
    "Fil.list_filtered",
    "Fil.sibling_listed",
    "Fil.shadowed_not_listed",
    "Fil.one_letter_not_listed",
    "Fil.outside_listed",
    "Fil.Ex.list_and_read_disagree",
    "Fil.Ex.directory_lists_outside"
   ],
   "note": "proved for files that are in the folder of the prefix and not next to a folder of almost the same name; fails otherwise (theorems): entries beside the folder whose name begins with the prefix are listed and cannot be read; files of zip files are not listed if their name without the last letter is a folder; a directory whose prefix is set afterwards lists what is outside"
  },
  {
   "property": "C174",
   "status": "partial",
   "theorems": [
    "Fil.read_again",
    "Fil.downloaded",
    "Fil.no_slash",
    "Fil.only_http",
    "Fil.Ex.slash_matters"
   ],
   "note": "proved for http addresses that end in a slash; without the slash the file of another folder is asked for, and nothing is read from https addresses (theorems)"
  },
  {
   "property": "C175",
   "status": "partial",
   "theorems": [
    "Fno.created",
    "Fno.failed_complete",
    "Fno.only_loops_cut",
    "Fno.fuel_enough",
    "Fno.other_origin_used",
    "Fno.Ex.second_product_background",
    "Fno.Ex.wrong_database"
   ],
   "note": "proved but for two exceptions (theorems): the second product of a process already seen is taken from the background although it is no loop, and a fragment of a process with the same reference of another origin is used"
  },
  {
   "property": "C176",
   "status": "partial",
   "theorems": [
    "Lbx.text_first",
    "Lbx.text_none",
    "Lbx.key_found",
    "Lbx.num_found",
    "Lbx.history",
    "Lbx.set_found",
    "Lbx.update_numbers",
    "Lbx.update_not_scaled",
    "Lbx.delete_keeps_number",
    "Lbx.Ex.updated_unscaled",
    "Lbx.Ex.shorter_key",
    "Lbx.Ex.deleted"
   ],
   "note": "proved for results stored one by one under keys of one length; fails (theorems) for results stored by update, which are not scaled, and for deletions, which leave the numbers"
  },
  {
   "property": "C177",
   "status": "partial",
   "theorems": [
    "Frg.scenarios_listed",
    "Frg.scenarios_own",
    "Frg.scenarios_sorted",
    "Frg.traverse_listed_partial",
    "Frg.traverse_unlisted_partial",
    "Frg.scenarios_total",
    "Frg.scenarios_loop",
    "Frg.ScenEx.background_not_listed",
    "Frg.ScenEx.upstream_not_listed",
    "Frg.ScenEx.mixed_not_listed",
    "Frg.ScenEx.loop_not_listed"
   ],
   "note": "the list is proved complete; that others have no effect is proved if subfragments are reference fragments and background fragments have no scenarios of their own, and fails otherwise (theorems); there is no list if fragments form a loop, or if names are texts and tuples (theorems)"
  },
  {
   "property": "C178",
   "status": "partial",
   "theorems": [
    "Frg.cutoffs_total",
    "Frg.cutoffs_net",
    "Frg.cutoffs_once",
    "Frg.cutoffs_each",
    "Frg.cutoffs_sorted",
    "Frg.inventory_spec",
    "Frg.inventory_net",
    "Frg.background_cutoffs_missed",
    "Frg.CutEx.background_missed"
   ],
   "note": "proved for fragments that are background themselves; where flows are terminated to background fragments, which is how foregrounds are made, their cut-offs are never listed (theorem)"
  },
  {
   "property": "C179",
   "status": "partial",
   "theorems": [
    "Qim.index_iff",
    "Qim.two_cas_raise",
    "Qim.some_zeros_raise",
    "Qim.blank_name_joins",
    "Qim.placeholder_joins",
    "Qim.empty_name_raises"
   ],
   "note": "proved, with an exact condition for failure, for names that are not blank and CAS numbers with six digits in front or no leading zeros; outside: two flows of one name with different CAS numbers make every query raise (theorem); blank names, placeholders and CAS numbers with some of their leading zeros (witnesses)"
  },
  {
   "property": "C180",
   "status": "partial",
   "theorems": [
    "Qim.factors_spec_partial",
    "Qim.unknown_flowable_all",
    "Qim.unknown_quantity"
   ],
   "note": "proved for flowables the archive knows, under the conditions of C179; one it does not know is no filter at all: all factors are yielded (theorem)"
  },
  {
   "property": "C181",
   "status": "partial",
   "theorems": [
    "Qim.flowables_spec",
    "Qim.unknown_quantity",
    "Qim.stale_raises",
    "Qim.compartments_spec"
   ],
   "note": "proved for the index made from the archive as it is, under the conditions of C179; a quantity that is not known is no filter, a flow added after the first query makes flowables raise, compartments ignores its arguments and raises for compartments that are lists (theorems)"
  },
  {
   "property": "C182",
   "status": "partial",
   "theorems": [
    "Cmp.known_names_spec",
    "Cmp.known_names_ends",
    "Cmp.merge_subs_names",
    "Cmp.merge_subs_denotes",
    "Cmp.merge_subs_refused",
    "Cmp.collapse_names",
    "Cmp.collapse_returns",
    "Cmp.delete_spec",
    "Cmp.merge_changes_status"
   ],
   "note": "names, lists and frame proved; the elementary status of a name is not kept: merge_subs compares the flags of the two compartments only, not those below them (witness)"
  },
  {
   "property": "C183",
   "status": "partial",
   "theorems": [
    "Cmp.from_json_frame",
    "Cmp.load_local_names",
    "Cmp.merge_compartment_names",
    "Cmp.find_interact_spec",
    "Cmp.merge_failed_changes"
   ],
   "note": "all but the last part proved; a call that raises MissingCompartment (Merge failed) may have added compartments, which are not saved (witness)"
  },
  {
   "property": "C184",
   "status": "partial",
   "theorems": [
    "Ltab.cas_text",
    "Ltab.cas_matches",
    "Ltab.cas_round_trip",
    "Ltab.cas_injective",
    "Ltab.cas_cell_number",
    "Ltab.cas_cell_text",
    "Ltab.cas_cell_own_text",
    "Ltab.rows_for_cas"
   ],
   "note": "text, round trip and injectivity proved for every number; acceptance and query hold exactly for numbers of three to nine digits (proved as an equivalence): a CAS number of ten digits raises ValueError, and a query with one looks for a name"
  },
  {
   "property": "C185",
   "status": "proved",
   "theorems": [
    "Ltab.flow_key_injective",
    "Ltab.load_all_first",
    "Ltab.load_all_returns",
    "Ltab.load_all_stops_at_long_cas"
   ],
   "note": "later factors for the same substance are dropped (part of the statement)"
  },
  {
   "property": "C186",
   "status": "proved",
   "theorems": [
    "Ltab.factors_spec",
    "Ltab.factors_and_load",
    "Ltab.compartments_first_row"
   ],
   "note": "`flowables` is not modelled"
  },
  {
   "property": "C187",
   "status": "partial",
   "theorems": [
    "Ltab.ecoinvent_load",
    "Ltab.ecoinvent_load_stops",
    "Ltab.ecoinvent_load_returns",
    "Ltab.key3_injective",
    "Ltab.ecoinvent_flow_named",
    "Ltab.ecoinvent_key_collision"
   ],
   "note": "proved by key; the flow has the name and compartment of the row when compartments hold no comma; with a comma two flows can share a key and the factor lands on the wrong flow (witness)"
  },
  {
   "property": "C188",
   "status": "partial",
   "theorems": [
    "Ilm.load_method_returns",
    "Ilm.load_method_values",
    "Ilm.global_factor_partial",
    "Ilm.global_factor_lost",
    "Ilm.load_method_again"
   ],
   "note": "all proved but the global factor: it is stored only when it is the first factor of the flow in the file; a global factor after one for a location is dropped and cf gives 0 (proved for every file: global_factor_lost)"
  },
  {
   "property": "C189",
   "status": "partial",
   "theorems": [
    "Ilm.load_lcia_values",
    "Ilm.load_lcia_skips",
    "Ilm.factors_values",
    "Ilm.flowables_values"
   ],
   "note": "proved, except that load_lcia skips a method that is in the archive already, even if its factors were never read (proved for every archive: load_lcia_skips)"
  },
  {
   "property": "C190",
   "status": "partial",
   "theorems": [
    "Fti.terminate_children_partial",
    "Fti.zero_observed_as_one"
   ],
   "note": "All but one part is proved for every call that returns. Violated: an exchange of amount 0 is observed as 1, always (the cached value 0 reads as 1.0)."
  },
  {
   "property": "C191",
   "status": "partial",
   "theorems": [
    "Fti.terminate_scenario_partial",
    "Fti.scenario_changes_default"
   ],
   "note": "Proved for fragments that are nodes by default. Violated for every fragment that is a cut-off by default, if the process has an exchange: the fragment becomes a foreground node by default, and is no longer a background fragment."
  },
  {
   "property": "C192",
   "status": "partial",
   "theorems": [
    "Fti.terminate_again",
    "Fti.children_doubled",
    "Fti.terminate_frag_raises",
    "Fti.terminate_frag_sets"
   ],
   "note": "Refusal is proved. Violated: child flows are always repeated and observed values of the earlier ones replaced by cached values; with a fragment as termination the call always raises, leaving the termination set where terminate() succeeds."
  },
  {
   "property": "C193",
   "status": "partial",
   "theorems": [
    "Arf.reopen_saved",
    "Arf.reopen_renamed",
    "Arf.open_ok",
    "Arf.open_err",
    "Arf.write_new"
   ],
   "note": "Proved while the archive has the reference it was created with. Violated always otherwise: an archive that got another reference writes its first one as initArgs.dataReference and itself under the other, so opening raises SourceAlreadyKnown unless the caller names the reference (then it works, proved)."
  },
  {
   "property": "C194",
   "status": "partial",
   "theorems": [
    "Arf.descendant_ok",
    "Arf.descendant_reopen",
    "Arf.descendant_lost"
   ],
   "note": "All but opening is proved for every call that returns. Violated always: the file has the initial reference of the ancestor, so from_file raises SourceAlreadyKnown; opened with its reference named (as a catalog does) it is the descendant, proved."
  },
  {
   "property": "C195",
   "status": "proved",
   "theorems": [
    "Arf.load_agrees",
    "Arf.load_disagrees"
   ],
   "note": "Files with a dataReference at the top level (older ones) are in the model but not in these theorems. The disagreement theorem is for archives whose reference is not the default one for their source."
  },
  {
   "property": "C196",
   "status": "partial",
   "theorems": [
    "Charts.query_values",
    "Charts.query_star",
    "Charts.query_raises",
    "Charts.query_all",
    "Charts.query_all_lost",
    "Charts.query_private"
   ],
   "note": "The part without stages is proved for results in which each component's key is its entity. Violated always when no entity is a key (as after aggregate): components are looked up by entity, all numbers are 0, has_nonzero and has_pos_neg are False."
  },
  {
   "property": "C197",
   "status": "partial",
   "theorems": [
    "Charts.waterfall_bars",
    "Charts.waterfall_unit",
    "Charts.waterfall_exists",
    "Charts.waterfall_no_net",
    "Charts.waterfall_null"
   ],
   "note": "include_net=False never leaves the remainder out: whenever a result has one, no chart is drawn (IndexError), proved; auto-ranging fails if one of the results is null, proved."
  },
  {
   "property": "C198",
   "status": "partial",
   "theorems": [
    "Charts.waterfall_fade",
    "Charts.waterfall_fade_first",
    "Charts.waterfall_fade_later"
   ],
   "note": "Proved for the first row. The rows share the styles: a colour is faded as often as rows so far have a negative bar at that stage (proved), so any later bar of a stage that was once negative is faded, positive or not."
  },
  {
   "property": "C199",
   "status": "partial",
   "theorems": [
    "Charts.waterfall_span",
    "Charts.waterfall_span_false"
   ],
   "note": "Proved without auto-ranging and when all results have one scale. Violated otherwise: the span is taken before rows are brought to the common unit (a chart with bars up to 3000 and a span of 9)."
  },
  {
   "property": "C200",
   "status": "proved",
   "theorems": [
    "ChartsBars.drawn_total",
    "ChartsBars.posNeg_ok",
    "ChartsBars.posNeg_iff",
    "ChartsBars.drawn_extent",
    "ChartsBars.apart"
   ],
   "note": "posNeg_ok gives the sums for every result and its place; drawn_total is about one result with those sums. Texts, sizes and the scale of auto-ranging (which fails if the span is 0) are not modelled."
  },
  {
   "property": "C201",
   "status": "proved",
   "theorems": [
    "ChartsBars.one_bar",
    "ChartsBars.stacked_within",
    "ChartsBars.series_apart",
    "ChartsBars.limits_cover",
    "ChartsBars.too_few_colors"
   ],
   "note": "Numbers are rationals. Labels of segments are not modelled."
  },
  {
   "property": "C202",
   "status": "proved",
   "theorems": [
    "ChartsBars.spread",
    "ChartsBars.spread_tiles"
   ],
   "note": "Positions only; the heights are those of C196."
  },
  {
   "property": "C203",
   "status": "proved",
   "theorems": [
    "Av1.lcia_ok",
    "Av1.lcia_raises",
    "Av1.lcia_accepts"
   ],
   "note": "Numbers are rationals; the process is assumed to be retrievable."
  },
  {
   "property": "C204",
   "status": "partial",
   "theorems": [
    "Av1.fragmentLcia_ok",
    "Av1.about_unique",
    "Av1.fragmentLcia_none",
    "Av1.fragmentLcia_stages",
    "Av1.fragmentLcia_raises"
   ],
   "note": "Acceptance is proved for stages whose id is not above the number of stages; the others raise (C205). Stages of one name are one component."
  },
  {
   "property": "C205",
   "status": "partial",
   "theorems": [
    "Av1.stageName_iff",
    "Av1.stageName_above"
   ],
   "note": "Proved for ids up to the number of stages, and exactly for these. Violated for all others: IndexError even if the stage is listed, because the id is first used as a position."
  },
  {
   "property": "C206",
   "status": "partial",
   "theorems": [
    "Av1.retrieve_describes",
    "Av1.retrieve_again",
    "Av1.retrieve_others",
    "Av1.retrieve_stable",
    "Av1.retrieve_text",
    "Av1.init_sound"
   ],
   "note": "All but uuids. Violated for uuids: any key not of the form kind/id raises KeyError, although the docstring says it works (retrieve_text)."
  },
  {
   "property": "C207",
   "status": "proved",
   "theorems": [
    "Av1.listing_first",
    "Av1.listing_later",
    "Av1.listing_repeat",
    "Av1.listing_replaces",
    "Av1.init_sound"
   ],
   "note": "Listings are read to the end. listing_replaces: the first listing makes every entity another object, even those retrieved before (the old one stays in the archive's own table); so identity of objects does not hold across it."
  },
  {
   "property": "C208",
   "status": "partial",
   "theorems": [
    "Av1.traverse_ok",
    "Av1.traverse_chars",
    "Av1.traverse_again",
    "Av1.traverse_zero_raises",
    "Av1.traverse_weight_raises"
   ],
   "note": "Proved if it returns. It does not for any fragment in which one flow has a magnitude 0 and elsewhere another one in the same flow property (ValueError): 0 is taken for the flow's characterization, proved for all such; nor with a magnitude and a node weight 0. Terminations and fetching the flows are not modelled."
  },
  {
   "property": "C209",
   "status": "proved",
   "theorems": [
    "Qdq.register_live",
    "Qdq.canonical_stable",
    "Qdq.canonical_history",
    "Qdq.property_refused",
    "Qdq.property_merged",
    "Qdq.property_again"
   ],
   "note": "The archive the quantity is added to, and synonyms written into the entity, are not modelled. Repeating needs a term that is not empty (the uuid never is)."
  },
  {
   "property": "C210",
   "status": "partial",
   "theorems": [
    "Qdq.method_new",
    "Qdq.method_split",
    "Qdq.method_blank"
   ],
   "note": "Proved for methods whose uuid is not known. Violated universally otherwise: the same method from another origin (method_split) gets a new index first and the old one afterwards, so the factors stored first are not found again; a method with an empty synonym (method_blank) gets a new index whenever it is registered."
  },
  {
   "property": "C211",
   "status": "proved",
   "theorems": [
    "Qdq.synonyms_ok",
    "Qdq.synonyms_refused"
   ],
   "note": "The synonyms written into the entity are not modelled."
  },
  {
   "property": "C212",
   "status": "partial",
   "theorems": [
    "Tab.grid_lines",
    "Tab.grid_total",
    "Tab.grid_short",
    "Tab.lines_order_depends"
   ],
   "note": "All but the last sentence, and for names of two letters or more (with a shorter one it raises IndexError, grid_short: always). The lines of a row are sorted by the last letter but one of their name, so lines of equal letters come in the order of a set (lines_order_depends). Formatting, pandas and excel are not modelled."
  },
  {
   "property": "C213",
   "status": "proved",
   "theorems": [
    "Tab.grid_headings",
    "Tab.text_allocation"
   ],
   "note": "If no direction is the ditto mark itself."
  },
  {
   "property": "C214",
   "status": "partial",
   "theorems": [
    "Tab.flowCell_total",
    "Tab.factors_shown",
    "Tab.plain_sum",
    "Tab.text_raises",
    "Tab.text_unvalued",
    "Tab.text_flowables"
   ],
   "note": "The last sentence fails for every table: the header has one text less than the format (text_flowables), unless a subclass sets the far headings. Even then text raises IndexError exactly if a row has no amount at all or too short a name; so for every row of exchanges without a value (text_unvalued). Factors of equal value under one name are shown once."
  },
  {
   "property": "C215",
   "status": "partial",
   "theorems": [
    "NewF.C215_stable",
    "NewF.C215_known",
    "NewF.C215_half"
   ],
   "note": "The second sentence fails for half-padded CAS numbers such as 0050-00-0, which are never known (C215_half: in every state); proved for all other terms."
  },
  {
   "property": "C216",
   "status": "proved",
   "theorems": [
    "NewF.C216_new",
    "NewF.C216_one",
    "NewF.C216_one_clash",
    "NewF.C216_several"
   ],
   "note": "For CAS numbers that are written without blanks around them and are not half-padded. C216_several also says when that case raises: exactly if the CAS numbers clash."
  },
  {
   "property": "C217",
   "status": "partial",
   "theorems": [
    "NewF.C217_two_numbers",
    "NewF.C217_half",
    "NewF.C216_several",
    "NewF.C216_new",
    "NewF.C216_one",
    "NewF.C216_one_clash"
   ],
   "note": "Both parts fail: with two different CAS numbers among the unknown terms it always raises ConflictingCas, leaving a flowable without terms (C217_two_numbers); with a half-padded form of a known CAS number and otherwise unknown terms it always raises (C217_half). The theorems C216_* say that it returns in the other cases."
  },
  {
   "property": "C218",
   "status": "partial",
   "theorems": [
    "Scf.scores_round_trip",
    "Scf.scores_not_saved",
    "Scf.scores_lost"
   ],
   "note": "If no key is the beginning of another and the catalog gives, for the quantity of each cached result, a quantity whose uuid is the key. Fails otherwise: a score cached under a quantity other than that of the result is filed under the latter and not found again (scores_lost). Components of results are not kept, by design."
  },
  {
   "property": "C219",
   "status": "partial",
   "theorems": [
    "Eis.sheet_flows",
    "Eis.sheet_units",
    "Eis.sheet_same_key"
   ],
   "note": "For rows whose key is not a unit. A row whose key is a unit gives no flow: its fields are written into the quantity (sheet_units). Rows with one key are one flow even if they have different units or come from different sheets (sheet_same_key)."
  },
  {
   "property": "C220",
   "status": "proved",
   "theorems": [
    "Eis.sheet_returns",
    "Eis.sheet_activities"
   ],
   "note": "A product that has the name of a unit is known too: the exchange then has a quantity in place of a flow."
  },
  {
   "property": "C221",
   "status": "partial",
   "theorems": [
    "BgMgr.manager_deps_fg",
    "BgMgr.manager_deps_bg",
    "BgMgr.manager_deps_bg_fails_waste",
    "BgMgr.manager_deps_bg_fails_cancelling"
   ],
   "note": "True as stated of foreground product flows (one report per exchange). In the background there is one report per partner with the total, if no total is zero; but the direction is the complement of the reference direction of the partner and the amount is signed as an input, so what goes to a waste treatment is an Output of a negative amount, and if a total is zero the amounts are those of other partners: witnesses."
  },
  {
   "property": "C222",
   "status": "proved",
   "theorems": [
    "BgMgr.manager_emissions"
   ],
   "note": "Direction and sign are those of the inventory data."
  },
  {
   "property": "C223",
   "status": "partial",
   "theorems": [
    "BgMgr.inventory_fg",
    "BgMgr.inventory_fg_iff",
    "BgMgr.inventory_bg",
    "BgMgr.inventory_fails_waste"
   ],
   "note": "In the foreground true exactly if the product flow gives nothing to other product flows (inventory_fg_iff): what it gives is an Output of a negative amount. In the background the call fails with an AttributeError for each product flow that has an exchange with the exterior, and is right for the others (inventory_bg, no totals zero)."
  },
  {
   "property": "C224",
   "status": "partial",
   "theorems": [
    "BgMgr.manager_foreground",
    "BgMgr.manager_foreground_bg",
    "BgMgr.manager_foreground_fails_waste"
   ],
   "note": "For databases where exchanges with one product flow do not cancel and net outputs are positive. The direction is the complement of the supplier's reference direction, so what goes to a waste treatment is an Output of a negative amount (witness)."
  },
  {
   "property": "C225",
   "status": "partial",
   "theorems": [
    "Es2Score.retrieve_returns",
    "Es2Score.retrieve_scores",
    "Es2Score.collect_scores",
    "Es2Score.retrieve_fails_commas"
   ],
   "note": "A score is identified by its three texts joined by commas: two indicators with different texts may have one name, and the score of the wrong one is reported (witness)."
  },
  {
   "property": "C226",
   "status": "partial",
   "theorems": [
    "OldSyn.C226_keys_and_sets_agree",
    "OldSyn.C226_fails_untrimmed_key_in_two_sets",
    "OldSyn.C226_fails_synonym_of_another_set",
    "OldSyn.C226_fails_whenever_synonym_of_another_set"
   ],
   "note": "Without the conditions it fails: new_set looks for a key before it trims it, and add_synonym takes a key from another set without removing it there (witnesses). Flowables (CAS numbers) is left out."
  },
  {
   "property": "C227",
   "status": "proved",
   "theorems": [
    "OldSyn.C227_add_set",
    "OldSyn.C227_add_key",
    "OldSyn.C227_add_synonym",
    "OldSyn.C227_new_set_name"
   ],
   "note": "For lists and keys as in C226."
  },
  {
   "property": "C228",
   "status": "proved",
   "theorems": [
    "OldSyn.C228_merge_indices",
    "OldSyn.C228_inconsistent_synonyms_are_dropped"
   ],
   "note": "That the new synonyms are dropped is what the code does; the comment in the code does not say whether it is meant."
  },
  {
   "property": "C229",
   "status": "proved",
   "theorems": [
    "OldSyn.C229_write_then_read"
   ],
   "note": "For SynList; Flowables (CAS numbers) is left out."
  }
 ]
}