{
 "claims": [
  {
   "property": "C01",
   "status": "proved",
   "theorems": [
    "Verif.Props.c01_idx_roundtrip",
    "Verif.Props.c01_coord_roundtrip",
    "Verif.Props.c01_flat_injective",
    "Verif.Props.c01_ub"
   ],
   "note": ""
  },
  {
   "property": "C02",
   "status": "proved",
   "theorems": [
    "Verif.Props.c02_iterate"
   ],
   "note": ""
  },
  {
   "property": "C03",
   "status": "proved",
   "theorems": [
    "Verif.Props.c03_refl",
    "Verif.Props.c03_symm",
    "Verif.Props.c03_undefined",
    "Verif.Props.c03_same_rank",
    "Verif.Props.c03_not_transitive",
    "Verif.Props.c03_other_rank"
   ],
   "note": "compatibility is not transitive: c03_not_transitive"
  },
  {
   "property": "C04",
   "status": "proved",
   "theorems": [
    "Verif.Props.c04_characterisation",
    "Verif.Props.c04_same_count",
    "Verif.Props.c04_trans",
    "Verif.Props.c04_not_transitive"
   ],
   "note": "not transitive across different ranks even for full shapes: c04_not_transitive"
  },
  {
   "property": "C05",
   "status": "proved",
   "theorems": [
    "Verif.Props.c05_undefined",
    "Verif.Props.c05_rank_mismatch",
    "Verif.Props.c05_pointwise",
    "Verif.Props.c05_least_refinement",
    "Verif.Props.c05_not_commutative"
   ],
   "note": "least refinement and commutativity need compatible shapes; without: c05_not_commutative"
  },
  {
   "property": "C06",
   "status": "proved",
   "theorems": [
    "Verif.Props.c06_with_rank",
    "Verif.Props.c06_at_least_at_most",
    "Verif.Props.c06_padding_count",
    "Verif.Props.c06_concatenate",
    "Verif.Props.c06_trim_spec",
    "Verif.Props.c06_trim_idem",
    "Verif.Props.c06_trim_count"
   ],
   "note": ""
  },
  {
   "property": "C07",
   "status": "proved",
   "theorems": [
    "Verif.Props.c07_modular",
    "Verif.Props.c07_exact",
    "Verif.Props.c07_fully_defined",
    "Verif.Props.c07_not_exact",
    "Verif.Props.c07_guard_bypassed",
    "Verif.Props.c07_alloc_guard"
   ],
   "note": "overflow witness c07_not_exact, and the allocator's size guard bypassed by it: c07_guard_bypassed"
  },
  {
   "property": "C08",
   "status": "partial",
   "theorems": [
    "Verif.Props.c08_buffer_matches_shape",
    "Verif.Props.c08_compat_violated",
    "Verif.Props.c08_compat_violated_proto",
    "Verif.Props.c08_compat_partial",
    "Verif.Props.c08_compat_lost_iff",
    "Verif.Props.c08_compat_history",
    "Verif.Props.c08_n_elems",
    "Verif.Props.c08_deallocate",
    "Verif.Props.c08_copy",
    "Verif.Props.c08_move",
    "Verif.Props.c08_self_assign"
   ],
   "note": "buffer/shape agreement is proved for all histories; compatibility of allocated and allowed shape is false in general (c08_compat_violated: set_shape; c08_compat_violated_proto: rejected from_proto). c08_compat_lost_iff says exactly which calls lose it, c08_compat_history that nothing else does in any history"
  },
  {
   "property": "C09",
   "status": "proved",
   "theorems": [
    "Verif.Props.c09_expose",
    "Verif.Props.c09_expose_unallocated",
    "Verif.Props.c09_get",
    "Verif.Props.c09_out_of_range_aliases"
   ],
   "note": ""
  },
  {
   "property": "C10",
   "status": "proved",
   "theorems": [
    "Verif.Props.c10_guess_sound",
    "Verif.Props.c10_guess_complete",
    "Verif.Props.c10_agrees_with_compat",
    "Verif.Props.c10_zero_not_full"
   ],
   "note": ""
  },
  {
   "property": "C11",
   "status": "proved",
   "theorems": [
    "Verif.Props.c11_loosely_compatible",
    "Verif.Props.c11_loosely_agrees",
    "Verif.Props.c11_loose_part",
    "Verif.Props.c11_loose_full",
    "Verif.Props.c11_loose_undefined"
   ],
   "note": ""
  },
  {
   "property": "C12",
   "status": "proved",
   "theorems": [
    "Verif.Props.c12_fit",
    "Verif.Props.c12_fit_rejects"
   ],
   "note": ""
  },
  {
   "property": "C13",
   "status": "partial",
   "theorems": [
    "Verif.Props.c13_roundtrip_partial",
    "Verif.Props.c13_rank_mismatch_aborts",
    "Verif.Props.c13_ndebug_ub",
    "Verif.Props.c13_exact"
   ],
   "note": "assumes compatible shapes (false in states described under C08) and assertions enabled; c13_exact says exactly which allocated tensors survive (same rank and compatible: restored; other rank: abort; incompatible: false); negatives: c13_rank_mismatch_aborts, c13_ndebug_ub"
  },
  {
   "property": "C14",
   "status": "proved",
   "theorems": [
    "Verif.Props.c14_rejected",
    "Verif.Props.c14_decision",
    "Verif.Props.c14_allowed_clobbered",
    "Verif.Props.c14_overlong_data_ub"
   ],
   "note": "the allowed shape is clobbered (c14_allowed_clobbered); overlong data overruns the buffer (c14_overlong_data_ub)"
  },
  {
   "property": "C15",
   "status": "proved",
   "theorems": [
    "Verif.Props.c15_allocate",
    "Verif.Props.c15_realloc_keeps_data",
    "Verif.Props.c15_oom_reports_success",
    "Verif.Props.c15_allocate_done",
    "Verif.Props.c15_allocate_void",
    "Verif.Props.c15_new_scalar"
   ],
   "note": "when memory suffices; out of memory still reports success: c15_oom_reports_success"
  },
  {
   "property": "C16",
   "status": "proved",
   "theorems": [
    "Verif.Props.c16_binary",
    "Verif.Props.c16_reevaluate",
    "Verif.Props.c16_same_shape",
    "Verif.Props.c16_unary"
   ],
   "note": ""
  },
  {
   "property": "C17",
   "status": "proved",
   "theorems": [
    "Verif.Props.c17_shaper",
    "Verif.Props.c17_binary"
   ],
   "note": ""
  },
  {
   "property": "C18",
   "status": "proved",
   "theorems": [
    "Verif.Props.c18_transpose",
    "Verif.Props.c18_involutive",
    "Verif.Props.c18_vector",
    "Verif.Props.c18_beyond_rank_wrong",
    "Verif.Props.c18_both_beyond_unwritten"
   ],
   "note": "axes within the rank; otherwise wrong or unwritten output: c18_beyond_rank_wrong, c18_both_beyond_unwritten"
  },
  {
   "property": "C19",
   "status": "proved",
   "theorems": [
    "Verif.Props.c19_axis",
    "Verif.Props.c19_all",
    "Verif.Props.c19_beyond",
    "Verif.Props.c19_sum",
    "Verif.Props.c19_max"
   ],
   "note": ""
  },
  {
   "property": "C20",
   "status": "proved",
   "theorems": [
    "Verif.Props.c20_first_max",
    "Verif.Props.c20_beyond",
    "Verif.Props.c20_all_uninitialised"
   ],
   "note": "with an axis; without one all but the first output element stay uninitialised: c20_all_uninitialised"
  },
  {
   "property": "C21",
   "status": "proved",
   "theorems": [
    "Verif.Props.c21_flip",
    "Verif.Props.c21_involutive",
    "Verif.Props.c21_beyond_ub"
   ],
   "note": "axis beyond the rank is undefined behaviour: c21_beyond_ub"
  },
  {
   "property": "C22",
   "status": "proved",
   "theorems": [
    "Verif.Props.c22_extend",
    "Verif.Props.c22_beyond_ub"
   ],
   "note": "axis beyond the rank is undefined behaviour: c22_beyond_ub"
  },
  {
   "property": "C23",
   "status": "proved",
   "theorems": [
    "Verif.Props.c23_matmul_batch",
    "Verif.Props.c23_matmul",
    "Verif.Props.c23_matmul_transposed",
    "Verif.Props.c23_vector_left",
    "Verif.Props.c23_vector_right",
    "Verif.Props.c23_vector_both",
    "Verif.Props.c23_mismatch_throws",
    "Verif.Props.c23_accepts"
   ],
   "note": "any ring; batch extents covered too"
  },
  {
   "property": "C24",
   "status": "proved",
   "theorems": [
    "Verif.Props.c24_strassen_eq_cubic",
    "Verif.Props.c24_strassen_product",
    "Verif.Props.c24_min_pad",
    "Verif.Props.c24_builds_agree",
    "Verif.Props.c24_min_pad_tight"
   ],
   "note": ""
  },
  {
   "property": "C25",
   "status": "partial",
   "theorems": [
    "Verif.Props.c25_in_bounds_partial",
    "Verif.Props.c25_overrun_ub",
    "Verif.Props.c25_exact"
   ],
   "note": "false when the left operand has batch extents and the right has rank 2 or less (heap overrun, c25_overrun_ub); proved for all other accepted shapes; c25_exact is the exact characterisation"
  },
  {
   "property": "C26",
   "status": "proved",
   "theorems": [
    "Verif.Props.c26_mirror",
    "Verif.Props.c26_alive",
    "Verif.Props.c26_effect",
    "Verif.Props.c26_outcome"
   ],
   "note": "also: exact effect of every call on the edges and its outcome; the virtual death hooks have the base class behaviour (no-op / recorded)"
  },
  {
   "property": "C27",
   "status": "proved",
   "theorems": [
    "Verif.Props.c27_subject",
    "Verif.Props.c27_observer",
    "Verif.Props.c27_observer_succeeds",
    "Verif.Props.c27_null_tail_terminates"
   ],
   "note": "destroying an observer whose list has a null pointer after a subject terminates the program (c27_null_tail_terminates); otherwise, in particular when null is never passed, destruction succeeds"
  },
  {
   "property": "C28",
   "status": "proved",
   "theorems": [
    "Verif.Props.c28_symmetric",
    "Verif.Props.c28_effect",
    "Verif.Props.c28_death"
   ],
   "note": ""
  },
  {
   "property": "C29",
   "status": "proved",
   "theorems": [
    "Verif.Props.c29_sound",
    "Verif.Props.c29_complete",
    "Verif.Props.c29_exact"
   ],
   "note": ""
  },
  {
   "property": "C30",
   "status": "proved",
   "theorems": [
    "Verif.Props.c30_eval_fresh_unfrozen",
    "Verif.Props.c30_eval_fresh",
    "Verif.Props.c30_eval_succeeds",
    "Verif.Props.c30_silent_assign_stale",
    "Verif.Props.c30_delete_queued_ub"
   ],
   "note": "notifying assignments only (c30_silent_assign_stale is the counterexample otherwise); destroying a queued operation makes the next eval undefined: c30_delete_queued_ub"
  },
  {
   "property": "C31",
   "status": "proved",
   "theorems": [
    "Verif.Props.c31_frozen_stable",
    "Verif.Props.c31_frozen_value",
    "Verif.Props.c31_unfreeze_fresh",
    "Verif.Props.c31_get_shape_refreshes",
    "Verif.Props.c31_union_thaws"
   ],
   "note": "for calls that leave the graph alone; get_shape refreshes a frozen graph (c31_get_shape_refreshes) and merging can drop the freeze (c31_union_thaws)"
  },
  {
   "property": "C32",
   "status": "proved",
   "theorems": [
    "Verif.Props.c32_same_graph_iff_linked",
    "Verif.Props.c32_users"
   ],
   "note": "Linked ranges over all operations ever constructed, also destroyed ones (managers are never split)"
  },
  {
   "property": "C33",
   "status": "proved",
   "theorems": [
    "Verif.Props.c33_leaves"
   ],
   "note": ""
  },
  {
   "property": "C34",
   "status": "proved",
   "theorems": [
    "Verif.Props.c34_unary_value",
    "Verif.Props.c34_binary_value",
    "Verif.Props.c34_unary_succeeds",
    "Verif.Props.c34_binary_succeeds",
    "Verif.Props.c34_old_values",
    "Verif.Props.c34_div_by_zero_throws",
    "Verif.Props.c34_self_division"
   ],
   "note": "unary + (absolute value) is treated under C37; a node divided by itself gives 1 even where its value is 0 (c34_self_division)"
  },
  {
   "property": "C35",
   "status": "proved",
   "theorems": [
    "Verif.Props.c35_names_distinct",
    "Verif.Props.c35_unary_reuse",
    "Verif.Props.c35_binary_reuse",
    "Verif.Props.c35_scalar_clash",
    "Verif.Props.c35_conditional_clash"
   ],
   "note": "name clashes without the hypothesis: c35_scalar_clash (6-digit printing), c35_conditional_clash"
  },
  {
   "property": "C36",
   "status": "proved",
   "theorems": [
    "Verif.Props.c36_derivative",
    "Verif.Props.c36_succeeds",
    "Verif.Props.c36_placeholder_zero",
    "Verif.Props.c36_clip_wrong",
    "Verif.Props.c36_round_wrong",
    "Verif.Props.c36_conditional_wrong",
    "Verif.Props.c36_abs_wrong",
    "Verif.Props.c36_conditional_left",
    "Verif.Props.c36_conditional_right"
   ],
   "note": "wrong for the operations excluded: c36_clip_wrong, c36_round_wrong, c36_conditional_wrong, c36_abs_wrong; with respect to a placeholder derive returns 0 (c36_placeholder_zero)"
  },
  {
   "property": "C37",
   "status": "partial",
   "theorems": [
    "Verif.Props.c37_clip",
    "Verif.Props.c37_abs_partial",
    "Verif.Props.c37_abs_wrong",
    "Verif.Props.c37_l2norm_partial",
    "Verif.Props.c37_l2norm_wrong",
    "Verif.Props.c37_clip_norm_const_partial",
    "Verif.Props.c37_clip_norm_node_partial",
    "Verif.Props.c37_clip_norm_const_exact",
    "Verif.Props.c37_clip_norm_node_exact",
    "Verif.Props.c37_clip_norm_wrong"
   ],
   "note": "clip_val proved; abs, l2norm and clip_norm do not have their documented meaning in general: c37_abs_wrong, c37_l2norm_wrong, c37_clip_norm_wrong; the _partial theorems say where they do and c37_clip_norm_const_exact / c37_clip_norm_node_exact give the exact sets"
  },
  {
   "property": "C38",
   "status": "proved",
   "theorems": [
    "Verif.Props.c38_never_rebinds",
    "Verif.Props.c38_get",
    "Verif.Props.c38_get_null",
    "Verif.Props.c38_register_result",
    "Verif.Props.c38_distinct",
    "Verif.Props.c38_check"
   ],
   "note": "registry as a map; allocator classes numbered; singleton destruction not modelled"
  },
  {
   "property": "C39",
   "status": "proved",
   "theorems": [
    "Verif.Props.c39_key_injective",
    "Verif.Props.c39_save",
    "Verif.Props.c39_corrupt",
    "Verif.Props.c39_roundtrip",
    "Verif.Props.c39_stale_entry",
    "Verif.Props.c39_report"
   ],
   "note": "needs a lawful byte representation, memory, and tensors whose allocated rank equals the declared rank (otherwise loading aborts, c13_rank_mismatch_aborts); wire format of protobuf not modelled"
  },
  {
   "property": "C40",
   "status": "proved",
   "theorems": [
    "Verif.Props.c40_unfound",
    "Verif.Props.c40_effect"
   ],
   "note": "for calls that return; protos with mismatched ranks abort (c14_decision)"
  },
  {
   "property": "C41",
   "status": "proved",
   "theorems": [
    "Verif.Props.c41_const_axis",
    "Verif.Props.c41_const_axis_ub",
    "Verif.Props.c41_constant",
    "Verif.Props.c41_scalar",
    "Verif.Props.c41_undefined_shape_ub"
   ],
   "note": "constant from a vector with a non-empty shape; undefined shape is undefined behaviour (c41_undefined_shape_ub)"
  },
  {
   "property": "C42",
   "status": "proved",
   "theorems": [
    "Verif.Props.c42_update_constant",
    "Verif.Props.c42_update_node",
    "Verif.Props.c42_elements",
    "Verif.Props.c42_keeps_init",
    "Verif.Props.c42_no_broadcast",
    "Verif.Props.c42_unallocated_aborts",
    "Verif.Props.c42_unallocated_node_aborts"
   ],
   "note": "allocated variables; negatives: no broadcast, assignment to a variable without data aborts"
  },
  {
   "property": "C43",
   "status": "proved",
   "theorems": [
    "Verif.Props.c43_first",
    "Verif.Props.c43_history",
    "Verif.Props.c43_empty_aborts",
    "Verif.Props.c43_move",
    "Verif.Props.c43_move_unchecked"
   ],
   "note": "every sequence of vectors; negative: an empty vector aborts instead of raising the documented error; memory assumed available"
  },
  {
   "property": "C44",
   "status": "proved",
   "theorems": [
    "Verif.Props.c44_fresh_consumer",
    "Verif.Props.c44_continue",
    "Verif.Props.c44_distinct_keys",
    "Verif.Props.c44_update_ub",
    "Verif.Props.c44_update_ub_all",
    "Verif.Props.c44_skips",
    "Verif.Props.c44_duplicates",
    "Verif.Props.c44_lost_wakeup"
   ],
   "note": "Positive theorems for all histories (single key updates, several consumers with distinct keys) plus proved counterexamples for superseded entries: null dereference (general form for every two values with one key), skipped and repeated deliveries, a consumer left waiting."
  },
  {
   "property": "C45",
   "status": "proved",
   "theorems": [
    "Verif.Props.c45_history",
    "Verif.Props.c45_live_edges"
   ],
   "note": "Record as a history of calls (c45_history) and attached to the whole observer network model of C26-C29 (c45_live_edges)."
  },
  {
   "property": "C46",
   "status": "proved",
   "theorems": [
    "Verif.Props.c46_memory",
    "Verif.Props.c46_every_nth",
    "Verif.Props.c46_only_offered"
   ],
   "note": "counters do not wrap in the model"
  },
  {
   "property": "C47",
   "status": "proved",
   "theorems": [
    "Verif.Props.c47_displaced",
    "Verif.Props.c47_overwrites_first",
    "Verif.Props.c47_not_oldest_first"
   ],
   "note": "positive description of every history plus the refutation of oldest-first: c47_not_oldest_first, c47_overwrites_first"
  },
  {
   "property": "C48",
   "status": "proved",
   "theorems": [
    "Verif.Props.c48_between",
    "Verif.Props.c48_monotone",
    "Verif.Props.c48_values",
    "Verif.Props.c48_action"
   ],
   "note": "over the reals; also what action() returns (c48_action)"
  },
  {
   "property": "C49",
   "status": "proved",
   "theorems": [
    "Verif.Props.c49_towards_source",
    "Verif.Props.c49_distance"
   ],
   "note": "targetUpdates models the nodes built by variable_setup; the k updates may follow any history of notifying calls."
  },
  {
   "property": "C50",
   "status": "proved",
   "theorems": [
    "Verif.Props.c50_rmsprop",
    "Verif.Props.c50_rmsprop_no_accumulation",
    "Verif.Props.c50_rmsprop_nonneg",
    "Verif.Props.c50_simultaneous",
    "Verif.Props.c50_descent",
    "Verif.Props.c50_trained",
    "Verif.Props.c50_unlinked_sequential"
   ],
   "note": "c50_rmsprop says what every round does; c50_rmsprop_no_accumulation shows with two rounds that the documented recurrence m := d*m + (1-d)*g^2 fails, since the momentum is assigned silently and d*m is not recomputed. rmsprop is modelled for d, lr, eps other than 0 and 1 (operators simplify those); momentum/adadelta/adagrad updaters are unimplemented in the code."
  },
  {
   "property": "C51",
   "status": "proved",
   "theorems": [
    "Verif.Props.c51_fallback",
    "Verif.Props.c51_loaded",
    "Verif.Props.c51_roundtrip",
    "Verif.Props.c51_qnet",
    "Verif.Props.c51_first_use",
    "Verif.Props.c51_foreign_shape",
    "Verif.Props.c51_qnet_report"
   ],
   "note": "icompound::initialize/save and dq_net::initialize/save over the IO model; c51_foreign_shape is a finding: loading replaces a parameter's shapes unchecked."
  },
  {
   "property": "C52",
   "status": "proved",
   "theorems": [
    "Verif.Props.c52_fc_assign",
    "Verif.Props.c52_mlp_clone",
    "Verif.Props.c52_mlp_assign",
    "Verif.Props.c52_rbm_assign_noop",
    "Verif.Props.c52_rbm_self_assign_ub",
    "Verif.Props.c52_rbm_clone",
    "Verif.Props.c52_dbn_clone_no_output",
    "Verif.Props.c52_dqn_copy",
    "Verif.Props.c52_dqn_assign_keeps_memory",
    "Verif.Props.c52_mlp_new"
   ],
   "note": "Positive theorems for mlp (clone, assign, construction); the rbm, db_net and dq_net theorems state the defects found."
  },
  {
   "property": "C53",
   "status": "proved",
   "theorems": [
    "Verif.Props.c53_sigmoid",
    "Verif.Props.c53_tanh",
    "Verif.Props.c53_sigmoid_derivative",
    "Verif.Props.c53_tanh_derivative",
    "Verif.Props.c53_softmax"
   ],
   "note": "sigmoid and tanh on every node (constants included), for every hash order and history without name clashes; derivatives by the chain rule; softmax on every allocated tensor. Softmax normalises over all elements, batch included."
  },
  {
   "property": "C54",
   "status": "partial",
   "theorems": [
    "Verif.Props.c54_axial_partial",
    "Verif.Props.c54_square_ub",
    "Verif.Props.c54_exact",
    "Verif.Props.c54_padding_throws",
    "Verif.Props.c54_mismatch_throws"
   ],
   "note": "false along axis 0 when the first two extents are equal and above 1: c54_square_ub (out-of-bounds read); proved for all other shapes; c54_exact is the exact characterisation"
  },
  {
   "property": "C55",
   "status": "proved",
   "theorems": [
    "Verif.Props.c55_initialize_allocated",
    "Verif.Props.c55_initialize_new",
    "Verif.Props.c55_initialize_shape",
    "Verif.Props.c55_reinitialize_throws",
    "Verif.Props.c55_history"
   ],
   "note": "memory assumed available"
  },
  {
   "property": "C56",
   "status": "proved",
   "theorems": [
    "Verif.Props.c56_crash_loses_everything"
   ],
   "note": "intermediate contents while bytes are being written are not modelled"
  },
  {
   "property": "C57",
   "status": "proved",
   "theorems": [
    "Verif.Props.c57_numbering",
    "Verif.Props.c57_self_loop"
   ],
   "note": "Non-verbose rows as number triples; text formatting and iterator invalidation by rehash not modelled."
  },
  {
   "property": "C58",
   "status": "proved",
   "theorems": [
    "Verif.Props.c58_schedule",
    "Verif.Props.c58_train",
    "Verif.Props.c58_any_sample",
    "Verif.Props.c58_never",
    "Verif.Props.c58_zero_interval",
    "Verif.Props.c58_bad_action",
    "Verif.Props.c58_batches_fit"
   ],
   "note": "the network's weights are left to C50; negatives: zero intervals and out-of-range actions are undefined behaviour, a batch larger than the memory never trains"
  },
  {
   "property": "C59",
   "status": "proved",
   "theorems": [
    "Verif.Props.c59_fc_term",
    "Verif.Props.c59_pointwise_unary",
    "Verif.Props.c59_fc",
    "Verif.Props.c59_missing_input",
    "Verif.Props.c59_mlp",
    "Verif.Props.c59_wrong_input",
    "Verif.Props.c59_sigmoid",
    "Verif.Props.c59_tanh"
   ],
   "note": "c59_fc, c59_mlp, c59_sigmoid/tanh; first evaluation of the nodes; node construction (name lookup) is C29/C33; c59_wrong_input and c59_missing_input are the refusals"
  },
  {
   "property": "C60",
   "status": "proved",
   "theorems": [
    "Verif.Props.c60_eval",
    "Verif.Props.c60_backprop",
    "Verif.Props.c60_mlp",
    "Verif.Props.c60_affine_bias",
    "Verif.Props.c60_residual",
    "Verif.Props.c60_three_products",
    "Verif.Props.c60_cancelled_factor",
    "Verif.Props.c60_operators",
    "Verif.Props.c60_div",
    "Verif.Props.c60_div_zero",
    "Verif.Props.c60_axial_const",
    "Verif.Props.c60_conditional_wrong",
    "Verif.Props.c60_computed_bias"
   ],
   "note": "Nodes are terms (equal nodes are equal terms, C35); elements are reals; constants have one element. c60_mlp is the full statement for networks; c60_backprop for chains, where 'zero' is the model's simplified gradient. c60_affine_bias, c60_residual, c60_three_products, c60_cancelled_factor are the failing cases. Evaluation is the first evaluation of the derivative graph (Op.forwardPass kernels), memory never runs out."
  },
  {
   "property": "C61",
   "status": "proved",
   "theorems": [
    "Verif.Props.c61_fit",
    "Verif.Props.c61_fit_same"
   ],
   "note": ""
  },
  {
   "property": "C62",
   "status": "proved",
   "theorems": [
    "Verif.Props.c62_mlp_new",
    "Verif.Props.c62_mlp_clone",
    "Verif.Props.c62_rbm_new",
    "Verif.Props.c62_rbm_clone",
    "Verif.Props.c62_dbn_clone",
    "Verif.Props.c62_fc_new"
   ],
   "note": ""
  },
  {
   "property": "C63",
   "status": "proved",
   "theorems": [
    "Verif.Props.c63_same_size",
    "Verif.Props.c63_same_size_symm",
    "Verif.Props.c63_single_same_as_all",
    "Verif.Props.c63_compatible"
   ],
   "note": ""
  },
  {
   "property": "C64",
   "status": "proved",
   "theorems": [
    "Verif.Props.c64_asked_again",
    "Verif.Props.c64_commutes",
    "Verif.Props.c64_no_duplicates",
    "Verif.Props.c64_derive_again"
   ],
   "note": ""
  },
  {
   "property": "C65",
   "status": "proved",
   "theorems": [
    "Verif.Props.c65_decreases",
    "Verif.Props.c65_stationary",
    "Verif.Props.c65_trained",
    "Verif.Props.c65_step",
    "Verif.Props.c65_train"
   ],
   "note": "one call is the gradient step (c65_step), sequences of calls (c65_train), decrease for small learning rates (c65_decreases), stationary points (c65_stationary), the trained variables (c65_trained). The step is evaluated for the leaves before the call, which C50 proves of the reactive graph."
  },
  {
   "property": "C66",
   "status": "proved",
   "theorems": [
    "Verif.Props.c66_free_energy",
    "Verif.Props.c66_prop_up",
    "Verif.Props.c66_prop_down",
    "Verif.Props.c66_cost",
    "Verif.Props.c66_gradient",
    "Verif.Props.c66_train",
    "Verif.Props.c66_reconstruction",
    "Verif.Props.c66_pseudo_value",
    "Verif.Props.c66_pseudo_negated_bits"
   ],
   "note": "conditional probabilities (c66_prop_up, c66_prop_down), free energy as a log-sum over hidden vectors (c66_free_energy), cost, gradient, one training step (c66_train), reconstruction cost. The pseudo-likelihood cost is characterised exactly (c66_pseudo_value) and shown to differ from the textbook one (c66_pseudo_negated_bits). The Gibbs samples are arbitrary data: sampling is not modelled."
  },
  {
   "property": "C67",
   "status": "proved",
   "theorems": [
    "Verif.Props.c67_error",
    "Verif.Props.c67_gradient",
    "Verif.Props.c67_train",
    "Verif.Props.c67_learns",
    "Verif.Props.c67_square_ub",
    "Verif.Props.c67_stuck",
    "Verif.Props.c67_division"
   ],
   "note": "Over the reals. The steps of the source updates are evaluated for the leaves at the start of the step (the graph of the error is frozen; C50 proves this of the reactive graph). c67_train/c67_learns say nothing about a step on which a gradient's first entry is 0 (Stuck), because the code divides by it; c67_division: exactly then. c67_square_ub, c67_stuck: the two ways training goes wrong."
  },
  {
   "property": "C68",
   "status": "proved",
   "theorems": [
    "Verif.Props.c68_value",
    "Verif.Props.c68_out_of_bounds",
    "Verif.Props.c68_shape_wrong",
    "Verif.Props.c68_tight_aborts",
    "Verif.Props.c68_filter_ignored",
    "Verif.Props.c68_conv_same"
   ],
   "note": "negative property: the theorems say what the operation does instead of the documented cross-correlation"
  },
  {
   "property": "C69",
   "status": "proved",
   "theorems": [
    "Verif.Props.c69_sample",
    "Verif.Props.c69_sample_range",
    "Verif.Props.c69_constant_ub",
    "Verif.Props.c69_both_ub",
    "Verif.Props.c69_chain",
    "Verif.Props.c69_train",
    "Verif.Props.c69_no_rounds_ub",
    "Verif.Props.c69_train_many",
    "Verif.Props.c69_persistent",
    "Verif.Props.c69_persistent_many",
    "Verif.Props.c69_resample"
   ],
   "note": "All random numbers, machines, batches, chain lengths and call sequences; numbers are real. Distributional correctness of std::binomial_distribution is assumed only as: between 0 and the number of trials, certain for probability 0 and 1. Negative: c69_constant_ub, c69_both_ub, c69_no_rounds_ub."
  },
  {
   "property": "C70",
   "status": "proved",
   "theorems": [
    "Verif.Props.c70_output",
    "Verif.Props.c70_width",
    "Verif.Props.c70_distribution",
    "Verif.Props.c70_single",
    "Verif.Props.c70_batch_not_softmax",
    "Verif.Props.c70_error",
    "Verif.Props.c70_tune",
    "Verif.Props.c70_not_gradient",
    "Verif.Props.c70_bias_increases",
    "Verif.Props.c70_labels_ignored",
    "Verif.Props.c70_pretrain",
    "Verif.Props.c70_no_rounds_ub"
   ],
   "note": "Networks of any depth, all batches, parameters and random numbers; numbers are real. Negative: c70_batch_not_softmax, c70_not_gradient, c70_bias_increases, c70_labels_ignored, c70_no_rounds_ub."
  },
  {
   "property": "C71",
   "status": "proved",
   "theorems": [
    "Verif.Props.c71_same_calls",
    "Verif.Props.c71_same_graph_iff_linked",
    "Verif.Props.c71_leaves",
    "Verif.Props.c71_failure_masked",
    "Verif.Props.c71_fix_ignored",
    "Verif.Props.c71_assign_partly_told",
    "Verif.Props.c71_construct_throws_iff",
    "Verif.Props.c71_recovery"
   ],
   "note": "c71_same_calls ties the model with exceptions to that of C30. Structure: c71_same_graph_iff_linked, c71_leaves. c71_construct_throws_iff. Negatives: c71_failure_masked (every interrupted evaluation), c71_fix_ignored and c71_assign_partly_told (concrete). Recovery: c71_recovery. Exceptions are taken to leave the data of the failing operation as they were; only binary_axial's kernel can throw half way."
  },
  {
   "property": "C72",
   "status": "proved",
   "theorems": [
    "Verif.Props.c72_shape_fixed",
    "Verif.Props.c72_shape_forever",
    "Verif.Props.c72_incompatible_throws",
    "Verif.Props.c72_compatible_keeps",
    "Verif.Props.c72_reevaluation",
    "Verif.Props.c72_unary",
    "Verif.Props.c72_matmul_rows"
   ],
   "note": "c72_shape_fixed, c72_shape_forever (sequences), c72_incompatible_throws, c72_compatible_keeps and c72_reevaluation for arbitrary shape functions and kernels; c72_unary and c72_matmul_rows for two families of operations."
  },
  {
   "property": "C73",
   "status": "proved",
   "theorems": [
    "Verif.Props.c73_safe",
    "Verif.Props.c73_live",
    "Verif.Props.c73_get",
    "Verif.Props.c73_args",
    "Verif.Props.c73_cache",
    "Verif.Props.c73_delete",
    "Verif.Props.c73_delete_ops",
    "Verif.Props.c73_delete_leaves",
    "Verif.Props.c73_order",
    "Verif.Props.c73_assign",
    "Verif.Props.c73_assign_ptr",
    "Verif.Props.c73_copy",
    "Verif.Props.c73_clear",
    "Verif.Props.c73_destroy",
    "Verif.Props.c73_leak",
    "Verif.Props.c73_dangling"
   ],
   "note": "Histories are Spec.Life.Reached: any sequence of legal calls in any hash order. Spec.Life.World has no observer lists, destructors or recursion; every call is proved to refine it (c73_safe), so statements about the world are statements about the heap. Kill-on-death registrations (temporary graphs) are in C28, not here. Addresses are not reused."
  },
  {
   "property": "C74",
   "status": "proved",
   "theorems": [
    "Verif.Props.c74_value",
    "Verif.Props.c74_self",
    "Verif.Props.c74_apart",
    "Verif.Props.c74_succeeds",
    "Verif.Props.c74_right_iff",
    "Verif.Props.c74_linear",
    "Verif.Props.c74_not_derivative",
    "Verif.Props.c74_above"
   ],
   "note": "Over element-wise operators, reals for doubles; clones' lifetimes not modelled. c74_not_derivative and c74_above show that the value returned is not the derivative in general; c74_right_iff says exactly when it is."
  },
  {
   "property": "C75",
   "status": "proved",
   "theorems": [
    "Verif.Props.c75_throw_iff",
    "Verif.Props.c75_wait_iff",
    "Verif.Props.c75_over",
    "Verif.Props.c75_join",
    "Verif.Props.c75_one_owner",
    "Verif.Props.c75_let_go_once",
    "Verif.Props.c75_no_leak",
    "Verif.Props.c75_polling_stops",
    "Verif.Props.c75_lost_only",
    "Verif.Props.c75_lost_wakeup",
    "Verif.Props.c75_stop_again",
    "Verif.Props.c75_ub_iff",
    "Verif.Props.c75_stop_after_join",
    "Verif.Props.c75_stop_races",
    "Verif.Props.c75_terminate_iff",
    "Verif.Props.c75_record_good",
    "Verif.Props.c75_record_hang",
    "Verif.Props.c75_record_ub"
   ],
   "note": "All interleavings of one main thread and any number of workers with arbitrary nondeterministic programs. The hanging and undefined schedules are proved to exist, and the positive parts exclude all others."
  },
  {
   "property": "C76",
   "status": "proved",
   "theorems": [
    "Verif.Props.c76_table",
    "Verif.Props.c76_table_ub_iff",
    "Verif.Props.c76_mean_all",
    "Verif.Props.c76_mean_axis",
    "Verif.Props.c76_beyond_ub",
    "Verif.Props.c76_reshape_throws"
   ],
   "note": "Exact arithmetic in any field; the order in which the argument tells the denominator and the sum is that of the construction (it matters only for which of two failures is seen)."
  },
  {
   "property": "C77",
   "status": "proved",
   "theorems": [
    "Verif.Props.c77_initialize_invisible",
    "Verif.Props.c77_uniform_common",
    "Verif.Props.c77_normal_common",
    "Verif.Props.c77_layers_proportional",
    "Verif.Props.c77_same_initializer",
    "Verif.Props.c77_nothing_drawn_between",
    "Verif.Props.c77_seed_determines",
    "Verif.Props.c77_reseed_repeats",
    "Verif.Props.c77_shuffle_not_seeded",
    "Verif.Props.c77_initialize_iff",
    "Verif.Props.c77_variable",
    "Verif.Props.c77_sample_iff",
    "Verif.Props.c77_sampling_continues",
    "Verif.Props.c77_explorations",
    "Verif.Props.c77_identifiers",
    "Verif.Props.c77_shuffles"
   ],
   "note": "The engine is a parameter; the time and address in identifiers, and the rounding of the scaling, are not modelled."
  },
  {
   "property": "C78",
   "status": "proved",
   "theorems": [
    "Verif.Props.c78_history",
    "Verif.Props.c78_notifies",
    "Verif.Props.c78_keeps",
    "Verif.Props.c78_follows",
    "Verif.Props.c78_twins",
    "Verif.Props.c78_moved_from",
    "Verif.Props.c78_shape_not_followed"
   ],
   "note": "Dependencies that are destroyed are not modelled (update would go on through a null pointer). Moved-from generators only occur as such: c78_moved_from."
  },
  {
   "property": "C79",
   "status": "proved",
   "theorems": [
    "Verif.Props.c79_asked",
    "Verif.Props.c79_again",
    "Verif.Props.c79_succeeds",
    "Verif.Props.c79_own_names",
    "Verif.Props.c79_own",
    "Verif.Props.c79_axial_swapped",
    "Verif.Props.c79_clip_of_norm",
    "Verif.Props.c79_clip_either",
    "Verif.Props.c79_same_sample",
    "Verif.Props.c79_as_constant_anew",
    "Verif.Props.c79_user_names",
    "Verif.Props.c79_printed_alike",
    "Verif.Props.c79_own_functions"
   ],
   "note": "The elementary operators are modelled from the search for an existing node on (their treatment of constants is in Model/Expr, C35). Null arguments and destruction of nodes are not modelled."
  },
  {
   "property": "C80",
   "status": "proved",
   "theorems": [
    "Verif.Props.c80_clone_fresh",
    "Verif.Props.c80_eval_settles",
    "Verif.Props.c80_same_graph",
    "Verif.Props.c80_leaves",
    "Verif.Props.c80_clone_effect",
    "Verif.Props.c80_clone_place",
    "Verif.Props.c80_leaf_copy_independent",
    "Verif.Props.c80_delete_apart",
    "Verif.Props.c80_clone_above_stale",
    "Verif.Props.c80_clone_pending_stale",
    "Verif.Props.c80_above_copy_stale"
   ],
   "note": "Move construction, assignment between operations, the gradient cache and jacobians of a copy are not in this model. The two conditions are shown necessary by c80_clone_above_stale, c80_above_copy_stale and c80_clone_pending_stale."
  },
  {
   "property": "C81",
   "status": "proved",
   "theorems": [
    "Verif.Props.c81_kept",
    "Verif.Props.c81_born",
    "Verif.Props.c81_set",
    "Verif.Props.c81_none",
    "Verif.Props.c81_inherited",
    "Verif.Props.c81_dispatch",
    "Verif.Props.c81_reduce",
    "Verif.Props.c81_overwritten"
   ],
   "note": "c81_kept, c81_born and c81_set for every step; c81_inherited and c81_none for whole histories; c81_dispatch and c81_reduce for the axis; c81_overwritten is the exception in the statement."
  },
  {
   "property": "C82",
   "status": "proved",
   "theorems": [
    "Verif.Props.c82_edges",
    "Verif.Props.c82_edges_end",
    "Verif.Props.c82_late_client",
    "Verif.Props.c82_nodes",
    "Verif.Props.c82_nodes_end",
    "Verif.Props.c82_harmless",
    "Verif.Props.c82_graph_alone",
    "Verif.Props.c82_crash",
    "Verif.Props.c82_missed"
   ],
   "note": "Edges for every calm history (the proviso is per client), late clients for every history; the two ways of failing without the proviso are c82_crash and c82_missed, for all identifiers. Histories of operations are those of C26; a data update is an event of its own."
  },
  {
   "property": "C83",
   "status": "proved",
   "theorems": [
    "Verif.Props.c83_runs",
    "Verif.Props.c83_last",
    "Verif.Props.c83_two_steps",
    "Verif.Props.c83_moves",
    "Verif.Props.c83_asleep",
    "Verif.Props.c83_shutdown",
    "Verif.Props.c83_hangs",
    "Verif.Props.c83_late_wait",
    "Verif.Props.c83_late_client"
   ],
   "note": "All executions; the reads are those of the cache model. gRPC's Shutdown, which waits for handlers to return, is not modelled: c83_hangs says the handler does not return."
  },
  {
   "property": "C84",
   "status": "proved",
   "theorems": [
    "Verif.Props.c84_safe",
    "Verif.Props.c84_safe_plain",
    "Verif.Props.c84_safe_back",
    "Verif.Props.c84_derive_keeps",
    "Verif.Props.c84_clone_iff",
    "Verif.Props.c84_clone_untouched",
    "Verif.Props.c84_clone_after_derive",
    "Verif.Props.c84_copy_list",
    "Verif.Props.c84_copy_outlives",
    "Verif.Props.c84_copy_dangles",
    "Verif.Props.c84_move_breaks",
    "Verif.Props.c84_moved_variable",
    "Verif.Props.c84_axial_copy",
    "Verif.Props.c84_bias_copy",
    "Verif.Props.c84_product_moved"
   ],
   "note": "Transfer functions and gradient nodes are not in this model (C60 has them): an entry is the operation it asks and the number of arguments it reads. c84_safe* positive, c84_copy_dangles, c84_move_breaks, c84_clone_after_derive, c84_moved_variable the failing cases for all graphs, with concrete ones."
  },
  {
   "property": "C85",
   "status": "proved",
   "theorems": [
    "Verif.Props.c85_born",
    "Verif.Props.c85_born_none",
    "Verif.Props.c85_born_ignored",
    "Verif.Props.c85_born_one",
    "Verif.Props.c85_born_branch",
    "Verif.Props.c85_born_own",
    "Verif.Props.c85_two_products",
    "Verif.Props.c85_bias_not_told_apart"
   ],
   "note": "Full. c85_bias_not_told_apart is a finding: set_jacobian_front/back keep the uid of the inherited list."
  },
  {
   "property": "C86",
   "status": "proved",
   "theorems": [
    "Verif.Props.c86_law",
    "Verif.Props.c86_stationary",
    "Verif.Props.c86_converges",
    "Verif.Props.c86_contrastive",
    "Verif.Props.c86_limit",
    "Verif.Props.c86_persistent"
   ],
   "note": "Full. That the draws are fair and independent is a hypothesis (FairDraws, shown to be satisfiable for every distribution of the start by an infinite product of uniform numbers): the standard library's generator is not modelled."
  },
  {
   "property": "C87",
   "status": "proved",
   "theorems": [
    "Verif.Props.c87_always_biased",
    "Verif.Props.c87_likelihood",
    "Verif.Props.c87_persistent",
    "Verif.Props.c87_contrastive"
   ],
   "note": "Full. Fairness of the draws is a hypothesis, as in C86; real arithmetic."
  },
  {
   "property": "C88",
   "status": "proved",
   "theorems": [
    "Verif.Props.c88_history",
    "Verif.Props.c88_no_leak",
    "Verif.Props.c88_move_same",
    "Verif.Props.c88_move_assign_same",
    "Verif.Props.c88_rbm_move",
    "Verif.Props.c88_rbm_move_again",
    "Verif.Props.c88_rbm_move_assign_noop",
    "Verif.Props.c88_rbm_self_move_assign_ub",
    "Verif.Props.c88_dbn_move_no_output",
    "Verif.Props.c88_dbn_destroy",
    "Verif.Props.c88_dqn_move",
    "Verif.Props.c88_dqn_move_assign_keeps_memory",
    "Verif.Props.c88_dbn_move_assign"
   ],
   "note": "Perceptrons: full refinement of a value semantics over all histories. Boltzmann machines, deep belief networks and Q-networks: exact behaviour of moves, with the defects as theorems. The graphs built on the variables are left to the graph models."
  },
  {
   "property": "C89",
   "status": "proved",
   "theorems": [
    "Verif.Props.c89_monotone",
    "Verif.Props.c89_rate",
    "Verif.Props.c89_converges",
    "Verif.Props.c89_single",
    "Verif.Props.c89_diverges"
   ],
   "note": "Exact real arithmetic as in C65. The learning rate bound uses the sum of the squared inputs (the Frobenius norm), which is sufficient, not necessary; for batches of one the exact factor is given."
  },
  {
   "property": "C90",
   "status": "proved",
   "theorems": [
    "Verif.Props.c90_new",
    "Verif.Props.c90_train",
    "Verif.Props.c90_copy",
    "Verif.Props.c90_copy_independent",
    "Verif.Props.c90_copy_thaws",
    "Verif.Props.c90_delete",
    "Verif.Props.c90_shared_network_ub",
    "Verif.Props.c90_assign",
    "Verif.Props.c90_move",
    "Verif.Props.c90_settings"
   ],
   "note": "The network is a perceptron; what training computes is C65. c90_copy_thaws and c90_shared_network_ub are the surprises, stated as negatives."
  }
 ]
}