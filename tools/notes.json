{
"C03": {
"note": "compatibility is not transitive: c03_not_transitive"
},
"C04": {
"note": "not transitive across different ranks even for full shapes: c04_not_transitive"
},
"C05": {
"note": "least refinement and commutativity need compatible shapes; without: c05_not_commutative"
},
"C07": {
"note": "overflow witness c07_not_exact, and the allocator's size guard bypassed by it: c07_guard_bypassed"
},
"C08": {
"note": "buffer/shape agreement is proved for all histories; compatibility of allocated and allowed shape is false in general (c08_compat_violated: set_shape; c08_compat_violated_proto: rejected from_proto). c08_compat_lost_iff says exactly which calls lose it, c08_compat_history that nothing else does in any history",
"status": "partial"
},
"C13": {
"note": "assumes compatible shapes (false in states described under C08) and assertions enabled; c13_exact says exactly which allocated tensors survive (same rank and compatible: restored; other rank: abort; incompatible: false); negatives: c13_rank_mismatch_aborts, c13_ndebug_ub",
"status": "partial"
},
"C14": {
"note": "the allowed shape is clobbered (c14_allowed_clobbered); overlong data overruns the buffer (c14_overlong_data_ub)"
},
"C15": {
"note": "when memory suffices; out of memory still reports success: c15_oom_reports_success"
},
"C18": {
"note": "axes within the rank; otherwise wrong or unwritten output: c18_beyond_rank_wrong, c18_both_beyond_unwritten"
},
"C20": {
"note": "with an axis; without one all but the first output element stay uninitialised: c20_all_uninitialised"
},
"C21": {
"note": "axis beyond the rank is undefined behaviour: c21_beyond_ub"
},
"C22": {
"note": "axis beyond the rank is undefined behaviour: c22_beyond_ub"
},
"C23": {
"note": "any ring; batch extents covered too"
},
"C25": {
"note": "false when the left operand has batch extents and the right has rank 2 or less (heap overrun, c25_overrun_ub); proved for all other accepted shapes; c25_exact is the exact characterisation",
"status": "partial"
},
"C26": {
"note": "also: exact effect of every call on the edges and its outcome; the virtual death hooks have the base class behaviour (no-op / recorded)"
},
"C27": {
"note": "destroying an observer whose list has a null pointer after a subject terminates the program (c27_null_tail_terminates); otherwise, in particular when null is never passed, destruction succeeds"
},
"C30": {
"note": "notifying assignments only (c30_silent_assign_stale is the counterexample otherwise); destroying a queued operation makes the next eval undefined: c30_delete_queued_ub"
},
"C31": {
"note": "for calls that leave the graph alone; get_shape refreshes a frozen graph (c31_get_shape_refreshes) and merging can drop the freeze (c31_union_thaws)"
},
"C32": {
"note": "Linked ranges over all operations ever constructed, also destroyed ones (managers are never split)"
},
"C54": {
"note": "false along axis 0 when the first two extents are equal and above 1: c54_square_ub (out-of-bounds read); proved for all other shapes; c54_exact is the exact characterisation",
"status": "partial"
},
"C34": {
"note": "unary + (absolute value) is treated under C37; a node divided by itself gives 1 even where its value is 0 (c34_self_division)"
},
"C35": {
"note": "name clashes without the hypothesis: c35_scalar_clash (6-digit printing), c35_conditional_clash"
},
"C36": {
"note": "wrong for the operations excluded: c36_clip_wrong, c36_round_wrong, c36_conditional_wrong, c36_abs_wrong; with respect to a placeholder derive returns 0 (c36_placeholder_zero)"
},
"C37": {
"note": "clip_val proved; abs, l2norm and clip_norm do not have their documented meaning in general: c37_abs_wrong, c37_l2norm_wrong, c37_clip_norm_wrong; the _partial theorems say where they do and c37_clip_norm_const_exact / c37_clip_norm_node_exact give the exact sets",
"status": "partial"
},
"C41": {
"note": "constant from a vector with a non-empty shape; undefined shape is undefined behaviour (c41_undefined_shape_ub)"
},
"C42": {
"note": "allocated variables; negatives: no broadcast, assignment to a variable without data aborts"
},
"C43": {
"note": "every sequence of vectors; negative: an empty vector aborts instead of raising the documented error; memory assumed available"
},
"C55": {
"note": "memory assumed available"
},
"C38": {
"note": "registry as a map; allocator classes numbered; singleton destruction not modelled"
},
"C39": {
"note": "needs a lawful byte representation, memory, and tensors whose allocated rank equals the declared rank (otherwise loading aborts, c13_rank_mismatch_aborts); wire format of protobuf not modelled"
},
"C40": {
"note": "for calls that return; protos with mismatched ranks abort (c14_decision)"
},
"C56": {
"note": "intermediate contents while bytes are being written are not modelled"
},
"C44": {
"note": "Positive theorems for all histories (single key updates, several consumers with distinct keys) plus proved counterexamples for superseded entries: null dereference (general form for every two values with one key), skipped and repeated deliveries, a consumer left waiting.",
"status": "proved"
},
"C45": {
"note": "Record as a history of calls (c45_history) and attached to the whole observer network model of C26-C29 (c45_live_edges).",
"status": "proved"
},
"C57": {
"note": "Non-verbose rows as number triples; text formatting and iterator invalidation by rehash not modelled.",
"status": "proved"
},
"C47": {
"note": "positive description of every history plus the refutation of oldest-first: c47_not_oldest_first, c47_overwrites_first"
},
"C46": {
"note": "counters do not wrap in the model"
},
"C48": {
"note": "over the reals; also what action() returns (c48_action)"
},
"C58": {
"note": "the network's weights are left to C50; negatives: zero intervals and out-of-range actions are undefined behaviour, a batch larger than the memory never trains"
},
"C50": {
"note": "c50_rmsprop says what every round does; c50_rmsprop_no_accumulation shows with two rounds that the documented recurrence m := d*m + (1-d)*g^2 fails, since the momentum is assigned silently and d*m is not recomputed. rmsprop is modelled for d, lr, eps other than 0 and 1 (operators simplify those); momentum/adadelta/adagrad updaters are unimplemented in the code.",
"status": "proved"
},
"C49": {
"note": "targetUpdates models the nodes built by variable_setup; the k updates may follow any history of notifying calls."
},
"C51": {
"note": "icompound::initialize/save and dq_net::initialize/save over the IO model; c51_foreign_shape is a finding: loading replaces a parameter's shapes unchecked."
},
"C52": {
"note": "Positive theorems for mlp (clone, assign, construction); the rbm, db_net and dq_net theorems state the defects found."
},
"C53": {
"note": "sigmoid and tanh on every node (constants included), for every hash order and history without name clashes; derivatives by the chain rule; softmax on every allocated tensor. Softmax normalises over all elements, batch included."
},
"C59": {
"note": "c59_fc, c59_mlp, c59_sigmoid/tanh; first evaluation of the nodes; node construction (name lookup) is C29/C33; c59_wrong_input and c59_missing_input are the refusals"
},
"C60": {
"note": "Nodes are terms (equal nodes are equal terms, C35); elements are reals; constants have one element. c60_mlp is the full statement for networks; c60_backprop for chains, where 'zero' is the model's simplified gradient. c60_affine_bias, c60_residual, c60_three_products, c60_cancelled_factor are the failing cases. Evaluation is the first evaluation of the derivative graph (Op.forwardPass kernels), memory never runs out."
},
"C65": {
"note": "one call is the gradient step (c65_step), sequences of calls (c65_train), decrease for small learning rates (c65_decreases), stationary points (c65_stationary), the trained variables (c65_trained). The step is evaluated for the leaves before the call, which C50 proves of the reactive graph."
},
"C66": {
"note": "conditional probabilities (c66_prop_up, c66_prop_down), free energy as a log-sum over hidden vectors (c66_free_energy), cost, gradient, one training step (c66_train), reconstruction cost. The pseudo-likelihood cost is characterised exactly (c66_pseudo_value) and shown to differ from the textbook one (c66_pseudo_negated_bits). The Gibbs samples are arbitrary data: sampling is not modelled."
},
"C67": {
"note": "Over the reals. The steps of the source updates are evaluated for the leaves at the start of the step (the graph of the error is frozen; C50 proves this of the reactive graph). c67_train/c67_learns say nothing about a step on which a gradient's first entry is 0 (Stuck), because the code divides by it; c67_division: exactly then. c67_square_ub, c67_stuck: the two ways training goes wrong."
},
"C68": {
"note": "negative property: the theorems say what the operation does instead of the documented cross-correlation",
"status": "proved"
},
"C69": {
"note": "All random numbers, machines, batches, chain lengths and call sequences; numbers are real. Distributional correctness of std::binomial_distribution is assumed only as: between 0 and the number of trials, certain for probability 0 and 1. Negative: c69_constant_ub, c69_both_ub, c69_no_rounds_ub.",
"status": "proved"
},
"C70": {
"note": "Networks of any depth, all batches, parameters and random numbers; numbers are real. Negative: c70_batch_not_softmax, c70_not_gradient, c70_bias_increases, c70_labels_ignored, c70_no_rounds_ub.",
"status": "proved"
},
"C71": {
"note": "c71_same_calls ties the model with exceptions to that of C30. Structure: c71_same_graph_iff_linked, c71_leaves. c71_construct_throws_iff. Negatives: c71_failure_masked (every interrupted evaluation), c71_fix_ignored and c71_assign_partly_told (concrete). Recovery: c71_recovery. Exceptions are taken to leave the data of the failing operation as they were; only binary_axial's kernel can throw half way.",
"status": "proved"
},
"C72": {
"note": "c72_shape_fixed, c72_shape_forever (sequences), c72_incompatible_throws, c72_compatible_keeps and c72_reevaluation for arbitrary shape functions and kernels; c72_unary and c72_matmul_rows for two families of operations.",
"status": "proved"
},
"C73": {
"note": "Histories are Spec.Life.Reached: any sequence of legal calls in any hash order. Spec.Life.World has no observer lists, destructors or recursion; every call is proved to refine it (c73_safe), so statements about the world are statements about the heap. Kill-on-death registrations (temporary graphs) are in C28, not here. Addresses are not reused.",
"status": "proved"
},
"C74": {
"note": "Over element-wise operators, reals for doubles; clones' lifetimes not modelled. c74_not_derivative and c74_above show that the value returned is not the derivative in general; c74_right_iff says exactly when it is."
},
"C75": {
"note": "All interleavings of one main thread and any number of workers with arbitrary nondeterministic programs. The hanging and undefined schedules are proved to exist, and the positive parts exclude all others.",
"status": "proved"
},
"C76": {
"note": "Exact arithmetic in any field; the order in which the argument tells the denominator and the sum is that of the construction (it matters only for which of two failures is seen).",
"status": "proved"
},
"C77": {
"note": "The engine is a parameter; the time and address in identifiers, and the rounding of the scaling, are not modelled.",
"status": "proved"
},
"C78": {
"note": "Dependencies that are destroyed are not modelled (update would go on through a null pointer). Moved-from generators only occur as such: c78_moved_from."
},
"C79": {
"note": "The elementary operators are modelled from the search for an existing node on (their treatment of constants is in Model/Expr, C35). Null arguments and destruction of nodes are not modelled.",
"status": "proved"
},
"C80": {
"note": "Move construction, assignment between operations, the gradient cache and jacobians of a copy are not in this model. The two conditions are shown necessary by c80_clone_above_stale, c80_above_copy_stale and c80_clone_pending_stale.",
"status": "proved"
},
"C81": {
"note": "c81_kept, c81_born and c81_set for every step; c81_inherited and c81_none for whole histories; c81_dispatch and c81_reduce for the axis; c81_overwritten is the exception in the statement."
},
"C82": {
"note": "Edges for every calm history (the proviso is per client), late clients for every history; the two ways of failing without the proviso are c82_crash and c82_missed, for all identifiers. Histories of operations are those of C26; a data update is an event of its own."
},
"C83": {
"note": "All executions; the reads are those of the cache model. gRPC's Shutdown, which waits for handlers to return, is not modelled: c83_hangs says the handler does not return."
},
"C84": {
"note": "Transfer functions and gradient nodes are not in this model (C60 has them): an entry is the operation it asks and the number of arguments it reads. c84_safe* positive, c84_copy_dangles, c84_move_breaks, c84_clone_after_derive, c84_moved_variable the failing cases for all graphs, with concrete ones."
},
"C85": {
"note": "Full. c85_bias_not_told_apart is a finding: set_jacobian_front/back keep the uid of the inherited list.",
"status": "proved"
},
"C86": {
"note": "Full. That the draws are fair and independent is a hypothesis (FairDraws, shown to be satisfiable for every distribution of the start by an infinite product of uniform numbers): the standard library's generator is not modelled.",
"status": "proved"
},
"C87": {
"note": "Full. Fairness of the draws is a hypothesis, as in C86; real arithmetic.",
"status": "proved"
},
"C88": {
"note": "Perceptrons: full refinement of a value semantics over all histories. Boltzmann machines, deep belief networks and Q-networks: exact behaviour of moves, with the defects as theorems. The graphs built on the variables are left to the graph models.",
"status": "proved"
},
"C89": {
"note": "Exact real arithmetic as in C65. The learning rate bound uses the sum of the squared inputs (the Frobenius norm), which is sufficient, not necessary; for batches of one the exact factor is given.",
"status": "proved"
},
"C90": {
"note": "The network is a perceptron; what training computes is C65. c90_copy_thaws and c90_shared_network_ub are the surprises, stated as negatives.",
"status": "proved"
}
}