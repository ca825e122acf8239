# Formal model of mingkaic/rocnnet (tenncor + rocnnet) in Lean 4

The code in `/repo` is C++ (templates, raw pointers). It is read as text; nothing is
compiled or run. This directory holds a Lean 4 model of the logic of that code and
machine-checked theorems about the model.

## Layout

* `properties.jsonl`: the properties (C01 ...).
* `lean/Verif/Basic.lean`: the outcome type (`ok`, `throw`, `abort`, `ub`).
* `lean/Verif/Model/*.lean`: the model, one file per source area, each definition
  citing file and lines.
* `lean/Verif/Spec/*.lean`: small specifications written without the model's helpers.
* `lean/Verif/Lemmas/*.lean`: helper lemmas.
* `lean/Verif/Props/*.lean`: the property theorems, with non-vacuity examples beside them.
* `seeded/LOG.jsonl`: attempts to break the theorems by editing the model.
* `MANIFEST.json`: property -> theorems.

## Modelling conventions

* `size_t` is `Nat` except in the overflow model (C07), which uses arithmetic modulo 2^64.
* Undefined behaviour (out-of-bounds read/write, division by zero, null dereference),
  a failed `assert`, and a C++ exception are three distinct outcomes of a call.
* Element type `T` is an arbitrary type, semiring, ring, field or the reals, as each
  property needs. Floating point rounding is not modelled.
* Uninitialised memory returned by an allocator is an arbitrary function parameter.
* Mutation through a pointer is a function returning the new value; loops are folds,
  structural recursion or well-founded recursion.
* `std::unordered_set/map` iteration order is a parameter wherever the order matters.

## Trusted base

* Lean 4.33.0's kernel; every theorem depends on at most the axioms `propext`,
  `Classical.choice`, `Quot.sound` (Lean's own; none are added, nothing rests on compiled code).
* The reading of the C++ source, recorded by the citation on every definition of the model.
* Mathlib's definitions of the reals, derivatives, matrices, finite sums and (C86) measures, where a statement uses them.
* C86 assumes of the random generator that its draws are fair and independent (hypothesis `FairDraws`, satisfiable).

### Modelled, function by function

| source (under `app/tenncor/src` or `app/rocnnet/src`) | model |
|---|---|
| `tensor/tensorshape.cpp`: all of it | `Model/Shape`, 64-bit variant in `Model/Shape64` |
| `tensor/tensor.ipp`: construction, allocation, copies and moves, `set_shape`, `get`, `expose`, `guess_shape`, `loosely_guess_shape`, the `is_...` queries, `serialize`, `from_proto`, raw read/write | `Model/Tensor` |
| `tensor/tensor_handler.ipp`: transfer, constant and random initialisers (random numbers are parameters) | `Model/Op`, `Model/Leaf` |
| `memory/*`: allocator registry, default allocator's size guard, `tensor_io.ipp` | `Model/Registry`, `Model/IO` |
| `graph/react/{subject,iobserver}.cpp` | `Model/React`; with the hooks of the nodes that delete themselves, and `graph/varptr.ipp`, `Model/Life` |
| `graph/connector/iconnector.ipp` (graph manager, queue, freeze, consume, leaf caches, Jacobian lists), `immutable/{base_immutable,immutable}.ipp` (construction, forward pass, update, derive) | `Model/Graph`, `Model/Op`, `Model/Expr`, `Model/Backprop`, `Model/Fault` |
| `graph/leaf/{ileaf,variable,placeholder,constant,ivariable}.ipp` | `Model/Leaf`, `Model/Compound` |
| `graph/operations/elementary.ipp` (all element-wise operators and their simplifications, norms, conditional, axial operators), `operation_utils.ipp` | `Model/Elementary`, `Model/Expr`, `Model/Norm` |
| `graph/operations/transform.ipp`: transpose, fit, extend, compress, reduce, arg_compress, flip, cross_corr2d, conv2d | `Model/Transform` |
| `graph/operations/transform.ipp`: reduce_mean; `graph/connector/immutable/shape_dep.ipp`: forward_pass; `tensor/tensor_handler.ipp`: shape_extracter | `Model/Mean` |
| `utils/utils.cpp`: get_generator, seed_generator, uuid (without time and address); `tensor/tensor_handler.ipp`: initializers as consumers of random numbers | `Model/Random` |
| `graph/connector/immutable/generator.ipp`: get, update, get_shape, good_status, clone, move, both assignments | `Model/Generator` |
| the search for an existing node in `operation_utils.ipp`, `transform.ipp`, `matmul.ipp`, `elementary.ipp` and `shape_dep.ipp`: names, arguments, order | `Model/Ask` |
| the copy constructors of `immutable`, `base_immutable`, `iconnector`, `iobserver` and leaves (without gradient caches and jacobians; metadata is not copied by the code) | `Model/Clone` |
| `set_metadata`, `extract_metadata`, `get_metadata` (inode.ipp:93-125) and every call of them: the elementary functions, the axis of `+ - * /` on two nodes, the gradient of a reduction (transform.ipp:295-307) | `Model/Meta`, on top of `Model/Ask` |
| Jacobian lists under copying, moving and destruction: `iconnector.ipp` (`copy_helper`, `move_helper`, `jacobian_correction`), `immutable.ipp` (`backward_pass`), move constructors of operations and leaves (gradient caches by key only) | `Model/Jacs` |
| `graph/operations/matmul.ipp` | `Model/Matmul`, `Model/Backprop` |
| `thread/shareable_cache.ipp` (as atomic critical sections), `edgeinfo/{adjlist,csv}_record` | `Model/Cache`, `Model/Record` |
| `edgeinfo/grpc_vis_record.cpp` (the four notifications), `grpc_vis/gui_notifier.cpp` (subscriptions) | `Model/Rpc`, `Model/Notify` |
| `thread/stop_flag.cpp`, `thread/stoppable_thread.{hpp,cpp}`, `edgeinfo/grpc_vis_record.cpp` (constructor, destructor), `grpc_vis/gui_notifier.cpp` (`spawn_server`) | `Model/Stop` |
| `utils/{futils,gd_utils}` | `Model/Activation`, `Model/Train` |
| rocnnet `models/{dq_net,gd_net,rbm,db_net}.cpp`, `compounds/*`, `layers/{ilayer,fc_layer}.cpp`: construction, copying, naming, initialisation, propagation, the training bookkeeping of `dq_net`, error and updates of `gd_net` | `Model/{Dqn,Nets,Moves,Trainer,Compound,Layer,Train,Backprop}` |
| rocnnet: move constructors and move assignments of `mlp`, `rbm`, `db_net`, `dq_net`, destructors, `variable::move` | `Model/Moves` |

### Not modelled

* Floating-point rounding, NaN and overflow: elements are an arbitrary type, ring, field or the reals.
* protobuf's wire encoding and the file system: a saved tensor is the record of its fields; a file is a list of them.
* gRPC itself (transport, `Shutdown`), the data race on `subscriptions_` (its uses are atomic in the model), `GetNodeData` (empty), `graph_gui`, python bindings, demos, `boostpy`. Relaxed atomics of `stop_flag` as stale reads, the main thread being more than one.
* Thread scheduling below the granularity of the critical sections of `shareable_cache`.
* `mutable_connector` and `conv_layer` (neither compiles at this commit), the scalar-`p` overload of `binomial_sample`.
* Which pointers are equal is modelled by addresses that are never reused after deletion.

## Plan per property

| id | modelled | proof |
|----|----------|-------|
| C01, C02 | `flat_idx`, `coordinate_from_idx`, `iterate` as loops over extents | loop = Horner recursion, induction on the extents |
| C03, C04 | `is_compatible_with` as window stripping on lists | case analysis + induction on the stripped lists |
| C05, C06 | `merge_with`, `trim`, `with_rank*`, `concatenate` | list induction |
| C07 | 64-bit `n_elems` | modular arithmetic; negative witness |
| C08, C15 | tensor state machine (allowed shape, allocated shape, buffer) | invariant by induction over operation lists; negative witness for `set_shape` |
| C09 | `get` | from C01 |
| C10, C11 | `guess_shape`, `loosely_guess_shape` loops | loop = zero-replacement, arithmetic |
| C12 | `fit_toshape` skip-ahead loop | loop invariant on mixed-radix rows |
| C13, C14 | `serialize`, `from_proto` over an abstract proto | round trip |
| C16, C17 | `elementary_shaper`, `binary_elem` with bounds-checked reads | C04 + induction |
| C18-C22 | transpose, compress, arg_compress, flip, extend kernels with bounds-checked reads | C01 + coordinate algebra |
| C23-C25 | `cubic_mul`, `strassen`, `min_pad`, `matmul_shaper`, batch loop | sums over a semiring; block-matrix identity and induction on the depth; negative witness for mixed ranks |
| C26-C29 | pointer graph of subjects and observers as a heap of records | invariant by induction over operations |
| C30, C31 | graph manager: node values, depth-ordered queue, update map | invariant: every stale node has a queued ancestor-or-self; drained queue => fresh |
| C32, C33 | manager ownership map, leaf caches | invariant by induction over constructions |
| C34-C37 | smart constructors over an expression type with labels | semantic equivalence by cases; Mathlib derivatives over the reals; negative witnesses |
| C38-C40 | allocator registry, tensor repository as finite maps | refinement to maps |
| C41-C43 | leaf constructors/assignment (`const_axis` included) | lists |
| C44, C45 | shareable cache as a linked heap; adjacency record | refinement |
| C46-C49 | dq_net store/train/annealing/target update | invariants, arithmetic over a field |
| C50-C53 | updaters, compound initialise, model copy, activations | algebra / reals |
| C54 | `binary_axial_shape`, `binary_axial` | coordinate algebra from C01; negative witness for square shapes |
| C55 | `variable::initialize`, the initialisers | case analysis over the states of the leaf |
| C56 | `write_inorder`, `serialize` as a sequence of steps with a crash between any two | prefix of the trace; negative witness |
| C57 | `csv_record::to_csv` over the adjacency lists | bijection between nodes and lines |
| C58 | `dq_net` counters, store/train intervals, batches | arithmetic; induction over calls |
| C59 | `fc_layer`, `mlp::prop_up` as evaluation of the node graph they build | C16, C23 and C54 composed; induction on the layers |
| C60 | Jacobian lists of `matmul` chains, `derive`, `gd_net::setup` | induction on the chain against `HasDerivAt` of the loss |
| C61 | `fit` shaper and kernel | coordinate algebra from C01 |
| C62 | labels given by constructors and copies of models | string algebra: decimal numerals are injective |
| C63 | `is_same_size`, tensor compatibility | from C03/C04; negative witness for single elements |
| C64 | node look-up by name in the audience of an argument; gradient caches | invariant: nodes are determined by name and arguments; monotonicity of the state |
| C65 | `gd_net::train` on the tensors of the leaves: placeholders, gradient nodes, `* learning_rate`, `assign_sub` | C60 for the gradients, C42/C43 for the assignments, induction over the variables and over the calls; Fréchet derivative of the error in all parameters for the decrease. The simultaneity of the updates is C50's theorem about the reactive graph, assumed here as "steps are evaluated for the old leaves" |
| C66 | `rbm` nodes (`prop_up`, `prop_down`, free energy, cost, reconstruction and pseudo-likelihood cost) as terms of the language of C60, and the three `assign_sub` updates; `as_constant` is a leaf that is no variable; the Gibbs sampling itself is not modelled, the end of the chain is any batch | closed form of the sum over bit vectors by `prod_univ_sum`; C60 for evaluation; the gradients by computing `derive` and comparing with `HasDerivAt`. Spec: the Boltzmann distribution from its energy |
| C67 | `dq_net::variable_setup` and `train`: error node, gradients, `clip_norm`, source and target updates on the tensors of the leaves | C60's lemmas for the networks, `derive` computed for the loss, induction over variables, pairs and mini-batches. The steps of the source updates are evaluated for the leaves at the start, because the graph of the error is frozen (C50); those of the target updates see the new source variables, because `assign_sub` asks the step node for its value, and `iconnector::eval` (iconnector.ipp:118-128) drains the queue after unfreezing |
| C68 | shape, kernel loops (with bounds-checked reads, 64-bit wrap-around of the extents) of `cross_corr2d`; `conv2d` | a finished loop has read every one of its coordinates; the last one of the last element lies beyond the input by the algebra of flat indices |
| C69 | `binomial_sample` (random numbers a parameter), the chain `train` builds, the trainer with and without a persistent variable, sequences of calls | C66's conditional probabilities, sampling of a batch, induction over the rounds and over the calls |
| C70 | the stack of machines as a term, `softmax`, `prop_up`, the trainers of `pretraining_functions`, the updater and the error of `build_finetune_functions` | C59/C60's terms with values and derivatives, C66 and C69 generalised from a placeholder to any input term, induction over the stack |
| C71 | C30's graph calls with the state an exception leaves (`Res`), histories that go on after a catch | erasing that state gives C30's model; the structural invariant without freshness; a closed set of nodes popped but not updated; for recovery, an invariant naming the nodes at or over which everything out of date lies |
| C72 | `immutable::forward_pass` on a node that holds data, for any shape function and kernel | case analysis of the shape check; C04's characterisation of compatible shapes; the kernels of C16 and C23 on an old buffer |
| C73 | `varptr`, `~subject`, `~iobserver`, the `death_on_*` hooks, the gradient cache: a heap with observer lists, freed memory and running destructors (`Model/Life`), against a world without them (`Spec/Life`) | invariant of the heap with stale slots and running destructors, induction on the depth of deletion for a contract of `delete` (what is kept, what is freed: the least closed set), refinement of the world call by call |
| C74 | `derive` with an operation: `temporary_eval`, `temp_eval_helper`, `arg_clone`, `potential_descendent`, `is_same_graph` with the merging of graph managers (`Model/Temp`, on the states of `Model/Expr`) | induction on the depth for "the clone's value = the value with the target replaced" (`Spec/Temp`: `With`); leaf sets grow along arguments; graph labels = equivalence closure of the argument relation by induction on construction; negative witnesses |
| C75 | `stop_flag`, `stoppable_thread`, `rpc_record`'s constructor and destructor, `spawn_server` as a worker (`Model/Stop`: interleaving steps of one main thread and any number of workers with arbitrary programs; every load sees the latest store) | invariants over all runs (flag = stop was called; one holder per thread; how a sleeper got to sleep); rank on the steps left for a worker told to stop; hanging and undefined schedules constructed from every state that allows them |
| C76 | `shape_extracter`, `shape_dep::forward_pass`, `reduce_mean` as its three nodes with the tensors they hold (`Model/Mean`), over any field | kernel lemmas of C19 and C16 on any destination buffer, then induction over the history of values |
| C77 | `get_generator`, `seed_generator`, the random part of `uuid`, the initializers (`std::bind` copies the engine), `initialize`, `binomial_sample`, `get_random`, the shuffle (`Model/Random`; the engine's and the distributions' arithmetic are parameters, real numbers) | induction over programs; two runs in lockstep |
| C78 | `generator<T>`: update by the answers of its dependency, copying, moving, assigning (`Model/Generator`; the dependency is known by `good_status` and `get_shape`) | induction over programs against stories (the list of answers each generator was shown) |
| C79 | every operator's search for an existing node and the node it makes otherwise (`Model/Ask`; hash iteration order is a parameter of each call; printing of numbers is a parameter) | invariant over histories of calls (names of operations are recorded; at most one node per operation and arguments); names of the library's own operations are told apart by splitting at underscores |
| C80 | `clone` of operations and leaves (`Model/Clone`, on the states of `Model/Graph`) | the invariant of C30-C33, with copying as a further kind of edge between operations; depth 0 of the copy is harmless when no argument is an operation |
| C81 | `Model/Meta`: a map from keys to numbers for every node, beside the states of `Model/Ask` | induction over histories: a step changes metadata only where it sets it, and new nodes take it from their source; with C79 for which node an operator returns |
| C82 | `Model/Rpc`: the graph of `Model/React` whose recorder keeps the list of its calls, two caches of `Model/Cache`, the reads of numbered streams | what was told determines the edges (induction over operations); invariant of each stream: it has been given the last message of every key up to its place in the list; counterexamples without the proviso |
| C83 | `Model/Notify`: a transition system of streams (test, read, wait, ended), the set of subscribers, additions, `notify_one` with any choice | invariants and a rank over all executions; hangs as invariants from the stated states |
| C84 | `Model/Jacs`: Jacobian lists as lists of (arguments read, pointer), inherited, copied, moved, followed by `derive` | invariant: an entry of a live node is of the node or below it; a second one for empty lists, by induction over histories; converse by a lemma that a derivation is fine or undefined |
| C85 | `Model/Jacs`: `newOp`, `takeArg`, `inherited`, `pushOwn` | the fold over the arguments characterised by the first list taken and whether another origin follows (`fold_first`, `fold_other`, `fold_again`); freshness of origins by an invariant over histories |
| C86 | `Model/Gibbs`: `gibbsRounds`, `gibbsChain`, `rbmPcd`, under a probability measure on the random numbers (`FairDraws`) | C69 turns runs of the code into rounds on paper; from the fairness of the draws one round maps the law of the hidden units by the two conditionals; these are the conditionals of the Boltzmann law, which is so invariant; all transition probabilities are bounded below by a multiple of the law (Doeblin), so the distance shrinks by a fixed factor per round; fair draws are constructed with an infinite product measure |
| C87 | `Model/Gibbs`: `rbmPcd`, `rbmCd`, as in C86 | the step of C66/C69 written with the derivative of the free energy (uniqueness of derivatives), the gradient of log Z as a mean over the Boltzmann law, C86's invariance and convergence, marginals of a product law; expectation of a function with finitely many values; for the bias of contrastive divergence a machine of two units, whose chain is solved (`Lemmas/Biased`) |
| C88 | `Model/Moves` on `Model/Nets`: memory of variables, networks as owners, all copy, move and delete operations of `mlp`; moves of `rbm` (hollow variables), `db_net`, `dq_net`; graphs built on the variables are not part of it | invariant of a world of networks (owned once, all owned, equal to the value of `Spec/Moves`) by cases on the operation; delete, place and transfer as the three ways the invariant changes; negatives |
| C89 | same model as C65 (`Model/GdStep`), for a network of one layer without activation | C65 gives the step against the derivatives; the derivatives of the squared error are computed (`Lemmas/Regress`); error and distance to any other linear model weighed against each other in one step (Cauchy-Schwarz), summed over the calls; infimum of the errors for convergence; for batches of one the shortfall is multiplied by a constant |
| C90 | `Model/Trainer` on `Model/Moves`: a `gd_net` as the owner of a perceptron and three placeholders, with a vanilla updater; training is any change of the variables its updates captured (what the change is: C65); the graph and the momenta of `rmspropupdater` are not part of it | allocation and copy lemmas of C52 and C88, freshness of the copy's addresses against the ignored ones; negatives |

## Where the code does not do what a user would expect

Each of these is a consequence of the code as read; those with a theorem name are proved about the
model (a counterexample or a general negative statement beside the property it limits). The others are
visible in the model's definitions or were found while reading and are recorded here.

**Tensors and shapes.** `set_shape` with a part-defined higher-rank shape and a rejected `from_proto` leave
allocated and allowed shapes incompatible (`c08_compat_violated`, `c08_compat_violated_proto`,
`c14_allowed_clobbered`); allocation inside an `assert` is lost under `NDEBUG` (`c13_ndebug_ub`); overlong
data overruns the buffer (`c14_overlong_data_ub`); `get` aliases out-of-range coordinates
(`c09_out_of_range_aliases`); `n_elems` overflows and the allocator's guard is bypassed (`c07_not_exact`,
`c07_guard_bypassed`); `allocate` reports success on a null pointer (`c15_oom_reports_success`);
`guess_shape` of nothing has a zero extent (`c10_zero_not_full`); an undefined shape is undefined behaviour
for a constant (`c41_undefined_shape_ub`); one element "is the same size" as everything
(`c63_single_same_as_all`); compatibility is not transitive (`c03_not_transitive`, `c04_not_transitive`).

**Operations.** `transpose` with an axis beyond the rank (`c18_*`), `arg_max` without an axis
(`c20_all_uninitialised`), `flip`/`extend` beyond the rank (`c21_beyond_ub`, `c22_beyond_ub`), axial operators
on square shapes along axis 0 (`c54_square_ub`), batched times unbatched matrix product
(`c25_overrun_ub`; the other way round the batches are silently ignored). The forward pass keeps a stale
compatible shape of another rank. A deep belief network's softmax runs over the whole batch, and its fine-tuning is not gradient descent: it ignores the labels and raises every output bias in every call (C70). Random initialisation draws from a copy of the shared generator, so that parameters initialised together get the same random numbers: layers start proportional to one another (C77). A moved-from generator still says it is good though reading it aborts, and a generator keeps its shape when its dependency takes a compatible one of another rank (`c78_moved_from`, `c78_shape_not_followed`). A node never changes its shape: feeding a batch of another size to an evaluated graph throws (C72). `y.derive(t)` for an operation `t` is the value of `y` at `t = 1`, not a derivative (C74). Stopping a thread can hang for ever (a notification between the test and the sleep in `stop_wait` is lost) or touch the flag of a thread that is gone; `stop` after `join` always does (C75). After an exception from `eval` is caught, the failing operation keeps its old value through the next successful evaluation, whatever is assigned (C71). `cross_corr2d` computes a wrong shape, ignores the filter's values and reads out of bounds (C68). `binomial_sample` of a constant writes past an
empty vector, and with two node arguments reads a missing argument (`c69_constant_ub`, `c69_both_ub`); `rbm::train` with
no rounds calls through a null pointer (`c69_no_rounds_ub`).

**Lifetimes.** Operations are never freed by dropping smart pointers (`c73_leak`); a raw pointer to an unmanaged constant
dangles when the last smart pointer holding it is cleared (`c73_dangling`); moving a smart pointer copies it (`c73_copy`).

**Graph.** Observer with a trailing null dependency terminates the program when destroyed
(`c27_null_tail_terminates`); silent assignment leaves operations stale (`c30_silent_assign_stale`); a
destroyed queued operation dangles (`c30_delete_queued_ub`); `get_shape` refreshes a frozen graph and merging
drops the freeze (C31); an exception during a drain leaves a poisoned update map.

**Construction and derivatives.** Names clash for scalars that print alike and for the two scalar forms of
`conditional` (`c35_scalar_clash`, `c35_conditional_clash`), and matrix products found by name ignore the
transposition flags; unary `+` is the identity on nodes (`c37_abs_wrong`); `l2norm` and `clip_norm` are wrong
(`c37_l2norm_wrong`, `c37_clip_norm_wrong`); gradients of clip, round, conditional, abs are wrong (`c36_*_wrong`);
`x / x` is 1 also at 0 (`c34_self_division`); the derivative by a placeholder is 0 (`c36_placeholder_zero`);
C60's negatives: the bias of an affine node differentiated directly, residual connections around a product,
cancelled factors, transposed products in a chain.

**Leaves.** Assignment never initialises (`c42_keeps_init`), does not broadcast (`c42_no_broadcast`; this makes
`gd_updater` abort on a constant scalar gradient), aborts on a variable without data
(`c42_unallocated_aborts`; without assertions it would be lost silently); an empty vector assigned to a placeholder
aborts instead of raising the documented error (`c43_empty_aborts`; without assertions it would mark it initialised);
`initialize(shape)` throws on a variable with data (`c55_reinitialize_throws`).

**Origins of Jacobian lists.** A list keeps its `uid_` when an operation puts its own Jacobian on top of it, so that a node and a biased sum
over it are taken for one origin: an operation on both inherits only the first one's list and applies it to both branches (C85).

**Jacobian lists.** Copying or moving an operation reads the last element of each of its Jacobian lists, and deriving makes an
empty list where there was none, so that copying after deriving is undefined (`c84_clone_after_derive`); a copy's own
Jacobian is redirected only if it is the last (`c84_copy_dangles`); Jacobians inherited from a moved operation ask its shell
(`c84_move_breaks`); a moved variable is lost to the gradient caches (`c84_moved_variable`). Of three products added in two
steps the last one's Jacobian is applied to the gradients of all (`c60_three_products`).

**Visualisation clients.** The edge cache is keyed by edge, so the REMOVE of an edge unlinks its ADD. If a client's iterator
is at that entry and it is the only one, the next read dereferences null (`c82_crash`: one subject, one observer, the client reads,
the dependency is removed, the client reads); if it is the oldest of several, the client skips the next entry, and does not show a
live edge for as long as that edge does not change (`c82_missed`). `clear_subscriptions` wakes one stream per cache with
`notify_one`, and `get_latest` waits without a predicate: with two clients on one cache, or a client between its look-up and its
read, `server->Shutdown()` waits for a handler that nothing wakes (`c83_hangs`, `c83_late_wait`). `EndSubscription` does not wake a
waiting stream (`c83_asleep`). The node and edge streams of a client share one subscription, and so do clients with the same id.

**Metadata.** Reductions along different axes whose arguments have one gradient share the node that carries the axis:
the axis of the one differentiated last is everybody's, and products with it broadcast along the wrong axis
(`c81_overwritten`). Metadata set after nodes were built on a node does not reach them (`c81_kept`).

**Node sharing.** `clip_norm` of a norm may return the original clipped, depending on hash order (`c79_clip_of_norm`,
`c79_clip_either`); axial sums and products ignore the order of their operands (`c79_axial_swapped`); two samples
from one node are one node and their difference is 0 (`c79_same_sample`); `as_constant` looks for a name it does not
give (`c79_as_constant_anew`); user functions under one name, and numbers printed alike, are one (`c79_user_names`,
`c79_printed_alike`); `binomial_sample` with constant probabilities writes outside an empty vector (`c79_succeeds`).

**Copies of operations.** A copy starts at depth 0 and without an update: the copy of an operation above another
operation is recomputed before its arguments (`c80_clone_above_stale`), operations on such a copy likewise
(`c80_above_copy_stale`), and the copy of an operation that waits to be recomputed stays as it is
(`c80_clone_pending_stale`). Copies lose the metadata of the original; assigning one operation to another notifies
nobody and keeps the depth of the target.

**Saving and loading.** Uninitialised nodes are skipped and leave stale entries (`c39_stale_entry`); the file is
emptied before it is rewritten (`c56_crash_loses_everything`); loading replaces shapes unchecked
(`c51_foreign_shape`).

**shareable_cache.** Null dereference, skipped and repeated entries, lost wake-ups (`c44_*`).

**Models.** `dq_net` overwrites only the first slot of a full memory (`c47_overwrites_first`), never trains when
the batch exceeds the memory (`c58_never`), intervals of 0 and out-of-range actions are undefined
(`c58_zero_interval`, `c58_bad_action`); source and target networks are initialised independently; training with as many actions as samples is undefined behaviour (`c67_square_ub`), and a mini-batch in which nobody took action 0 divides by zero (`c67_stuck`, `c67_division`); `rbm`
assignment (copy and move) does nothing, self-assignment is undefined (`c52_rbm_*`, `c88_rbm_*`), contrastive divergence of a machine of two units takes after no number of rounds the step of
gradient ascent on average (`c87_always_biased`), copies keep the original's labels
(`c62_rbm_clone`); copied and moved `db_net`s have no output layer (`c52_dbn_clone_no_output`, `c88_dbn_move_no_output`); a copied `gd_net` trains the parameters its
original leaves alone (`c90_copy_thaws`), and two `gd_net`s over one network delete it twice (`c90_shared_network_ub`); momentum, adadelta and
adagrad updaters throw; rmsprop's momentum never accumulates; softmax normalises over the whole batch.
