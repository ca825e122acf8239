{"id": "C01", "title": "Flat index and coordinate are inverse bijections", "statement": "For every fully defined shape, coordinate_from_idx followed by flat_idx gives back the index, for every index below n_elems; flat_idx followed by coordinate_from_idx gives back the coordinate, for every coordinate that is in range in every dimension; and flat_idx of an in-range coordinate is below n_elems.", "quantifier": "every shape of every rank with positive dimensions, every index below n_elems, every in-range coordinate", "why_tests_cant": "ranks, extents and indices are unbounded; a test checks a few shapes", "anchors": ["app/tenncor/src/tensor/tensorshape.cpp:flat_idx", "app/tenncor/src/tensor/tensorshape.cpp:coordinate_from_idx"]}
{"id": "C02", "title": "iterate visits every coordinate exactly once, in index order", "statement": "tensorshape::iterate calls back once for each in-range coordinate and for nothing else, the i-th call carries index i, and the index carried is the flat index of the coordinate carried.", "quantifier": "every fully defined shape", "why_tests_cant": "the number of calls is unbounded and depends on the shape", "anchors": ["app/tenncor/src/tensor/tensorshape.cpp:iterate"]}
{"id": "C03", "title": "Shape compatibility is reflexive and symmetric, and undefined shapes are compatible with everything", "statement": "a.is_compatible_with(a) holds; a.is_compatible_with(b) equals b.is_compatible_with(a); an undefined shape is compatible with every shape in both directions; for equal ranks the answer is exactly 'in every position the extents are equal or one of them is 0'.", "quantifier": "every pair of shapes, any ranks, any extents including 0 and 1", "why_tests_cant": "the trimming algorithm has branches on rank difference, leading and trailing ones, and zeros, whose combinations tests only sample", "anchors": ["app/tenncor/src/tensor/tensorshape.cpp:is_compatible_with"]}
{"id": "C04", "title": "Compatible fully defined shapes are equal up to padding ones and have equal element counts", "statement": "For two fully defined shapes, is_compatible_with is true exactly when the shapes agree after removing leading and trailing ones if the ranks differ (pointwise equality if the ranks agree); hence compatible fully defined shapes always have the same n_elems, so a buffer sized for one fits the other.", "quantifier": "every pair of fully defined shapes", "why_tests_cant": "memory safety of element-wise kernels rests on it for all shapes", "anchors": ["app/tenncor/src/tensor/tensorshape.cpp:is_compatible_with", "app/tenncor/src/tensor/tensorshape.cpp:n_elems", "app/tenncor/src/tensor/tensorshape.cpp:trim"]}
{"id": "C05", "title": "merge_with combines the knowledge of two shapes", "statement": "Merging with an undefined shape returns the other shape; merging shapes of different rank throws; otherwise the result has the same rank, every extent known in the receiver is kept, an extent unknown in the receiver takes the argument's value, so for equal-rank compatible shapes the result is compatible with both, is the least shape refining both, and the merge is commutative.", "quantifier": "every pair of shapes", "why_tests_cant": "all mixtures of known and unknown extents at any rank", "anchors": ["app/tenncor/src/tensor/tensorshape.cpp:merge_with"]}
{"id": "C06", "title": "Rank adjustment and trimming preserve extents and element counts", "statement": "with_rank(r) has rank r and agrees with the original on the common prefix, padding with ones; with_rank_at_least/at_most change the rank only when needed; padding never changes n_elems of a non-empty shape; concatenate multiplies n_elems of two defined shapes and is associative; trim is idempotent, and preserves n_elems unless all extents are one, in which case it returns the undefined shape with n_elems 0.", "quantifier": "every shape and every rank", "why_tests_cant": "unbounded ranks", "anchors": ["app/tenncor/src/tensor/tensorshape.cpp:with_rank", "app/tenncor/src/tensor/tensorshape.cpp:with_rank_at_least", "app/tenncor/src/tensor/tensorshape.cpp:with_rank_at_most", "app/tenncor/src/tensor/tensorshape.cpp:trim", "app/tenncor/src/tensor/tensorshape.cpp:concatenate"]}
{"id": "C07", "title": "Element counts are exact unless the product exceeds the machine word", "statement": "n_elems computed in 64-bit size_t arithmetic is the true product modulo 2^64: it equals the true product whenever that is below 2^64 and no extent products wrap; there are fully defined shapes whose machine n_elems is 0, so the guarantee does not hold for every fully defined shape.", "quantifier": "every list of 64-bit extents", "why_tests_cant": "the failing shapes cannot be allocated in a test", "anchors": ["app/tenncor/src/tensor/tensorshape.cpp:n_elems", "app/tenncor/include/memory/iallocator.hpp:allocate"]}
{"id": "C08", "title": "A tensor's buffer always matches its allocated shape", "statement": "After any sequence of construction, set_shape, allocate, deallocate, copy, move, copy_from and from_proto calls that return normally, a tensor that reports is_alloc has a fully defined allocated shape which is compatible with its allowed shape, and its buffer holds exactly n_elems elements.", "quantifier": "every sequence of public tensor operations with any arguments", "why_tests_cant": "histories are unbounded", "anchors": ["app/tenncor/src/tensor/tensor.ipp:allocate", "app/tenncor/src/tensor/tensor.ipp:set_shape", "app/tenncor/src/tensor/tensor.ipp:copy_from", "app/tenncor/src/tensor/tensor.ipp:from_proto"]}
{"id": "C09", "title": "Tensor element access reads the addressed element or throws", "statement": "get(coord) on an allocated tensor returns the element at the coordinate's flat index when the coordinate is in range; it throws out_of_range exactly when the flat index is at least n_elems.", "quantifier": "every allocated tensor and every non-empty coordinate", "why_tests_cant": "out-of-range coordinates whose flat index happens to be small are easy to miss", "anchors": ["app/tenncor/src/tensor/tensor.ipp:get"]}
{"id": "C10", "title": "guess_shape returns exactly the shapes that hold the data", "statement": "For a positive element count, guess_shape returns a shape exactly when is_compatible_with(data) is true (given the shape has an extent to infer); the returned shape is fully defined, compatible with the allowed shape and has exactly that many elements.", "quantifier": "every allowed shape and every data length", "why_tests_cant": "the branch on number of unknown extents and divisibility is over all integers", "anchors": ["app/tenncor/src/tensor/tensor.ipp:guess_shape", "app/tenncor/src/tensor/tensor.ipp:is_compatible_with"]}
{"id": "C11", "title": "loosely_guess_shape returns the tightest shape that can hold the data", "statement": "For a part-defined allowed shape, loosely_guess_shape returns a fully defined shape compatible with the allowed one with at least the requested number of elements, and lowering the inferred extent by one would make it too small; for a fully defined allowed shape it returns it exactly when it is large enough; for an undefined allowed shape the call is undefined behaviour.", "quantifier": "every allowed shape and every data length", "why_tests_cant": "rounding at every boundary; the undefined case cannot be observed by a passing test", "anchors": ["app/tenncor/src/tensor/tensor.ipp:loosely_guess_shape"]}
{"id": "C12", "title": "Reshaping an allocated tensor keeps every element that still has a place and zeroes the rest", "statement": "When data laid out in one shape is fitted to another, every coordinate in range of both shapes (missing coordinates counted as 0) keeps its element and every other output element is zero, and no access leaves either buffer.", "quantifier": "every pair of fully defined shapes and every buffer", "why_tests_cant": "the skip-ahead loop's index arithmetic depends on all extents and ranks", "anchors": ["app/tenncor/src/tensor/tensor.ipp:fit_toshape"]}
{"id": "C13", "title": "Serialising a tensor and reading it back restores it", "statement": "For every allocated tensor whose allocated and allowed rank agree, serialize then from_proto into any tensor succeeds and restores element data, allocated shape and allowed shape.", "quantifier": "every tensor state reachable, every target tensor", "why_tests_cant": "unbounded data and shapes", "anchors": ["app/tenncor/src/tensor/tensor.ipp:serialize", "app/tenncor/src/tensor/tensor.ipp:from_proto"]}
{"id": "C14", "title": "A rejected proto leaves the tensor's data and allocation untouched", "statement": "If from_proto returns false then element data and allocated shape are unchanged.", "quantifier": "every proto value, well formed or not, every tensor", "why_tests_cant": "adversarial protos are unbounded", "anchors": ["app/tenncor/src/tensor/tensor.ipp:from_proto"]}
{"id": "C15", "title": "allocate(shape) follows its documented decision table", "statement": "allocate(shape) returns true exactly when the shape is fully defined, compatible with the allowed shape and, if already allocated, not compatible with the current allocated shape; on true the tensor is allocated with that shape, on false nothing changes.", "quantifier": "every tensor state and every requested shape", "why_tests_cant": "all combinations of allowed/allocated/requested shapes", "anchors": ["app/tenncor/src/tensor/tensor.ipp:allocate"]}
{"id": "C16", "title": "Element-wise operators compute pointwise with scalar broadcast and never leave a buffer", "statement": "If the element-wise shaper accepts the argument shapes then element i of the result is the operator applied to element i of every argument, a one-element argument being broadcast, and every access is in bounds.", "quantifier": "every binary operator, every pair of argument tensors", "why_tests_cant": "all shapes and element values", "anchors": ["app/tenncor/src/graph/operations/elementary.ipp:elementary_shaper", "app/tenncor/src/graph/operations/elementary.ipp:binary_elem"]}
{"id": "C17", "title": "Element-wise shape rejects exactly incompatible shapes", "statement": "The element-wise shaper throws exactly when two non-scalar argument shapes are not compatible in turn; otherwise, for fully defined arguments, it returns the last non-scalar shape, or {1} when all are scalars.", "quantifier": "every list of argument shapes", "why_tests_cant": "unbounded argument lists", "anchors": ["app/tenncor/src/graph/operations/elementary.ipp:elementary_shaper"]}
{"id": "C18", "title": "Transpose moves every element to the swapped coordinate and is its own inverse", "statement": "The output of transpose along two axes inside the rank has the two extents swapped, holds at each coordinate the input at the swapped coordinate, and transposing twice restores shape and data.", "quantifier": "every shape, pair of axes, buffer", "why_tests_cant": "unbounded ranks", "anchors": ["app/tenncor/src/graph/operations/transform.ipp:transpose"]}
{"id": "C19", "title": "Reduction along an axis folds exactly the elements of that fibre", "statement": "reduce along an axis inside the rank gives, for every output coordinate, the fold over the axis in index order of the input elements with that coordinate; without an axis it folds every element; along an axis at or beyond the rank it copies.", "quantifier": "every shape, axis, buffer and folding function", "why_tests_cant": "unbounded ranks and extents", "anchors": ["app/tenncor/src/graph/operations/transform.ipp:compress", "app/tenncor/src/graph/operations/transform.ipp:reduce_sum", "app/tenncor/src/graph/operations/transform.ipp:reduce_max"]}
{"id": "C20", "title": "arg_max returns the first position of the maximum along the axis", "statement": "For a non-empty axis within the rank, arg_max gives an index inside the axis whose element is at least every element of the fibre and strictly greater than every earlier one; an axis at or beyond the rank throws.", "quantifier": "every shape, axis, buffer", "why_tests_cant": "ties and unbounded extents", "anchors": ["app/tenncor/src/graph/operations/transform.ipp:arg_compress", "app/tenncor/src/graph/operations/transform.ipp:arg_max"]}
{"id": "C21", "title": "Flip mirrors exactly the requested axes and is its own inverse", "statement": "flip over a set of axes inside the rank maps coordinate c to extent-1-c on these axes and leaves the others; flipping twice restores the data.", "quantifier": "every shape, set of axes, buffer", "why_tests_cant": "unbounded ranks", "anchors": ["app/tenncor/src/graph/operations/transform.ipp:flip"]}
{"id": "C22", "title": "Extend repeats the tensor along the axis", "statement": "extend(a, axis, m) multiplies the extent of the axis by m and the element at coordinate c is the input element at c with the axis coordinate taken modulo the old extent; the axis must be inside the rank.", "quantifier": "every shape, axis, multiplier, buffer", "why_tests_cant": "unbounded", "anchors": ["app/tenncor/src/graph/operations/transform.ipp:extend"]}
{"id": "C23", "title": "matmul computes the matrix product for every size and transposition", "statement": "For operands of rank at most 2 with matching inner extent, each element of the result is the sum over the inner index of products of the operands' elements, with each operand read transposed when requested; result shape is {columns of B, rows of A}; mismatched inner extents throw.", "quantifier": "all extents, both transposition flags, any semiring of elements", "why_tests_cant": "unbounded sizes", "anchors": ["app/tenncor/src/graph/operations/matmul.ipp:matmul_shaper", "app/tenncor/src/graph/operations/matmul.ipp:cubic_mul", "app/tenncor/src/graph/operations/matmul.ipp:matmul"]}
{"id": "C24", "title": "Strassen multiplication equals the cubic algorithm", "statement": "For every square power-of-two size, the recursive seven-product algorithm gives exactly the same result as the cubic algorithm over any ring; the padded size chosen is a power of two multiple bound that covers every operand extent, and padding with zeros then truncating does not change the product.", "quantifier": "all sizes, all matrices over any ring", "why_tests_cant": "in-place recursion at any depth", "anchors": ["app/tenncor/src/graph/operations/matmul.ipp:strassen", "app/tenncor/src/graph/operations/matmul.ipp:min_pad"]}
{"id": "C25", "title": "matmul never accepts operands whose product overruns its output", "statement": "If the shaper accepts the two shapes, the kernel's writes stay within the buffer of the shape it returned and its reads within the operand buffers.", "quantifier": "every pair of fully defined shapes of any rank", "why_tests_cant": "out-of-bounds writes need not crash in a test", "anchors": ["app/tenncor/src/graph/operations/matmul.ipp:matmul_shaper", "app/tenncor/src/graph/operations/matmul.ipp:matmul"]}
{"id": "C26", "title": "Dependencies and audiences mirror each other after any history", "statement": "After any sequence of adding, removing and replacing dependencies, destroying subjects and destroying observers, an observer lists a live subject at position i exactly when that subject lists the observer with index i.", "quantifier": "every history over any number of subjects and observers, including one observer depending on one subject several times", "why_tests_cant": "histories are unbounded", "anchors": ["app/tenncor/src/graph/react/subject.cpp:attach", "app/tenncor/src/graph/react/subject.cpp:detach", "app/tenncor/src/graph/react/iobserver.cpp:add_dependency", "app/tenncor/src/graph/react/iobserver.cpp:remove_dependency", "app/tenncor/src/graph/react/iobserver.cpp:replace_dependency"]}
{"id": "C27", "title": "Destruction leaves no dangling edge", "statement": "After a subject is destroyed no observer still lists it; after an observer is destroyed no subject still lists it.", "quantifier": "every history and every victim", "why_tests_cant": "dangling pointers are invisible to most tests", "anchors": ["app/tenncor/src/graph/react/subject.cpp:~subject", "app/tenncor/src/graph/react/iobserver.cpp:~iobserver", "app/tenncor/src/graph/react/iobserver.cpp:update"]}
{"id": "C28", "title": "Kill-on-death registrations stay symmetric", "statement": "A subject records an observer as killer exactly when the observer records the subject as to be destroyed on its death; after any history of registrations, removals and destructions; destroying the observer destroys every subject registered and leaves no stale registration.", "quantifier": "every history", "why_tests_cant": "mutual recursion over unbounded sets", "anchors": ["app/tenncor/src/graph/react/subject.cpp:attach_killer", "app/tenncor/src/graph/react/subject.cpp:detach_killer", "app/tenncor/src/graph/react/iobserver.cpp:add_ondeath_dependent", "app/tenncor/src/graph/react/iobserver.cpp:remove_ondeath_dependent"]}
{"id": "C29", "title": "Each attached observer is notified once with all its indices", "statement": "notify delivers to every observer attached at the time and still attached when its turn comes exactly one update carrying exactly the indices under which it is attached, and nothing to others.", "quantifier": "every audience and every notification message, including observers detaching others while being notified", "why_tests_cant": "delivery depends on the audience at each step", "anchors": ["app/tenncor/src/graph/react/subject.cpp:notify"]}
{"id": "C30", "title": "Evaluation after any history of leaf assignments is fresh", "statement": "For every graph of operations over leaves and every history of constructions, notifying leaf assignments, evaluations, shape queries, freezing, unfreezing and destructions, eval of any node whose graph is not frozen returns the value of its expression on the leaf values last assigned, and null exactly when the expression has no value; histories without destruction and without throwing operations never fail. Assignments asked not to notify are excluded: after one, eval may be stale.", "quantifier": "every DAG, every history of calls, every hash iteration order", "why_tests_cant": "depends on the interaction of the update queue, depths and eager unary propagation for all graph shapes", "anchors": ["app/tenncor/src/graph/connector/iconnector.ipp:graph_manager", "app/tenncor/src/graph/connector/iconnector.ipp:eval", "app/tenncor/src/graph/connector/immutable/base_immutable.ipp:update"]}
{"id": "C31", "title": "Freezing keeps values stable and unfreezing refreshes them", "statement": "While a graph is frozen every operation node keeps evaluating to its value at the time of freezing whatever is assigned to leaves, for all calls that leave that graph alone (not asking one of its nodes for its shape, not merging it under an earlier graph); after unfreezing, eval is fresh again.", "quantifier": "every DAG, every history", "why_tests_cant": "unbounded histories", "anchors": ["app/tenncor/src/graph/connector/iconnector.ipp:freeze_status", "app/tenncor/src/graph/connector/iconnector.ipp:eval", "app/tenncor/src/graph/connector/immutable/base_immutable.ipp:update"]}
{"id": "C32", "title": "Graph union: nodes share a manager exactly when connected", "statement": "After any history of creating operation nodes, two operation nodes are in the same graph exactly when they are linked by argument edges between operation nodes; the users recorded by a manager are exactly the nodes that point at it.", "quantifier": "every construction history", "why_tests_cant": "merging order is unbounded", "anchors": ["app/tenncor/src/graph/connector/iconnector.ipp:update_graph", "app/tenncor/src/graph/connector/iconnector.ipp:graph_manager::consume", "app/tenncor/src/graph/connector/iconnector.ipp:is_same_graph"]}
{"id": "C33", "title": "get_leaves returns exactly the leaves an expression depends on", "statement": "The leaf set returned by get_leaves is exactly the set of leaves reachable through arguments; a const_immutable hides the leaves below it.", "quantifier": "every construction history", "why_tests_cant": "unbounded depth", "anchors": ["app/tenncor/src/graph/connector/immutable/base_immutable.ipp:get_leaves", "app/tenncor/src/graph/connector/immutable/base_immutable.ipp:base_immutable"]}
{"id": "C34", "title": "Algebraic simplification in operator construction preserves values", "statement": "The node returned by any operator (+, -, *, / and comparison on nodes and scalars, unary minus, the elementary functions, pow, clip_val) evaluates, for every assignment of leaf values at which the operation is defined over the reals, to that operation on the arguments' values, whatever simplification or node reuse took place, provided no two different operations of the history have the same name; the values of existing nodes do not change; dividing by a zero constant throws.", "quantifier": "every history of constructions and derivations, every hash iteration order, every operator and arguments, every leaf assignment", "why_tests_cant": "simplification depends on expression shape; tests sample", "anchors": ["app/tenncor/src/graph/operations/elementary.ipp:add_helper", "app/tenncor/src/graph/operations/elementary.ipp:operator +", "app/tenncor/src/graph/operations/elementary.ipp:operator -", "app/tenncor/src/graph/operations/elementary.ipp:operator *", "app/tenncor/src/graph/operations/elementary.ipp:operator /", "app/tenncor/src/graph/operations/elementary.ipp:pow"]}
{"id": "C35", "title": "Reusing an existing node never changes the computed function", "statement": "When operator construction returns an already existing node, that node computes the function asked for, in every history without comparisons whose different numbers are printed differently. (Numbers printing alike, and the two scalar forms of a comparison, are confused.)", "quantifier": "every construction history, every scalar argument", "why_tests_cant": "label collisions depend on formatting precision", "anchors": ["app/tenncor/src/graph/operations/operation_utils.ipp:unary_parent_search", "app/tenncor/src/graph/operations/operation_utils.ipp:ordered_binary_parent_search", "app/tenncor/src/graph/operations/elementary.ipp:conditional"]}
{"id": "C36", "title": "derive yields the derivative", "statement": "For every expression built from the operators, evaluating the graph returned by derive with respect to a variable gives the partial derivative of the expression's value at every point where the expression's operations are differentiable (abs, round, clip_val and comparisons count as nowhere differentiable); derive with respect to a variable never fails.", "quantifier": "every expression tree, every variable, every real assignment", "why_tests_cant": "numeric tests sample points and carry tolerance", "anchors": ["app/tenncor/src/graph/connector/immutable/base_immutable.ipp:derive", "app/tenncor/src/graph/connector/immutable/base_immutable.ipp:get_gradient", "app/tenncor/src/graph/operations/elementary.ipp:operator *"]}
{"id": "C37", "title": "Numeric helper operators match their documented meaning", "statement": "abs, clip, l2 norm and clip-by-norm compute |x|, clamp, the Euclidean norm and x scaled to the cap when its norm exceeds the cap, identically for constant and non-constant arguments.", "quantifier": "every element buffer and every bound", "why_tests_cant": "constants and nodes take different code paths", "anchors": ["app/tenncor/src/graph/operations/elementary.ipp:operator +", "app/tenncor/src/graph/operations/elementary.ipp:clip_val", "app/tenncor/src/graph/operations/elementary.ipp:l2norm", "app/tenncor/src/graph/operations/elementary.ipp:clip_norm"]}
{"id": "C38", "title": "Allocator registry never rebinds an identifier", "statement": "registertype returns true exactly for an unused id and then that id resolves to the registered allocator for ever; get returns null exactly for unregistered ids; the default id always resolves.", "quantifier": "every history of registrations", "why_tests_cant": "unbounded history", "anchors": ["app/tenncor/include/memory/alloc_builder.hpp:registertype", "app/tenncor/src/memory/alloc_builder.cpp"]}
{"id": "C39", "title": "Saving and loading tensors by label round-trips", "statement": "After write_inorder of initialised tensors under a label into any readable file, and any further saves under other labels, read_inorder of equally many distinct leaves under that label finds all of them and restores data and shapes in order; a save leaves every entry of other labels, and of its own label beyond the vector or for nodes without a value, unchanged (so a node without a value keeps a stale entry).", "quantifier": "every repository content, label and list of tensors", "why_tests_cant": "key collisions across labels are over all strings", "anchors": ["app/tenncor/src/memory/tensor_io.ipp:write_inorder", "app/tenncor/src/memory/tensor_io.ipp:read_inorder"]}
{"id": "C40", "title": "Partial loading reports exactly the missing entries in order", "statement": "If read_inorder returns, it leaves in the caller's vector, in order, exactly those nodes whose key is missing, whose stored proto does not describe data of a fully defined shape agreeing with its declared shape, or which are not leaves; found leaves are initialised with the stored shapes, the others keep data, allocated shape and initialisation state, and nodes not requested are untouched.", "quantifier": "every repository and every request vector", "why_tests_cant": "all patterns of missing entries", "anchors": ["app/tenncor/src/memory/tensor_io.ipp:read_inorder"]}
{"id": "C41", "title": "Constants hold their data padded with zeros", "statement": "A constant built from a vector and a part- or fully defined shape evaluates to a tensor whose first elements are the given data (clipped to the element count) and whose other elements are zero, and its shape is the tightest admissible.", "quantifier": "every data vector and every shape with at least one extent", "why_tests_cant": "all padding and clipping boundaries", "anchors": ["app/tenncor/src/graph/leaf/constant.ipp:constant"]}
{"id": "C42", "title": "Variables: assignment and in-place update change exactly the data", "statement": "On a variable holding data, assign replaces, assign_add adds and assign_sub subtracts the argument element-wise, leaving shape and initialisation state unchanged; a zero constant scalar is a no-op for the latter two; an argument with too few elements (a constant) or a different number of elements (any other node), or without a value, aborts. There is no broadcast, and assigning neither allocates nor initialises.", "quantifier": "every variable state and argument", "why_tests_cant": "all shapes and values", "anchors": ["app/tenncor/src/graph/leaf/variable.ipp:assign", "app/tenncor/src/graph/leaf/variable.ipp:assign_add", "app/tenncor/src/graph/leaf/variable.ipp:assign_sub"]}
{"id": "C43", "title": "Placeholders accept data exactly when it fits and keep it", "statement": "A placeholder assignment aborts exactly when the data is empty or its length is not compatible with the placeholder's shape; on success the placeholder is initialised and evaluates to exactly the data; after the first assignment its shape is fixed.", "quantifier": "every placeholder shape and every sequence of assignments", "why_tests_cant": "unbounded sequences", "anchors": ["app/tenncor/src/graph/leaf/placeholder.ipp:operator ="]}
{"id": "C44", "title": "Shareable cache delivers latest entries in order and once", "statement": "For every history of additions the cache holds the latest value of each key in the order of last update: a consumer that starts reading is given exactly these, once each, and then nothing; a consumer whose last delivered entry has not been superseded continues exactly after it whatever else was added. With pairwise different keys every consumer, in every interleaving, has been given a prefix of the additions in order, each once. When the entry a consumer last read is superseded the claim fails: the next read dereferences null if it was the only entry, skips entries if it was the first, delivers entries again if it was the last; and one addition wakes only one of several waiting consumers.", "quantifier": "every history of add_latest and get_latest by any number of consumers", "why_tests_cant": "linked-list surgery under arbitrary interleaving", "anchors": ["app/tenncor/src/thread/shareable_cache.ipp"]}
{"id": "C45", "title": "Edge recorder equals the set of live edges", "statement": "After any history of edge captures, edge releases and node releases the adjacency record contains exactly the edges captured for recordable observers and not released since, by themselves or with their subject. Attached to the network of subjects and observers it therefore always contains exactly the current dependencies of recordable observers.", "quantifier": "every history", "why_tests_cant": "unbounded history", "anchors": ["app/tenncor/src/edgeinfo/adjlist_record.cpp", "app/tenncor/src/graph/react/subject.cpp:attach", "app/tenncor/src/graph/react/subject.cpp:detach"]}
{"id": "C46", "title": "Replay memory is bounded and keeps stored experience", "statement": "After any history of calls the memory holds exactly min(max_exp, number of recorded experiences); a store call records only observations number 0, k, 2k, ... of those offered (k = store_interval); until the memory is full it is exactly the recorded ones in order, and everything held was offered.", "quantifier": "every sequence of store calls", "why_tests_cant": "needs long histories", "anchors": ["app/rocnnet/src/models/dq_net.cpp:store"]}
{"id": "C47", "title": "What a full replay memory forgets", "statement": "Once the memory is full each newly recorded experience overwrites the first slot only: the memory is the latest recorded experience followed by the second to the max_exp-th ever recorded, for ever. (The natural claim that the oldest experience is displaced first is false; it is refuted.)", "quantifier": "every sequence of store calls", "why_tests_cant": "needs long histories", "anchors": ["app/rocnnet/src/models/dq_net.cpp:store"]}
{"id": "C48", "title": "Exploration rate anneals monotonically between its bounds", "statement": "For every number of actions executed, the exploration probability lies between the initial and final probability, is monotone in the number of actions and equals the final one after the exploration period.", "quantifier": "every action count and parameters", "why_tests_cant": "all counts", "anchors": ["app/rocnnet/src/models/dq_net.cpp:linear_annealing"]}
{"id": "C49", "title": "Target network moves towards the source network", "statement": "Each target update replaces every target parameter t by t - rate*(t - s); with rate in [0,1] the distance to the source shrinks by exactly the factor 1-rate, so after n updates with fixed source it is (1-rate)^n times the initial distance.", "quantifier": "every parameter vector, rate, number of updates", "why_tests_cant": "unbounded updates", "anchors": ["app/rocnnet/src/models/dq_net.cpp"]}
{"id": "C50", "title": "Gradient-descent updaters change exactly the trained variables by the documented step", "statement": "Vanilla descent replaces each non-ignored variable v by v - lr*grad, all gradients taken at the same values; ignored variables are unchanged; rmsprop replaces v by v - lr*g/(sqrt(m)+eps) and its momentum by m, where m = d*m0 + (1-d)*g^2 with m0 = 1 the initial momentum in every round (not the previous momentum as documented), and m is never negative for 0 <= d <= 1.", "quantifier": "every set of variables, learning rate, gradients and number of steps", "why_tests_cant": "unbounded steps", "anchors": ["app/tenncor/src/utils/gd_utils.cpp"]}
{"id": "C51", "title": "Compound initialisation loads saved parameters when all are present", "statement": "initialize after save restores every parameter; if any parameter cannot be loaded then all parameters, including those loaded, are re-initialised.", "quantifier": "every repository content and compound", "why_tests_cant": "all patterns of missing parameters", "anchors": ["app/rocnnet/src/compounds/icompound.cpp:initialize", "app/rocnnet/src/compounds/icompound.cpp:save"]}
{"id": "C52", "title": "Copying a model yields an independent, complete copy", "statement": "Cloning or assigning a multi-layer perceptron gives the target the source's sizes, activations and new, independent variables that are copies of all the source's parameters, deletes the target's old ones once, and leaves everything else unchanged; self-assignment leaves it unchanged. For restricted Boltzmann machines assignment does nothing and self-assignment is undefined; a cloned machine has no output count, a cloned deep belief network no output layer; a copied Q-network loses its replay memory and ignores the scope asked for.", "quantifier": "every model state", "why_tests_cant": "all model configurations", "anchors": ["app/rocnnet/src/models/rbm.cpp:operator =", "app/rocnnet/src/models/db_net.cpp:copy_helper", "app/rocnnet/src/models/dq_net.cpp:copy_helper"]}
{"id": "C53", "title": "Activation helpers have their mathematical ranges and derivatives", "statement": "For every real input, on every node, sigmoid is 1/(1+exp(-x)), strictly between 0 and 1, tanh is the hyperbolic tangent, strictly between -1 and 1, their derivative graphs evaluate to s(1-s) and 1-tanh^2 times the inner derivative, and softmax over any allocated tensor has entries exp(x_i)/sum exp(x_j), positive and summing to 1.", "quantifier": "every real buffer", "why_tests_cant": "all reals", "anchors": ["app/tenncor/src/utils/futils.ipp"]}
{"id": "C54", "title": "Axial operators broadcast the reduced operand along the axis", "statement": "add_axial_a/b, sub_axial_*, mul_axial_*, div_axial_*(a,b,axis) combine every element of the full operand with the element of the reduced operand at the same coordinate with the axis removed, operands in the order given, without leaving any buffer.", "quantifier": "every shape, axis, operator and data", "why_tests_cant": "all ranks and extents; square shapes hide behind rectangular examples", "anchors": ["app/tenncor/src/graph/operations/elementary.ipp:binary_axial", "app/tenncor/src/graph/operations/elementary.ipp:binary_axial_shape"]}
{"id": "C55", "title": "Initialising a variable", "statement": "initialize() fills every element with the initializer's values, marks the variable initialised and keeps its shape; it throws exactly when no data can be allocated because the declared shape is not fully defined, and aborts without an initializer. initialize(shape) on a variable without data works exactly for fully defined shapes compatible with the declared one, and throws on a variable already holding data of a compatible shape. After any history an initialised variable holds exactly as many elements as its shape says.", "quantifier": "every declared shape, initializer and history of initialisations, updates and loads", "why_tests_cant": "all shapes and unbounded histories", "anchors": ["app/tenncor/src/graph/leaf/variable.ipp:initialize"]}
{"id": "C56", "title": "Saving is not crash-safe", "statement": "write_inorder empties the file before it writes the new contents: every save that gets as far as output passes through a state (a crash point, or the final state if writing fails) in which the entries of all labels are gone and a later read_inorder of any label returns true while finding nothing.", "quantifier": "every readable file, label and list of nodes", "why_tests_cant": "crash points are not observable by a test that runs to completion", "anchors": ["app/tenncor/src/memory/tensor_io.ipp:write_inorder"]}
{"id": "C57", "title": "CSV export numbers nodes consistently", "statement": "The rows written by to_csv (not verbose) are the recorded edges with every node replaced by a number: equal numbers exactly for equal nodes, and the numbers used are 0..n-1 without gaps.", "quantifier": "every record without self-loops, every iteration order", "why_tests_cant": "all graphs and hash orders", "anchors": ["app/tenncor/include/edgeinfo/csv_record.hpp:to_csv"]}
{"id": "C58", "title": "Deep-Q training schedule and batches", "statement": "With positive intervals and legal arguments no history of store/train/action calls fails. A train call trains iff at least mini_batch_size experiences are held and its number among the train calls made in that situation is a multiple of train_interval (earlier calls do not count); it trains on mini_batch_size experiences at distinct places of the memory, every such choice being possible, and enters their observations, rewards, one-hot actions and next observations (zeros and mask 0 when there is none); all these batches are accepted by the agent's placeholders.", "quantifier": "every history of calls, parameters, shuffles", "why_tests_cant": "unbounded histories and all shuffles", "anchors": ["app/rocnnet/src/models/dq_net.cpp:train", "app/rocnnet/src/models/dq_net.cpp:random_sample"]}
{"id": "C59", "title": "Forward pass of layers and networks", "statement": "Applying a fully connected layer to a batch of vectors gives, for every vector of the batch separately and every unit i, the sum over its inputs of sum_z x_z*w_iz + b_i (inputs in excess of those the layer was made for are ignored; missing ones are undefined behaviour). Propagating a batch through a multi-layer perceptron of any depth and any widths whose weights and biases hold data and whose activations act element-wise (sigmoid and tanh do) gives for every vector of the batch exactly what the network computes on that vector alone. A rank-2 input whose vectors have the wrong length is refused by an assertion.", "quantifier": "every ring of elements, number of inputs, batch size, depth, widths, weights, biases, input batch (rank 1 or 2), Strassen switched on or off", "why_tests_cant": "tests run a few fixed architectures; the result must hold for every depth, width, batch size and weight, including the one-unit/one-vector cases where element-wise nodes collapse shapes", "anchors": ["app/rocnnet/src/layers/fc_layer.cpp: fc_layer::operator()", "app/rocnnet/src/compounds/mlp.cpp: mlp::prop_up", "app/tenncor/src/graph/operations/elementary.ipp: add_axial_b", "app/tenncor/src/graph/operations/matmul.ipp: matmul", "app/tenncor/src/utils/futils.ipp: sigmoid, tanh"]}
{"id": "C60", "title": "Backpropagation through matrix products", "statement": "For a feed-forward network of any depth, widths and batch size whose activations are the identity, sigmoid or tanh, and whose weight and bias variables are all different, deriving gd_net's squared-error node with respect to any weight matrix or bias vector succeeds, and the node returned evaluates to a tensor of the parameter's size whose entry [p,q] is the partial derivative, by that entry, of the squared error summed over all outputs and all vectors of the batch. More generally this holds along every chain of untransposed matrix products with smooth element-wise operations and biases in between, in which the variable enters through one place, provided no gradient on the way is simplified to a constant. It fails (and is shown to fail) for the bias of an affine node differentiated directly, for a residual connection around a product, and for a factor whose gradient cancels to zero.", "quantifier": "every depth, width, batch size, choice of activations, values of parameters, inputs and expected outputs, every parameter and entry; every chain", "why_tests_cant": "tests differentiate a few fixed small graphs at a few points; correctness of the gradient is a statement about limits at every point and about graphs of every depth", "anchors": ["app/tenncor/src/graph/operations/matmul.ipp: matmul", "app/tenncor/src/graph/connector/iconnector.ipp: set_jacobian_back, set_jacobian_front, jacobian_call, constructor", "app/tenncor/src/graph/connector/immutable/base_immutable.ipp: derive, get_gradient", "app/tenncor/src/graph/operations/elementary.ipp: add_axial_b, axial_set_jacobian", "app/rocnnet/src/models/gd_net.cpp: gd_net::setup", "app/rocnnet/src/compounds/mlp.cpp: mlp::prop_up"]}
{"id": "C61", "title": "Fitting a tensor onto another's shape", "statement": "fit(a, watch) on allocated arguments, for all ranks and extents, yields a tensor of exactly watch's shape; its element at a coordinate is a's element there when the coordinate lies inside a's box (coordinates on axes a does not have must be 0, axes watch does not have are taken at 0) and zero otherwise. Fitting onto a tensor of the same shape copies a.", "quantifier": "all shapes of both arguments of any rank, all element values, all coordinates", "why_tests_cant": "unit tests fit a few fixed shapes; the index arithmetic must be right for every pair of ranks and extents", "anchors": ["app/tenncor/src/graph/operations/transform.ipp: fit"]}
{"id": "C62", "title": "Labels of model parameters", "statement": "The parameters of a new or copied model carry the documented labels under which they are saved and loaded: scope:hidden_i_weights_0 / scope:hidden_i_bias_0 for a new perceptron (all different for every depth), scope:hiddensi_... for a copied one, scope-prefixed labels and shapes for a new restricted Boltzmann machine. A copy of a restricted Boltzmann machine keeps the ORIGINAL's labels although it is asked for a new scope; machines of a copied deep belief network have the scopes scope:rbm_i.", "quantifier": "every depth, widths, scope string and memory state", "why_tests_cant": "label collisions appear only for particular depths and scopes; tests try a few", "anchors": ["app/rocnnet/src/compounds/mlp.cpp", "app/rocnnet/src/layers/fc_layer.cpp", "app/rocnnet/src/models/rbm.cpp", "app/rocnnet/src/models/db_net.cpp"]}
{"id": "C63", "title": "Size and compatibility queries between tensors", "statement": "is_same_size is symmetric and, for two allocated tensors neither of which is a single element, holds exactly when their shapes agree once leading and trailing extents of 1 are trimmed; a one-element tensor, however, is reported as same size as EVERY allocated tensor. is_compatible_with between tensors holds exactly when the shapes the tensors report are compatible.", "quantifier": "all pairs of tensors, allocated or not, of any rank and extents", "why_tests_cant": "tests sample shapes at random and use only allocated ones of similar rank", "anchors": ["app/tenncor/src/tensor/tensor.ipp: is_same_size, is_compatible_with"]}
{"id": "C64", "title": "Nodes and derivatives are shared, never duplicated", "statement": "After any history of constructions and derivations, asking for an operation on the same nodes a second time (with anything in between and any hash iteration orders) either folds to the same constant again or creates no node and, as long as no operator names clash, returns the node returned the first time; sums and products of non-constant nodes are also found with the arguments exchanged; the graph never holds two nodes for the same operation on the same arguments; and asking for the same derivative again returns the same node and changes nothing.", "quantifier": "every history of calls, every later history in between, every operator and arguments, every hash iteration order", "why_tests_cant": "tests look up a handful of nodes in short scripts; the property is about every history and every unordered_set iteration order", "anchors": ["app/tenncor/src/graph/operations/operation_utils.ipp: unary_parent_search, ordered_binary_parent_search, unordered_binary_parent_search", "app/tenncor/src/graph/operations/elementary.ipp", "app/tenncor/src/graph/connector/immutable/base_immutable.ipp: get_gradient"]}
{"id": "C65", "title": "Training a network is gradient descent", "statement": "For a gd_net over a multi-layer perceptron of any depth and widths with identity, sigmoid or tanh activations and a vgb_updater: exactly the weights and biases are trained, in whatever order the leaf set yields; one train() call moves every entry of every weight matrix and bias vector by minus the learning rate times the partial derivative of the squared error of the batch, all derivatives taken before the call, and changes no other leaf; any sequence of train() calls is stochastic gradient descent over the samples; unless every partial derivative is zero, every small enough positive learning rate strictly reduces the squared error, and at a stationary point nothing moves.", "quantifier": "all depths, widths, batch sizes, activations, parameter and sample values, learning rates (also 0, 1, -1), hash orders of the trained variables and numbers of training calls", "why_tests_cant": "tests train a few fixed nets and look at an error threshold; that each step is the gradient step must hold for every architecture, value and length of training", "anchors": ["app/rocnnet/src/models/gd_net.cpp: train, setup", "app/tenncor/src/utils/gd_utils.cpp: calculate, vgb_updater::process_update", "app/tenncor/src/graph/leaf/variable.ipp: assign_sub", "app/tenncor/src/graph/leaf/placeholder.ipp: operator ="]}
{"id": "C66", "title": "Training a restricted Boltzmann machine is contrastive divergence", "statement": "rbm::prop_up and rbm::prop_down compute, for every batch, the exact conditional probabilities that each hidden (visible) unit is on given the visible (hidden) vectors under the Boltzmann distribution exp(-energy) of the machine's weights and biases, and these lie strictly between 0 and 1. The free energy used in training is minus the log of the sum of exp(-energy) over all hidden vectors. The cost node built by rbm::train evaluates to mean free energy of the data minus mean free energy of the end of the Gibbs chain, derive gives its exact gradient by weight, hidden bias and visible bias with the chain held constant, and one training step changes each of them by learning_rate times the difference of the batch statistics and leaves everything else as it was. The reconstruction cost is the mean Bernoulli log-likelihood of the data under the reconstructed probabilities; the pseudo-likelihood cost is characterised too, and is not the textbook one because it negates instead of keeping the other bits.", "quantifier": "every number of visible and hidden units, every batch size, all real weights, biases, data and chain ends, every learning rate", "why_tests_cant": "tests compare a handful of numbers; that the formula is the conditional distribution and the exact gradient is a statement about all real parameters and all sizes, and sums over 2^hidden vectors", "anchors": ["app/rocnnet/src/models/rbm.cpp: rbm::prop_up, rbm::prop_down, rbm::free_energy, rbm::train, rbm::get_reconstruction_cost, rbm::get_pseudo_likelihood_cost", "app/tenncor/src/graph/operations/transform.ipp: reduce_mean, reduce_sum", "app/tenncor/src/graph/operations/elementary.ipp: as_constant, add_axial_b"]}
{"id": "C67", "title": "A deep-Q training step descends the temporal-difference loss and the target network follows", "statement": "For a dq_net whose target network is a copy of the source network, after a mini-batch is entered prediction_error_ evaluates to the mean over the samples of (score the source network gives the action taken - (reward + discount * best score the target network gives the new observation, nothing if the episode ended))^2, and deriving it by a source parameter gives the exact gradient of that loss (the target network held fixed). One training step moves every parameter of the source network, and no other, by -learning_rate times its gradient scaled so that the first entry of the gradient is +-5, and then every target parameter to (1 - rate) * itself + rate * its new source counterpart; any number of mini-batches composes these steps, starting with placeholders that were never filled. Exceptions, each proved: with as many actions as samples in the mini-batch (more than one) training is undefined behaviour; a gradient whose first entry is zero is divided by zero, which happens at every mini-batch in which no sample took action 0.", "quantifier": "all layer sizes, depths and activations, observation lengths, mini-batch sizes and contents, weights, learning, discount and target rates, orders of the trained variables, and sequences of mini-batches", "why_tests_cant": "equality with the gradient of a loss over all reals and all networks, and composition over unbounded training histories, are not observable by finitely many runs; the undefined behaviour is an out-of-bounds read that may go unnoticed", "anchors": ["app/rocnnet/src/models/dq_net.cpp: dq_net::variable_setup, dq_net::train", "app/tenncor/src/utils/gd_utils.cpp: vgb_updater::process_update", "app/tenncor/src/graph/operations/elementary.ipp: clip_norm, l2norm", "app/tenncor/src/graph/operations/transform.ipp: reduce_max, reduce_sum, reduce_mean"]}
{"id": "C68", "title": "What cross-correlation and convolution do for every input (never the documented result)", "statement": "cross_corr2d(a, filter, {d1, d2}) is meant to slide the filter over a. For every input and filter it does not: the result never has the shape of the valid cross-correlation (extent minus filter extent plus one along both axes). With d1 < d2 (the default axes among them), every evaluation in which the filter leaves at least two positions of room reads beyond the input's data, whatever the element type, rank and values; with exactly one position to spare the evaluation aborts. Whatever the axes, the values in the filter have no influence: two filters of equal shape give the same outcome, so conv2d, which flips the filter first, is the same as cross_corr2d. An evaluation that does give a result (which takes axes in descending order) gives at every position a sum of products of elements of the input with one another: with n1 and n2 one more than the filter's extents, over all j < n1 and k < n2, the element j further along the first axis and j * n2 + k further along the second (by flat position, running over into other rows) times the input's element number k * n1 + j.", "quantifier": "all ranks, shapes, axes, element types, input and filter values", "why_tests_cant": "that no input at all gives the documented result, and that an out-of-bounds read happens for every accepted input, cannot be seen from finitely many runs (reads past the end usually go unnoticed)", "anchors": ["app/tenncor/src/graph/operations/transform.ipp: cross_corr2d, conv2d, flip"]}
{"id": "C69", "title": "Binomial sampling and the Gibbs chains of a restricted Boltzmann machine", "statement": "binomial_sample(n, p) of a node succeeds exactly when every element of p lies between 0 and 1, keeps p's shape (a single element becomes [1]), and draws every element for the probability in the same place; re-evaluation draws all elements anew for the current probabilities. rbm::train(input, nullptr, lr, k) with k ≥ 1 never fails, for every batch, every state of the machine and all random numbers: the chain starts from hidden units drawn given the input and alternates k times between drawing visible units given hidden and hidden given visible, with the conditional probabilities of the machine's Boltzmann distribution; all units at its end are 0 or 1; the parameters then make exactly one contrastive-divergence step for that end, and nothing else changes. With a persistent variable the chain starts from its value, which afterwards is the chain's last hidden units. Both hold over every sequence of training calls. k = 0 is undefined behaviour, and so are sampling from a constant and sampling with both trials and probabilities given by nodes.", "quantifier": "all shapes, probabilities, random numbers, machine sizes, batch sizes, chain lengths, learning rates and sequences of training batches", "why_tests_cant": "a test sees one stream of random numbers and one machine; the claim is for all of them and for training runs of any length", "anchors": ["app/tenncor/src/graph/operations/elementary.ipp: binomial_sample", "app/rocnnet/src/models/rbm.cpp: reconstruct_hidden, train", "app/demo/rbm_demo.cpp: fit"]}
{"id": "C70", "title": "Deep belief network: output, pre-training and fine-tuning", "statement": "db_net::prop_up of an input of the declared width is the softmax of the last layer's activations for the probabilities of the stacked machines' hidden units; an input of another width violates its assertion. For a single vector the output is a probability distribution over the classes. For a batch of several vectors the softmax runs over all outputs of the batch together: what comes out for one vector sums to less than one and depends on the others. One call of a trainer of pretraining_functions(input, lr, k) with k >= 1 succeeds for every batch, every state of the network and all random numbers and is one step of contrastive divergence for its machine, with the activations of the machines below as data; no other variable changes. k = 0 is undefined behaviour. One call of the updater of build_finetune_functions succeeds for every batch and moves every weight, hidden bias and parameter of the last layer by the learning rate times the mean over all outputs of (1 - output) times the derivative of that output's activation, and leaves the visible biases alone. That is not gradient descent on the cost: no output bias moves by the learning rate times the cost's derivative, with a positive rate every output bias grows in every call, and the labels have no influence on the variables. The returned error is the mean squared difference between outputs and labels.", "quantifier": "all stacks of machines of any depth and widths, batch sizes, parameter values, inputs, labels, random numbers, chain lengths and learning rates", "why_tests_cant": "a test trains one network on one data set; the claims are for networks of any depth, any parameters, all batches and all random numbers, and the negative ones say that no data make the step a gradient step", "anchors": ["app/rocnnet/src/models/db_net.cpp: prop_up, pretraining_functions, build_finetune_functions, get_variables", "app/rocnnet/src/models/rbm.cpp: prop_up, train", "app/rocnnet/src/layers/fc_layer.cpp: operator ()", "app/tenncor/src/utils/futils.ipp: softmax"]}
{"id": "C71", "title": "The graph after exceptions the caller catches", "statement": "After any history of calls in which exceptions were thrown and caught, the structure of the graph is intact: two live operations are in the same graph exactly when they are linked by argument edges, and get_leaves returns the leaves reachable through arguments. Constructing an operation throws exactly when it has one argument, whose value it fails on and whose graph is not frozen, and then nothing has changed. When eval throws, some operation of that graph fails on the present values of its arguments, and from then on, whatever leaves are assigned, the next evaluation that returns leaves that operation its old value: the failure and every correction made before are silently forgotten. When a notifying assignment throws, the value is stored but which operations have heard of it depends on the order of a hash container. The way to recover: after an evaluation of the node that returned, assigning every leaf of its expression again, with notifications, makes the next evaluation that returns give the value of the expression.", "quantifier": "all histories of constructions, assignments, evaluations, shape queries, freezing and destructions, with exceptions at any point, all transfer functions and all hash orders", "why_tests_cant": "an exception can interrupt an update at any node of any graph in any hash order; the claims are about every interruption and every continuation", "anchors": ["app/tenncor/src/graph/connector/iconnector.ipp: eval, graph_manager::add_update, graph_manager::update", "app/tenncor/src/graph/connector/immutable/base_immutable.ipp: update", "app/tenncor/src/graph/connector/immutable/immutable.ipp: forward_pass", "app/tenncor/src/graph/react/subject.cpp: notify"]}
{"id": "C72", "title": "Re-evaluating an operation whose arguments changed shape", "statement": "The shape of an operation's result is fixed by its first evaluation: every later evaluation that succeeds leaves it as it was. When the arguments come to ask for a fully defined shape that is not compatible with the one held, evaluation throws runtime_error, whatever the operation. With a compatible shape it computes into the tensor it has, under the shape it has; with the shape it holds, it gives what a first evaluation would give, if its kernel does not read the destination. A unary element-wise operation given an argument of another compatible shape keeps its own shape and applies the function to the elements in their flat order. A matrix product evaluated for a batch of B rows and then given B' rows is the product if B' = B and throws otherwise.", "quantifier": "all shape functions, kernels, shapes, values and sequences of evaluations", "why_tests_cant": "a claim about every operation, every pair of shapes and every sequence of evaluations", "anchors": ["app/tenncor/src/graph/connector/immutable/immutable.ipp: forward_pass", "app/tenncor/src/graph/leaf/placeholder.ipp: operator = (tensor<T>&)", "app/tenncor/src/tensor/tensorshape.cpp: is_compatible_with"]}
{"id": "C73", "title": "Lifetimes of nodes and smart pointers", "statement": "After any sequence of creating variables, constants, operations, generators and smart pointers, assigning, copying, moving, clearing and destroying smart pointers, caching gradients, taking constants under management and deleting nodes, each on objects that are alive, and in whatever order the hash tables are walked: no call touches freed memory, deletes an object twice, fails to return or throws out of a destructor; the only call that throws is clearing a smart pointer that has no slot (logic_error). A smart pointer is null or points at a live node, namely at what was last assigned to it unless that was freed since; an operation that is alive has all the arguments it was built from, all alive; cached gradients are alive. Deleting a node frees exactly the operations computed from it, the generators built on something freed, the unmanaged constants and generators whose last holders are freed and the gradient caches of freed operations, and nulls the smart pointers at them; no other variable dies. Clearing, assigning or destroying a smart pointer frees its target exactly if that is an unmanaged constant or generator that nothing else holds, and never a variable or an operation: an operation nothing points at stays allocated until it or something it is computed from is deleted. Copying or moving a smart pointer leaves the source pointing. A raw pointer to an unmanaged constant dangles when the last smart pointer holding it is cleared.", "quantifier": "all histories of calls, all graphs, all iteration orders of the hash containers", "why_tests_cant": "destructors call each other recursively through the whole graph in an unspecified order; absence of use after free must hold for every graph and history", "anchors": ["app/tenncor/src/graph/varptr.ipp", "app/tenncor/src/graph/react/subject.cpp: ~subject, detach, notify", "app/tenncor/src/graph/react/iobserver.cpp: ~iobserver, remove_dependency, replace_dependency, copy_helper, update", "app/tenncor/src/graph/leaf/constant.ipp: death_on_noparent, be_managed", "app/tenncor/src/graph/connector/immutable/base_immutable.ipp: death_on_broken", "app/tenncor/src/graph/connector/immutable/generator.ipp: death_on_broken, death_on_noparent"]}
{"id": "C74", "title": "Derivative with respect to an operation", "statement": "y.derive(t), for an operation t, returns a node, whatever the graph, and leaves every existing node with its value. For y = t it is 1; when y is a variable, placeholder or constant, or an operation not connected to t through operations, it is 0, and then t is not below y. When y and t are operations of one graph, the value returned is, for all values of the leaves, the value y would have if t were 1 (a one-element tensor); this is the derivative exactly when y'(t) = y(1), in particular when y is proportional to t, and not otherwise: t + c gives 1 + c, t * t gives 1, and a y that t is computed from gives y instead of 0. Two operations are connected when a chain of operations, each an argument of the next or the other way round, joins them; sharing only a leaf does not connect them.", "quantifier": "all histories building element-wise expressions, all pairs of nodes, all values of the leaves", "why_tests_cant": "the clone is steered by comparing leaf sets, so whether every path to t is found depends on the whole graph; the answer must hold for all graphs and values", "anchors": ["app/tenncor/src/graph/connector/immutable/base_immutable.ipp: derive, temporary_eval, temp_eval_helper, get_leaves", "app/tenncor/src/graph/connector/immutable/immutable.ipp: arg_clone", "app/tenncor/src/graph/connector/iconnector.ipp: is_same_graph, potential_descendent, update_graph, graph_manager::consume"]}
{"id": "C75", "title": "Stopping and joining worker threads", "statement": "A worker's stop_throw throws exactly when stop was called before on a handle of that worker; after it threw, the worker only ends. stop_wait returns only after stop. A worker told to stop that reaches a stop_throw within n steps makes at most n + 2 more and is never blocked. Each thread is held by exactly one handle, through all moves, until it is joined or detached, which happens at most once; join and the destructor return only after the thread ended; when no handle is left, every thread not detached has ended. A worker asleep in stop_wait after its stop returned tested the flag before the store and fell asleep after the notification; whenever a worker is between the two, stop plus the destructor can hang for ever, and a second stop frees it. stop is undefined behaviour exactly for a default-constructed handle, for a thread that has ended (so after join), or when the thread ends before the notification; for a worker that reacts to stop some schedule does this. rpc_record's destructor therefore can finish, hang, or use a dead thread's flag.", "quantifier": "all worker programs (nondeterministic, any state space), all interleavings of main thread and workers, all sequences of handle operations", "why_tests_cant": "the failures need one particular interleaving of a test, a store, a notification and a sleep; the guarantees must hold in all interleavings", "anchors": ["app/tenncor/src/thread/stop_flag.cpp: set, is_set, stop_throw, stop_wait", "app/tenncor/src/thread/stoppable_thread.cpp, include/thread/stoppable_thread.hpp", "app/tenncor/src/edgeinfo/grpc_vis_record.cpp: rpc_record, ~rpc_record", "app/tenncor/src/edgeinfo/grpc_vis/gui_notifier.cpp: spawn_server"]}
{"id": "C76", "title": "Averages and shape nodes", "statement": "reduce_mean(a) holds, after any history of values of a (of any shapes), the arithmetic mean of all the elements a has now, as a one-element tensor. reduce_mean(a, k), for an axis inside the rank, holds the arithmetic mean of each fibre along k, after any history of values whose shapes without the axis are the same (their extents along the axis may differ); a result of one element has shape [1]. A value whose shape without the axis is incompatible with the one first seen is refused with a runtime_error, and an axis at or beyond the rank, which reduce_sum takes for a copy, reads outside the shape. A shape node of c columns and r rows holds in row i what its function reads off the shape of argument i, filled up with ones; its evaluation is undefined exactly when some row has no argument or its numbers run past the end of the table.", "quantifier": "all fields of numbers, shapes, values, axes, histories of values of the argument, shape functions and numbers of arguments", "why_tests_cant": "The denominator, the sum and the quotient are three nodes with their own tensors; a test sees a few shapes and re-evaluations, the claim is about every rank, axis and history.", "anchors": ["app/tenncor/src/graph/operations/transform.ipp: reduce_mean, reduce_sum, compress", "app/tenncor/src/graph/connector/immutable/shape_dep.ipp: shape_dep::forward_pass", "app/tenncor/src/tensor/tensor_handler.ipp: shape_extracter::operator()"]}
{"id": "C77", "title": "The shared random generator and random initialisation", "statement": "Initialising a variable never moves the shared random generator: everything drawn later, and every other variable, is as if it had not happened. Hence variables initialised one after the other with nothing drawn between get the same random numbers: with the same initializer their elements agree up to the shorter length, with uniform initializers the k-th element of each is one common number scaled to its own interval, with normal ones one common standard score; the weights of two fully connected layers initialised by initialize are proportional element by element, in the ratio of the square roots of their numbers of inputs. After seed_generator(v) everything random is determined by v, except the shuffling of a Q-network's experiences, which it does not reach; seeding again with the same number repeats everything, the random part of every identifier included. initialize succeeds exactly on a variable with an initializer.", "quantifier": "all engines and distributions, all programs of seeding, node and variable creation, initialisation, sampling, exploring and shuffling, all sizes and intervals", "why_tests_cant": "A test sees some numbers and cannot tell shared ones from unlucky ones; the claim is about every engine, program and size.", "anchors": ["app/tenncor/src/tensor/tensor_handler.ipp: rand_uniform::calc_data, rand_normal::calc_data, const_init::calc_data", "app/tenncor/src/utils/utils.cpp: get_generator, seed_generator, uuid", "app/tenncor/src/graph/leaf/variable.ipp: variable::initialize", "app/rocnnet/src/compounds/icompound.cpp: initialize", "app/rocnnet/src/layers/fc_layer.cpp: fc_layer", "app/rocnnet/src/models/dq_net.cpp: get_random, random_sample"]}
{"id": "C78", "title": "Generators: random values shaped like another node", "statement": "A generator has no values and is not good until the node it depends on first gives a usable answer (good, of a fully defined shape); from then on it is good for ever, and its values are those its initializer made, with the shared random engine as it was, when the node's shape last stopped being compatible with its own. After every usable answer its shape is compatible with the node's and it has as many values as the node has elements; unusable answers change nothing. It tells its audience exactly when it draws values anew. Copies and assigned generators hold equal values and follow the same node from then on. Two generators made with nothing drawn from the engine in between hold the same random numbers. (A moved-from generator still says it is good; a generator keeps a compatible shape of another rank.)", "quantifier": "all initializers, all engine states, all programs of creating, notifying, copying, moving and assigning generators, all sequences of answers of the nodes they depend on", "why_tests_cant": "When values are drawn anew depends on the whole history of shapes the dependency has shown and of the copies made; tests see a few shapes.", "anchors": ["app/tenncor/src/graph/connector/immutable/generator.ipp: get, update, get_shape, good_status, copy_helper, move_helper, operator=", "app/tenncor/src/tensor/tensor_handler.ipp: initializer::operator()", "app/tenncor/src/graph/react/iobserver.cpp: copy_helper, move_helper"]}
{"id": "C79", "title": "Which node an operator returns", "statement": "Calling an operator or transform returns a node of exactly the operation, parameters and arguments asked for, whatever was built before and whatever order hash sets are iterated in: an existing one if the same call was made before (addition and multiplication in either order; transposing a transposed node returns the node itself), else a new one; existing nodes are left as they are. This holds as long as no two different operations of the history have the same name, which is so for all the library's own functions when the numbers in the calls are printed differently. Exceptions, each stated: clip_norm of a node that is itself an l2norm; axial addition and multiplication with the operands swapped return the node of the original order; two samples from one node are one node; as_constant always makes a node; functions passed by the user under a name in use, and numbers printed alike, are taken for one another.", "quantifier": "all histories of calls of the operators, transforms, reductions, matmul, convolution, norms, sampling and shape extraction, all iteration orders at each call, all parameters, all ways of printing numbers", "why_tests_cant": "Which node is found depends on everything built before and on hash iteration order; a test fixes one history and one order.", "anchors": ["app/tenncor/src/graph/operations/operation_utils.ipp: unary_parent_search, ordered_binary_parent_search, unordered_binary_parent_search", "app/tenncor/src/graph/operations/transform.ipp: transpose, fit, extend, compress, reduce_*, arg_*, flip, cross_corr2d, conv2d", "app/tenncor/src/graph/operations/matmul.ipp: matmul", "app/tenncor/src/graph/operations/elementary.ipp: l2norm, clip_norm, conditional, binomial_sample, as_constant, add_helper, mul_helper, *_axial_*", "app/tenncor/src/graph/connector/immutable/shape_dep.ipp: get"]}
{"id": "C80", "title": "A copied node is one more node of the same expression", "statement": "clone of a node gives one more live node with the same arguments, the same value and the same leaves, changing nothing else; destroying either of the two leaves the other as it was, and the copy of a leaf is a leaf of its own. If the copied operation works on leaves and is not waiting to be recomputed (evaluating it first ensures this), then from then on evaluating the copy, the original, or anything built on either returns the value of its expression for the values last assigned, and operations are in one graph exactly when argument edges and copying link them. Without the two conditions the copy may be stale, or null.", "quantifier": "all histories of constructions, notifying assignments, evaluations, freezing, destructions and copies, all hash iteration orders", "why_tests_cant": "Whether a copy is recomputed in time depends on the depth of what it was copied from, on what is pending and on iteration order over every history.", "anchors": ["app/tenncor/src/graph/connector/immutable/immutable.ipp: clone, immutable(const immutable&), copy_helper", "app/tenncor/src/graph/connector/immutable/base_immutable.ipp: copy_helper", "app/tenncor/src/graph/connector/iconnector.ipp: copy_helper", "app/tenncor/src/graph/react/iobserver.cpp: copy_helper", "app/tenncor/src/graph/leaf/ileaf.ipp: copy_helper"]}
{"id": "C81", "title": "Metadata and the axis of grouping", "statement": "A node made by a unary or scalar function, a conditional, a norm, clipping or as_constant has the metadata its (first; for clip_norm: the clipped) argument has at that moment; other new nodes have none. Afterwards only set_metadata and the gradient of a reduction along an axis change a node's metadata; what was last set is what get_metadata returns. If metadata is only set on nodes nothing was derived from yet, every derived node agrees with its argument at any time. +, -, * and / of two nodes work along the axis named 'grouping' of the first, or of the second if the first has none, and element by element if neither has one or they differ. Exception: reductions whose arguments have one gradient share the node carrying the axis, and the last one's axis is everybody's.", "quantifier": "all histories of calls of the library and of set_metadata, all keys and values, all hash iteration orders", "why_tests_cant": "Which node carries which axis depends on which nodes are shared and on the order in which gradients were taken, over every history.", "anchors": ["app/tenncor/src/graph/inode.ipp: set_metadata, extract_metadata, get_metadata", "app/tenncor/src/graph/operations/elementary.ipp: identity, operator +, operator -, operator *, operator /, conditional, clip_norm, l2norm, as_constant", "app/tenncor/src/graph/operations/transform.ipp: compress"]}
{"id": "C82", "title": "A visualisation client sees the graph", "statement": "A graph recorded by the RPC recorder sends every edge change and every node update or removal to the streams of visualisation clients. A client that subscribes, at any time and whatever other clients read before, and reads on, comes to show exactly the edges the graph has at that moment (ADD shows an edge, REMOVE takes it away), including those of unrecordable observers; on the node stream it has been told of exactly the nodes that died. This stays so as the graph changes, provided no edge (node) changes while it is the last one that client was told of. Serving clients never changes what an operation on the graph does. Without the proviso it fails: if that was the only entry the server crashes, and if it was the oldest the client is never told of the next edge.", "quantifier": "all histories of graph operations, data updates and reads by any number of clients, all distinct identifiers, all iteration orders", "why_tests_cant": "The stream is read concurrently with changes: what a client shows depends on the interleaving of its reads with the history, and the proviso is about all of them.", "anchors": ["app/tenncor/src/edgeinfo/grpc_vis_record.cpp: rpc_record::edge_capture, edge_release, node_release, data_update", "app/tenncor/src/edgeinfo/grpc_vis/gui_notifier.cpp: SubscribeNode, SubscribeEdge", "app/tenncor/src/thread/shareable_cache.ipp: get_latest, add_latest"]}
{"id": "C83", "title": "Subscriptions run until they are ended, and how they end", "statement": "A stream is served until its client's subscription is ended. After EndSubscription (which ends all streams subscribed under that id) or the shutdown of the server, and unless the client subscribes again, a stream is written at most one more message, takes at most two more steps and ends, unless it is waiting. A waiting stream is woken by an addition to its cache, not by EndSubscription. Shutting down ends all streams if at most one waits on each cache and none is between looking up its subscription and reading; otherwise a stream waits for ever: with two streams waiting on one cache one of them is not woken, a stream that reads after the shutdown and finds nothing waits, and one that subscribes after it is served for ever.", "quantifier": "all schedules of the streams, additions, subscriptions and the shutdown, any number of clients, any choice of the woken stream, spurious wake-ups", "why_tests_cant": "The hangs need particular schedules: tests see the streams end.", "anchors": ["app/tenncor/src/edgeinfo/grpc_vis/gui_notifier.cpp: SubscribeNode, SubscribeEdge, EndSubscription, clear_subscriptions, spawn_server", "app/tenncor/src/thread/shareable_cache.ipp: get_latest, escape_wait"]}
{"id": "C84", "title": "Derivatives of copied, moved and destroyed operations", "statement": "Operations keep, for every variable, the list of Jacobian functions to apply to their gradient, each with a plain pointer to the operation it was set on; operations built on them inherit the list, copies take it along, derive follows the pointers. Whatever is built, copied, moved, destroyed and derived in whatever order, taking the derivative of a live node never follows a pointer to a destroyed or emptied operation, as long as operations are copied only while their own Jacobian is the last of the list and moved only while no other operation keeps it; that is so in every history without copies and moves of operations, and in every history without moves in which Jacobians are set at the back (matrix products). Such a copy keeps its list when the original is destroyed. An operation through which no derivative was taken and whose arguments bring no two different Jacobians can be copied and moved. Otherwise all this fails: the copy of an axial operation over a product points to the original after it is gone; what is built on a moved product asks the empty shell for its arguments; an operation that was derived for a variable for which it has no Jacobian can neither be copied nor moved (the last element of an empty list is read); a moved variable is no leaf of the operations on it any more, and their derivative for it is zero.", "quantifier": "all histories of node creation (any graph, any Jacobians), copying, moving, destruction, derivation and loss of gradient nodes; all live nodes and variables", "why_tests_cant": "The dangling pointer appears only after a particular combination of inheritance, copying, destruction and derivation at arbitrary distance; tests derive fresh graphs.", "anchors": ["app/tenncor/src/graph/connector/iconnector.ipp: iconnector::iconnector, set_jacobian_front, set_jacobian_back, jacobian_call, copy_helper, move_helper, jacobian_correction", "app/tenncor/src/graph/connector/immutable/base_immutable.ipp: derive, get_gradient, copy_helper, move_helper", "app/tenncor/src/graph/connector/immutable/immutable.ipp: get, backward_pass", "app/tenncor/src/graph/operations/matmul.ipp: matmul", "app/tenncor/src/graph/operations/elementary.ipp: axial_set_jacobian", "app/tenncor/src/graph/react/subject.cpp: subject::subject(subject&&)"]}
{"id": "C85", "title": "Which Jacobians an operation inherits", "statement": "A new operation depends on exactly the variables its arguments depend on (none, if it is a constant operation that hides them), and making it changes no existing node. For a variable of the operation: if no argument has a Jacobian for it the operation has none; if all arguments that have one have it from the same origin, the operation inherits the list of the first of them; if two arguments have Jacobians of different origin it inherits neither and is marked, so that gradients go through each argument's own list; the Jacobians of what is to be ignored are not inherited. The operation's own Jacobian is put in front of or behind what was inherited, for the variables it is set for, and if nothing was inherited it is an origin of its own: two products made independently are always told apart. The origin does not change when a Jacobian is put on top of an inherited list: a node and a biased sum over it are not told apart, and an operation on both uses the list of whichever comes first, for both.", "quantifier": "all reachable graphs, all argument lists (with repetitions), all variables, own and ignored Jacobians", "why_tests_cant": "Which list survives depends on the identity of every list brought by every argument in order; tests look at a handful of expressions.", "anchors": ["app/tenncor/src/graph/connector/iconnector.ipp: iconnector::iconnector, set_jacobian_front, set_jacobian_back, JList", "app/tenncor/src/graph/connector/immutable/immutable.ipp: get", "app/tenncor/src/graph/connector/immutable/const_immutable.ipp: const_immutable", "app/tenncor/src/graph/operations/elementary.ipp: axial_set_jacobian"]}
{"id": "C86", "title": "The sampling chain leaves the machine's distribution as it is and converges to it", "statement": "With fair, independent random numbers, rounds of the chain a Boltzmann machine's trainer runs, started from hidden units that have the distribution given by the machine's energy (probability of a visible and a hidden vector proportional to exp(-energy), the vectors of a batch independent), never fail and end with visible and hidden units that have exactly this distribution, however many rounds. From any other start, and for the chain of contrastive divergence with any inputs picked with any probabilities, the probability of every outcome after k + 1 rounds differs from the machine's by at most 2 (1 - d)^k, for a d > 0 that depends on nothing but the machine and the size of the batch, so that it tends to it. A call of the trainer with a persistent state that has the machine's distribution leaves in it hidden units with the distribution of the machine as it was before the call, for every input, learning rate and number of rounds.", "quantifier": "all machines (weights, biases, numbers of units), batch sizes, starting distributions, inputs, learning rates and numbers of rounds; all probability spaces with fair draws", "why_tests_cant": "It is a statement about the distribution over all random numbers and a limit over all lengths of the chain; a test sees one run.", "anchors": ["app/rocnnet/src/models/rbm.cpp: train, reconstruct_hidden, reconstruct_visible, prop_up, prop_down", "app/tenncor/src/graph/operations/elementary.ipp: binomial_sample, sigmoid"]}
{"id": "C87", "title": "The trainer's expected step is gradient ascent on the likelihood", "statement": "With fair, independent random numbers: a call of a Boltzmann machine's trainer with a persistent state that has the distribution of the machine's hidden units changes every entry of the weights and of both biases by an amount whose expectation is exactly the learning rate times the partial derivative of the mean log-likelihood of the input batch (the log of the probability of each visible vector under the machine's distribution), for every input, learning rate and number of rounds of at least one. Without a persistent state (contrastive divergence) the expectation tends to this for ever longer chains, geometrically in their length. It need not be reached: for a machine of one visible and one hidden unit with a weight other than zero and no biases, shown a one, the expected step of the visible bias falls short of gradient ascent after any number of rounds. Both calls always succeed.", "quantifier": "all machines, batch sizes, inputs, learning rates, entries, numbers of rounds; all probability spaces with fair draws", "why_tests_cant": "It is about an expectation over all random numbers and a derivative at every point.", "anchors": ["app/rocnnet/src/models/rbm.cpp: train, free_energy, prop_up", "app/tenncor/src/graph/operations/elementary.ipp: binomial_sample"]}
{"id": "C88", "title": "Networks behave as values under any history of copying, moving and deleting", "statement": "Take any program that makes perceptrons, clones, copy-assigns, moves and move-assigns them, changes single parameters of them and deletes them, in any order. If it uses only networks that exist and parameters they have, it runs without undefined behaviour: no parameter is deleted twice or used after its deletion. At the end every network is exactly the value it would be if networks were plain values: a copy has its own parameters equal to the original's, a move takes the value (the very same variables) and leaves a network of the same sizes without layers, and a change to a parameter of one network is seen in no other. Every parameter in memory belongs to exactly one existing network, so nothing is left once all are deleted. Using a network that is gone is undefined. The other owners do not all keep this: a moved Boltzmann machine has no number of outputs, move assignment between two of them does nothing (and to itself is undefined), a moved deep belief network has lost its output layer, a moved Q-network its replay memory; yet no parameter of them is deleted twice or left behind.", "quantifier": "all histories, of any length, of the operations on any number of networks of any shape and content; all contents of moved-from strings", "why_tests_cant": "Double deletion and sharing depend on the whole history of copies and moves; tests run a few histories.", "anchors": ["app/rocnnet/src/compounds/mlp.cpp: mlp (all constructors), operator =, clone, move, clean_up, copy_helper, move_helper, get_variables", "app/rocnnet/src/layers/fc_layer.cpp: clone, move_helper, clean_up", "app/rocnnet/src/models/rbm.cpp: move, operator =, move_helper, clean_up", "app/rocnnet/src/models/db_net.cpp: move, move_helper, clean_up", "app/rocnnet/src/models/dq_net.cpp: move_helper, operator =, tear_down", "app/tenncor/src/graph/leaf/variable.ipp: move"]}
{"id": "C89", "title": "Training a linear network converges to least squares", "statement": "Train a network of one layer without activation on the same batch again and again with gd_net::train. If the learning rate is positive and at most one over twice the sum of 1+|x|^2 over the batch, no call raises the squared error of the batch; after k calls the error is at most that of any other linear model plus the squared distance of that model from the first one over 2*rate*k; so it comes as close as wanted to the best error any linear model has. With batches of one, each call multiplies the error by exactly (1 - 2*rate*(1+|x|^2))^2, for every learning rate; if the rate is above 1/(1+|x|^2) the error therefore grows beyond all bounds unless it is zero from the start.", "quantifier": "all numbers of inputs, outputs and samples, all input and target values, all first parameters, all learning rates in the stated range, all numbers of calls, all orders in which the parameters are updated", "why_tests_cant": "Convergence speaks of all numbers of calls and all data; a test trains a few times on a few numbers.", "anchors": ["app/rocnnet/src/models/gd_net.cpp: train, setup", "app/rocnnet/src/layers/fc_layer.cpp: operator ()", "app/tenncor/src/utils/gd_utils.cpp: calculate, vgb_updater::process_update"]}
{"id": "C90", "title": "What a gradient-descent trainer owns and trains, through copies and moves", "statement": "A gd_net takes over the network given to it and trains exactly those parameters of it that its updater does not ignore; an ignored parameter and every variable outside the network keep their values through any training. Copying or copy-assigning a trainer gives a network of its own with equal parameters and placeholders: training either never changes the other, the scope and the learning rate are the original's, the target's old variables are deleted. Moving keeps the very same network, and what is ignored; training the moved-from trainer is undefined, deleting both in any order is not and leaves nothing behind. Two things a user would not expect: the copy trains every parameter, also those frozen in the original, because the updater ignores by address; and since a trainer owns its network, deleting two trainers over one network, or the network as well, is undefined.", "quantifier": "all networks and contents, all sets of ignored parameters, all scopes, all effects of training on the parameters", "why_tests_cant": "Independence and ownership must hold for every network, every set of frozen parameters and every way training changes values; a test sees a few.", "anchors": ["app/rocnnet/src/models/gd_net.cpp: gd_net, operator =, train, copy_helper, move_helper, clean_up, setup", "app/tenncor/src/utils/gd_utils.cpp: calculate, ignore_subtree, clear_ignore, set_learning_rate, vgb_updater::clone_impl, move_impl", "app/tenncor/src/graph/leaf/placeholder.ipp: clone, move, operator ="]}
