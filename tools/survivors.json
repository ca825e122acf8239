[
 {
  "definition": "dbnCopyFrom",
  "tightened": [
   "c62_dbn_clone"
  ],
  "note": "survived: nothing was stated about the scopes of copied machines; c62_dbn_clone added"
 },
 {
  "definition": "isLooselyCompatibleWith",
  "tightened": [
   "c11_loosely_compatible",
   "c11_loosely_agrees"
  ],
  "note": "survived: function was modelled but no theorem used it; theorems added"
 },
 {
  "definition": "fitInbound",
  "tightened": [
   "c61_fit"
  ],
  "note": "survived: fit was modelled but had no theorem; C61 added"
 },
 {
  "definition": "movePlaceholder",
  "tightened": [
   "c43_move"
  ],
  "note": "survived: no theorem about moving a tensor into a placeholder; added"
 },
 {
  "definition": "expose",
  "tightened": [
   "c09_expose",
   "c09_expose_unallocated"
  ],
  "note": "survived: expose had no theorem; added"
 },
 {
  "definition": "K2.unordered",
  "tightened": [
   "c64_commutes",
   "c64_no_duplicates"
  ],
  "note": "survived: C35 only said a found node is right, not that it is found; C64 added"
 },
 {
  "definition": "rbmClone",
  "note": "survived: the changed field is overwritten before it is read; equivalent"
 },
 {
  "definition": "audience",
  "note": "survived: `map id` changes nothing; equivalent"
 },
 {
  "definition": "maxElement",
  "note": "survived: the maximum of no elements is never taken (allocated tensors have elements); equivalent on reachable states"
 },
 {
  "definition": "Net.empty",
  "note": "survived: records the initial value of a field only read after being written; equivalent"
 },
 {
  "definition": "G.empty",
  "note": "survived: initial value of the depth of nodes that do not exist; equivalent"
 },
 {
  "definition": "argsMatch",
  "note": "survived: members of the audience exist, so the arm is unreachable; equivalent"
 },
 {
  "definition": "fitToShape",
  "note": "edit inside a comment; equivalent"
 },
 {
  "definition": "fitLoop",
  "note": "survived: the fuel argument is never exhausted / the read is guarded; equivalent on reachable states"
 },
 {
  "definition": "div",
  "tightened": [
   "c60_operators",
   "c60_div",
   "c60_div_zero"
  ],
  "note": "survived: the operators were only tested by examples; theorem added"
 },
 {
  "definition": "divL",
  "tightened": [
   "c60_operators",
   "c60_div"
  ],
  "note": "survived: the operators were only tested by examples; theorem added"
 },
 {
  "definition": "addAxial",
  "tightened": [
   "c60_axial_const"
  ],
  "note": "survived: axial operators on constants had no theorem; theorem added"
 },
 {
  "definition": "ginit1",
  "tightened": [
   "c60_conditional_wrong",
   "c36_conditional_left"
  ],
  "note": "survived: the conditional's left gradient had no theorem; theorem added"
 },
 {
  "definition": "newScalar",
  "tightened": [
   "c15_new_scalar"
  ],
  "note": "survived: new scalar tensors had no theorem of their own; theorem added"
 },
 {
  "definition": "allocate",
  "tightened": [
   "c15_allocate_done"
  ],
  "note": "survived: allocation of an allocated tensor had no theorem; theorem added"
 },
 {
  "definition": "fcNewFrom",
  "tightened": [
   "c62_fc_new"
  ],
  "note": "survived: nothing was stated about the new layer's own state; theorem added"
 },
 {
  "definition": "Shape64.isFullyDefined",
  "tightened": [
   "c07_fully_defined"
  ],
  "note": "survived: modelled with no theorem; theorem added"
 },
 {
  "definition": "pushFront",
  "tightened": [
   "c60_computed_bias"
  ],
  "note": "survived: no theorem derived through a computed bias; theorem added"
 },
 {
  "definition": "assignTensor",
  "note": "survived: the arm for a missing tensor is unreachable (the caller has matched it); equivalent on reachable states"
 },
 {
  "definition": "fillWith",
  "note": "survived: the arm for an unallocated tensor is unreachable after the allocation; equivalent on reachable states"
 },
 {
  "definition": "pushBack",
  "note": "survived: the terminal flag is only read for empty lists, and this list has just been appended to; equivalent"
 },
 {
  "definition": "trim",
  "note": "survived: a shape of rank 1 is returned unchanged by either branch; equivalent"
 },
 {
  "definition": "edgeRelease",
  "note": "survived: `map id` changes nothing; equivalent"
 },
 {
  "definition": "beyond2d",
  "tightened": [
   "c23_accepts"
  ],
  "note": "survived: which of two exceptions is thrown was not stated; theorem added"
 },
 {
  "definition": "placeAlloc",
  "note": "survived: the arm follows an assertion that excludes it; equivalent on reachable states"
 },
 {
  "definition": "stripZerosFront",
  "tightened": [
   "c03_other_rank"
  ],
  "note": "survived: compatibility of part-defined shapes of different ranks was not characterised; theorem added"
 },
 {
  "definition": "saveQ",
  "tightened": [
   "c51_qnet_report"
  ],
  "note": "survived: only the result of successful writes was stated; theorem added"
 },
 {
  "definition": "managerUpdate",
  "note": "survived: the fuel argument is never exhausted; equivalent on reachable states"
 },
 {
  "definition": "prepareOut",
  "tightened": [
   "c72_incompatible_throws",
   "c72_unary",
   "c72_matmul_rows"
  ],
  "note": "survived: nothing was stated about re-evaluation with an incompatible shape; C72 added"
 },
 {
  "definition": "tstep",
  "match": "i = j",
  "note": "caught by an example only; now stated",
  "tightened": [
   "c08_self_assign",
   "c08_copy",
   "c08_move"
  ]
 },
 {
  "definition": "copyHelper",
  "match": "memcpy buf",
  "note": "caught by an example only; now stated",
  "tightened": [
   "c08_copy"
  ]
 },
 {
  "definition": "nElems",
  "match": "none =>",
  "note": "survived; now stated",
  "tightened": [
   "c08_n_elems"
  ]
 },
 {
  "definition": "deallocate",
  "match": "t.isAlloc",
  "note": "survived: the reported value was not stated; now it is",
  "tightened": [
   "c08_deallocate"
  ]
 },
 {
  "definition": "minPadLoop",
  "match": "counter + 1",
  "note": "survived: a larger padding gives the same product; the padding is now bounded",
  "tightened": [
   "c24_min_pad_tight"
  ]
 },
 {
  "definition": "writeInorder",
  "match": "fails then",
  "note": "survived: the value returned after a failed write was not stated; now it is",
  "tightened": [
   "c39_report"
  ]
 },
 {
  "definition": "axialShaper",
  "match": ".runtimeError",
  "note": "survived: only compatible operands were covered; now the rejection is stated",
  "tightened": [
   "c54_mismatch_throws"
  ]
 },
 {
  "definition": "axialShaper",
  "match": ".ok [1]",
  "note": "survived: unreachable from evaluation, where both operands hold data and so have fully defined shapes",
  "tightened": []
 },
 {
  "definition": "rbmClean",
  "match": "none, none, none",
  "note": "survived: equivalent, the cleaned-up machine is only copied from, which fails on its first null pointer",
  "tightened": []
 },
 {
  "definition": "concatenate",
  "match": "",
  "note": "survived: equivalent, appending to or from the empty list is the identity",
  "tightened": []
 },
 {
  "definition": "reaches",
  "match": "=> false",
  "note": "survived: the arm is unreachable, fuel is the number of nodes and arguments are nodes",
  "tightened": []
 },
 {
  "definition": "Sys.legal",
  "match": "",
  "note": "survived: legality only certifies that the schedule of a negative result is possible; the positive result quantifies over all schedules",
  "tightened": []
 },
 {
  "definition": "Cache.new",
  "match": "",
  "note": "survived: equivalent up to renaming, the address of the first cell",
  "tightened": []
 },
 {
  "definition": "noThrow",
  "match": ".abort",
  "note": "survived: both outcomes are failures and c73_safe proves that neither is reached",
  "tightened": []
 },
 {
  "definition": "broken",
  "match": "removeDep",
  "note": "survived: the branch is dead, the pointer's only dependency has been removed when it is asked (c73_safe's invariant)",
  "tightened": []
 },
 {
  "definition": "del",
  "match": ".abort",
  "note": "survived: exhausted fuel, never reached (c73_safe)",
  "tightened": []
 },
 {
  "definition": "del",
  "match": ".ub",
  "note": "survived: deleting a dying object is never reached (c73_safe)",
  "tightened": []
 },
 {
  "definition": "get",
  "match": ".ub",
  "note": "survived: both outcomes are failures; c73_get excludes them for every pointer there is",
  "tightened": []
 },
 {
  "definition": "binomKernel2",
  "match": "",
  "note": "survived: equivalent, the kernel reads a second argument it does not have and fails before the test (c69_both_ub)",
  "tightened": []
 },
 {
  "definition": "samples",
  "match": "",
  "note": "survived at first: nothing said that sampling goes on in the sequence",
  "tightened": [
   "c77_sampling_continues"
  ]
 },
 {
  "definition": "fillOnes",
  "match": "",
  "note": "survived: equivalent, the buffer of the denominator always has its number of elements",
  "tightened": []
 },
 {
  "definition": "argShape",
  "match": ".ub",
  "note": "survived: both outcomes are failures, every argument here has a value",
  "tightened": []
 },
 {
  "definition": "isExtract",
  "match": "",
  "note": "survived: equivalent when names are apart, the arguments then tell",
  "tightened": []
 },
 {
  "definition": "getExtract",
  "match": ".abort",
  "note": "survived at first; tightened, an extraction from no nodes is now stated to abort",
  "tightened": [
   "c79_succeeds"
  ]
 },
 {
  "definition": "clipData",
  "match": "",
  "note": "survived at first, because the specification used the model's helper; the specification now states the function itself",
  "tightened": [
   "c79_asked",
   "c79_own_functions"
  ]
 },
 {
  "definition": "sumOf",
  "match": "",
  "note": "survived at first, because the specification used the model's helper; the specification now states the function itself",
  "tightened": [
   "c79_asked",
   "c79_own_functions"
  ]
 },
 {
  "definition": "maxOf",
  "match": "",
  "note": "survived at first, because the specification used the model's helper; the specification now states the function itself",
  "tightened": [
   "c79_asked",
   "c79_own_functions"
  ]
 },
 {
  "definition": "argMaxOf",
  "match": "",
  "note": "survived at first, because the specification used the model's helper; the specification now states the function itself",
  "tightened": [
   "c79_asked",
   "c79_own_functions"
  ]
 },
 {
  "definition": "axisSize",
  "match": "",
  "note": "survived at first, because the specification used the model's helper; the specification now states the function itself",
  "tightened": [
   "c79_asked",
   "c79_own_functions"
  ]
 },
 {
  "definition": "fillBy",
  "match": ".ub",
  "note": "survived: unreachable, a moved-from generator has no dependency and is never updated",
  "tightened": []
 },
 {
  "definition": "extract",
  "match": "",
  "note": "survived: equivalent, a new node has no metadata when it is made",
  "tightened": []
 },
 {
  "definition": "clone",
  "match": ".ub",
  "note": "survived: unreachable, both outcomes are failures the theorems exclude",
  "tightened": []
 },
 {
  "definition": "set",
  "match": ".ub",
  "note": "survived: both outcomes are failures; setting metadata of a node that does not exist is excluded by the histories",
  "tightened": []
 },
 {
  "definition": "Hub.new",
  "match": "",
  "note": "equivalent: a client's subscription flag, the client and the kind of a stream are written by `subscribe` before anything reads them",
  "tightened": []
 },
 {
  "definition": "step",
  "match": "    | .abort => .abort =>     | .abort => .ub",
  "note": "equivalent: the recorded network never aborts, so the arm is not reached",
  "tightened": []
 },
 {
  "definition": "takeArg",
  "match": "if j.uid = t.uid then",
  "note": "Which lists are told apart was not stated by any theorem of C84; C85 was added and the edit now fails it.",
  "tightened": [
   "c85_born_one",
   "c85_born_branch",
   "c85_two_products"
  ]
 },
 {
  "definition": "leavesOf",
  "match": "if false then [] else",
  "note": "That a constant operation hides its variables was not stated; C85 states it and the edit now fails it.",
  "tightened": [
   "c85_born"
  ]
 },
 {
  "definition": "clone",
  "match": ".ub",
  "note": "not a reachable call: copying a destroyed node; aborting instead is no weaker for the user",
  "tightened": []
 },
 {
  "definition": "move",
  "match": ".ub",
  "note": "not a reachable call: moving a destroyed node",
  "tightened": []
 },
 {
  "definition": "delete",
  "match": ".ub",
  "note": "not a reachable call: destroying a destroyed node",
  "tightened": []
 },
 {
  "definition": "isTerminal",
  "match": "",
  "note": "equivalent: isTerminal is asked after touch has made the list",
  "tightened": []
 },
 {
  "definition": "gradient",
  "match": ".abort",
  "note": "fuel bound, never reached (gradient_total)",
  "tightened": []
 },
 {
  "definition": "binomKernel2",
  "match": "",
  "note": "equivalent: reading the second argument is undefined before the check is reached (c69_both_ub)",
  "tightened": []
 },
 {
  "definition": "step",
  "match": ".explore",
  "note": "equivalent up to renaming: both bounds are part of the request recorded, and no client passes them in the other order",
  "tightened": []
 },
 {
  "definition": "World.start",
  "match": "",
  "note": "equivalent: the address the memory starts at is arbitrary",
  "tightened": []
 },
 {
  "definition": "moveVar",
  "match": "",
  "note": "moving a variable that is already hollow was not covered; now c88_rbm_move_again",
  "tightened": [
   "c88_rbm_move_again"
  ]
 },
 {
  "definition": "rbmMove",
  "match": "",
  "note": "equivalent: the pointers of the new machine are overwritten by the move",
  "tightened": []
 },
 {
  "definition": "rbmMoveAssign",
  "match": "",
  "note": "equivalent: the pointers of the target are overwritten by the move, which is undefined anyway",
  "tightened": []
 },
 {
  "definition": "dbnMoveAssign",
  "match": "",
  "note": "move assignment of a deep belief network was not covered; now c88_dbn_move_assign",
  "tightened": [
   "c88_dbn_move_assign"
  ]
 },
 {
  "definition": "releaseOwn",
  "match": "p 0 h",
  "tightened": [],
  "note": "survived, equivalent: a smart pointer has exactly one dependency, so the index is always 0"
 }
]