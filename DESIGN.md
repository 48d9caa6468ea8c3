# CTL: formal model and proofs

Subject: CaoRX/CTL, the Python package under `/repo/src/CTL`. The code is read as text and modelled by hand in Lean 4;
nothing is executed or translated mechanically.

## Layout

* `lean/Verif/Model/*`  – executable model, function by function; each definition cites file and lines.
* `lean/Verif/Spec/*`   – small specifications that do not use the model's algorithms.
* `lean/Verif/Lemmas/*` – helper lemmas.
* `lean/Verif/Props/*`  – the property theorems `Cnn_...`, each beside an `example` that meets its hypotheses.
* `MANIFEST.json`       – property, status, theorem names.
* `seeded/LOG.jsonl`    – wrong programs tried against the theorems.

Theorem names: `_partial` proves less than the property (what is missing is said at the property), `_wrong`, `_raises`,
`_diverges`, `_lost` and similar are proofs that the code departs from the property.

## Trusted base

* Lean 4.33.0's kernel, and Mathlib's statements as far as specifications use them.
* Axioms: every theorem depends on at most `propext`, `Classical.choice` and `Quot.sound`. No axiom is added; there is
  no `sorry`, `admit`, `native_decide` or `bv_decide`. `#print axioms` on any theorem of the manifest confirms it.
* That the definitions in `Model/` say what the Python source says. Each cites the lines it models.
* The semantics of NumPy used by the model, from its documentation: arrays are a shape and a C-ordered buffer
  (`Model/NDArray`); `reshape` (also with `-1`), `transpose`, `moveaxis`, `matmul`, `einsum('...jj->...j')`,
  `tensordot`, `sum(axis)`, broadcasting of a vector against the last axis, `diag_indices`, `diag`, `outer`.
  The sum of an object array holding `None` raises for an axis and does not without one.
* Python semantics: floor division and `%` of integers, `dict` order, one default-argument object per function,
  `list.remove`/`index` raising ValueError, `in`/`==` of objects by identity.

## Modelling decisions

* Python objects with identity (`Leg`, `Bond`, `Tensor`, graph edges, lists of tensor names) are numbers; their
  attributes live in an explicit store. Mutation is a new store.
* Exceptions are values (`Except PyErr`). Where a mutation survives an exception and the property is about it, the
  model returns the state together with the exception.
* Numbers are exact: entries lie in any commutative (semi)ring, in a field, or in ℝ, as the property needs. Rounding,
  overflow, NaN, dtypes and devices (numpy / cupy) are not modelled, except where a dtype conversion loses
  information (`cast`, used in C02_outer_dtype_loss).
* LAPACK routines (`svd`, `eigh`), `sqrt`, `log`, `exp` of the numerical examples are parameters; theorems assume their
  mathematical contract (`ExactLinAlg`, `UnitaryLinAlg`, `RankRevealing`, ...; `exists_linAlg` proves that routines meeting all of them exist
  over ℝ and ℂ). In C26 and C51 they are the real functions.
* Random data and random names are arbitrary functions or streams.
* Loops that may not terminate take fuel; termination is a theorem (enough fuel exists) or its negation is.
* In C31, C32, C43 and C44 (CTMRG, HOTRG, TRG, impurity) the tensors are values of an arbitrary type and the contractions are
  parameters: these properties are about records, scales and order of calls. C50, C52, C53, C55 and C56
  are about HOTRG, `SquareTRG`, `TriangleTRG`, CTMRG and impurities with real tensors and networks.

## Modelled and not modelled

Modelled: `tensor/leg.py`, `tensor/bond.py`, `tensor/tensor.py`, `tensor/diagonalTensor.py` (constructor, copies,
access by label, reordering, `toMatrix`, `toVector`, `toTensor`, `outProduct`, `trace`, `single`, `sumOutLeg`, tags,
renaming), `tensor/contract/{link,contract,contractExp,optimalContract,tensorGraph}.py`, `tensornetwork/*.py`, `funcs/graph.py`,
`funcs/graphFuncs.py`, `funcs/stringSet.py`, `funcs/decompose.py`, `solveEnv` of `funcs/linalg.py`, `tensor/tensorFactory.py`, the list, index and number helpers and the matrix errors of
`funcs/funcs.py`, `examples/{Schimdt,CTMRG,HOTRG,TRG,impurity}.py`, `examples/MPS.py`, the networks, the start and the updates of `examples/TNR.py`,
`models/Ising.py`.

Not modelled: `__repr__`/`__str__` and warnings; error messages; `xplib` and device handling; `addTensor`-like
operators without property (`__add__`, `sumOut` aliases); random test data; the stopping rule and the start values of `yM` and `sM` of `doTNR` in `examples/TNR.py`
(calls `ncon`, an external package); `examples/FullCTMRG.py` (commented out entirely); `bin/`; tests.

## Per property

Each entry: what is modelled, how it is proved, and the status. The full theorem lists are in `MANIFEST.json`.

### C01 Pairwise contraction is the Einstein sum over the shared bonds

* Modelled: `shareBonds`, `toMatrix`, `moveLegsToFront`, `contractTwoTensors` over row-major arrays (`Model/Contract`, `Model/Tensor`, `Model/NDArray`)
* Proof: the entry of the result at every assignment is rewritten through the ravel lemmas into the Einstein sum (`Lemmas/Bonds`, `Lemmas/Dense`)
* Status: proved (`Props/Contract.lean`). 

### C02 Diagonal tensors contract like their dense counterparts

* Modelled: the diagonal branches of `contractTwoTensors`
* Proof: entry semantics of a diagonal tensor, one lemma per branch (`Lemmas/Diag*`); the branches that fail or give a wrong array are counterexamples
* Status: partial (`Props/Contract.lean`). Contraction over shared bonds is proved in full; outer products with a diagonal operand only where the code does not fail or return the wrong array. The remaining cases are false of the code and proved as counterexamples.

### C03 The value of a network does not depend on the contraction order

* Modelled: `contractAndCostWithSequence` in place (`Model/Sequence`), search and automatic mode (`Model/Search`, `Model/MakeGraph`)
* Proof: one contraction leaves the network sum unchanged (`Lemmas/SumBonds`, `Lemmas/Net`); induction over the sequence
* Status: proved (`Props/Auto.lean`, `Props/Sequence.lean`). In-place execution (inplace=True) on dense tensors, and on diagonal ones when every step is one contractTwoTensors gets right; bond dimensions >= 1. Over a bond of dimension 0 the code raises ZeroDivisionError (C03_zero_dimension_raises).

### C04 Sequences returned by the search are valid and complete

* Modelled: the brute-force and capped searches, the recorded sequences (`Model/Search`)
* Proof: every recorded sequence is the traversal of a tree over the set; induction over masks / rounds
* Status: proved (`Props/Search.lean`). Whenever a search returns, for every input. That brute force returns needs a defined dimension of diagonal results when typicalDim is None. The docstring's a < b is false (C04_steps_not_ordered).

### C05 Brute-force search is optimal

* Modelled: `solveSet` with memo table
* Proof: strong induction over masks; the specification has all binary trees as an inductive type (`Spec/Search`)
* Status: proved (`Props/Search.lean`). With typicalDim None, for graphs where the dimension of a diagonal result is defined (DiagDims); outside of that the search raises or its cost depends on the order (C05_closed_diagonal_raises, C05_diagonal_outer_cost_depends_on_order). No self loops.

### C06 The default (capped) search is optimal over the trees it allows, and terminates

* Modelled: the capped loop with its flags of new entries
* Proof: round invariant: all sets whose optimum is within the cap are exact; measure for termination; divergence by invariant
* Status: proved (`Props/Search.lean`). No self loops; dimensions >= 1; with typicalDim None every tensor has a leg. The search diverges if no allowed tree exists, or at cost 0 (theorems).

### C07 Greedy search yields a valid sequence on connected networks

* Modelled: `greedySearch`
* Proof: invariant: the live vertices stay connected; in a disconnected graph a state without sharing pair is reached
* Status: proved (`Props/Search.lean`). No self loops; legs of a diagonal tensor have one dimension.

### C08 Predicted contraction cost equals the incurred cost

* Modelled: `makeTensorGraph`, `getCost` and `contractCost`
* Proof: both costs equal the product of the dimensions of the union of the legs; simulation between graph and store
* Status: proved (`Props/Auto.lean`, `Props/Sequence.lean`). Dense tensors, typicalDim=None, networks whose bonds stay inside the list (other networks make the graph construction raise KeyError: C03_outgoing_bond_raises).

### C09 Splits of a tensor set are enumerated exactly once

* Modelled: `subsetIterator`, `lowbit`, `lowbitI` on integers in two's complement
* Proof: next-submask lemma on bits; completeness by induction downwards
* Status: proved (`Props/Subsets.lean`). 

### C10 Bonds are symmetric

* Modelled: legs and bonds as a store, `makeLink`
* Proof: invariant `BondInv`, by induction over histories of calls
* Status: proved (`Props/Link.lean`, `Props/LinkRefs.lean`). The claim about relinking is the theorem C10_relink_breaks.

### C11 Shared bonds are found, once each, oriented from the first tensor

* Modelled: `shareBonds` with its reorientation of bonds
* Proof: induction over the legs of the first tensor
* Status: proved (`Props/Contract.lean`). 

### C12 Copying a tensor list preserves the network and leaves the originals untouched

* Modelled: `copyTensorList`, `copy`, `toTensorLike`
* Proof: the copies are linked by a simulation between old and new legs; frame lemma for the originals
* Status: partial (`Props/Copy.lean`). Proved for dense, diagonal and shape-only tensors, any linking, bonds leaving the list included, linkOutgoingBonds=False. False of the code for a DiagonalTensor without legs: copy raises IndexError (C12_scalar_diagonal_raises). When a tensor occurs twice in the list only its last copy is linked (C12_repeated_tensor). Arrays are values in the model; generateData always copies.

### C13 A constructed Tensor is self-consistent or construction raises

* Modelled: `Tensor.deduction` with every combination of optional arguments (`Model/Construct`)
* Proof: case analysis; specification of what is accepted in `Spec/Construct`; a TensorLike from labels alone (`C13_like_labels`, `Props/ConstructDiag`)
* Status: proved (`Props/Construct.lean`, `Props/ConstructDiag.lean`). Random data is a parameter (rand). An integer shape is refused (C13_accepts). The unknown dimension of a TensorLike is stored as 0.

### C14 A constructed DiagonalTensor is self-consistent or construction raises

* Modelled: `DiagonalTensor.deduction`
* Proof: case analysis; counterexamples for accepted inconsistent data; `C14_labels` what the labels, the legs and an integer as shape mean, `C14_accepts` which consistent arguments are accepted (`Props/ConstructDiag`)
* Status: partial (`Props/Construct.lean`, `Props/ConstructDiag.lean`). Proved for data with one axis per leg, for a vector of the common dimension, and without data. False of the code for other accepted data: C14_product_length_wrong, C14_extra_axes_wrong, C14_scalar_shape_wrong, C14_shape_ignored_wrong, C14_claim_false.

### C15 Moving legs preserves the labelled array

* Modelled: `moveLegsToFront`, `moveLabelsToFront`, `reArrange`, `toTensor`
* Proof: entry by assignment of indices to legs
* Status: proved (`Props/Legs.lean`). For an argument list other than the tensor's own leg list object; passing that object corrupts the tensor (C15_moveLegsToFront_own_list_wrong).

### C16 toMatrix is the row-major bipartition of the tensor

* Modelled: `toMatrix` of both classes
* Proof: ravel lemmas
* Status: proved (`Props/Legs.lean`). 

### C17 outProduct fuses legs without changing entries

* Modelled: `outProduct`
* Proof: ravel of the fused legs
* Status: proved (`Props/Legs.lean`, `Props/Ops.lean`). A remaining leg of dimension 0 makes the call raise (C17_empty_rest_raises).

### C18 Merging parallel bonds preserves the contraction

* Modelled: `mergeLink`
* Proof: C17 on both sides, re-indexing of the sum over the fused bond
* Status: proved (`Props/Link.lean`). For dense tensors (DiagonalTensor.outProduct raises) whose unmerged legs have positive dimension; with fewer than two bonds C18_mergeLink_few.

### C19 Tags round-trip

* Modelled: `addTensorTag`, `removeTensorTag` on lists of characters
* Proof: induction over legs and names
* Status: proved (`Props/Text.lean`). 

### C20 Textual tensor notation round-trips

* Modelled: `decodeSubText` as an automaton
* Proof: induction over the legs, state after each leg
* Status: proved (`Props/Text.lean`). 

### C21 Label lookup is positional and total

* Modelled: `indexOfLabel`, `getLeg`, `getLabelIndices`, `renameLabel(s)`
* Proof: list lemmas
* Status: partial (`Props/Ops.lean`). Lookup and renameLabel are proved in full. renameLabels is a simultaneous renaming only when new and old labels do not overlap; C21_renameLabels_swap_lost shows the full claim is false.

### C22 sumOutLeg sums over exactly that leg

* Modelled: `sumOnAxis`, `sumOutLeg` of both classes, `sumOutLegByLabel`
* Proof: entry semantics
* Status: partial (`Props/Ops.lean`). sumOutLeg is proved in full, dense and diagonal. The claim about a list of labels with weights is false of the code: C22_list_drops_weights.

### C23 Finite tensor network contraction equals direct contraction, repeatedly

* Modelled: `FiniteTensorNetwork.contract` from the argument dictionary to the renamed result
* Proof: copies, tags, links, search, contraction and fusions are composed; the result is compared with a labelled sum that does not mention stores (`Spec/FTN`)
* Status: proved (`Props/FTN.lean`). Dense inputs with at least one leg, different labels and no dimension 0; each link joins two different tensors; the names list is not shared with another network; typicalDim not 0 unless realCost. The random data of the constructor and the search rounds are parameters. C23_added_tensor_wrong: a tensor added after the first contraction is silently left out.

### C24 A locked network cannot change

* Modelled: all methods of `FiniteTensorNetwork`, networks sharing list objects
* Proof: invariant over histories of a whole program (`NetWorld`)
* Status: proved (`Props/FTNLock.lean`). For a network whose list of names is not shared with another one. FiniteTensorNetwork() without argument shares one default list between all networks, so a locked network can still change through another: C24_shared_default_wrong.

### C25 StringSet never hands out a name in use

* Modelled: `StringSet` with an arbitrary stream of random letters
* Proof: invariant over histories; counting argument for termination
* Status: proved (`Props/StringSet.lean`). 

### C26 The Ising tensor network evaluates to the partition function

* Modelled: `IsingSiteTensor`, `IsingTNFromUndirectedGraph`, `exactZFromGraphIsing`
* Proof: the site tensors factor over the spins; exchange of the sum over bonds and over spins; C03 for the contraction
* Status: proved (`Props/Ising.lean`). Over the real numbers, with exact sqrt/cosh/sinh/exp. The enumeration equals the partition function for every history of addEdge/getEdges and all couplings (C26_exactZ); the network is built, closed and dense and its network sum is the partition function (C26_network); every valid contraction sequence yields the scalar exactZ (C26_contracts_to_exactZ). Excluded cases behave as stated: an isolated vertex raises ValueError (C26_isolated_raises), a self loop leaves a free leg (C26_self_loop_wrong). Negative couplings give NaN in NumPy and are outside the hypotheses.

### C27 Lattice builders produce the lattices they name

* Modelled: the four lattice builders
* Proof: the builders are runs of `addEdge`; counting lemmas
* Status: proved (`Props/Lattice.lean`). 

### C28 Undirected graphs report each edge once and degrees count edge ends

* Modelled: `UndirectedGraph` with its cache, `TensorGraph.addFreeEdge`
* Proof: invariant over histories
* Status: proved (`Props/Graph.lean`). C28_free_edge_stale: TensorGraph.addFreeEdge, which is not part of the claim, does leave a stale edge list.

### C29 Impurity binning weights sum to one

* Modelled: `divideIntoKParts`, `myComb`, `calculateDivisionTimes`
* Proof: induction; multinomial theorem
* Status: proved (`Props/Numbers.lean`). 

### C30 Index encodings are inverse bijections

* Modelled: `intToBitList`, `intToDBaseTuple`, `getIndexDict`, `safeMod`
* Proof: induction on the number of digits, floor division
* Status: proved (`Props/Numbers.lean`). 

### C31 CTMRG answers do not depend on query history

* Modelled: `CTMRG.getZ`, `iterate`, records; tensor operations as parameters
* Proof: invariant: record `i` is the state after `i` extensions
* Status: proved (`Props/CTMRG.lean`). Tensors are values and the FTN contractions, truncation, norm, log and exp are parameters. For L = 0 the answer does depend on the history (C31_zero_depends_on_history).

### C32 Renormalised log-partition bookkeeping is exact

* Modelled: `HOTRG`, `SquareTRG`, `TriangleTRG` bookkeeping; tensor operations as parameters
* Proof: invariant: normalised tensor times accumulated norms is the un-normalised one
* Status: proved (`Props/RG.lean`). For HOTRG and SquareTRG; numbers are real, norms and traces positive along the way, errors non-negative. SquareTRG with two tensors raises (C32_square_two_tensors_raises); TriangleTRG, outside of the claim, divides by the wrong number of sites (C32_triangle_wrong).

### C33 MPS reordering moves exactly one site

* Modelled: `FreeBoundaryMPS.swap`, `moveTensor`, `makeAdjacent`
* Proof: chain invariant preserved by a swap; induction over the loop
* Status: proved (`Props/MPS.lean`). On chains (dense, no two outer legs linked), chi >= 0, any exact decomposition. moveTo is characterised by C33_moveTo.

### C34 MPS bond dimension bound is derived from the chain

* Modelled: `checkMPSProperty`, `getChi`
* Proof: induction over the neighbours; the claim is false
* Status: partial (`Props/MPS.lean`). The claim about chi=None is false of the code: getChi takes the minimum starting from -1, so the result is always -1 (C34_none_wrong, C34_none_example) and the chain then refuses every swap (C34_default_chi_unusable). The part about an explicit chi is proved, for chi >= -1.

### C35 Bisection brackets the threshold

* Modelled: `binarySearch`, `getCutoff` over the rationals
* Proof: bracket invariant, halving measure
* Status: proved (`Props/Numbers.lean`). 

### C36 Shape-only tensors predict real shapes and costs

* Modelled: the shape-only branches of every operation
* Proof: each operation commutes with forgetting the data (`Lemmas/Like`)
* Status: partial (`Props/Like.lean`). Costs and levels agree exactly (C36_cost). Whenever a real contraction succeeds, the shape-only one succeeds with the same store, legs, dimensions and class (C36_contract), through whole valid sequences and their total cost (C36_sequence); reordering (C36_reorder) and fusing (C36_outProduct) agree. Missing because the code disagrees, each with a theorem: the order of legs differs for diagonal x dense (C36_leg_order_wrong), a scalar diagonal raises only for real tensors (C36_scalar_diagonal_wrong), fusing next to a leg of dimension 0 raises only for real tensors (C36_outProduct_empty_wrong), and summing any leg but the first of a dense TensorLike raises (C36_sum_wrong).

### C37 List utilities are multiset-exact

* Modelled: the list helpers of `funcs.py`
* Proof: counts and permutations
* Status: proved (`Props/Lists.lean`). commonElements_not_once and mapToDict_stores_whole_list record behaviour that differs from the docstrings.

### C38 Failed leg operations leave the tensor intact

* Modelled: the state left behind by failing calls
* Proof: exact description of that state; counterexamples
* Status: partial (`Props/Link.lean`, `Props/Ops.lean`, `Props/Text.lean`). False of the code in general (counterexamples are theorems); the partial theorems give the exact state left behind.

### C39 Truncated decompositions have the announced ranks and reproduce the matrix when nothing is cut

* Modelled: `SVDDecomposition`, `merge`, `SchimdtDecomposition`, `matrixSchimdtDecomposition`
* Proof: matrix algebra from the contract of the SVD (`Spec/Decompose`). The form without square roots returns three tensors (`C39_schmidt_three` in `Props/Canon.lean`): their network is the original one if only zeros are cut, and the outer two are isometries
* Status: proved (`Props/Canon.lean`, `Props/Decompose.lean`). numpy.linalg.svd and sqrt are parameters assumed exact (ExactLinAlg; unitary where the error is stated). SchimdtDecomposition with the square roots shared; dense tensors.

### C40 Traces agree with contraction

* Modelled: `trace` of both classes
* Proof: entry semantics
* Status: proved (`Props/Ops.lean`). 

### C41 Reordering a matrix product state does not change what it represents

* Modelled: `swap`, `moveTensor`, `makeAdjacent`
* Proof: the swap replaces two tensors by two with the same pair value; `Lemmas/Replace` lifts this to the network
* Status: proved (`Props/MPS.lean`). numpy.linalg.svd and sqrt are parameters assumed exact; the numerical rank is assumed to be the number of non-zero values (RankRevealing).

### C42 CTMRG log scales undo the normalisation exactly

* Modelled: `CTMRG` scales
* Proof: homogeneity and induction over the extensions
* Status: proved (`Props/CTMRG.lean`). Homogeneity of the truncation holds for an SVD that keeps the same number of values at every scale.

### C43 HOTRG takes the direction of least error and records it for replay

* Modelled: `HOTRG.iterate`, `impurityIterate`
* Proof: case analysis over the four trials; invariant of the records
* Status: proved (`Props/RG.lean`). Without the sign condition false: C43_negative_error_wrong.

### C44 Impurity tensors give the moments of the block mean

* Modelled: `ImpurityTensorNetwork`
* Proof: moments by induction on the iterations; binomial theorem
* Status: proved (`Props/RG.lean`). Orders up to the number of given impurities; more raise (C44_padding_raises). Axis order of the tensors (reArrange) is not modelled.

### C45 When a finite tensor network searches for a new contraction sequence

* Modelled: `loadBondDims`, the condition in line 119, the stored sequence, on top of the model of C23 (`Model/FTN.lean`).
* Proof: `Props/FTNSeq.lean`. The graph of the call is specified on labelled arrays and declared links (`NetGraph`), cost and optimality on trees (`Cheapest`). The copies the code links are shown to have that graph (`linkAll_ok`, `GraphOf`), the search result is cheapest by C06; `C45_policy` combines this with the fold over the recorded dimensions. `C45_second_call` is the cache hit. `C45_lost_axis_unnoticed` proves by a witness that an axis that disappears is not noticed, so the kept sequence may be more expensive than a new search's (a finding; results are not affected, C23).
* Status: proved (`Props/FTNSeq.lean`). 

### C46 Canonical form of a matrix product state

* Modelled: `canonicalize` with its two sweeps, `checkCanonical`, `isIsometry` (`Model/MPS.lean`, `Model/Canon.lean`), the three-factor form of `SchimdtDecomposition`.
* Proof: `Props/Canon.lean`. `Spec/Canon.CanonicalAt` is the definition of the form by sums over legs. One step replaces two sites by `u` and `s @ v` (`Lemmas/LeftCut`); the invariant of the sweeps is `Swept` (`Lemmas/Canon`): a chain, finished sites isometric, everything outside the swept range untouched. The state is kept because the product over a bond of dimension D has at most D non-zero singular values (`Lemmas/Rank`, rank of a diagonal matrix). The contract of the SVD is shown satisfiable over the reals and the complex numbers from the spectral theorem (`exists_linAlg` in `Lemmas/SvdExists`), which the examples use. `np.allclose(…, identity)` is a parameter assumed to decide identity matrices; the tolerance is not modelled.
* Status: proved (`Props/Canon.lean`). 

### C47 Making a matrix product state

* Modelled: The constructor of `FreeBoundaryMPS` (`Model/MPS.lean`), `createMPSFromTensor` (`Model/CreateMPS.lean`), `matrixSchimdtDecomposition` (`Model/Decompose.lean`).
* Proof: `Props/NewMPS.lean`, `Props/CreateMPS.lean`. `C47_new_iff` is the exact test the constructor makes; `C47_accepted_chain` says when what it accepts is a chain, `C47_ring_accepted` and `C47_single` what it accepts besides (findings). `Spec/CreateMPS.MadeFrom` says what a chain made from a tensor is. The loop invariant (`LoopIn`, `LoopOut` in `Lemmas/CreateLoop`) compares the sites made so far with one imagined tensor holding the array that is left to decompose (`ghost` in `Lemmas/CreateMPS`): cutting it into a site and a new imagined tensor keeps the value (`cut_value`). Refusals are exact: `C47_create_refused`, `C47_create_small`; that the zero matrix has no non-zero singular value is derived from the SVD's contract (`zeroHasNone_of`). What the legs are bound to after an exception is not modelled.
* Status: proved (`Props/CreateMPS.lean`, `Props/NewMPS.lean`). 

### C48 Contracting a network by matrix product states

* Modelled: `commonLegs`, `commonBonds`, `contractMPS`, `doubleMerge`, `getBondTensorIndices`, `doubleMergeByBond`, `mergeMPS`, `contractWithMPS` (`Model/ContractMPS`); the sequence and the sequence used by the last `toTensor` are arguments (C06)
* Proof: every operation is a step that replaces some tensors of a network by others with the same value, leaves all other tensors and their legs alone and keeps the chain form (`Lemmas/Step`, `Glue`, `MoveStep`, `MergeStep`, `DoubleMerge`, `MergeLoop`, `ContractPair`); the loops by induction with the invariant that the elements present are chains with at most one bond between two of them, bonded exactly where the groups of tensors they stand for are (`Lemmas/SlotRows`, `ContractSlots`, `CreateAll`)
* Status: proved (`Props/ContractMPS.lean`). 

### C49 The ready-made networks and traces compute the sums they are named after

* Modelled: all functions of `contractExp.py` (`Model/ContractExp`); the explicit sums are in `Spec/ContractExp`
* Proof: each network is run through C23 (`FTN.contract` is the labelled meaning of its links, fusions and renamings, whatever was contracted before); the labelled meaning is brought to the explicit sum by a checked table of which label of which tensor is which summation index (`computes_table`), with all label arithmetic decided by the kernel; the traces are followed through `copy`, `makeLink` and `contractTwoTensors` (`Lemmas/Traces`)
* Status: proved (`Props/ContractExp.lean`, `Props/ContractNets.lean`, `Props/Traces.lean`). 

### C50 HOTRG computes the partition function of a torus

* Modelled: `HOTRG.py`, `solveEnv` of `linalg.py` and `tensorFactory.py` on tensors in a store (`Model/HOTRG`); `eigh`, `norm` and `log` are parameters; the torus is in `Spec/Torus`, the explicit environments and merged tensors in `Spec/HOTRG`
* Proof: every network contraction is C49; results do not depend on the fuel once the search has finished (`Lemmas/FuelMono`, `Settles`); the spectral part is finite linear algebra over an ordered field (`Lemmas/SolveEnv`: a vector killed by N Nᵀ is killed by Nᵀ, so PPᵀ acts as the identity on the pair); merging pairs of rows of the torus is a bijection of bond configurations (`Lemmas/Torus`); columns by transposition; induction over the steps (`Lemmas/HOTRGExact`). `exists_eigh` proves that an exact eigensolver exists over ℝ. Complex tensors are not covered: the environment is N Nᵀ without conjugation. `C50_norms` (in `Props/HOTRGNorms`) needs no hypothesis about the norms: a norm that is 0 only for zero arrays is never 0 as long as no partition function is, in particular for positive entries (`C50_logZ_positive`)
* Status: proved (`Props/HOTRG.lean`, `Props/HOTRGCases.lean`, `Props/HOTRGNorms.lean`). 

### C51 Plaquette tensors give the Ising model on a torus

* Modelled: `Model/Plaquette`: the plaquette part of `models/Ising.py`, with the loops writing one entry after the other; the spins of the torus and their energy are in `Spec/Plaquette`, over ℝ
* Proof: the sixteen assignments hit sixteen different places (`fold_entries`, the bit masks by `decide`); the product of exponentials over the sites is the exponential of the sum, and shifting by one site is a bijection (`around_bij`), so the halves of shared spins add up; composed with C50 for `C51_HOTRG`; the magnetization through `arsinh 1 = log (1 + √2)`. Deviation: for V < 0 and high T an eighth root of a negative number is taken, where NumPy gives nan (C51_exactM_negative)
* Status: proved (`Props/Plaquette.lean`). 

### C52 SquareTRG computes the partition function of a torus

* Modelled: `SquareTRG` of `TRG.py` on tensors in a store (`Model/TRG`); `svd`, `sqrt`, `norm` and `log` are parameters; the torus with diagonal periods is in `Spec/TiltedTorus`, the four corners, the two matrices and the records of a step in `Spec/TRG`
* Proof: the matrices from `Lemmas/LabelMatrix`, the factors from C39, the contraction from C49. A lattice is any finite set with two commuting permutations (`Plane`); cutting every site and gathering the corners is exact on every such lattice (`Z_refine`), where the finer lattice has twice as many sites; starting from a single site the finer lattices are, through their universal cover ℤ², the straight and the tilted tori in turn (`Z_even`, `Z_odd`); induction over the steps (`Lemmas/TRGExact`). `exists_linAlg` proves that an exact decomposition exists over ℝ. Complex tensors are not covered: `SVDDecomposition` returns v conjugated, and `iterate` uses it without conjugating again. `C52_norms` and `C52_logZ_positive` (in `Props/TRGNorms`) need no hypothesis about the norms: the matrix of zeros would make a partition function 0
* Status: proved (`Props/TRG.lean`, `Props/TRGNorms.lean`). 

### C53 TriangleTRG computes the partition function of dimers on a lattice of hexagons

* Modelled: `TriangleTRG` as a whole on real tensors in a store (`Model/TriangleTRG`): constructor, normalization, archive, `iterate`, `logZDensity` with the store the traces change. SVD, norm, square root and logarithm are parameters
* Proof: Each step: joining and contracting the two tensors is the sum over the common bond, `toMatrix` and the SVD give the factors (`Factors`), the ready-made network contracts three of them around a triangle (`Lemmas/TriangleStep`). A lattice is any finite set with three permutations (`Honey`): bond c of the site s of kind A leads to the site σ c s of kind B. Replacing every bond by a pair of sites is undone exactly by decomposing the pairs and gathering the factors (`Z_refine`), induction over the steps starting from two sites joined by three bonds (`Lemmas/TriangleExact`). The sum over the bonds is turned into a sum over sets of bonds without common ends (`Z_dimers`). Faces, connectedness and number of sites by induction (`Lemmas/TriangleLattice`). A norm 0 would make the partition function 0, which is at least 1. The formula for `logZDensity` shows the deviation; `C53_logZ_wrong` is a concrete run over ℝ with Z_1 = 40
* Status: proved (`Props/TriangleTRG.lean`). 

### C54 Finite tensor networks with diagonal tensors

* Modelled: `FiniteTensorNetwork.contract` as in C23, with diagonal inputs. The cast of outer products between a diagonal and a dense tensor is taken to be lossless
* Proof: The sum over a sequence of pairwise contractions is tracked with groups of original tensors (`Lemmas/MixedRun`); the capped search on a connected graph returns a tree without outer products of diagonals (`Lemmas/MixedSearch`), which is a statement about names and links only (`stepsSafe`), so that it survives in the stored sequence (`mixed_cache`). Conversely a sequence for diagonal tensors without outer products connects the network (`connected_of_safe`), which gives `C54_pieces_diverge`. `C54_stored_sequence_wrong` is a concrete run
* Status: proved (`Props/FTNDiag.lean`). 

### C55 CTMRG computes the partition function of a square lattice with open boundary

* Modelled: `CTMRG` as a whole on real tensors in a store (`Model/CTMRGTensor`): constructor, `reduceDimension` with `tensorSVDDecomposition`, `pushTensors`, `iterate`, `getZ` with its loop and its records. SVD, norm, logarithm and exponential are parameters; numbers are those of an ordered field, so a norm 0 gives 0 where NumPy gives `nan`
* Proof: Every tensor is described by its entries (`Spec/CTMRGTensor`), every ready-made network by its sum (`Lemmas/MixedNet`, the corner is diagonal), one step by a function on entries (`Numbers.step`). An invariant over all histories says that record i satisfies P i for any P closed under steps (`Lemmas/CTMRGRun`). For exactness P i says: the numbers are the quadrant, the row and the column of i + 1 sites in an orthonormal basis, times the scales (`Level`, `Stands`). That the sum over the lattice is a trace of four quadrants, or of four quadrants and four edges around a site, is proved without reference to the code (`Lemmas/OpenLattice`, `Lemmas/OpenGauge`). `C55_unequal` follows P through two steps for any decomposition, since the left factor of a single column is determined up to a sign. `C55_ising` inserts the entries of `squareIsingTensor` (`Spec/OpenIsing`)
* Status: proved (`Props/CTMRGIsing.lean`, `Props/CTMRGTensor.lean`). 

### C56 ImpurityTensorNetwork measures averages on a torus

* Modelled: `ImpurityTensorNetwork` as a whole on real tensors in the store of the `HOTRG` object it is bound to (`Model/Impurity`): constructor with padding, `appendToArchive`, `iterate` with the replay of the recorded direction and projector, `measureObservables`. The histories are the inductive relation `Reach` in `Spec/Impurity`
* Proof: marks on sites are multisets counted by multinomial coefficients: merging two sites adds with binomial coefficients what `iterate` adds with weights C(n,k)/2^n (`Lemmas/Marks`, `Lemmas/ImpurityMath`); one step on tensors is `Lemmas/ImpurityStep`, the invariant over all histories `Lemmas/ImpurityRun`, the comparison with the torus `Lemmas/ImpurityExact`; the torus of one step is split by rows or, transposed, by columns as in C50. `C56_norms`, `C56_positive` and `C56_ising_exact` (in `Props/HOTRGNorms`) need no hypothesis about the norms
* Status: proved (`Props/HOTRGNorms.lean`, `Props/Impurity.lean`). 

### C57 Networks written as text are read as written

* Modelled: `createTensorFromText`, `createTensorListFromText` with both loops and `makeTensorGraphFromText` (`Model/TextNet`) on top of `decodeSubText` (C20's model), the tensor constructor, `makeLink` and `makeTensorGraph`. The dimension `None` is stored as 0 and `n` as `n + 1`; only ASCII letters have a case
* Proof: the text of a network is defined in `Spec/TextNet` by writing; an invariant over the first loop says what has been read so far and that the dictionary holds the legs of every name (`Lemmas/TextRead`); the second loop is `Lemmas/TextNet`; the graph follows with `makeTensorGraph_spec`
* Status: proved (`Props/TextNet.lean`). 

### C58 Copies of matrix product states and random matrix product states

* Modelled: `Model/RandomMPS.lean`: `copyOfTensors`, `makeRandomMPS`; the random numbers of the tensors and `numpy.linalg.norm` are parameters
* Proof: `C58_copy` uses the copies of C12 (`copyEach_ok`), a map of legs from the originals to the copies (`copyMap`), `chain_of_links` (free legs joined pair after pair form a chain, in any order and orientation) and `sumBonds_twins` for the value. `C58_random` does the same for the new tensors (`randomTensors_ok`, induction over the sites), then C47. `C58_unit`: sum of squares. `C58_refused`: assertions
* Status: proved (`Props/RandomMPS.lean`). 

### C59 Copies that take over the bonds to other tensors, and matrix product states of copies

* Modelled: `copyTensorList` with `linkOutgoingBonds = True` and the constructor of `FreeBoundaryMPS` with `inplace = False` (`Model/CopyOut`): `del leg.bond` is the bond set to none and the leg put on a list of legs without the attribute; reading the attribute of such a leg raises
* Proof: the loop over the legs keeps an invariant (`OutInv`: which bonds have been treated, what the partners of the legs and of their copies are) from which `TakenOver` (Spec/CopyOut) follows; the network is renamed along the bijection of the legs; the chain of copies follows from `TakenOver`, and its names from the lemma on `renameBonds` of C47
* Status: proved (`Props/CopyOut.lean`). 

### C60 Singular value decomposition of a tensor

* Modelled: `tensorSVDDecomposition` (`Model/CTMRGTensor`, with `toMatrix`, `construct`, `constructDiag` and `svdTruncated`); the SVD of NumPy is a parameter with a contract (`UnitaryLinAlg`), for which an instance over ℝ is proved to exist
* Proof: `toMatrix` puts the entry of the tensor at the joint indices (C20); the loss is computed by splitting the sum over the singular values into kept and dropped and using that the columns of u and the rows of v are orthonormal
* Status: proved (`Props/TensorSVD.lean`). 

### C61 What a tensor graph answers: optimal cost and graph of the network

* Modelled: the tensor graph as an object with the attribute `optimalCost` (missing, or a table), the method `optimalContractSequence` as a change of the object, `optimalCostResult` and `tensorNetworkGraph` (`Model/GraphQuery`)
* Proof: by induction over the calls; the value of the table is that of C05/C06; for the graph the invariant of `makeTensorGraph` (C07) says which edges there are
* Status: partial (`Props/GraphQuery.lean`). False of the code on graphs not searched before, after failed searches, for searches with a typical dimension and for parallel bonds (each a theorem); C61_cost_partial gives the answer for all other histories, C61_network the graph for all networks.

### C62 Contracting a list of tensors with all options at their defaults

* Modelled: `contractAndCostWithSequence` with all its options, `contractWithSequence`, `contractTensorList` (`Model/ContractList`), on the models of search, copies and contraction
* Proof: the search returns a valid sequence (C06), contracting the copies gives the network sum of the originals (C12); the cost of a sequence is invariant under the renaming of legs by the copies
* Status: proved (`Props/ContractList.lean`). 

### C63 Queries about the legs of a tensor, and dictionaries of tensors

* Modelled: `shapeOfLabels`, `labelsInTensor`, `bondDimension`, `totalSize` and the methods of `TensorDict` (`Model/Query`); Python's index -1 is the last element
* Proof: the index found is the first or last one with the label (C21); histories of a dictionary by induction over the calls
* Status: proved (`Props/Query.lean`). 

### C64 Measures of error of matrices measure what they are documented to measure

* Modelled: Model/MatrixError.lean: the norm, NumPy's subtraction with broadcasting of matrices, `identityError`, `checkIdentity`, `diagError`, `symmetricError`, `aDaggerAProduct`, `aADaggerProduct`, `projectorError`, `getDiffError`, `matDiffError`, `normalizeInfinity`, over the real or complex numbers instead of floating point; `isIsometry` and `checkCanonical` of Model/Canon.lean with `checkIdentity` put in.
* Proof: Each result is characterised by a sum of squared absolute values of entries (Lemmas/MatrixError.lean); `isIsometry` by the sum over the legs named (Lemmas/CanonTells.lean goes through the loop of `checkCanonical` for an arbitrary predicate that the test decides). `C64_row_wrong` and `C64_getDiffError_wrong` are the cases where the documentation is wrong; `C64_getDiffError_number` is what holds for single numbers. Not covered: arrays of three or more axes, division by a zero norm (NumPy answers nan), rounding.
* Status: proved (`Props/MatrixError.lean`). 

### C65 The small helpers return what they describe, with the named exceptions

* Modelled: Model/Funcs.lean and Model/Helpers.lean: the functions named, over integers and rational numbers instead of floating point. `einsum2` is NumPy's einsum for two operands without repeated letters and without broadcasting of axes of length 1 (trusted base). `getNewString` reads an arbitrary random sequence; running out of draws is `none`. `indexTupleToStr` and `sumOnAxis` take indices that are not negative. `triangleWeight` has the exponential function as a parameter.
* Proof: Induction over the lists, mostly from the right; each result is characterised by its length and its entries. `C65_sumOnAxis` computes the sum over the letters that are missing in the output (Lemmas/Helpers.lean) and `C65_sumOnAxis_weighted` shows that this is what the model of `Tensor.sumOutLeg` uses. The `_wrong` theorems are the cases where the documentation is wrong. Not covered: division by an exact zero in `partialInverse` (NumPy answers inf), rounding.
* Status: proved (`Props/Helpers.lean`). 

### C66 The networks of TNR contract to the sums their diagrams show, and the isometries are optimal

* Modelled: Model/TNR.lean: the four networks, `TensorUpdateSVD` and the formula of `SP1err` (= `SP3err`, `SP4err`); `tnrStart` is `doTNR` up to its iteration, without the start values of `uM`, `yM`, `sM`. The singular value decomposition is the parameter `LinAlg` with full matrices; `full_matrices = False` takes the first columns and rows. The iteration of `doTNR` is in C67.
* Proof: Props/TNR.lean: the networks as in C49. `C66_qEnv` sorts the fourteen sums of C49_evenbly into a scalar product of two half networks (Lemmas/QEnv.lean); `C66_q` gets symmetry, eigenvalues ≥ 0, orthonormal columns and the error from it. `C66_start` (Props/TNRStart.lean) follows the contractions of `doTNR` one by one, with the tensors made earlier kept. `C66_update` (Lemmas/Isometry.lean): the polar factor has orthonormal columns or rows; between unit vectors an isometry is at most 1 by Cauchy–Schwarz, so no overlap exceeds the sum of the singular values. `C66_sCEnvS_comment` and `C66_sCEnvS_deviates` compare with the formula in the comment.
* Status: proved (`Props/TNR.lean`, `Props/TNRCases.lean`, `Props/TNREnv.lean`, `Props/TNRStart.lean`, `Props/TNRUpdate.lean`). 

### C67 The updates of `sM` in `doTNR` never raise the truncation error

* Modelled: Model/TNRStep.lean: one update of `sM`, repeated updates, the rescaling. `ncon` is not in the repository; the three ways it is called are modelled as the sums its documentation gives. Floats are exact numbers, `inf` or `nan`, so that a division by 0 makes a comparison fail as in Python. `pinv`, the square root and the eighth root are parameters. Not modelled: the stopping rule, the updates of `yM` and `uM` after round 50, and the two isometries and the new site after the iteration.
* Proof: Props/TNRStep.lean: the two forms of the error are reordered sums; the denominator is the sum of the squares of the truncated ring (Lemmas/TNRSum.lean), so that a denominator other than 0 makes the trace and `SP2exact` differ from 0. The last candidate is `sM` itself, so the loop always ends with one (`C67_step`); the error does not depend on the scale. `C67_rounds` is an induction. Props/TNRRounds.lean (`C67_start`, `C67_first_rounds`): the tensors of `C66_start` meet the hypotheses. `C67_rescale`: the eighth power cancels.
* Status: proved (`Props/TNRRounds.lean`, `Props/TNRStep.lean`). 

### C68 The updates of `uM` and `yM` in `doTNR` give the isometries with the largest overlap, and `uM` stays symmetric

* Modelled: Model/TNRDis.lean: `startU`, the two environments that the code writes with `ncon` (taken as the sum over the repeated indices), the symmetrised environment, and the updates by `tensorUpdateSVD`. Not modelled: the start values of `yM` and `sM`, the stopping rule.
* Proof: Spec/TNRDis.lean states the overlap as one sum of fourteen indices and the symmetry. The environment is the coefficient of the isometry in that sum (`nconU_ok`, `nconY_ok`); optimality is `C66_update`, applied to an isometry and to its negative. The polar factor of a matrix without the singular value 0 is the only isometry with the largest overlap (`polar_unique` in Lemmas/Exchange.lean), so it inherits the symmetry of the environment.
* Status: proved (`Props/TNRDis.lean`). 

### C69 The isometries `vM` and `wM` of `doTNR` keep the largest part of a positive environment, and their errors are the part cut off

* Modelled: Model/TNREnd.lean: `nconV` and `nconW` with the index numbers of the two calls of `ncon` (taken as the sum over the repeated indices), `endEnv` and `endIso`. Arithmetic is exact; where the trace of the environment is 0, NumPy gives nan with a warning and the model gives 0.
* Proof: Spec/TNREnd.lean states the two halves as sums of their own. A sum over two lists of indices of a product factors when each factor does not use the indices of the other (`sumOver_mul` in Lemmas/TNREnd.lean); the value is then a sum of products of a half with itself, so that the matrix is symmetric and positive (`sumOver_gram`), and C50 and `C66_spErr` give the columns and the error (`endClaim_of_gram`). No wrong programs have been tried against these theorems yet.
* Status: proved (`Props/TNREnd.lean`). 

### C70 `doTNR` restores the norm of the ring and returns a normalised site with the symmetries of the lattice

* Modelled: Model/TNRSite.lean: `nconMod`, `nconSq`, `normS`, `nconSite` with the index numbers of the call of `ncon`, and `newSite`. The eighth root and `numpy.linalg.norm` are parameters.
* Proof: Spec/TNRSite.lean states the ring with `sM` on its legs, the pairs and the ring of four as sums of their own. The contraction is factored with `sumOver_mul` into the two halves and those into the pairs (`nconSite_ok`); the half turn and the exchange are reorderings of the four sums of the ring (`ringOf_turn`, `ringOf_flip`, `cornerPair_flip`, `yPair_flip`). `C70_norm` states for the same lines what `C67_rescale` states with another model of them (`sRescale`). No wrong programs have been tried against these theorems yet.
* Status: proved (`Props/TNRSite.lean`). 

## Where the code departs from its documentation or from a property

Each is a theorem about the model.

* Contraction of a `DiagonalTensor`: outer product of two diagonal tensors gives a wrong array
  (C02_outer_two_diagonals_wrong); a scalar `DiagonalTensor` raises (C02_scalar_diagonal_raises); explicit bonds with the
  dense operand first raise (C02_explicit_bonds_dense_diag_raises); an integer result dtype loses fractions
  (C02_outer_dtype_loss).
* A bond of dimension 0 raises ZeroDivisionError in the cost (C03_zero_dimension_raises); a bond leaving the list raises
  KeyError in the search (C03_outgoing_bond_raises).
* Sequence steps are not ordered `a < b` as documented (C04_steps_not_ordered).
* Searches: the cost of an outer product of diagonal tensors depends on the order
  (C05_diagonal_outer_cost_depends_on_order); the capped search runs forever when only such outer products connect the
  network, or at cost 0 (C06_disconnected_diagonals_diverge, C06_zero_cost_diverges).
* Linking a linked leg leaves the old partner dangling (C10_relink_breaks).
* `DiagonalTensor.copy` of a scalar raises IndexError (C12_scalar_diagonal_raises); a tensor listed twice is copied
  twice but linked once (C12_repeated_tensor).
* `DiagonalTensor(...)` accepts data of a wrong length or with extra axes (C14_*_wrong), and with a scalar as data and
  no labels it ignores the given shape (C14_shape_ignored_wrong).
* `moveLegsToFront(t.legs)` with the tensor's own list empties it while iterating
  (C15_moveLegsToFront_own_list_wrong).
* `outProduct` next to a leg of dimension 0 raises (C17_empty_rest_raises).
* A tag with a dash does not come off (C19_dash_in_tag); an unbraced name of several letters is read as several legs
  (C20_misread).
* `renameLabels` is sequential: swapping two labels loses one (C21_renameLabels_swap_lost).
* `sumOutLegByLabel` with a list drops the weights (C22_list_drops_weights).
* `FiniteTensorNetwork()` shares its default list between instances (C24_shared_default_wrong); a tensor added after a
  contraction is silently left out (C23_added_tensor_wrong); with `realCost` an axis that disappears is not noticed, so a
  stale and more expensive sequence is kept (C45_lost_axis_unnoticed).
* `StringSet.remove` shortens the random names until `newString` never returns (C25_removal_exhausts*).
* The Ising network of a graph with an isolated vertex raises (C26_isolated_raises); a self loop leaves a free leg
  (C26_self_loop_wrong); negative couplings take the square root of a negative number.
* `TensorGraph.addFreeEdge` does not invalidate the list of edges (C28_free_edge_stale).
* `CTMRG.getZ(0)` depends on earlier queries (C31_zero_depends_on_history).
* A `FiniteTensorNetwork` contracted with dense tensors and then with diagonal ones of the same dimensions reuses a sequence
  with an outer product of diagonal tensors and returns a wrong array (C54_stored_sequence_wrong); diagonal tensors that are
  not all linked make the first call run forever (C54_pieces_diverge).
* `TriangleTRG.logZDensity` divides by 9^i instead of 3^i (C32_triangle_wrong; what it computes instead: C53_logZ, C53_logZ_wrong); `SquareTRG(a, b)` raises AttributeError
  (C32_square_two_tensors_raises).
* `FreeBoundaryMPS(chi=None)` always computes -1 (C34_none_wrong) and is unusable (C34_default_chi_unusable).
* `checkCanonical` of an empty chain raises instead of returning True as its lines 176-178 intend: the assertion before
  them refuses every index (C46_check_refused).
* `FreeBoundaryMPS` accepts a ring of three sites (C47_ring_accepted) and one tensor with any number of
  legs, all of which it names "o" (C47_single); `createMPSFromTensor` refuses the zero tensor if it has three or more legs
  (C47_create_refused).
* `contractWithMPS` refuses sequences with an outer product and tensors without legs (C48_contractWithMPS_unlinked,
  C48_contractWithMPS_scalar): the network of two unlinked vectors raises AssertionError, and a part of a disconnected network that is
  contracted to a number raises AttributeError when it is merged with what is left.  The legs of the result are copies, all
  named "o", so the names given by the user are lost (C48_contractWithMPS).
* `HOTRG.iterate` picks the last direction after a negative error (C43_negative_error_wrong);
  `ImpurityTensorNetwork` with a higher order than given tensors raises AttributeError (C44_padding_raises).
* `solveEnv` with `chi = 0`, or with no eigenvalue above the threshold, cuts off nothing instead of everything
  (C50_solveEnv_zero, `a[:, -0:]` is all of `a`); it reports the error 0 although positive eigenvalues up to the threshold are cut off
  (C50_solveEnv_silent, C50_error_zero_but_truncated).
* `infiniteIsingExactM` with a negative coupling takes the eighth root of a negative number above the critical temperature
  (C51_exactM_negative).
* `ImpurityTensorNetwork.iterate` raises TypeError if the first impurity has no `degreeOfFreedom`, although `HOTRG` takes a missing one as 1
  (C56_iterate); with `highestOrder` above the number of impurities it always raises AttributeError (C56_padded).
* `CTMRG` cuts the edges down to the smaller of the two dimensions of the corner, so with different dimensions for vertical and
  horizontal bonds `getZ` is wrong however large `chi` is (C55_unequal).
* TensorLike: other order of legs for diagonal × dense, no exception where the real contraction raises, exceptions when
  summing (C36_*_wrong).
* Failing calls leave tensors changed (C38_*_wrong).
* `optimalCostResult` documents that it searches when no search has been done; the constructor does not set the attribute, so it raises
  AttributeError (C61_without_search_raises); after a failed search it returns None (C61_after_exception), after a search with a typical
  dimension not the exact cost (C61_not_exact_cost); `tensorNetworkGraph` keeps one of several parallel bonds (C61_parallel_bonds_lost).
* `shapeOfLabels` answers a missing label with the dimension of the last leg, since -1 is a valid index (C63_missing_label_wrong).
* `getDiffError` (deprecated) is documented as the sum of squared differences; it computes `‖a²‖ + ‖b²‖ - 2‖ab‖`, which is 0 for
  `(1, 1)` and `(1, -1)` (`C64_getDiffError_wrong`).
* `symmetricError` and `diagError` answer 0 for the row `(1, 1)`, since NumPy repeats rows and columns when it subtracts
  (`C64_row_wrong`); other matrices that are not square raise a ValueError.
* `floatRelativeEqual` takes the tolerance relative to `a + b`, so that negative numbers are not equal to themselves
  (C65_floatRelativeEqual_wrong); `priorDataType` takes integer types for complex ones (C65_priorDataType_wrong); `ndEye(1, l)` has a
  single 1 (C65_ndEye_wrong); `triangleWeight` is 0 for every number of equal pairs that occurs (C65_triangleWeight_wrong);
  the example in the documentation of `indexTupleToStr` is off by one and a list is refused (C65_indexTupleToStr_wrong).
* `createSCEnvSFTN` joins the left isometries to the right legs of the disentangler and vice versa, unlike the `ncon` formula in
  its comment; both agree for the symmetric disentanglers that `doTNR` aims at (C66_sCEnvS_comment, C66_sCEnvS_deviates).
* `commonElements` keeps multiplicities, `mapToDict` stores the whole list for every key (C37_*).
* `SVDDecomposition` documents the second factor transposed to what it returns (`Model/Decompose`); after
  `SchimdtDecomposition` the two given tensors keep tagged leg names.
* After `copyTensorList(..., linkOutgoingBonds = True)`, hence after `FreeBoundaryMPS(..., inplace = False)`, the given
  tensors lack the attribute `bond` at the legs that led outside; using them later raises AttributeError (C59_again).

## Simplifications worth knowing

Stated at the definitions; the ones that matter: sizes are natural numbers; the state after an exception is only kept
where C38 or C24 needs it; the two search tables (`dict` keyed by bit masks) are functions with a flag per entry; the
names of graph vertices are left out; `internalBonds` of an MPS is not stored; the vertex-to-position dictionary of
`makeTensorGraph` is a list look-up; a pair as `bondName` for a single bond is ignored (Python stores the pair as the name).
