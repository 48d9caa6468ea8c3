{"id": "C01", "title": "Pairwise contraction is the Einstein sum over the shared bonds", "statement": "For two dense tensors a and b, a @ b (contractTwoTensors) returns a tensor whose legs are the unshared legs of a followed by the unshared legs of b, and whose entry at every index assignment is the sum over all values of the shared bonds of the product of the entries of a and b. With no shared bond it is the outer product.", "quantifier": "all ranks, all leg dimensions (including 0 and 1), all numbers and positions of shared bonds, all orders of the bond list, all entries in any commutative ring", "why_tests_cant": "tests sample a handful of shapes and random entries; an axis permutation error that cancels on those shapes (square matrices, symmetric positions) is invisible", "anchors": ["src/CTL/tensor/contract/contract.py:contractTwoTensors", "src/CTL/tensor/contract/contract.py:shareBonds", "src/CTL/tensor/tensor.py:Tensor.toMatrix", "src/CTL/tensor/tensor.py:Tensor.moveLegsToFront"]}
{"id": "C02", "title": "Diagonal tensors contract like their dense counterparts", "statement": "Whenever at least one operand of a contraction is a DiagonalTensor, the result denotes the same multi-index array (over the same leg objects) as contracting the dense tensors obtained by expanding the diagonals.", "quantifier": "all ranks, dimensions, numbers of shared bonds, which of the operands is diagonal, all entries", "why_tests_cant": "the fast paths (elementwise product, einsum over the repeated index) agree with the dense result on special shapes; agreement for every rank and every subset of shared legs needs a proof", "anchors": ["src/CTL/tensor/contract/contract.py:contractTwoTensors", "src/CTL/tensor/diagonalTensor.py:DiagonalTensor"]}
{"id": "C03", "title": "The value of a network does not depend on the contraction order", "statement": "contractTensorList / contractWithSequence return a tensor whose entries equal the full network sum (sum over all bonds of the product of all tensor entries), for every valid contraction sequence; so any two valid sequences give the same labelled array.", "quantifier": "all lists of dense tensors with distinct legs, bonds of dimension >= 1 (inside or leaving the list), all valid sequences, all entries in a commutative semiring", "why_tests_cant": "the number of networks and of orders is unbounded; tests compare two orders of three tensors", "anchors": ["src/CTL/tensor/contract/optimalContract.py:contractAndCostWithSequence", "src/CTL/tensor/contract/optimalContract.py:contractWithSequence", "src/CTL/tensor/contract/optimalContract.py:contractTensorList"]}
{"id": "C04", "title": "Sequences returned by the search are valid and complete", "statement": "optimalContractSequence on n tensors returns exactly n-1 pairs; every pair names two distinct slots that still hold live tensors; executing them contracts every tensor exactly once and leaves the result at index 0.", "quantifier": "all tensor graphs with n >= 1 vertices, both searches that accept any graph (brute force, capping), all dimensions, every typicalDim", "why_tests_cant": "slot numbers are derived from the lowest bits of subset masks; an error only shows on particular tree shapes", "anchors": ["src/CTL/tensor/contract/tensorGraph.py:TensorGraph.optimalContractSequence", "src/CTL/tensor/contract/optimalContract.py:contractAndCostWithSequence"]}
{"id": "C05", "title": "Brute-force search is optimal", "statement": "The cost reported by optimalContractSequence(bf=True) equals the cost of the returned sequence and is less than or equal to the total cost of every pairwise contraction order (every binary contraction tree) of the network.", "quantifier": "all tensor graphs without self loops, all binary trees over the tensors, all dimensions, diagonal flags, every typicalDim; with typicalDim=None the graphs in which two disjoint all-diagonal groups have legs and these have one dimension (elsewhere the reported cost is not well defined)", "why_tests_cant": "the number of contraction trees is super-exponential; tests compare against one known sequence", "anchors": ["src/CTL/tensor/contract/tensorGraph.py:TensorGraph.optimalContractSequence (solveSet, bruteForce)"]}
{"id": "C06", "title": "The default (capped) search is optimal over the trees it allows, and terminates", "statement": "The default search of optimalContractSequence returns a sequence whose total cost is minimal among all contraction trees that never form an outer product of two diagonal tensors; it terminates whenever such a tree exists and all costs are positive.", "quantifier": "all tensor graphs without self loops whose diagonal tensors have legs of one dimension, all dimensions >= 1, every typicalDim >= 1 or None (None: every tensor has a leg)", "why_tests_cant": "incremental cost caps with 'new' flags are an optimisation whose correctness is an invariant over rounds, not visible in sampled outputs", "anchors": ["src/CTL/tensor/contract/tensorGraph.py:TensorGraph.optimalContractSequence (capping)"]}
{"id": "C07", "title": "Greedy search yields a valid sequence on connected networks", "statement": "optimalContractSequence(greedy=True) on a connected graph returns n-1 valid steps with a < b in every step; on a disconnected graph it does not return (it raises).", "quantifier": "all connected tensor graphs of every size without self loops whose diagonal tensors have legs of one dimension; all disconnected such graphs for the failure half", "why_tests_cant": "connectivity must be preserved along every merge, for every graph", "anchors": ["src/CTL/tensor/contract/tensorGraph.py:TensorGraph.optimalContractSequence (greedySearch)"]}
{"id": "C08", "title": "Predicted contraction cost equals the incurred cost", "statement": "The cost that contractAndCostWithSequence accumulates while executing the computed sequence equals the cost the search reported (typicalDim=None, dense tensors).", "quantifier": "all dense networks with bonds inside the list, all sequences produced by the search", "why_tests_cant": "two different formulas (graph-side square roots over edges, tensor-side products over leg dims) must agree for every network", "anchors": ["src/CTL/tensor/contract/optimalContract.py:contractCost", "src/CTL/tensor/contract/optimalContract.py:contractAndCostWithSequence", "src/CTL/tensor/contract/tensorGraph.py:getCost"]}
{"id": "C09", "title": "Splits of a tensor set are enumerated exactly once", "statement": "For every set of tensors the search considers every way of splitting it into two non-empty parts, each unordered split exactly once.", "quantifier": "all bit masks of every size", "why_tests_cant": "bit-trick enumeration: must hold for every mask", "anchors": ["src/CTL/tensor/contract/tensorGraph.py:subsetIterator", "src/CTL/tensor/contract/tensorGraph.py:lowbit"]}
{"id": "C10", "title": "Bonds are symmetric", "statement": "After any sequence of makeLink calls on legs that are free at the time of the call, following a bond from a leg and back returns to the same leg, the two legs have equal dimension, and every leg has at most one partner. Linking an already linked leg breaks this: the former partner keeps pointing at it.", "quantifier": "all histories of makeLink calls, successful or failing", "why_tests_cant": "an invariant over unbounded call histories", "anchors": ["src/CTL/tensor/contract/link.py:makeLink", "src/CTL/tensor/bond.py:Bond", "src/CTL/tensor/leg.py:Leg.anotherSide"]}
{"id": "C11", "title": "Shared bonds are found, once each, oriented from the first tensor", "statement": "shareBonds(a, b) returns exactly the bonds joining a leg of a to a leg of b, each once, ordered by a's legs, and each bond's first side is the leg of a.", "quantifier": "all pairs of distinct tensors in all consistently linked networks", "why_tests_cant": "must hold for every linking pattern, including self-bonds and bonds to third tensors", "anchors": ["src/CTL/tensor/contract/contract.py:shareBonds"]}
{"id": "C12", "title": "Copying a tensor list preserves the network and leaves the originals untouched", "statement": "copyTensorList returns tensors with the same labels, dimensions and data in the same positions; two copied legs are linked iff the originals were linked inside the list; no leg, bond or array of the originals changes.", "quantifier": "all tensor lists and linkings, including bonds leaving the list", "why_tests_cant": "object identity and aliasing over all network topologies", "anchors": ["src/CTL/tensor/contract/optimalContract.py:copyTensorList", "src/CTL/tensor/tensor.py:Tensor.copy"]}
{"id": "C13", "title": "A constructed Tensor is self-consistent or construction raises", "statement": "Tensor(shape, labels, data, legs) either raises or yields a tensor whose legs, labels and data agree: as many legs as axes, each leg's dimension equals the array's extent along that axis, labels in the given order; given data entries are preserved in row-major order.", "quantifier": "all combinations of optional shape / labels / data / legs arguments", "why_tests_cant": "sixteen combinations of optional arguments times arbitrary values", "anchors": ["src/CTL/tensor/tensor.py:Tensor.__init__", "src/CTL/tensor/tensor.py:Tensor.deduction", "src/CTL/tensor/tensor.py:Tensor.generateData"]}
{"id": "C14", "title": "A constructed DiagonalTensor is self-consistent or construction raises", "statement": "DiagonalTensor(...) either raises or yields a tensor whose 1-D data length equals the common dimension of all its legs.", "quantifier": "all combinations of optional shape / labels / data / legs arguments", "why_tests_cant": "the offending combination (1-D data whose length is the product of the shape) is outside every test", "anchors": ["src/CTL/tensor/diagonalTensor.py:DiagonalTensor.deduction", "src/CTL/tensor/diagonalTensor.py:checkShapeDataCompatible", "src/CTL/tensor/diagonalTensor.py:generateData"]}
{"id": "C15", "title": "Moving legs preserves the labelled array", "statement": "moveLegsToFront, moveLabelsToFront, reArrange and toTensor(labels) only permute axes: for every assignment of indices to legs the entry is unchanged, the requested legs come first in the requested order, and the other legs keep their relative order.", "quantifier": "all ranks, all duplicate-free leg lists, all entries", "why_tests_cant": "n! permutations for every n", "anchors": ["src/CTL/tensor/tensor.py:Tensor.moveLegsToFront", "src/CTL/tensor/tensor.py:Tensor.reArrange", "src/CTL/tensor/tensor.py:Tensor.toTensor"]}
{"id": "C16", "title": "toMatrix is the row-major bipartition of the tensor", "statement": "toMatrix(rows, cols) has prod(row dims) rows and prod(col dims) columns, and its entry at (ravel of row indices, ravel of column indices) is the tensor's entry at those indices; omitted rows or cols default to the complement.", "quantifier": "all bipartitions of legs, all ranks and dimensions", "why_tests_cant": "all bipartitions of all shapes", "anchors": ["src/CTL/tensor/tensor.py:Tensor.toMatrix", "src/CTL/tensor/tensor.py:Tensor.complementLegs"]}
{"id": "C17", "title": "outProduct fuses legs without changing entries", "statement": "outProduct(labels, new) replaces the given legs by one leg of dimension equal to the product of theirs; the entry at the row-major fused index is the old entry; total size is unchanged.", "quantifier": "all ranks, all duplicate-free label subsets, all entries", "why_tests_cant": "mixed-radix index arithmetic for every shape", "anchors": ["src/CTL/tensor/tensor.py:Tensor.outProduct"]}
{"id": "C18", "title": "Merging parallel bonds preserves the contraction", "statement": "mergeLink(a, b) fuses all bonds between a and b into one bond; contracting afterwards gives the same labelled array as contracting before.", "quantifier": "all pairs of dense tensors with any number >= 1 of shared bonds in any leg order", "why_tests_cant": "the two sides must be fused in the same order for every permutation of legs", "anchors": ["src/CTL/tensor/contract/link.py:mergeLink"]}
{"id": "C19", "title": "Tags round-trip", "statement": "removeTensorTag after addTensorTag(name) restores every leg name, provided name has no '-'; addTensorTag succeeds exactly when no leg name contains '-'.", "quantifier": "all strings, all numbers of legs", "why_tests_cant": "all strings", "anchors": ["src/CTL/tensor/tensor.py:Tensor.addTensorTag", "src/CTL/tensor/tensor.py:Tensor.removeTensorTag"]}
{"id": "C20", "title": "Textual tensor notation round-trips", "statement": "decodeSubText recovers exactly the list of (leg name, optional dimension) pairs from their textual encoding, with and without braces around names and sizes.", "quantifier": "all lists of legs with non-empty names free of braces and not starting with a digit, all dimensions", "why_tests_cant": "a character-level state machine with four state variables; all strings", "anchors": ["src/CTL/tensor/contract/tensorGraph.py:decodeSubText"]}
{"id": "C21", "title": "Label lookup is positional and total", "statement": "indexOfLabel returns the first (or last, backward) position of a label, or -1 iff absent; renaming a label changes only that first leg's name.", "quantifier": "all label lists including duplicates", "why_tests_cant": "all lists with duplicates and missing labels", "anchors": ["src/CTL/tensor/tensor.py:Tensor.indexOfLabel", "src/CTL/tensor/tensor.py:Tensor.renameLabel", "src/CTL/tensor/tensor.py:Tensor.renameLabels"]}
{"id": "C22", "title": "sumOutLeg sums over exactly that leg", "statement": "sumOutLeg(leg, weights) removes the leg and each remaining entry is the (weighted) sum over that leg's index; sumOutLegByLabel over a list of labels sums them all with the same weights.", "quantifier": "all ranks, legs, weights, entries", "why_tests_cant": "all ranks and leg positions", "anchors": ["src/CTL/tensor/tensor.py:Tensor.sumOutLeg", "src/CTL/tensor/tensor.py:Tensor.sumOutLegByLabel", "src/CTL/funcs/funcs.py:sumOnAxis", "src/CTL/tensor/diagonalTensor.py:DiagonalTensor.sumOutLeg"]}
{"id": "C23", "title": "Finite tensor network contraction equals direct contraction, repeatedly", "statement": "FiniteTensorNetwork.contract(inputs) returns the labelled network sum of the inputs under the declared links, renames and fusions, on new legs that are joined to nothing, does not modify the input tensors, and gives the same result on every call with the same inputs, whatever bond dimensions were used before, as long as tensors and links are not changed after the first contraction.", "quantifier": "all declared networks, all input dictionaries, all histories of contract calls", "why_tests_cant": "the contraction sequence is cached between calls with different dimensions", "anchors": ["src/CTL/tensornetwork/tensornetwork.py:FiniteTensorNetwork.contract", "src/CTL/tensornetwork/tensornetwork.py:loadBondDims"]}
{"id": "C24", "title": "A locked network cannot change", "statement": "After lock (or a contract call) every structural mutator raises and leaves the network unchanged, until unlock.", "quantifier": "all histories of mutator, lock, unlock and contract calls", "why_tests_cant": "invariant over unbounded histories", "anchors": ["src/CTL/tensornetwork/tensornetwork.py:FiniteTensorNetwork.checkLock", "src/CTL/tensornetwork/tensornetwork.py:lock", "src/CTL/tensornetwork/tensornetwork.py:unlock"]}
{"id": "C25", "title": "StringSet never hands out a name in use", "statement": "newString returns a name that was not in the set and records it; add fails iff the name is used; remove fails iff it is not; contains is exactly membership of names added and not removed since.", "quantifier": "all histories of newString/add/remove calls, all random generators", "why_tests_cant": "all histories, all random draws", "anchors": ["src/CTL/funcs/stringSet.py:StringSet"]}
{"id": "C26", "title": "The Ising tensor network evaluates to the partition function", "statement": "The network built by IsingTNFromUndirectedGraph has full contraction value equal to exactZFromGraphIsing of the same graph: the sum over all spin configurations of the product of the edge Boltzmann weights.", "quantifier": "all loop-free graphs in which no vertex is isolated, all non-negative couplings", "why_tests_cant": "all graphs", "anchors": ["src/CTL/models/Ising.py:IsingTNFromUndirectedGraph", "src/CTL/models/Ising.py:IsingEdgeMatrix", "src/CTL/models/Ising.py:IsingSiteTensor", "src/CTL/models/Ising.py:exactZFromGraphIsing"]}
{"id": "C27", "title": "Lattice builders produce the lattices they name", "statement": "squareLatticePBC(n,m) has 2nm edges and every vertex has degree 4; squareLatticeFBC(n,m) has n(m-1)+m(n-1) edges, joining exactly lattice neighbours once; doubleSquareLatticeFBC has n(m+1)+m(n+1) sites and 4nm edges; completeGraph(n) joins every pair of distinct vertices exactly once.", "quantifier": "all n, m >= 1", "why_tests_cant": "all sizes", "anchors": ["src/CTL/funcs/graphFuncs.py"]}
{"id": "C28", "title": "Undirected graphs report each edge once and degrees count edge ends", "statement": "getEdges of an UndirectedGraph returns exactly the edges added so far, each once, at any point of any history of addEdge/getEdges; the sum of degrees is twice the number of edges.", "quantifier": "all histories of addEdge and getEdges, including self loops and parallel edges", "why_tests_cant": "a cached edge list must never be stale, for every interleaving", "anchors": ["src/CTL/funcs/graph.py:UndirectedGraph", "src/CTL/tensor/contract/tensorGraph.py:TensorGraph.addFreeEdge"]}
{"id": "C29", "title": "Impurity binning weights sum to one", "statement": "divideIntoKParts(n,k) lists every k-tuple of non-negative integers with sum n exactly once, and calculateDivisionTimes of each is the multinomial coefficient, so the coefficients over all parts sum to k^n.", "quantifier": "all n >= 0, k >= 1", "why_tests_cant": "all n, k", "anchors": ["src/CTL/funcs/funcs.py:divideIntoKParts", "src/CTL/funcs/funcs.py:myComb", "src/CTL/funcs/funcs.py:calculateDivisionTimes", "src/CTL/examples/impurity.py"]}
{"id": "C30", "title": "Index encodings are inverse bijections", "statement": "intToBitList / intToDBaseTuple / getIndexDict decompose an integer into digits in range whose recomposition gives the integer back modulo the range; safeMod returns the representative in [0, m).", "quantifier": "all integers (also negative), all dimensions", "why_tests_cant": "all integers", "anchors": ["src/CTL/funcs/funcs.py:intToBitList", "src/CTL/funcs/funcs.py:intToDBaseTuple", "src/CTL/funcs/funcs.py:getIndexDict", "src/CTL/funcs/funcs.py:safeMod"]}
{"id": "C31", "title": "CTMRG answers do not depend on query history", "statement": "CTMRG.getZ(L) for L >= 2 evaluates the tensors obtained after exactly max(L//2 - 1, 0) extensions of the initial ones, whatever getZ queries came before and in whatever order.", "quantifier": "all histories of getZ queries, any extension function", "why_tests_cant": "history independence over unbounded query sequences", "anchors": ["src/CTL/examples/CTMRG.py:CTMRG.getZ"]}
{"id": "C32", "title": "Renormalised log-partition bookkeeping is exact", "statement": "HOTRG/SquareTRG.logZDensity()[i] equals log of the trace of the un-normalised i-times coarse-grained tensor divided by the number of sites it represents.", "quantifier": "all numbers of iterations, any coarse-graining map that is positively homogeneous of degree two", "why_tests_cant": "holds for every number of iterations and every tensor; tests compare one temperature", "anchors": ["src/CTL/examples/HOTRG.py:HOTRG.logZDensity", "src/CTL/examples/TRG.py:SquareTRG.logZDensity"]}
{"id": "C33", "title": "MPS reordering moves exactly one site", "statement": "FreeBoundaryMPS.moveTensor(a, b) puts site a at position b and shifts the sites in between by one, keeping every other site and the order of the rest; makeAdjacent makes two sites neighbours without touching the others' relative order.", "quantifier": "all chain lengths and all positions", "why_tests_cant": "all positions on all chains", "anchors": ["src/CTL/examples/MPS.py:FreeBoundaryMPS.moveTensor", "src/CTL/examples/MPS.py:makeAdjacent"]}
{"id": "C34", "title": "MPS bond dimension bound is derived from the chain", "statement": "getChi(None) returns the largest bond dimension of the chain and an explicit chi is returned unchanged.", "quantifier": "all chains", "why_tests_cant": "the code starts from -1 with min; no test inspects the value", "anchors": ["src/CTL/examples/MPS.py:FreeBoundaryMPS.getChi"]}
{"id": "C35", "title": "Bisection brackets the threshold", "statement": "binarySearch on a monotone predicate that is false at the left end and true at the right end terminates and returns a point within eps of the threshold.", "quantifier": "all monotone predicates, all intervals, all eps > 0 (exact arithmetic)", "why_tests_cant": "all predicates", "anchors": ["src/CTL/funcs/funcs.py:binarySearch"]}
{"id": "C36", "title": "Shape-only tensors predict real shapes and costs", "statement": "Contracting, fusing, summing or reordering TensorLike tensors yields the same legs, dimensions and costs as the same operation on real tensors.", "quantifier": "all operations on all shapes", "why_tests_cant": "two code paths must agree for every shape", "anchors": ["src/CTL/tensor/contract/contract.py:contractTwoTensors", "src/CTL/tensor/tensor.py:Tensor.outProduct", "src/CTL/tensor/contract/optimalContract.py:contractCost"]}
{"id": "C37", "title": "List utilities are multiset-exact", "statement": "listDifference(a,b) removes each element of b once from a keeping order and raises iff b is not a sub-multiset of a; compareLists is multiset equality; generateIndices(A,B) returns distinct positions i with A[i]=B[k], taking duplicates left to right, or None iff impossible; pairIterator yields every pair i<j once.", "quantifier": "all lists with duplicates", "why_tests_cant": "all lists", "anchors": ["src/CTL/funcs/funcs.py:listDifference", "src/CTL/funcs/funcs.py:compareLists", "src/CTL/funcs/funcs.py:generateIndices", "src/CTL/funcs/funcs.py:pairIterator"]}
{"id": "C38", "title": "Failed leg operations leave the tensor intact", "statement": "If moveLegsToFront / outProduct / addTensorTag / makeLink raises, the tensors involved are unchanged.", "quantifier": "all tensors and all invalid arguments", "why_tests_cant": "exception safety at every failing point", "anchors": ["src/CTL/tensor/tensor.py:Tensor.moveLegsToFront", "src/CTL/tensor/tensor.py:Tensor.outProduct", "src/CTL/tensor/tensor.py:Tensor.addTensorTag", "src/CTL/tensor/contract/link.py:makeLink"]}
{"id": "C39", "title": "Truncated decompositions have the announced ranks and reproduce the matrix when nothing is cut", "statement": "SVDDecomposition / merge / SchimdtDecomposition keep min(chi, available rank) singular values; when none is discarded the product of the returned factors is the original matrix, and otherwise the squared Frobenius error is the sum of the discarded squared singular values.", "quantifier": "all matrices and chi, given any exact singular value decomposition", "why_tests_cant": "all matrices", "anchors": ["src/CTL/funcs/decompose.py:SVDDecomposition", "src/CTL/examples/Schimdt.py", "src/CTL/tensor/contract/contract.py:merge"]}
{"id": "C40", "title": "Traces agree with contraction", "statement": "Tensor.trace(rows, cols) equals the sum of entries with row indices equal to column indices, and DiagonalTensor.trace equals the trace of its dense expansion.", "quantifier": "all shapes with equal row and column dimensions", "why_tests_cant": "all ranks", "anchors": ["src/CTL/tensor/tensor.py:Tensor.trace", "src/CTL/tensor/diagonalTensor.py:DiagonalTensor.trace"]}
{"id": "C41", "title": "Reordering a matrix product state does not change what it represents", "statement": "FreeBoundaryMPS.swap, moveTensor and makeAdjacent leave the value of the network at every assignment of its free legs unchanged whenever chi is at least the dimension of the moved physical leg times every bond dimension of the chain.", "quantifier": "all chains, all positions, all tensor entries, any exact rank-revealing decomposition", "why_tests_cant": "all lengths, dimensions and entries; a dropped conjugation or a leg put on the wrong side only shows for asymmetric shapes", "anchors": ["src/CTL/examples/MPS.py:FreeBoundaryMPS.swap", "src/CTL/examples/MPS.py:FreeBoundaryMPS.moveTensor", "src/CTL/examples/MPS.py:FreeBoundaryMPS.makeAdjacent"]}
{"id": "C42", "title": "CTMRG log scales undo the normalisation exactly", "statement": "If contraction, truncation, norm and evaluation are positively homogeneous, CTMRG.getZ(2m+2) and getZ(2m+3), after any earlier queries, equal the contraction of the corner and edge tensors extended m times without any normalisation.", "quantifier": "all m, all query histories, all homogeneous contraction and truncation maps with positive norms along the way", "why_tests_cant": "one temperature and a few sizes cannot show that every scale factor is counted with the right multiplicity", "anchors": ["src/CTL/examples/CTMRG.py:CTMRG.iterate", "src/CTL/examples/CTMRG.py:CTMRG.getZ"]}
{"id": "C43", "title": "HOTRG takes the direction of least error and records it for replay", "statement": "If no truncation error is negative, HOTRG.iterate uses a direction whose error is least among the four and appends this direction, its projector and its error; impurityIterate with the archived tensor twice reproduces the next tensor before normalisation.", "quantifier": "all tensors, all trial functions with non-negative errors, all numbers of iterations", "why_tests_cant": "the choice depends on all four errors and the replay on the whole history", "anchors": ["src/CTL/examples/HOTRG.py:HOTRG.iterate", "src/CTL/examples/HOTRG.py:HOTRG.impurityIterate"]}
{"id": "C44", "title": "Impurity tensors give the moments of the block mean", "statement": "With order-k impurities sum_s m(s)^k X(s) of the site tensor sum_s X(s), measureObservables()[i][k] of an ImpurityTensorNetwork over HOTRG is the k-th moment of the mean of m over the 2^i sites of a block, weighted by the traces of the block tensors, however pure and impurity iterations were interleaved.", "quantifier": "all finite site state spaces, observables, tensors, orders, bilinear coarse-graining steps and interleavings", "why_tests_cant": "the binomial weights and norms have to match for every order and depth", "anchors": ["src/CTL/examples/impurity.py:ImpurityTensorNetwork.iterate", "src/CTL/examples/impurity.py:ImpurityTensorNetwork.measureObservables"]}
{"id": "C45", "title": "When a finite tensor network searches for a new contraction sequence", "statement": "FiniteTensorNetwork.contract keeps the stored contraction sequence unless there is none yet, or the network was made with realCost = True and some labelled axis of the current (renamed, tagged) tensors has a dimension different from the recorded one; in that case the new stored sequence is the sequence of a contraction tree that no other contraction tree of the current network beats, under the real dimensions (realCost) or the typical dimension. After the call all dimensions of the call are recorded and all other records are unchanged; a second call whose axes all occur in the first with equal dimensions keeps the sequence.", "quantifier": "all networks in any reachable state of their life, all fitting inputs, all numbers of search rounds from some point on, all contraction trees", "why_tests_cant": "a wrong cache policy changes cost, not results, so value tests pass; optimality is over all contraction trees", "anchors": ["src/CTL/tensornetwork/tensornetwork.py:76-82", "src/CTL/tensornetwork/tensornetwork.py:115-124", "src/CTL/tensor/contract/optimalContract.py:139-161"]}
{"id": "C46", "title": "Canonical form of a matrix product state", "statement": "FreeBoundaryMPS.canonicalize(idx) of a chain of any length returns a chain with the same physical legs in the same order in which every site left of idx is an isometry towards its right bond and every site right of idx an isometry towards its left bond; no bond is wider than chi; idx is recorded. If no bond was wider than chi the state (the network's value as a function of its free legs) is unchanged and no bond grows. checkCanonical(idx) of any chain answers True exactly when the chain is in that form at idx; right after canonicalize(idx) checkCanonical() answers True; after swap or setTensor it refuses to answer without an index.", "quantifier": "all chains, lengths, dimensions, bond limits, centres, and all numerical SVD routines meeting their mathematical contract", "why_tests_cant": "the sweep visits n-1 bonds and each step may spoil an earlier isometry; tests fix a length and random data", "anchors": ["src/CTL/examples/MPS.py:126-148", "src/CTL/examples/MPS.py:165-193", "src/CTL/tensor/tensorFunc.py:10-39", "src/CTL/examples/Schimdt.py:SchimdtDecomposition"]}
{"id": "C47", "title": "Making a matrix product state", "statement": "FreeBoundaryMPS(tensors, chi) accepts a list of tensors exactly when the list has one tensor, or the two end tensors have two legs, the others three, and neighbours in the list share exactly one bond (otherwise ValueError); if the tensors form a chain it renames the bond legs to 'l' and 'r' and the free ones to 'o' and changes nothing else. createMPSFromTensor(t, chi) of a tensor with n >= 2 unlinked-to-each-other legs returns a chain of n new tensors whose i-th physical leg is the i-th leg of t, with bonds no wider than chi, all sites but the last isometries towards their right bond, every site owning its legs, every older leg keeping its dimension, bond and partner; if chi is at least the smaller side of every cut the chain has the same value as t. A zero tensor or chi = 0 with three or more legs gives ValueError, a tensor without legs AssertionError, one leg gives the chain of t itself.", "quantifier": "all tensors, numbers of legs, dimensions, bond limits, stores, and all numerical SVD routines meeting their mathematical contract", "why_tests_cant": "the decomposition is a loop over the legs with reshapes whose correctness depends on every earlier step; tests fix the number of legs and random data", "anchors": ["src/CTL/examples/MPS.py:24-93", "src/CTL/examples/MPS.py:487-544", "src/CTL/examples/Schimdt.py:168-219"]}
{"id": "C48", "title": "Contracting a network by matrix product states", "statement": "Let chi be large enough that no bond is cut (a bound in the dimensions and the number of legs is given) and the value of the network not identically zero. doubleMerge replaces two bonds between neighbouring sites of two chains of a network by one; mergeMPS leaves one bond between two chains with any number of bonds; contractMPS turns two chains with exactly one bond into the chain of the remaining physical legs, or into a number if none remain. All three keep the value of the whole network, leave the other tensors alone and keep the chain form; contractMPS refuses chains with no bond or several bonds between them, mergeMPS after the beginning those with three or more. contractWithMPS with a valid sequence each of whose steps contracts two groups of tensors with a bond between them succeeds and returns the value of the network as a function of its free legs (on copies of them, all named 'o'), for open and closed networks of tensors with at least one leg; a valid sequence with another kind of step raises AssertionError or AttributeError, and so does a tensor without legs.", "quantifier": "all networks, tensors, dimensions, sequences, chi above the bound, stores, and all numerical SVD routines meeting their mathematical contract", "why_tests_cant": "the result depends on invariants over all chains present after every contraction and merge (at most one bond between two chains, bonds tracked while sites are swapped); tests contract a few small lattices and compare numbers", "anchors": ["src/CTL/examples/MPS.py:325-350", "src/CTL/examples/MPS.py:352-406", "src/CTL/examples/MPS.py:408-485", "src/CTL/examples/MPS.py:546-580"]}
{"id": "C49", "title": "The ready-made networks and traces compute the sums they are named after", "statement": "Every function of contractExp.py that returns a FiniteTensorNetwork (triangle, square, square with outgoing legs, CTMRG edge and corner extension, edge building, even and odd partition function, horizontal and vertical squares in both directions, the two HOTRG steps, the environment of Evenbly's TNR) returns a network whose contract(), for dense tensors with the labels named in the source and equal dimensions along every link, succeeds, also after earlier contractions with any arguments, and returns exactly the labelled array given by an explicit sum over the joined indices of products of entries, with the fused legs in the order stated and the labels after renaming; the inputs keep their legs, names and bonds. One tensor may take several roles (makeSquareTensorDict, makeTriangleTensorDict). The even and odd CTMRG networks give a number. Directions other than the two allowed raise AssertionError. triangleTensorTrace, squareTrace and selfTrace are the sums over equal indices.", "quantifier": "all tensors with the labels, all dimensions, all semirings, all stores, all earlier calls of the same network, all orders of the dictionary", "why_tests_cant": "a wrong label in one link or a swapped pair of fused legs gives a tensor of the right shape whose entries differ only for tensors without the symmetry of the test models; tests contract isotropic Ising tensors", "anchors": ["src/CTL/tensor/contract/contractExp.py:9-322", "src/CTL/tensornetwork/tensornetwork.py"]}
{"id": "C50", "title": "HOTRG computes the partition function of a torus", "statement": "HOTRG, started with a tensor of the square lattice (opposite legs of equal dimension) or with a 4-dimensional array, succeeds in every call of iterate. Each call evaluates the environments of the pair of tensors in the directions u, d, l, r as explicit sums, diagonalizes them in solveEnv, takes the first direction with the smallest error, merges two copies of the tensor with the projector of that direction at both sides, divides by the norm, archives a copy and records norm, error, direction and projector; the degree of freedom doubles. If no step cuts off an eigenvector with a non-zero eigenvalue (in particular if the threshold is 0 and all reported errors are 0), then for every archived tensor i its pureTensorTrace times the product of the recorded norms, each to the power of its number of uses, is exactly the partition function of the original tensor on the torus with 2^a rows and 2^b columns, where a and b count the vertical and horizontal mergings before i; and entry i of logZDensity is its logarithm divided by the degrees of freedom. impurityIterate merges two given tensors with direction and projector of an earlier step. solveEnv returns orthonormal eigenvectors for the largest eigenvalues and as error the share of the sum that is cut off. A norm that is 0 only for zero arrays is never 0 while no partition function is, so for positive entries and nothing cut off logZDensity is exact without further conditions.", "quantifier": "all tensors and arrays with non-zero dimensions over any ordered field, all bond dimensions, all numbers of steps, all earlier uses of the networks, every exact eigensolver and every norm", "why_tests_cant": "tests compare logZDensity with the exact Ising result at a few couplings within a tolerance; Ising tensors are symmetric under rotations and reflections, so an exchanged pair of legs or a projector on the wrong side is not seen", "anchors": ["src/CTL/examples/HOTRG.py:10-186", "src/CTL/funcs/linalg.py:4-32", "src/CTL/tensor/tensorFactory.py:3-67", "src/CTL/tensor/contract/contractExp.py:261-290"]}
{"id": "C51", "title": "Plaquette tensors give the Ising model on a torus", "statement": "squareIsingTensor and plaquetteIsingTensor return tensors with four legs of dimension 2 whose entries are, for every spin configuration of the four legs, the Boltzmann factor of the four couplings around the square (for plaquetteIsingTensor the first weight couples ru-rd and ld-lu, the second rd-ld and lu-ru; in diamond form the legs are r, d, l, u in this order), times the field factor and times the observable asked for. Putting one such tensor on every site of a torus and summing over all legs is the partition function of the Ising model whose spins sit between the plaquettes: every pair of neighbours counts once, every spin counts once in the field, and there are two spins per tensor (degreeOfFreedom = 2). Replacing one tensor by the 'M' or 'E' tensor and summing over its place gives the sum over configurations of the total magnetization or energy times the weight. HOTRG started with squareIsingTensor returns in logZDensity the logarithm of this partition function per spin. infiniteIsingExactM(T, V) for T, V > 0 is the m in [0, 1) with m^8 = max(0, 1 - sinh(2V/T)^-4). Unknown observables and lists of weights of a length other than 2 are refused.", "quantifier": "all real temperatures, couplings and fields, all sizes of the torus, all numbers of HOTRG steps", "why_tests_cant": "tests compare logZDensity with a reference at one or two temperatures without field and with equal couplings; a field counted twice, exchanged couplings or a shifted critical temperature agree there", "anchors": ["src/CTL/models/Ising.py:11-161"]}
{"id": "C52", "title": "SquareTRG computes the partition function of a torus", "statement": "SquareTRG, started with one tensor of the square lattice (opposite legs of equal dimension) or one 4-dimensional array and a positive chi, succeeds in every call of iterate. Each call cuts the tensor along both diagonals, (u, l | d, r) and (u, r | d, l), into two factors with at most chi columns whose product is the sum over the chi leading singular values, puts the four factors around a square as the corners dr, ul, dl, ur, sums over the four inner legs, divides by the norm, archives a copy and records the norm and the pair of cut-off shares; the degree of freedom doubles. If no step cuts off a non-zero singular value (in particular if all recorded errors are (0, 0), or if chi is at least (V*H)^(2^(n-1))), then for every archived tensor i its trace times the product of the recorded norms, each to the power of its number of uses, is exactly the partition function of the original tensor on a torus of 2^i sites: 2^(i/2) by 2^(i/2) for even i, and with diagonal periods for odd i; and entry i of logZDensity is its logarithm divided by the degrees of freedom. With a second tensor the constructor never returns an object. A norm that is 0 only for zero arrays is never 0 while no partition function is, so for positive entries and chi large enough logZDensity is exact without further conditions.", "quantifier": "all tensors and arrays with non-zero dimensions over any ordered field, all positive chi, all numbers of steps, every exact singular value decomposition and every norm", "why_tests_cant": "tests compare logZDensity with the exact Ising result within a tolerance; Ising tensors are symmetric under rotations and reflections, so exchanged corners or legs are not seen, and the truncation hides errors in the lattice", "anchors": ["src/CTL/examples/TRG.py:111-205", "src/CTL/funcs/decompose.py", "src/CTL/tensor/contract/contractExp.py"]}
{"id": "C53", "title": "TriangleTRG computes the partition function of dimers on a lattice of hexagons", "statement": "TriangleTRG with a weight alpha and a positive chi succeeds in every call of iterate. The two tensors of a new object are 1 without a dimer, alpha with a dimer on one of the three bonds and 0 otherwise. Each call joins the two tensors along bond 1, decomposes the matrix (a-2, b-2 | a-3, b-3) into two factors with at most chi columns whose product is the sum over the chi leading singular values, puts three copies of each factor around a triangle, divides both results by their norms, archives copies and records the norms and the cut-off share; the degree of freedom triples. If no step cuts off a non-zero singular value (in particular if all recorded errors are 0, or if chi is at least 4^(2^(n-1))), then no norm is 0, and for every i the trace of the archived pair i, times the product of the recorded norms, each to the power of its number of uses, is exactly the partition function of dimers, no two of which touch, with weight alpha^2 each, on a lattice of 3^i sites of each kind: connected, every site with three bonds, all faces hexagons but three, which have two bonds. Entry i of logZDensity is (log Z_i + sum over j <= i of (9^(i-j) - 3^(i-j)) log n_j) / 9^i, where n_j is the product of the two norms of step j: the code divides by the product of the two degrees of freedom, and with alpha = 1 entry 1 is log Z_1 divided by no natural number whatever.", "quantifier": "all alpha over any ordered field, all positive chi, all numbers of steps, every exact singular value decomposition and every norm that is 0 only for zero arrays", "why_tests_cant": "the test of TriangleTRG only runs it and looks at single entries; the lattice the archived tensors stand for appears in no test, and the truncation hides errors in it", "anchors": ["src/CTL/examples/TRG.py:16-107", "src/CTL/funcs/decompose.py", "src/CTL/tensor/contract/contractExp.py"]}
{"id": "C54", "title": "Finite tensor networks with diagonal tensors", "statement": "If the links join all tensors of a FiniteTensorNetwork into one piece, contract returns the labelled network sum for any mixture of dense and diagonal inputs, at any time in the life of the network, as long as every call has diagonal tensors at the same places and fusions are only declared if some input is dense; the result is diagonal exactly if all inputs are, the inputs are not changed and the result shares no leg with them. The stored contraction sequence never multiplies two groups of diagonal tensors without a link between them. The conditions are needed: with diagonal tensors in several pieces the search never ends, and a network first contracted with dense tensors and then with diagonal ones of the same dimensions returns a wrong array without an exception.", "quantifier": "all networks and all histories of method calls and contractions, all dimensions and entries over any commutative semiring", "why_tests_cant": "the sequence that is used depends on dimensions and on earlier calls; a wrong one gives a wrong array without an exception", "anchors": ["src/CTL/tensornetwork/tensornetwork.py", "src/CTL/tensor/contract/optimalContract.py", "src/CTL/tensor/contract/contract.py", "src/CTL/tensor/diagonalTensor.py"]}
{"id": "C55", "title": "CTMRG computes the partition function of a square lattice with open boundary", "statement": "CTMRG accepts a tensor with legs l, r, u, d in any order, and with any positive chi every sequence of calls of getZ(L), L >= 1, succeeds. Each call of iterate records copies of the corner and the two edges with their scales, adds one site in either direction, decomposes the new corner, puts the two edges between two copies of the left and the right factor, divides by the norms and adds the logarithms to the scales. If all four legs have the same dimension D, if chi is at least D^(L // 2) and if no square block, row or column of up to L // 2 sites has only the weight 0 (in particular if all entries are positive), then getZ(L) is exactly the sum over all bonds, those at the boundary included, of the product of the weights of L x L sites, where beyond the middle the tensor is read reflected; if the tensor is symmetric under reflections this is the open lattice with the same tensor everywhere. In particular with squareIsingTensor(beta, field) and chi at least 2^(L // 2), getZ(L) is the partition function of the Ising spins on the bonds of the open lattice. The calls made before, also with lattices so large that singular values were cut off, do not matter. With different dimensions for vertical and horizontal bonds this is false however large chi is: for V = 2, H = 1 and the matrix with rows (1, 1) and (0, 1), getZ(4) is 9604 where the partition function is 10000.", "quantifier": "all tensors over any ordered field, all dimensions, all chi, all histories of calls, every exact orthogonal singular value decomposition, every norm that is 0 only for zero arrays", "why_tests_cant": "the test compares a few lattices of one symmetric Ising tensor up to a tolerance; neither asymmetric tensors, unequal dimensions nor the reuse of records after longer runs are tested", "anchors": ["src/CTL/examples/CTMRG.py:9-186", "src/CTL/tensor/tensorFunc.py:48-113", "src/CTL/tensor/contract/contractExp.py"]}
{"id": "C56", "title": "ImpurityTensorNetwork measures averages on a torus", "statement": "For a HOTRG object and any number of ImpurityTensorNetwork objects bound to it, with calls in any order: HOTRG.iterate always succeeds; impurities with the dimensions of the original tensor can always be made; iterate of a network succeeds exactly if HOTRG is at least one step ahead, there is at least one impurity and the first impurity has a degreeOfFreedom (otherwise AssertionError, IndexError or TypeError), and then it is one step further, leaving the records of HOTRG as they were. The archive has one list of as many tensors as orders for each step, with the norms of HOTRG. If none of these steps has cut off anything of a pair of tensors or of a pair of impurities of a total order below the number of orders (in particular if all projectors are square), then measureObservables succeeds, and entry k of step i is exactly the sum over all ways to put k marks on the 2^i sites of a torus, a site with j marks carrying impurity j, divided by (2^i)^k and by the partition function; entry 1 is the average per site of the second impurity in a torus of the first one. With the tensors of squareIsingTensor without and with obs this is the average magnetization or energy per tensor of the Ising model. With highestOrder above the number of impurities iterate always raises AttributeError. For positive entries, square projectors and a norm that is 0 only for zero arrays this needs no condition on the recorded norms.", "quantifier": "all tensors and impurities over any ordered field, all dimensions, all numbers of orders and steps, all histories of calls on any number of networks, every exact eigensolver, every non-zero norm", "why_tests_cant": "the test follows one Ising run and compares with a tolerance; which impurities are joined in which place with which binomial weight shows up only in moments of higher order, and interleaving with HOTRG steps is not tested", "anchors": ["src/CTL/examples/impurity.py:7-98", "src/CTL/examples/HOTRG.py"]}
{"id": "C57", "title": "Networks written as text are read as written", "statement": "createTensorListFromText, applied to the text of any network in the notation (an upper-case letter and then the legs for every tensor) in which no leg name occurs more than twice and legs with the same name do not have different dimensions, creates exactly the tensors of the text in this order with these names and labels, joins exactly the legs with the same name, and gives a leg the dimension written at it or at the leg it is joined to (None if there is none); existing legs are not changed. If a name occurs three times or dimensions differ, AssertionError is raised. So it is for the empty text, a text that does not begin with an upper-case letter, and a tensor without a lower-case letter in its legs anywhere in the text. If no tensor uses a name twice, makeTensorGraphFromText succeeds, and the graph has the tensors of the text as vertices, one edge for each name with the dimension of this name, and the edges at a vertex are the names of the legs of the tensor.", "quantifier": "all well-formed stores, all networks of any number of tensors and legs with any valid way of writing each leg", "why_tests_cant": "the tests read two texts and compare only the cost of the best sequence; dimensions at the second leg only, a last tensor without legs, and names in braces shared by tensors are not compared", "anchors": ["src/CTL/tensor/contract/tensorGraph.py:483-520", "src/CTL/tensor/contract/optimalContract.py:134-137"]}
{"id": "C58", "title": "Copies of matrix product states and random matrix product states", "statement": "copyOfTensors of a matrix product state (a chain with the names l, r, o) gives, for any number of sites, tensors that are copies of the sites (labels, dimensions and data equal, all objects new), joined as a chain in the same order with the same names, with free physical legs; nothing of the original is changed, and the value of the chain of copies is that of the original for all values of the free legs. makeRandomMPS(n, virtualDim, physicalDim, chi) for n > 1, with dimensions given as an int or as a list of the right length, gives a chain of n new tensors with axes (physical, left, right), site i having the physical dimension physicalDim[i] and the bond between i and i + 1 the dimension virtualDim[i]; its entries are the random numbers divided by their norm, so the squares of the entries sum to one; chi is the given one, virtualDim[0] for -1, and -1 for None. Existing legs are not changed. If n <= 1 or a list has another length, AssertionError is raised.", "quantifier": "all well-formed stores, all chains, all n, all dimensions, all random numbers", "why_tests_cant": "the tests make random states of a few sizes and look at norms; a wrong dimension list entry, a wrong order of the bonds for n = 3 or links shared between copy and original depend on n and on unequal dimensions", "anchors": ["src/CTL/examples/MPS.py:255-259", "src/CTL/examples/MPS.py:261-323"]}
{"id": "C59", "title": "Copies that take over the bonds to other tensors, and matrix product states of copies", "statement": "copyTensorList(tensorList, linkOutgoingBonds = True), for tensors with legs and data that name no tensor twice, gives copies (labels, dimensions and data equal, all objects new) such that a bond between two of the given tensors exists between their copies as well and is kept, a bond to any other tensor now leads to the copy and no longer to the original, free legs stay free and nothing else changes. In any network that contains the given tensors they can be replaced by the copies: the bonds are the same under the renaming of legs and so is the value of the contraction. The legs that led outside have lost the attribute bond, and copying the originals again in this way raises AttributeError. FreeBoundaryMPS(tensorList, chi, inplace = False), for a list with the shape of a chain, whatever the labels, gives a matrix product state of copies with labels l, r, o in the same order, whose physical legs have taken over the bonds of the physical legs of the given tensors; the legs of the given tensors keep their labels and dimensions. A list without the shape of a chain raises ValueError.", "quantifier": "all well-formed stores, all lists of tensors, all networks around them, all labels, all chi", "why_tests_cant": "the tests copy lists without outgoing bonds, or look at one network; a bond that is joined to both tensors, an inner bond that is cut or an outgoing bond that is skipped because it was seen depends on how the tensors are linked", "anchors": ["src/CTL/tensor/contract/optimalContract.py:8-60", "src/CTL/examples/MPS.py:78-93"]}
{"id": "C60", "title": "Singular value decomposition of a tensor", "statement": "tensorSVDDecomposition(a, rows, cols, innerLabels, chi, errorOrder), for a tensor whose labels are those of rows and cols in any order, none twice, and an SVD routine that returns a singular value decomposition: u has the labels (rows joined by '|', first inner label), v (second inner label, cols joined by '|'), s is diagonal with the labels of rows and cols; the inner legs have min(chi, number of singular values) values; u and v are isometries; the sum of the squared moduli of a - u s v over all entries is the sum of the squares of the singular values left out, so u s v = a entry by entry if those are zero, in particular whenever chi is not smaller than the smaller side of the matrix; the number returned as error is the share of the singular values left out in the power errorOrder, and 0 if none is left out. Existing legs are not changed.", "quantifier": "all well-formed stores, all tensors, all divisions of the labels, all inner labels that do not clash, all chi > 0, all errorOrder, all fields with conjugation, all SVD routines meeting the contract", "why_tests_cant": "tests decompose one random matrix with one chi; the order of the joined legs, an inner leg that is cut on one side only, or an error computed from the wrong part of the singular values shows for unequal dimensions and chi in between", "anchors": ["src/CTL/tensor/tensorFunc.py:41-113", "src/CTL/funcs/decompose.py:7-57"]}
{"id": "C61", "title": "What a tensor graph answers: optimal cost and graph of the network", "statement": "optimalCostResult of a TensorGraph is the cost of the best contraction of all tensors: after any calls of optimalContractSequence of which the last one that is not greedy returned normally, it is the smallest cost of a contraction tree, in the sense of that search (real dimensions, or the typical dimension), whatever greedy searches came after. tensorNetworkGraph of the graph of a network (makeTensorGraph) has one node per tensor and an edge between two nodes if and only if the two tensors share a bond; free legs do not appear, the weight of an edge is the dimension of a bond between the two tensors, and the answers of the searches are not changed by the call. Not as documented: on a graph that has not been searched, or only greedily, optimalCostResult raises AttributeError instead of searching; after a search that raised it is None; after a search with a typical dimension it is not the exact cost; of several bonds between the same two tensors only the last is kept.", "quantifier": "all tensor graphs, all sequences of searches with all parameters, all networks", "why_tests_cant": "tests query the cost once, right after one search; the answer depends on the history of calls, and for the graph on which tensors share bonds", "anchors": ["src/CTL/tensor/contract/tensorGraph.py:42-48", "src/CTL/tensor/contract/tensorGraph.py:74-110", "src/CTL/tensor/contract/tensorGraph.py:112-167"]}
{"id": "C62", "title": "Contracting a list of tensors with all options at their defaults", "statement": "contractTensorList(tensorList), for a network of tensors with legs, without dimension 0 and without bonds to other tensors, returns after finitely many rounds of the search a new tensor whose legs stand for the free legs of the network, with their names and dimensions, and whose entries are the sums over all bonds of the products of the entries of the tensors; every leg and link that there was is as before, so that the tensors form the same network afterwards and can be contracted again with the same result. contractAndCostWithSequence with inplace = False does the same for any given valid sequence and for any sequence found (brute force, capped, greedy); the cost it returns is that of the sequence on the given tensors, and the cost reported by the search if real dimensions are used.", "quantifier": "all networks of dense tensors, all commutative semirings, all valid sequences, all search modes, all typical dimensions", "why_tests_cant": "tests contract a few networks once and compare numbers; that originals stay linked, that a second call agrees and that the cost is that of the originals depends on how copies are linked in an arbitrary network", "anchors": ["src/CTL/tensor/contract/optimalContract.py:182-237", "src/CTL/tensor/contract/optimalContract.py:239-266"]}
{"id": "C63", "title": "Queries about the legs of a tensor, and dictionaries of tensors", "statement": "shapeOfLabels gives for each label the dimension of a leg with this label, the first one with it (the last one if backward), and for a label asked for again the one from the other end; for a tensor with different labels these are the dimensions of the legs. For a label that the tensor does not have, where shapeOfLabel answers -1, shapeOfLabels answers the dimension of the last leg, and raises IndexError if there is no leg. labelsInTensor is true if and only if all the labels are there. bondDimension is the dimension of the first leg, with a warning if and only if some leg has another one; totalSize is the product of the dimensions. A TensorDict answers with the tensor stored last under the name and not deleted since, KeyError if there is none, tensorCount is the number of names with a tensor, and deleteTensor raises AssertionError without a change exactly if there is none.", "quantifier": "all tensors, all labels, all sequences of calls", "why_tests_cant": "tests ask tensors with different labels for labels they have; repeated and missing labels and histories of calls are not tried", "anchors": ["src/CTL/tensor/tensor.py:394-396", "src/CTL/tensor/tensor.py:432-444", "src/CTL/tensor/tensor.py:756-824", "src/CTL/tensor/tensor.py:1046-1077", "src/CTL/tensor/diagonalTensor.py:469-478", "src/CTL/tensornetwork/tensordict.py:1-21"]}
{"id": "C64", "title": "Measures of error of matrices measure what they are documented to measure", "statement": "For matrices of real or complex numbers: `identityError` is the norm of the difference to the identity and `checkIdentity(a, eps)` tells whether it is below `eps`; `projectorError` is the distance of a†a to the identity; `symmetricError`, `diagError` and `matDiffError` are the norms of a - aᵀ, of the off-diagonal part and of a - b relative to the norm of a, and vanish exactly for symmetric, diagonal and equal matrices; `normalizeInfinity` makes the largest absolute value 1. With `checkIdentity`, `isIsometry` accepts exactly the tensors that are isometries up to eps, and `checkCanonical` the matrix product states whose sites left and right of the centre are isometries up to eps; after `canonicalize` it answers True. The deprecated `getDiffError` does not return the sum of squared differences it documents, and rows are taken for symmetric and diagonal matrices.", "quantifier": "all real and complex matrices, all thresholds eps > 0, all tensors with distinct labels, all well-formed chains, all centres", "why_tests_cant": "the claims are about every matrix over an infinite field and every threshold; tests try single matrices, and the wrong answers for rows and for signs do not show with the matrices they try", "anchors": ["src/CTL/funcs/funcs.py:328-482", "src/CTL/funcs/funcs.py:713-727", "src/CTL/tensor/tensorFunc.py:10-39", "src/CTL/examples/MPS.py:165-193"]}
{"id": "C65", "title": "The small helpers return what they describe, with the named exceptions", "statement": "`tupleRemoveByIndex` drops exactly the named positions (negative ones have no effect); `spinChainProductSum` sums the products of neighbours on the ring; `getValidValues`, `getCombineSet`, `identicalTensorDict` and `combineName` return exactly the selected positions, elements, entries and names; `partialInverse` inverts below the cutoff and is zero above; `oppositeDirection` is an involution defined exactly on words over l, r, u, d; `floatEqual`, `floatRelativeEqual`, `floatArrayEqual` and `getInRangeFunc` decide the stated inequalities; `priorDataType` of two floating or complex types has the larger precision and is complex exactly when one of them is; `getNewString` returns a string that is not known; `sumOnAxis` with weights, through the einsum string it builds, is the weighted sum over the one axis; `ndEye` is the diagonal tensor and `toVector` lists the entries in C order. Not as documented: `floatRelativeEqual` is false for equal numbers that are not positive, `priorDataType` takes two int64 for complex64, `ndEye(1, l)` has a single 1, `triangleWeight` is 0 for every number of equal pairs that three spins can have, `indexTupleToStr` counts letters from 0.", "quantifier": "all lists, index lists, dictionaries, thresholds, words, rational numbers, arrays of at most 25 axes and every axis, all random sequences", "why_tests_cant": "the claims are about every list, every array rank and every axis; tests try a few, and negative numbers, integer types and one-dimensional eyes were not among them", "anchors": ["src/CTL/funcs/funcs.py:77-137", "src/CTL/funcs/funcs.py:270-292", "src/CTL/funcs/funcs.py:599-619", "src/CTL/funcs/funcs.py:687-711", "src/CTL/funcs/funcs.py:759-878", "src/CTL/funcs/funcs.py:923-1016", "src/CTL/funcs/funcs.py:1103-1148", "src/CTL/funcs/funcs.py:1207-1226", "src/CTL/funcs/funcs.py:1263-1313", "src/CTL/funcs/funcs.py:1346-1382", "src/CTL/tensor/tensor.py:583-595"]}
{"id": "C66", "title": "The networks of TNR contract to the sums their diagrams show, and the isometries are optimal", "statement": "`createQxAFTN`, `createCFTN`, `createCCFTN` and `createSCEnvSFTN` contract any tensors with the required labels and fitting dimensions to the sum of the diagram they describe. The environment of the first isometry, contracted from eight times the same site, is a matrix of scalar products: it is symmetric and has no negative eigenvalue, so that `eigh` applies; the isometry taken from it by `solveEnv` has orthonormal columns, and the reported error `SP1err` is the share of the eigenvalues cut off. `doTNR` reaches its iteration for every site with dimensions other than 0, beside any other tensors, with that isometry, with the site and the isometry contracted, with their ring of four, its double, and `SP2exact` the sum of the squares of the ring. `TensorUpdateSVD` returns an isometry of the shape of the environment; no isometry overlaps more with the environment, and the overlap is the sum of the singular values. It raises a TypeError exactly when one side has no dimensions. The network `createSCEnvSFTN` is the formula in its comment if exchanging left and right leaves the disentangler as it is, and not otherwise.", "quantifier": "all tensors over commutative semirings (ordered fields for the isometries), all dimensions, all environments, all isometries compared with, all earlier contractions of the networks", "why_tests_cant": "the claims compare with every isometry and hold for every tensor and dimension; a test tries random tensors, and no test in the repository runs this example", "anchors": ["src/CTL/examples/TNR.py:20-74", "src/CTL/examples/TNR.py:95-148", "src/CTL/examples/TNR.py:232-240"]}
{"id": "C67", "title": "The updates of `sM` in `doTNR` never raise the truncation error", "statement": "In every round of its iteration `doTNR` replaces `sM` by the first of eleven candidates, on the way from the normalized solution of the linearized problem back to `sM`, whose truncation error is not larger than that of `sM`. If the ring truncated with `sM` is not 0, the update succeeds for every right-hand side and whatever matrix `pinv` returns: a candidate is found, the new `sM` has sum of squares 1 (or is the old one, if the solution is 0), the truncated ring is again not 0, and the truncation error has not grown. By induction this holds for any number of rounds in which only `sM` is updated, so for the first fifty of `doTNR`, with the double of the ring and the `SP2exact` it starts with. The two forms in which the code writes the error are equal. The rescaling after the iteration makes the sum of squares of the ring with `sM` at its four corners equal to that of the ring.", "quantifier": "all rings, environments, matrices and dimensions over ordered fields with square roots of the numbers ≥ 0, all functions in place of `pinv` that keep the shape, all numbers of rounds", "why_tests_cant": "that the error never grows is a claim about every iteration from every start; a test sees single runs with rounding, and no test in the repository runs this example", "anchors": ["src/CTL/examples/TNR.py:137-151", "src/CTL/examples/TNR.py:168-178", "src/CTL/examples/TNR.py:192-194"]}
{"id": "C68", "title": "The updates of `uM` and `yM` in `doTNR` give the isometries with the largest overlap, and `uM` stays symmetric", "statement": "The disentangler `uM` that `doTNR` starts with is an isometry and the same after exchanging left and right. Its update succeeds for all arrays of fitting dimensions and returns an isometry; together with its mirror image no isometry has an overlap, between the ring and the ring with its upper corners replaced, of a larger absolute value. If no singular value of the symmetrised environment is 0, the new `uM` is again the same after exchanging left and right, so that the network `createSCEnvSFTN` keeps agreeing with the formula in its comment (C66), and the overlap is at least the absolute value of that of any isometry with this symmetry, in particular of the old `uM`. The update of `yM` returns an isometry, and no isometry in its place on the left, with the old `yM` on the right, gives a larger overlap.", "quantifier": "all rings, isometries, matrices and dimensions over ordered fields, every exact singular value decomposition with values ≥ 0", "why_tests_cant": "optimality among all isometries and a symmetry kept by every decomposition; no test in the repository runs this example", "anchors": ["src/CTL/examples/TNR.py:127", "src/CTL/examples/TNR.py:180-190", "src/CTL/examples/TNR.py:230-240"]}
{"id": "C69", "title": "The isometries `vM` and `wM` of `doTNR` keep the largest part of a positive environment, and their errors are the part cut off", "statement": "For all arrays `yM`, `sM` and `qA` of fitting dimensions the two environments at the end of `doTNR` exist, and each is the product of one half network with itself, summed over the six legs on which the halves meet. The symmetrised environment is a symmetric matrix without negative eigenvalues. The columns of the isometry are orthonormal eigenvectors of it for the largest eigenvalues, the largest first, as many as `solveEnv` keeps, reshaped to two legs of the dimension of the environment. `SP3err` and `SP4err` are the sum of the eigenvalues cut off divided by the sum of all.", "quantifier": "all arrays and dimensions over ordered fields, every exact diagonalization, every chi", "why_tests_cant": "positivity holds only because both halves are wired alike in a contraction of 24 tensors with 30 index numbers; no test in the repository runs this example", "anchors": ["src/CTL/examples/TNR.py:197-218"]}
{"id": "C70", "title": "`doTNR` restores the norm of the ring and returns a normalised site with the symmetries of the lattice", "statement": "After the division of `sM` by the eighth root of `Cnorm`, the ring with `sM` on its four legs has the same norm as the ring without it, and `sM` has changed only by a factor other than 0. The contraction of sixteen tensors that gives the new site is a ring of four: two pairs of corners with `vM` and two pairs of `yM` with `wM`. `Aout` has the dimensions of `vM` and `wM` on opposite legs, norm 1, and `Anorm * Aout` is that ring. A half turn leaves `Aout` as it is, for all arguments. If each column of `vM` and of `wM` takes a sign when its two legs are exchanged, then exchanging left and right, or up and down, multiplies each entry of `Aout` by the product of the signs of its four indices.", "quantifier": "all arrays of fitting dimensions over fields, with a ring and a site that are not 0, every eighth root and every norm whose square is the sum of the squares", "why_tests_cant": "equality of networks with twenty index numbers for all arrays, and symmetries of all entries; no test in the repository runs this example", "anchors": ["src/CTL/examples/TNR.py:192-194", "src/CTL/examples/TNR.py:221-225"]}
