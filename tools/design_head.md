# Formal model of graphblas-algorithms in Lean 4

Source: `/repo` (pinned commit), Python.  Model and proofs: `/verif/lean/Verif`.
(This file is assembled by `tools/design.py` from `tools/design_head.md`, `tools/claims.txt`, `properties.jsonl`
and `tools/design_tail.md`.)

## 1. Architecture

| Layer | Directory | Content |
|---|---|---|
| GraphBLAS semantics | `Verif/GB` | sparse vectors/matrices as total functions into `Option`, eWiseAdd / eWiseMult / eWiseUnion, reductions, masks, accumulators, vxm / mxv / mxm over a user semiring, extract, select, concat. Trusted reading of python-graphblas. |
| Specifications | `Verif/Spec` | definitions that do not mention the model: walks, distances, weights, simple paths, triangle sets, Python dict / set semantics, k-trusses, fixed points, ... |
| Model | `Verif/Model` | one file per Python file (or group); each definition cites file and lines (checked by `tools/citations.py`). |
| Helper proofs | `Verif/Proofs` | invariants and helper lemmas. |
| Properties | `Verif/Props` | the property theorems, with concrete cases (`example`) meeting their hypotheses. |
| Tests | `Verif/Tests` | the project's own unit tests, run on the model by kernel evaluation: a check that the model reads the code correctly, not a proof of anything. |

`Vec n α := Fin n → Option α`, `Mat m n α := Fin m → Fin n → Option α`: index `i`
"stores `a`" iff the function returns `some a`.  Python exceptions are values of
`Except Err`.  Loops are structural recursions over the Python `range`, or take the
bound the code itself uses; where the Python loop is `while True` the model takes fuel and
a theorem shows that a fuel computed from the size is always enough (termination), or that no fuel is enough
(`bellman_ford_path_may_not_terminate`).

A graph object is `Model.Graph K α`: size, matrix, `key_to_id` association list, `directed` and `multi` flags.
`Graph.WF` says that keys and numbers are in bijection; `wrap_matrix_wf`, `from_networkx_wf`, `results_wf` show that
constructors and results satisfy it.  `At u i` is "node `u` has number `i`", `Edge`/`Weight` read the matrix by node.

Two parts of the code need a state: the property cache (`Model/Cache.lean`: state monad over the cache
dictionary; one transition per `get_property`, in the code's branch order) and the memo dictionary of `_cacheit`
(`Model/Memo.lean`, on top of the cache).  All other models take the *values* of properties; C01/C02 justify this, and
where the cache can return something else (C01-C03 findings) C06 shows the consequence for callers.

Object identity (who may modify whom) is not visible in the value models.  It has its own model
(`Model/Effects.lean`): a small reference-level language (bind, allocate, call, overwrite, branch, loop, yield,
raise), with an operational semantics over a heap, and a checker for ownership.  `tools/effects.py` translates all
function bodies of the package into this language (`Model/EffectsTable.lean`, generated, committed); the checker is
proved sound in `Proofs/Effects.lean` and evaluated on the table in the kernel (`Props/Effects.lean`).

## 2. Trusted base

* Lean 4.33.0 kernel.  Every theorem named in MANIFEST.json depends on no axiom other than `propext`,
  `Classical.choice`, `Quot.sound` (vcheck prints them).  No axioms are declared, no compiled evaluation is used.
* The reading of Python and of python-graphblas / SuiteSparse (`Verif/GB/Basic.lean`):
  infix `+` is ewise_add, `-` is ewise_union with default 0, `*`, `/`, `&` are
  intersections; `v & A` with the vector on the left aligns `v` with rows, `A & v` aligns
  with columns; `.S` = structural mask, `.V` = value mask, `~` complements; `replace=True`
  clears entries outside the mask; `reduce_rowwise(monoid)` is absent on empty rows;
  reductions of empty objects to scalar give "no value".
* One access to a Python dict is atomic with respect to other threads (C100, C101).
* The `any` monoid may return any operand.  Where values can be seen through it the operator is a parameter `choose`
  of the theorem; elsewhere the model takes the first and theorems speak only about patterns.
* Numbers: weights are elements of an ordered abelian group (shortest paths) or of a linearly ordered field
  (numerics).  Floating-point rounding is modelled for weighted shortest paths (`Model/Float.lean`, C108: the same definitions instantiated with a rounded addition; overflow to infinity is allowed by the exactness theorems, excluded by a hypothesis of the accuracy theorems) and for pagerank, katz_centrality, hits, google_matrix, eigenvector_centrality, weighted cut_size and weighted volume (`Model/FloatRank.lean`, `Model/FloatKatz.lean`, `Model/FloatHits.lean`, `Model/FloatGoogle.lean`, `Model/FloatEigen.lean`, `Model/FloatCuts.lean`, `Model/Binary64.lean`, C127, C129–C133: the arithmetic is a parameter; no overflow) and for the functions that return a quotient of counts (`Model/FloatRatio.lean`, C128); elsewhere rounding and infinities, and NaN everywhere, are **not** modelled.  Integer overflow is modelled for weighted shortest paths, for sums and differences of weights and for the triangle counters of k_truss only (`Model/Machine.lean`, C106, C107, C109: the same definitions instantiated with `b`-bit wrapping integers); everywhere else, and for dtype selection, it is **not**.
* Python's `float(text)` is a parameter of the chunk-size theorems; the cube root in weighted clustering and the
  square root in L2 norms are arbitrary functions (with `f 0 = 0`, or `sqrt x * sqrt x = x`, where needed).
* `gb.io.from_networkx`, NetworkX's `add_edges_from`, numpy `sort`, `lexsort`, `array_equal`, CPython's
  `MutableMapping`/`MutableSet` mixins, `sorted`, dict order: modelled by their documented behaviour.
* `tools/effects.py`, the translator of the ownership model, is trusted to read the Python `ast` correctly.

### What is modelled

| Python | Model |
|---|---|
| `classes/graph.py`, `digraph.py`, `_caching.py` (property getters, AutoDict, `has_self_edges`, priorities, aliases) | `Cache.lean` (each program is the tree of its accesses to the dictionary) |
| property names: the class-level table from names to getters (`AutoDict.__missing__`), `get_property`, `get_properties` | `Names.lean` |
| the bodies of 53 library functions as programs that look properties up in a given order | `Programs.lean`, `Run.lean`, `RunNum.lean` |
| threads that interleave their accesses to one object's cache, and calls cut off between accesses | `Threads.lean` |
| `classes/_utils.py` (conversions, `_cacheit`, `renumber_key_to_id`, `from_networkx`, `to_networkx`) | `Convert.lean`, `Memo.lean`, `Graph.lean`, `Ego.lean` |
| `Graph.__init__`, `DiGraph.__init__`, `to_undirected_graph`, `to_directed_graph`, `to_graph`, the `not_implemented_for` decorators | `Convert.lean`, `Input.lean`, `Construct.lean` |
| `DiGraph.to_undirected`, `DiGraph.reverse` | `Ego.lean`, `Operators.lean` |
| `classes/nodemap.py`, `classes/nodeset.py` | `NodeMap.lean`, `Maps.lean`, `Dict.lean`, `SetOps.lean`, `MapViews.lean` |
| `algorithms/_bfs.py`, `shortest_paths/unweighted.py`, `generic.py`, `traversal`, `components`, `dag.py`, `lowest_common_ancestors.py`, `efficiency_measures.py` and their nxapi wrappers | `Bfs.lean` |
| `shortest_paths/weighted.py` | `BellmanFord.lean`, `BellmanFordPath.lean`, `Workspace.lean` (in-place version) |
| `shortest_paths/dense.py` | `FloydWarshall.lean`, `Workspace.lean` (in-place version) |
| `generators/ego.py` | `Ego.lean` |
| `algorithms/cluster.py`, `core.py` | `Cluster.lean`, `ClusterW.lean`, `Square.lean`, `GenDegree.lean`, `Truss.lean` |
| `operators/binary.py`, `operators/unary.py` | `Operators.lean` |
| `boundary.py`, `cuts.py`, `dominating.py` | `Cuts.lean` |
| `isolate.py`, `regular.py`, `tournament.py`, `simple_paths.py`, `reciprocity.py`, `smetric.py`, `community/quality.py`, `structuralholes.py`, `triads.py`, `isomorphism/isomorph.py`, `centrality/degree_alg.py` | `Small.lean` |
| `link_analysis/*`, `centrality/eigenvector.py`, `katz.py`, `_helpers.py` | `PowerIter.lean`, `Buffers.lean` (in-place version) |
| `traversal/breadth_first_search.py:bfs_layers` and the all-pairs functions of nxapi as generators, step by step | `Lazy.lean` |
| `linalg/*` | `Linalg.lean` |
| `nxapi/_utils.py` | `Utils.lean` |
| the `try ... except` translation of exceptions in nxapi, `algorithms/exceptions.py`, the all-pairs generators (items and the exception that ends them) | `Raises.lean` |
| integer dtypes (`weighted.py:55-61`, `dense.py:34-37`, `_bfs.py:48-50`, `cuts.py:18-38`, `structuralholes.py:4-11`) | `Machine.lean`, `Boolean.lean` |
| floating-point dtypes (`weighted.py:37-39, 70, 89, 134-135, 176`, `dense.py:68`) | `Float.lean` |
| pagerank in floating-point arithmetic (`pagerank_alg.py:12-101`, `_helpers.py:21-29`); IEEE 754 binary64 itself | `FloatRank.lean`, `Binary64.lean` |
| katz_centrality in floating-point arithmetic (`katz.py:11-55`) | `FloatKatz.lean` |
| hits in floating-point arithmetic (`hits_alg.py:9-62`) | `FloatHits.lean` |
| google_matrix in floating-point arithmetic (`pagerank_alg.py:104-162`) | `FloatGoogle.lean` |
| eigenvector_centrality in floating-point arithmetic (`eigenvector.py`, `_helpers.py`, `nxapi/centrality/eigenvector.py`) | `FloatEigen.lean` |
| weighted cut_size and volume in floating-point arithmetic (`cuts.py:18-38`, `nxapi/cuts.py:16-28`) | `FloatCuts.lean` |
| divisions of the normalised results in double precision (`cluster.py:74-193, 196-282`, `cuts.py:41-76`, `reciprocity.py:8-22`, `degree_alg.py:6-32`, `efficiency_measures.py:7-12`) | `FloatRatio.lean` |
| `interface.py` (`convert_from_nx`, `convert_to_nx`) | `Dispatch.lean` |
| all function bodies, for object identity only | `Effects.lean`, `EffectsTable.lean` |

### What is not modelled

NetworkX itself; `interface.py`'s dispatch table, `on_start_tests` and entry-point loading; `nxapi/exception.py` (the
substitute classes when NetworkX is absent); `utils/decorators.py` beyond the decision table of `not_implemented_for`;
names (`name=`) of GraphBLAS objects; graph attributes (`G.graph`) except in C77; dtypes except in C106–C110, C127–C133; `scripts/`, benchmarks,
performance, memory; SuiteSparse's internal threads; threads of the caller that share anything but a graph object's property
cache (C100, C101 model that one).

## 3. How each property is proved

| Property | What is modelled | How it is proved |
|---|---|---|
| C01–C05 | cache machine: state = optional cached values, one transition per `get_property` name and mask | Hoare-style invariant "each cached entry equals its defining value", kept by every transition including failing ones, induction over request lists; for C04 a relation between the masked and the unmasked run from the same cache (with an invariant on the two cached row counts), valid for every reachable cache; for C03 no getter overwrites a cached `has_self_edges`; witness histories for the places where the code breaks it |
| C06 | memo dictionary of nxapi wrappers on top of the cache machine | memo entries equal the value of the call; induction over histories; witness for `average_clustering` |
| C07–C10 | conversions and constructors | key/id bijection preserved by each constructor; round trips |
| C11–C14, C86–C88 | maps and sets | step-by-step refinement to Python dict / set over arbitrary call sequences |
| C15–C26 | BFS family | BFS level invariant against inductively defined walks; pigeonhole for the loop bound |
| C27–C31 | frontier Bellman-Ford | equality with the synchronous recurrence; least walk weight; cycle removal; negative cycle iff n-th round improves |
| C32–C34 | dense.py | intermediate-node invariant; predecessor invariant; permutation |
| C35–C42, C79 | cluster.py, core.py | masked products as cardinalities of Finsets / sums; k-truss as greatest fixed point |
| C43–C48, C84, C85 | operators | entrywise characterisation by key |
| C49–C65 | the small algorithm modules | reductions to Finset sums / cardinalities |
| C66–C68, C80 | power iterations | exact field; mass invariant by induction over iterations; loop exit analysis; contraction estimates |
| C69–C73 | degree centralities, linalg | entrywise formula, row sums |
| C74–C78 | nxapi/_utils.py, interface.py | list induction, integer arithmetic, decision tables |
| C81–C83 | all algorithms | corollaries of the exact theorems, or simulation under a renumbering, for graphs related by an injective renaming |
| C89 | decorators and conversions | case analysis over the kinds of input |
| C90, C91 | reference-level language | soundness of an ownership checker by induction over executions (any number of loop rounds, exceptions anywhere) |
| C92, C93 | constructors with their argument checks (`Construct.lean`); an object as graph + cache + view fields | case analysis of the constructors; invariant over any sequence of calls |
| C94, C95 | the functions of C15–C29 side by side | each is characterised by the same distance specification, so they agree; metric laws from walk concatenation |
| C96, C97 | operators composed with traversals; parts and totals of the counting functions | composition of the characterisations; double counting |
| C98 | the argument checks that precede each algorithm, null graphs | unfolding for all arguments |
| C99 | class-level table of names | invariant "every entry leads to the property its name denotes", induction over lookups; parsing by list induction |
| C100 | threads as trees of accesses, schedules as lists of threads | the program logic of C01/C02 only assumes of a read what other threads preserve (entries are right, and stay); rely/guarantee step lemma, induction over the schedule |
| C101 | a cut off call is its first n accesses (`cutOff`) | the invariant of C100 holds after every access, so any prefix leaves a dictionary from which the program logic applies |
| C102 | NetworkX graph of any class as list of attribute dictionaries per pair; `to_graph` sums them (`Multi.lean`) | the converted matrix entry is the sum over the parallel edges; then the theorems of C49–C53 |
| C103 | conversion, operation, conversion back composed (`Props/Backend.lean`) | the key-level theorem of each operation between the theorems of the two conversions; a symmetric result is what `to_networkx` needs |
| C104 | `except` clauses as translations of the model's errors; generators as (items, ending) | the correctness theorem of each function, plus a proof that no other error value can occur; induction over the loop of the generator |
| C105 | conversion of any NetworkX graph, the algorithm, reading the result object (`Props/BackendVal.lean`, `Props/BackendVal2.lean`) | `nx_call`: one graph object with H's nodes, edges, weights and symmetry; `nx_move` carries the key-level theorem of each function over |
| C106 | the Bellman-Ford and Floyd-Warshall definitions instantiated with `b`-bit signed/unsigned wrapping integers (`Model/Machine.lean`) | simulation: while every intermediate sum stays in range each step commutes with reading values as integers; ranges by induction over rounds (`t` rounds stay within `t` edges), for Floyd-Warshall from the no-negative-cycle invariant (`n-1` edges per entry); paths and predecessors: the masks and argmins depend only on comparisons, which the reading preserves |
| C107 | `cut_size`, `volume`, `mutual_weight` with the conversion to Python integers made explicit (`Model/Machine.lean`); `tournament_matrix`, `laplacian_matrix` over any commutative ring | reading `b`-bit values as integers commutes with `+` and `-` modulo `2^b`; induction over the sums of the exact theorems |
| C108 | the Bellman-Ford and Floyd-Warshall definitions instantiated with rounded addition (`Model/Float.lean`) | the frontier invariants redone without cancellation, from monotonicity of addition alone; short walks suffice because dropping a cycle does not increase a rounded sum; error by induction along a walk, for Floyd-Warshall by an entrywise simulation of the exact run |
| C109 | `kTruss` with counters of a `b`-bit type (`Model/Machine.lean`) | one step with wrapping counters is one exact step followed by reduction modulo `2^b` (ring homomorphism), which is the identity below `2^(b-1)`; overflow on complete graphs computed for every width |
| C110 | Boolean matrices cast to INT64 (`Model/Boolean.lean`) | the C106 theorems for 64-bit integers with weights in {0, 1}, `n ≤ 2^60` |
| C111 | the models of the operators, generators and matrices | both sides are described by the node-name theorems of C25, C46–C52, C67, C70–C73; sums over nodes are invariant under the renumbering; `SameMatrix` compares entries at corresponding positions |
| C112 | `list_to_vector`, `list_to_mask`, `list_to_ids` raise KeyError at the first unknown key (`Model/Convert.lean`) | the lookup of an unknown key fails wherever it stands in the list |
| C113 | the same, and `set_to_vector(ignore_extra=True)` | the vectors built from two such collections are equal |
| C114 | `_bellman_ford_path_length` with a cutoff (weighted.py:17-100) | loop invariant over walks whose running total stays within the cutoff (`Spec.CapWalk`); closed-walk argument for the test after the loop |
| C115 | every structure-only function (`Spec.reweigh`: same nodes and edges, other weights) | each operator used (`pair`, `any`, `first`, `count`, masks, `select.*tri*`) commutes with a change of the stored values; loops by induction |
| C116 | the same models of `weighted.py` and `dense.py`, run on `Spec.mapWeights φ G` | every GraphBLAS operation used commutes with a strictly increasing additive map; loops by induction on the iteration count |
| C117 | the models of `link_analysis/`, `centrality/`, `cluster.py`, `cuts.py`, `linalg/`, run on `Spec.mapWeights (c * ·) G` | homogeneity of each GraphBLAS operation; normalisations cancel the factor; loops related step by step (`powerIter_rel`) |
| C118 | the same models, run on two graphs `Grows G H` | corollaries of the exact characterisations through monotonicity of walks, counts and trusses |
| C119 | the same models, run on two graphs that agree on a part | corollaries of the exact characterisations: walks from `s` use only edges leaving nodes reachable from `s`; counts have local support |
| C120 | `Model/Buffers.lean`: the loops of `pagerank_alg.py`, `katz.py`, `eigenvector.py`, `hits_alg.py` and `_helpers.py` statement by statement on a heap of mutable vectors; `Model/Workspace.lean`: `dense.py`, `bellman_ford_path` | refinement of the pure models: simulation by induction on the passes, frame conditions for every older address |
| C121 | `Model/Lazy.lean`: `bfs_layers` as a step machine on a heap of vectors; the all-pairs generators as sequences of yields | `Spec/Lazy.lean` lets an arbitrary consumer act between two `next()` on the vectors it holds; invariant over all interleavings (the private vectors of the generator are never among those held), blocks of sources by induction on the loop |
| C122 | `Model/SetOps.lean`: the mixin methods of `collections.abc.Set`/`MutableSet` as written in CPython over the callbacks of nodeset.py, with builtin sets, iterables and node sets of any graph as operands | loops that may raise characterised by induction (`allE_cases`, `filterE_cases`, `addAll_spec`, `discardAll_spec`, `toggleAll_spec`), then set algebra on the members |
| C123 | `Model/MapViews.lean`: `keys`, `items`, `values`, `dict(m)`, `update` of `MutableMapping` as written in CPython over nodemap.py | the items of a NodeMap enumerate its lookup function; induction over the pairs of `update` |
| C124 | no new model; the functions of C19, C35–C39, C53, C60, C66–C69, C79 | bounds on the specified values: counting inequalities over ordered pairs of neighbours, non-negativity of the iterates |
| C125 | no new model; the functions of C24, C35, C36, C39, C53, C66, C69, C79 | equality cases of the counting inequalities of C124; lower bound on a PageRank step |
| C126 | no new model; `union` (C45) composed with the functions of C14–C23, C26, C29, C32, C35, C42, C53, C55, C56, C60 | `union` splits into two parts; locality (C119) for what starts in a part, sums over the permutation of the node list for counts, maximality for k-trusses |
| C127 | pagerank with its arithmetic as a parameter (`FloatRank.lean`; with exact arithmetic it is the model of C66, proved); binary64 with round to nearest even (`Binary64.lean`) | each operation multiplies by at most `1/(1-u)` and adds at most `η`; composed over one pass, summed over nodes; the map contracts by `alpha`, so errors of passes form a geometric series; binary64 is shown to round to a nearest number and to satisfy the bounds |
| C128 | the functions of C19, C36–C40, C53, C60, C69 with their divisions as parameters (`FloatRatio.lean`): correctly rounded `int / int` in Python, FP64 conversion and division in GraphBLAS | counts below `2⁵³` convert exactly, so both divisions are one rounding of the exact quotient, and the exact theorems apply under it; range by monotonicity of rounding; sums by induction over summation trees |
| C129 | katz_centrality with its arithmetic as a parameter (`FloatKatz.lean`; with exact arithmetic it is the model of C65 and C80, proved) | as C127; the map contracts by `q`, and the totals of the iterates stay below a bound kept by a pass with its rounding error |
| C130 | hits with its arithmetic as a parameter (`FloatHits.lean`; with exact arithmetic it is the model of C67, proved) | hub values stay at most 2 by an invariant of the loop, so products stay in a known range; one scaling by a rounded reciprocal is analysed per vector |
| C131 | google_matrix with its arithmetic as a parameter (`FloatGoogle.lean`; with exact arithmetic it is the model of C67, proved) | a row is normalised by its own rounded sum, so its error does not depend on how the row was filled; the fill of a dangling row is compared with the exact distribution through its sum, which is near 1 |
| C132 | eigenvector_centrality with its arithmetic and square root as parameters (`FloatEigen.lean`; with exact arithmetic it is the model of C68, proved) | a pass normalises by its own rounded norm; the invariant kept from pass to pass, entries at most 2 and squares totalling at least `1/(4N)`, keeps the norm away from underflow |
| C133 | weighted cut_size and volume with the additions as a parameter (`FloatCuts.lean`; with exact arithmetic they are the models of C51 and C52, proved) | induction on the tree of additions: relative error one factor per leaf; natural numbers up to `2^53` are added without rounding, so every order gives the exact sum |

No property of the list is inexpressible.  Where the code violates the natural property, the negation is proved with a
witness (or for a whole class of inputs), the true part is proved with suffix `_partial`, and the status is `partial`.

## 4. Status per property
