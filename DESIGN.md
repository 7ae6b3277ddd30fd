# Formal model of graphblas-algorithms in Lean 4

Source: `/repo` (pinned commit), Python.  Model and proofs: `/verif/lean/Verif`.
(This file is assembled by `tools/design.py` from `tools/design_head.md`, `tools/claims.txt`, `properties.jsonl`
and `tools/design_tail.md`.)

## 1. Architecture

| Layer | Directory | Content |
|---|---|---|
| GraphBLAS semantics | `Verif/GB` | sparse vectors/matrices as total functions into `Option`, eWiseAdd / eWiseMult / eWiseUnion, reductions, masks, accumulators, vxm / mxv / mxm over a user semiring, extract, select, concat. Trusted reading of python-graphblas. |
| Specifications | `Verif/Spec` | definitions that do not mention the model: walks, distances, weights, simple paths, triangle sets, Python dict / set semantics, k-trusses, fixed points, ... |
| Model | `Verif/Model` | one file per Python file (or group); each definition cites file and lines (checked by `tools/citations.py`). |
| Helper proofs | `Verif/Proofs` | invariants and helper lemmas. |
| Properties | `Verif/Props` | the property theorems, with concrete cases (`example`) meeting their hypotheses. |
| Tests | `Verif/Tests` | the project's own unit tests, run on the model by kernel evaluation: a check that the model reads the code correctly, not a proof of anything. |

`Vec n α := Fin n → Option α`, `Mat m n α := Fin m → Fin n → Option α`: index `i`
"stores `a`" iff the function returns `some a`.  Python exceptions are values of
`Except Err`.  Loops are structural recursions over the Python `range`, or take the
bound the code itself uses; where the Python loop is `while True` the model takes fuel and
a theorem shows that a fuel computed from the size is always enough (termination), or that no fuel is enough
(`bellman_ford_path_may_not_terminate`).

A graph object is `Model.Graph K α`: size, matrix, `key_to_id` association list, `directed` and `multi` flags.
`Graph.WF` says that keys and numbers are in bijection; `wrap_matrix_wf`, `from_networkx_wf`, `results_wf` show that
constructors and results satisfy it.  `At u i` is "node `u` has number `i`", `Edge`/`Weight` read the matrix by node.

Two parts of the code need a state: the property cache (`Model/Cache.lean`: state monad over the cache
dictionary; one transition per `get_property`, in the code's branch order) and the memo dictionary of `_cacheit`
(`Model/Memo.lean`, on top of the cache).  All other models take the *values* of properties; C01/C02 justify this, and
where the cache can return something else (C01-C03 findings) C06 shows the consequence for callers.

Object identity (who may modify whom) is not visible in the value models.  It has its own model
(`Model/Effects.lean`): a small reference-level language (bind, allocate, call, overwrite, branch, loop, yield,
raise), with an operational semantics over a heap, and a checker for ownership.  `tools/effects.py` translates all
function bodies of the package into this language (`Model/EffectsTable.lean`, generated, committed); the checker is
proved sound in `Proofs/Effects.lean` and evaluated on the table in the kernel (`Props/Effects.lean`).

## 2. Trusted base

* Lean 4.33.0 kernel.  Every theorem named in MANIFEST.json depends on no axiom other than `propext`,
  `Classical.choice`, `Quot.sound` (vcheck prints them).  No axioms are declared, no compiled evaluation is used.
* The reading of Python and of python-graphblas / SuiteSparse (`Verif/GB/Basic.lean`):
  infix `+` is ewise_add, `-` is ewise_union with default 0, `*`, `/`, `&` are
  intersections; `v & A` with the vector on the left aligns `v` with rows, `A & v` aligns
  with columns; `.S` = structural mask, `.V` = value mask, `~` complements; `replace=True`
  clears entries outside the mask; `reduce_rowwise(monoid)` is absent on empty rows;
  reductions of empty objects to scalar give "no value".
* One access to a Python dict is atomic with respect to other threads (C100, C101).
* The `any` monoid may return any operand.  Where values can be seen through it the operator is a parameter `choose`
  of the theorem; elsewhere the model takes the first and theorems speak only about patterns.
* Numbers: weights are elements of an ordered abelian group (shortest paths) or of a linearly ordered field
  (numerics).  Floating-point rounding is modelled for weighted shortest paths (`Model/Float.lean`, C108: the same definitions instantiated with a rounded addition; overflow to infinity is allowed by the exactness theorems, excluded by a hypothesis of the accuracy theorems) and for pagerank, katz_centrality, hits, google_matrix, eigenvector_centrality, weighted cut_size and weighted volume (`Model/FloatRank.lean`, `Model/FloatKatz.lean`, `Model/FloatHits.lean`, `Model/FloatGoogle.lean`, `Model/FloatEigen.lean`, `Model/FloatCuts.lean`, `Model/Binary64.lean`, C127, C129–C133: the arithmetic is a parameter; no overflow) and for the functions that return a quotient of counts (`Model/FloatRatio.lean`, C128); elsewhere rounding and infinities, and NaN everywhere, are **not** modelled.  Integer overflow is modelled for weighted shortest paths, for sums and differences of weights and for the triangle counters of k_truss only (`Model/Machine.lean`, C106, C107, C109: the same definitions instantiated with `b`-bit wrapping integers); everywhere else, and for dtype selection, it is **not**.
* Python's `float(text)` is a parameter of the chunk-size theorems; the cube root in weighted clustering and the
  square root in L2 norms are arbitrary functions (with `f 0 = 0`, or `sqrt x * sqrt x = x`, where needed).
* `gb.io.from_networkx`, NetworkX's `add_edges_from`, numpy `sort`, `lexsort`, `array_equal`, CPython's
  `MutableMapping`/`MutableSet` mixins, `sorted`, dict order: modelled by their documented behaviour.
* `tools/effects.py`, the translator of the ownership model, is trusted to read the Python `ast` correctly.

### What is modelled

| Python | Model |
|---|---|
| `classes/graph.py`, `digraph.py`, `_caching.py` (property getters, AutoDict, `has_self_edges`, priorities, aliases) | `Cache.lean` (each program is the tree of its accesses to the dictionary) |
| property names: the class-level table from names to getters (`AutoDict.__missing__`), `get_property`, `get_properties` | `Names.lean` |
| the bodies of 53 library functions as programs that look properties up in a given order | `Programs.lean`, `Run.lean`, `RunNum.lean` |
| threads that interleave their accesses to one object's cache, and calls cut off between accesses | `Threads.lean` |
| `classes/_utils.py` (conversions, `_cacheit`, `renumber_key_to_id`, `from_networkx`, `to_networkx`) | `Convert.lean`, `Memo.lean`, `Graph.lean`, `Ego.lean` |
| `Graph.__init__`, `DiGraph.__init__`, `to_undirected_graph`, `to_directed_graph`, `to_graph`, the `not_implemented_for` decorators | `Convert.lean`, `Input.lean`, `Construct.lean` |
| `DiGraph.to_undirected`, `DiGraph.reverse` | `Ego.lean`, `Operators.lean` |
| `classes/nodemap.py`, `classes/nodeset.py` | `NodeMap.lean`, `Maps.lean`, `Dict.lean`, `SetOps.lean`, `MapViews.lean` |
| `algorithms/_bfs.py`, `shortest_paths/unweighted.py`, `generic.py`, `traversal`, `components`, `dag.py`, `lowest_common_ancestors.py`, `efficiency_measures.py` and their nxapi wrappers | `Bfs.lean` |
| `shortest_paths/weighted.py` | `BellmanFord.lean`, `BellmanFordPath.lean`, `Workspace.lean` (in-place version) |
| `shortest_paths/dense.py` | `FloydWarshall.lean`, `Workspace.lean` (in-place version) |
| `generators/ego.py` | `Ego.lean` |
| `algorithms/cluster.py`, `core.py` | `Cluster.lean`, `ClusterW.lean`, `Square.lean`, `GenDegree.lean`, `Truss.lean` |
| `operators/binary.py`, `operators/unary.py` | `Operators.lean` |
| `boundary.py`, `cuts.py`, `dominating.py` | `Cuts.lean` |
| `isolate.py`, `regular.py`, `tournament.py`, `simple_paths.py`, `reciprocity.py`, `smetric.py`, `community/quality.py`, `structuralholes.py`, `triads.py`, `isomorphism/isomorph.py`, `centrality/degree_alg.py` | `Small.lean` |
| `link_analysis/*`, `centrality/eigenvector.py`, `katz.py`, `_helpers.py` | `PowerIter.lean`, `Buffers.lean` (in-place version) |
| `traversal/breadth_first_search.py:bfs_layers` and the all-pairs functions of nxapi as generators, step by step | `Lazy.lean` |
| `linalg/*` | `Linalg.lean` |
| `nxapi/_utils.py` | `Utils.lean` |
| the `try ... except` translation of exceptions in nxapi, `algorithms/exceptions.py`, the all-pairs generators (items and the exception that ends them) | `Raises.lean` |
| integer dtypes (`weighted.py:55-61`, `dense.py:34-37`, `_bfs.py:48-50`, `cuts.py:18-38`, `structuralholes.py:4-11`) | `Machine.lean`, `Boolean.lean` |
| floating-point dtypes (`weighted.py:37-39, 70, 89, 134-135, 176`, `dense.py:68`) | `Float.lean` |
| pagerank in floating-point arithmetic (`pagerank_alg.py:12-101`, `_helpers.py:21-29`); IEEE 754 binary64 itself | `FloatRank.lean`, `Binary64.lean` |
| katz_centrality in floating-point arithmetic (`katz.py:11-55`) | `FloatKatz.lean` |
| hits in floating-point arithmetic (`hits_alg.py:9-62`) | `FloatHits.lean` |
| google_matrix in floating-point arithmetic (`pagerank_alg.py:104-162`) | `FloatGoogle.lean` |
| eigenvector_centrality in floating-point arithmetic (`eigenvector.py`, `_helpers.py`, `nxapi/centrality/eigenvector.py`) | `FloatEigen.lean` |
| weighted cut_size and volume in floating-point arithmetic (`cuts.py:18-38`, `nxapi/cuts.py:16-28`) | `FloatCuts.lean` |
| divisions of the normalised results in double precision (`cluster.py:74-193, 196-282`, `cuts.py:41-76`, `reciprocity.py:8-22`, `degree_alg.py:6-32`, `efficiency_measures.py:7-12`) | `FloatRatio.lean` |
| `interface.py` (`convert_from_nx`, `convert_to_nx`) | `Dispatch.lean` |
| all function bodies, for object identity only | `Effects.lean`, `EffectsTable.lean` |

### What is not modelled

NetworkX itself; `interface.py`'s dispatch table, `on_start_tests` and entry-point loading; `nxapi/exception.py` (the
substitute classes when NetworkX is absent); `utils/decorators.py` beyond the decision table of `not_implemented_for`;
names (`name=`) of GraphBLAS objects; graph attributes (`G.graph`) except in C77; dtypes except in C106–C110, C127–C133; `scripts/`, benchmarks,
performance, memory; SuiteSparse's internal threads; threads of the caller that share anything but a graph object's property
cache (C100, C101 model that one).

## 3. How each property is proved

| Property | What is modelled | How it is proved |
|---|---|---|
| C01–C05 | cache machine: state = optional cached values, one transition per `get_property` name and mask | Hoare-style invariant "each cached entry equals its defining value", kept by every transition including failing ones, induction over request lists; for C04 a relation between the masked and the unmasked run from the same cache (with an invariant on the two cached row counts), valid for every reachable cache; for C03 no getter overwrites a cached `has_self_edges`; witness histories for the places where the code breaks it |
| C06 | memo dictionary of nxapi wrappers on top of the cache machine | memo entries equal the value of the call; induction over histories; witness for `average_clustering` |
| C07–C10 | conversions and constructors | key/id bijection preserved by each constructor; round trips |
| C11–C14, C86–C88 | maps and sets | step-by-step refinement to Python dict / set over arbitrary call sequences |
| C15–C26 | BFS family | BFS level invariant against inductively defined walks; pigeonhole for the loop bound |
| C27–C31 | frontier Bellman-Ford | equality with the synchronous recurrence; least walk weight; cycle removal; negative cycle iff n-th round improves |
| C32–C34 | dense.py | intermediate-node invariant; predecessor invariant; permutation |
| C35–C42, C79 | cluster.py, core.py | masked products as cardinalities of Finsets / sums; k-truss as greatest fixed point |
| C43–C48, C84, C85 | operators | entrywise characterisation by key |
| C49–C65 | the small algorithm modules | reductions to Finset sums / cardinalities |
| C66–C68, C80 | power iterations | exact field; mass invariant by induction over iterations; loop exit analysis; contraction estimates |
| C69–C73 | degree centralities, linalg | entrywise formula, row sums |
| C74–C78 | nxapi/_utils.py, interface.py | list induction, integer arithmetic, decision tables |
| C81–C83 | all algorithms | corollaries of the exact theorems, or simulation under a renumbering, for graphs related by an injective renaming |
| C89 | decorators and conversions | case analysis over the kinds of input |
| C90, C91 | reference-level language | soundness of an ownership checker by induction over executions (any number of loop rounds, exceptions anywhere) |
| C92, C93 | constructors with their argument checks (`Construct.lean`); an object as graph + cache + view fields | case analysis of the constructors; invariant over any sequence of calls |
| C94, C95 | the functions of C15–C29 side by side | each is characterised by the same distance specification, so they agree; metric laws from walk concatenation |
| C96, C97 | operators composed with traversals; parts and totals of the counting functions | composition of the characterisations; double counting |
| C98 | the argument checks that precede each algorithm, null graphs | unfolding for all arguments |
| C99 | class-level table of names | invariant "every entry leads to the property its name denotes", induction over lookups; parsing by list induction |
| C100 | threads as trees of accesses, schedules as lists of threads | the program logic of C01/C02 only assumes of a read what other threads preserve (entries are right, and stay); rely/guarantee step lemma, induction over the schedule |
| C101 | a cut off call is its first n accesses (`cutOff`) | the invariant of C100 holds after every access, so any prefix leaves a dictionary from which the program logic applies |
| C102 | NetworkX graph of any class as list of attribute dictionaries per pair; `to_graph` sums them (`Multi.lean`) | the converted matrix entry is the sum over the parallel edges; then the theorems of C49–C53 |
| C103 | conversion, operation, conversion back composed (`Props/Backend.lean`) | the key-level theorem of each operation between the theorems of the two conversions; a symmetric result is what `to_networkx` needs |
| C104 | `except` clauses as translations of the model's errors; generators as (items, ending) | the correctness theorem of each function, plus a proof that no other error value can occur; induction over the loop of the generator |
| C105 | conversion of any NetworkX graph, the algorithm, reading the result object (`Props/BackendVal.lean`, `Props/BackendVal2.lean`) | `nx_call`: one graph object with H's nodes, edges, weights and symmetry; `nx_move` carries the key-level theorem of each function over |
| C106 | the Bellman-Ford and Floyd-Warshall definitions instantiated with `b`-bit signed/unsigned wrapping integers (`Model/Machine.lean`) | simulation: while every intermediate sum stays in range each step commutes with reading values as integers; ranges by induction over rounds (`t` rounds stay within `t` edges), for Floyd-Warshall from the no-negative-cycle invariant (`n-1` edges per entry); paths and predecessors: the masks and argmins depend only on comparisons, which the reading preserves |
| C107 | `cut_size`, `volume`, `mutual_weight` with the conversion to Python integers made explicit (`Model/Machine.lean`); `tournament_matrix`, `laplacian_matrix` over any commutative ring | reading `b`-bit values as integers commutes with `+` and `-` modulo `2^b`; induction over the sums of the exact theorems |
| C108 | the Bellman-Ford and Floyd-Warshall definitions instantiated with rounded addition (`Model/Float.lean`) | the frontier invariants redone without cancellation, from monotonicity of addition alone; short walks suffice because dropping a cycle does not increase a rounded sum; error by induction along a walk, for Floyd-Warshall by an entrywise simulation of the exact run |
| C109 | `kTruss` with counters of a `b`-bit type (`Model/Machine.lean`) | one step with wrapping counters is one exact step followed by reduction modulo `2^b` (ring homomorphism), which is the identity below `2^(b-1)`; overflow on complete graphs computed for every width |
| C110 | Boolean matrices cast to INT64 (`Model/Boolean.lean`) | the C106 theorems for 64-bit integers with weights in {0, 1}, `n ≤ 2^60` |
| C111 | the models of the operators, generators and matrices | both sides are described by the node-name theorems of C25, C46–C52, C67, C70–C73; sums over nodes are invariant under the renumbering; `SameMatrix` compares entries at corresponding positions |
| C112 | `list_to_vector`, `list_to_mask`, `list_to_ids` raise KeyError at the first unknown key (`Model/Convert.lean`) | the lookup of an unknown key fails wherever it stands in the list |
| C113 | the same, and `set_to_vector(ignore_extra=True)` | the vectors built from two such collections are equal |
| C114 | `_bellman_ford_path_length` with a cutoff (weighted.py:17-100) | loop invariant over walks whose running total stays within the cutoff (`Spec.CapWalk`); closed-walk argument for the test after the loop |
| C115 | every structure-only function (`Spec.reweigh`: same nodes and edges, other weights) | each operator used (`pair`, `any`, `first`, `count`, masks, `select.*tri*`) commutes with a change of the stored values; loops by induction |
| C116 | the same models of `weighted.py` and `dense.py`, run on `Spec.mapWeights φ G` | every GraphBLAS operation used commutes with a strictly increasing additive map; loops by induction on the iteration count |
| C117 | the models of `link_analysis/`, `centrality/`, `cluster.py`, `cuts.py`, `linalg/`, run on `Spec.mapWeights (c * ·) G` | homogeneity of each GraphBLAS operation; normalisations cancel the factor; loops related step by step (`powerIter_rel`) |
| C118 | the same models, run on two graphs `Grows G H` | corollaries of the exact characterisations through monotonicity of walks, counts and trusses |
| C119 | the same models, run on two graphs that agree on a part | corollaries of the exact characterisations: walks from `s` use only edges leaving nodes reachable from `s`; counts have local support |
| C120 | `Model/Buffers.lean`: the loops of `pagerank_alg.py`, `katz.py`, `eigenvector.py`, `hits_alg.py` and `_helpers.py` statement by statement on a heap of mutable vectors; `Model/Workspace.lean`: `dense.py`, `bellman_ford_path` | refinement of the pure models: simulation by induction on the passes, frame conditions for every older address |
| C121 | `Model/Lazy.lean`: `bfs_layers` as a step machine on a heap of vectors; the all-pairs generators as sequences of yields | `Spec/Lazy.lean` lets an arbitrary consumer act between two `next()` on the vectors it holds; invariant over all interleavings (the private vectors of the generator are never among those held), blocks of sources by induction on the loop |
| C122 | `Model/SetOps.lean`: the mixin methods of `collections.abc.Set`/`MutableSet` as written in CPython over the callbacks of nodeset.py, with builtin sets, iterables and node sets of any graph as operands | loops that may raise characterised by induction (`allE_cases`, `filterE_cases`, `addAll_spec`, `discardAll_spec`, `toggleAll_spec`), then set algebra on the members |
| C123 | `Model/MapViews.lean`: `keys`, `items`, `values`, `dict(m)`, `update` of `MutableMapping` as written in CPython over nodemap.py | the items of a NodeMap enumerate its lookup function; induction over the pairs of `update` |
| C124 | no new model; the functions of C19, C35–C39, C53, C60, C66–C69, C79 | bounds on the specified values: counting inequalities over ordered pairs of neighbours, non-negativity of the iterates |
| C125 | no new model; the functions of C24, C35, C36, C39, C53, C66, C69, C79 | equality cases of the counting inequalities of C124; lower bound on a PageRank step |
| C126 | no new model; `union` (C45) composed with the functions of C14–C23, C26, C29, C32, C35, C42, C53, C55, C56, C60 | `union` splits into two parts; locality (C119) for what starts in a part, sums over the permutation of the node list for counts, maximality for k-trusses |
| C127 | pagerank with its arithmetic as a parameter (`FloatRank.lean`; with exact arithmetic it is the model of C66, proved); binary64 with round to nearest even (`Binary64.lean`) | each operation multiplies by at most `1/(1-u)` and adds at most `η`; composed over one pass, summed over nodes; the map contracts by `alpha`, so errors of passes form a geometric series; binary64 is shown to round to a nearest number and to satisfy the bounds |
| C128 | the functions of C19, C36–C40, C53, C60, C69 with their divisions as parameters (`FloatRatio.lean`): correctly rounded `int / int` in Python, FP64 conversion and division in GraphBLAS | counts below `2⁵³` convert exactly, so both divisions are one rounding of the exact quotient, and the exact theorems apply under it; range by monotonicity of rounding; sums by induction over summation trees |
| C129 | katz_centrality with its arithmetic as a parameter (`FloatKatz.lean`; with exact arithmetic it is the model of C65 and C80, proved) | as C127; the map contracts by `q`, and the totals of the iterates stay below a bound kept by a pass with its rounding error |
| C130 | hits with its arithmetic as a parameter (`FloatHits.lean`; with exact arithmetic it is the model of C67, proved) | hub values stay at most 2 by an invariant of the loop, so products stay in a known range; one scaling by a rounded reciprocal is analysed per vector |
| C131 | google_matrix with its arithmetic as a parameter (`FloatGoogle.lean`; with exact arithmetic it is the model of C67, proved) | a row is normalised by its own rounded sum, so its error does not depend on how the row was filled; the fill of a dangling row is compared with the exact distribution through its sum, which is near 1 |
| C132 | eigenvector_centrality with its arithmetic and square root as parameters (`FloatEigen.lean`; with exact arithmetic it is the model of C68, proved) | a pass normalises by its own rounded norm; the invariant kept from pass to pass, entries at most 2 and squares totalling at least `1/(4N)`, keeps the norm away from underflow |
| C133 | weighted cut_size and volume with the additions as a parameter (`FloatCuts.lean`; with exact arithmetic they are the models of C51 and C52, proved) | induction on the tree of additions: relative error one factor per leaf; natural numbers up to `2^53` are added without rounding, so every order gives the exact sum |

No property of the list is inexpressible.  Where the code violates the natural property, the negation is proved with a
witness (or for a whole class of inputs), the true part is proved with suffix `_partial`, and the status is `partial`.

## 4. Status per property

| Property | Title | Status | Theorems (namespace `Props`) | Scope, and what is missing |
|---|---|---|---|---|
| C01 | Graph property lookups are history independent (undirected) | partial | `graph_lookup_history_independent_partial`, `graph_lookup_errors`, `has_negative_diagonal_partial`, `lookup_total_without_self_edges`, `has_negative_diagonal_depends_on_history`, `element_minus_attribute_error`, `iso_value_key_error` | every symmetric matrix, every history (masked, failing requests included), every name but has_negative_diagonal exact whenever it returns, and a complete list of the lookups that may raise; FALSE of the code: has_negative_diagonal after has_negative_edges+, AttributeError of {op}_element- and KeyError of iso_value depending on the history (proved witnesses) |
| C02 | Graph property lookups are history independent (directed) | partial | `digraph_lookup_history_independent_partial`, `digraph_lookup_errors`, `has_negative_diagonal_partial`, `lookup_total_without_self_edges`, `total_degrees_poisons_has_self_edges`, `has_negative_diagonal_depends_on_history` | as C01 for DiGraph; FALSE of the code after an unmasked total_degrees+ of a graph with self-edges (proved witness); exact for all other histories |
| C03 | has_self_edges is exact | partial | `has_self_edges_exact_partial`, `has_self_edges_sound`, `has_self_edges_stable`, `has_self_edges_wrong_after_negative_diagonal`, `total_degrees_poisons_has_self_edges` | stable after every history; exact for histories without has_negative_diagonal (and unmasked total_degrees+ of digraphs with self-edges); FALSE otherwise (proved witnesses) |
| C04 | Masked property lookups are restrictions | partial | `masked_lookup_same_history`, `masked_lookup_is_restriction`, `unmasked_after_masked`, `masked_lookup_corrupts_after_total_degrees` | first half without exception: every vector-valued name, every mask (structural, value, complemented), every history, the corrupting ones of C02 included; second half (no corruption) for histories of masked lookups; it is false after an unmasked total_degrees+ of a digraph with self-edges, shown by masked_lookup_corrupts_after_total_degrees |
| C05 | get_properties agrees with get_property and keeps the requested order | partial | `get_properties_as_lookups`, `get_properties_correct`, `get_properties_correct_partial`, `get_properties_errors`, `get_properties_wrong_with_total_degrees` | any name list with repetitions, any history: the values are those of successive get_property calls; that they equal the defined values fails when total_degrees+ is requested from a digraph with self-edges (get_properties_wrong_with_total_degrees) |
| C06 | Algorithm results do not depend on earlier algorithm calls | partial | `result_independent_of_history_partial`, `result_independent_of_history`, `result_independent_of_history_undirected`, `transitivity_independent_of_history`, `average_clustering_independent_of_history_partial`, `weighted_average_clustering_independent_of_history_partial`, `weighted_average_clustering_on_object_partial`, `isolates_poison_reciprocity`, `result_independent_of_numeric_history_partial`, `numeric_result_independent_of_history_partial`, `numeric_result_independent_of_history`, `bellman_ford_breaks_pagerank`, `transitivity_history_independent`, `average_clustering_history_independent_partial`, `average_clustering_agree_partial`, `average_clustering_nodes_history_independent`, `negative_edge_cycle_history_partial`, `average_clustering_memo_ignores_weight`, `weighted_average_clustering_self_loop_attribute_error`, `negative_edge_cycle_depends_on_history` | 53 library functions run as programs on a graph object with its property cache and memo table: after any history of calls of any of them (any arguments, failing calls included), lookups and memoised averages, a call returns the result of its cache-free model; exact for graphs without self-loops and for undirected graphs; FALSE of the code: pagerank/katz_centrality of a weighted graph raise KeyError after a Bellman-Ford call, isolates etc. on DiGraphs with self-loops poison has_self_edges, average_clustering memo key omits `weight`, negative_edge_cycle depends on earlier user lookups and the weighted average on a graph with self-loops (proved witnesses) |
| C07 | Node keys and matrix indices are in bijection | proved | `wrap_matrix_wf`, `from_networkx_wf`, `key_id_bijection`, `results_wf`, `k_truss_correct`, `ego_graph_correct`, `ego_graph_weighted_correct` | well-formedness of every constructed or returned graph object; compose with overlapping node sets is the exception (C45) |
| C08 | Key/id and dict/vector conversions round-trip | proved | `list_to_keys_ids`, `list_to_ids_keys`, `conversions_missing`, `vector_to_dict_correct`, `vector_to_dict_dict_to_vector`, `vector_to_dict_fill`, `set_to_vector_ignore_extra`, `vector_to_list_correct`, `dict_to_vector_empty`, `vector_to_list_values` | every graph, list, dictionary and set; the last theorem records that the empty dict raises ValueError |
| C09 | matrix_to_dicts decodes exactly the stored entries | partial | `matrix_to_dicts_partial`, `matrix_to_dicts_empty`, `matrix_to_dicts_transposed_flags_swapped` | every matrix with an entry, all flag combinations, and transposed matrices when the flags agree; FALSE of the code for transposed matrices with exactly one flag and for matrices without entries (proved) |
| C10 | Conversion to and from NetworkX is lossless | proved | `from_networkx_edges`, `to_networkx_correct`, `networkx_round_trip`, `graph_round_trip` | every simple graph / digraph with or without weights; gb.io.from_networkx and nx.add_edges are trusted |
| C100 | Threads that share a graph object get the defined results | partial | `concurrent_lookups_partial`, `concurrent_has_self_edges_partial`, `concurrent_lookups_finish`, `concurrent_calls_partial`, `concurrent_calls_loop_free_partial`, `concurrent_calls_finish`, `complete_calls_sequential`, `pagerank_races_with_bellman_ford` | partial: excluded are the calls and lookups for which C01/C02/C06 fail without threads (has_negative_diagonal, total_degrees+ with self-edges, weighted and unweighted averages mixed, KeyError of pagerank/katz_centrality after a stored is_iso: pagerank_races_with_bellman_ford). Assumption: one access to a Python dict is atomic. |
| C101 | An interrupted call leaves a usable graph object | partial | `call_after_interrupts_partial`, `call_after_interrupts_loop_free_partial`, `complete_calls_sequential` | partial: the calls that C06 excludes (they go wrong without interrupts) are excluded. Interrupts inside one GraphBLAS call or one dict access are outside the model. |
| C102 | Cuts, volumes and boundaries of NetworkX graphs and multigraphs follow the attribute dictionaries | partial | `nx_cut_size_correct`, `nx_cut_size_counts`, `nx_cut_size_complement`, `nx_volume_correct_partial`, `nx_edge_boundary_correct`, `nx_edge_boundary_undirected`, `nx_edge_boundary_data_exact`, `multigraph_edge_boundary_data_repeats`, `nx_conductance_counts_pairs_partial`, `nx_expansions_count_pairs_partial`, `conductance_ignores_weight` | partial: the code violates it for data= on multigraphs (an edge is repeated by its weight), for weighted or multi digraphs in volume (incoming edges are added), for T omitted in digraphs (TypeError), and conductance, normalized_cut_size and the expansions ignore weights and parallel edges; what they do return is proved for all graphs. Integer attribute values for edge_boundary. |
| C103 | Graph-valued calls through the NetworkX backend | partial | `backend_complement`, `backend_reverse`, `backend_intersection`, `backend_difference`, `backend_symmetric_difference`, `backend_union`, `backend_full_join`, `backend_disjoint_union`, `backend_compose_partial`, `backend_ego_graph`, `backend_k_truss`, `backend_union_mixed_loses_edges` | complete except compose of graphs on different nodes, where the code is wrong (C45); graphs of different kinds are outside the statement: union silently loses edges there (proved witness) |
| C104 | Failures surface as the documented exceptions | partial | `shortest_path_length_raises`, `has_path_raises`, `reachability_raises`, `bfs_layers_raises`, `components_raise`, `all_pairs_shortest_path_length_yields`, `single_source_bellman_ford_raises`, `bellman_ford_path_length_raises_partial`, `bellman_ford_path_raises_partial`, `all_pairs_bellman_ford_yields`, `unbounded_not_translated`, `no_path_not_raised`, `floyd_warshall_numpy_raises_partial`, `reciprocity_raises`, `graph_operators_raise`, `operators_raise_on_multigraphs`, `reverse_raises`, `pagerank_raises`, `katz_raises`, `eigenvector_raises`, `hits_raises` | false of the code in three places, each proved: bellman_ford_path and bellman_ford_path_length let the implementation's Unbounded escape instead of NetworkXUnbounded; bellman_ford_path returns [] instead of raising NetworkXNoPath; floyd_warshall_numpy raises KeyError for a nodelist of the right length with a foreign node |
| C105 | Value-valued calls through the NetworkX backend | partial | `nx_single_source_shortest_path_length`, `nx_has_path`, `nx_descendants_ancestors`, `nx_bfs_sets`, `nx_is_connected`, `nx_triangles`, `nx_clustering`, `nx_transitivity`, `nx_average_clustering`, `nx_degree_centrality`, `nx_single_source_bellman_ford_path_length`, `nx_negative_edge_cycle`, `nx_isolates`, `nx_tournament`, `nx_overall_reciprocity`, `nx_cuts`, `nx_pagerank`, `nx_unsupported`, `nx_bfs_layers`, `nx_all_pairs_shortest_path_length`, `nx_efficiency`, `nx_lowest_common_ancestor`, `nx_generalized_degree`, `nx_boundaries_partial`, `nx_cut_ratios_partial`, `nx_expansions`, `nx_community`, `nx_regular_partial`, `nx_reciprocity`, `nx_s_metric_partial`, `nx_number_of_isolates`, `nx_weighted_cuts_partial`, `nx_floyd_warshall`, `nx_bellman_ford_path_partial`, `nx_all_pairs_bellman_ford`, `nx_eigenvector_centrality`, `nx_katz_centrality`, `nx_hits`, `nx_matrices_partial`, `nx_normalized_laplacian_matrix_partial`, `nx_modularity_matrix`, `nx_bethe_hessian_matrix`, `nx_tournament_matrix`, `nx_google_matrix`, `nx_square_clustering_partial`, `nx_directed_clustering_partial`, `nx_could_be_isomorphic_partial`, `nx_floyd_warshall_predecessor_partial`, `nx_floyd_warshall_numpy_partial` | the functions named in the theorems.  _partial: where the function is wrong on graph objects themselves (C28, C49, C56, C61, C70: Laplacians of unweighted digraphs, edge_boundary of digraphs, is_regular without edges, s_metric of digraphs and self-loops, one-set cuts of digraphs, bellman_ford_path near negative cycles, square_clustering with self-loops) the same holds through the backend.  NetworkX's own dispatch code, which chooses the conversion arguments, is trusted |
| C106 | Integer dtypes in weighted shortest paths | partial | `int_single_source_bellman_ford_path_length`, `int_single_source_bellman_ford_path_length_cutoff`, `int_bellman_ford_path_length`, `int_bellman_ford_path_lengths`, `int_negative_edge_cycle`, `int_floyd_warshall`, `int_bellman_ford_path`, `int_all_pairs`, `int_floyd_warshall_predecessor`, `uint_single_source_bellman_ford_path_length`, `uint_bellman_ford_path_length`, `uint_bellman_ford_path_lengths`, `uint_all_pairs`, `uint_bellman_ford_path`, `uint_negative_edge_cycle_false`, `uint_floyd_warshall`, `int8_distances_wrap`, `int8_false_negative_cycle`, `int8_iso_wraps`, `uint8_distances_wrap`, `int8_path_wraps` | partial because the property without the size bound is false of the code (int8_*_wrap* and uint8_distances_wrap are the counterexamples); cutoffs are machine values of the same dtype; predecessors for directed graphs (undirected ones are wrong anyway, C33) |
| C107 | Integer dtypes in sums and differences of weights | proved | `int_cut_size`, `int_cut_size_complement`, `int_volume`, `int_mutual_weight`, `int_tournament_matrix`, `int_laplacian_matrix`, `uint_cut_size`, `uint_volume`, `uint_mutual_weight`, `uint_tournament_matrix`, `uint_laplacian_matrix`, `int8_sums_wrap`, `exact_sums` | `Spec.Wraps lo m x r` says r is x reduced into [lo, lo+m); `Wraps.exact` and `Wraps.unique` are its two consequences. Findings: INT8 weights 100 and 100 give a cut (and volume) of -56; unsigned Laplacian and tournament matrices contain 2^b - w. |
| C108 | Floating-point weights in shortest paths | proved | `rounded_single_source_sound`, `rounded_single_source`, `rounded_single_source_cutoff`, `rounded_target`, `rounded_bellman_ford_path`, `rounded_iso`, `rounded_batch`, `rounded_all_pairs`, `rounded_dist_accurate`, `float_single_source_accurate`, `float_target_accurate`, `float_path_accurate`, `float_floyd_warshall_accurate`, `float_iso_storage_shows`, `double_accurate`, `multiples_accurate`, `double_single_source`, `double_floyd_warshall`, `double_single_source_exact`, `double_cutoff_exact`, `double_target_exact`, `double_path_exact`, `double_floyd_warshall_exact`, `double_iso_storage_shows` | The Bellman-Ford invariants need only that addition is monotone and that adding a non-negative number does not decrease (Spec.MonoAdd); rounded addition satisfies this (also with overflow to infinity, on the extended reals). `Rounding.nearest`: rounding to nearest with any tie rule is such a rounding. Not covered: NaN, Floyd-Warshall predecessors, the cutoff of the iso-valued case (`int(cutoff // iso_value)` in floating point). `double` is IEEE 754 binary64 (Model/Binary64.lean, exponents unbounded above; the theorems assume the sums stay below 2^1023). Finding: double_iso_storage_shows, ten steps of 0.1 sum to 0.9999999999999999, or to 1.0 if SuiteSparse stores the matrix iso-valued. |
| C109 | k_truss and its 32-bit triangle counters | proved | `k_truss_int32`, `k_truss_counters_exact`, `k_truss_counters_overflow` | 32-bit counters as in core.py:21; k - 2 is assumed to fit into the counter type |
| C11 | NodeMap is a mutable mapping over the graph's nodes | partial | `nodemap_is_dict_partial`, `plain_sound`, `keys_sound`, `nodemap_deviations`, `nodemap_setdefault_keys_wrong` | every call sequence within the promise (Fits); FALSE of the code outside: non-node keys in `in`/get raise, del of a missing node is silent, setdefault(None) and setdefault of node values (proved witnesses) |
| C110 | Boolean graphs in the weighted shortest-path functions | proved | `bool_single_source_bellman_ford_path_length`, `bool_single_source_bellman_ford_path_length_cutoff`, `bool_single_source_cutoff_all_false`, `bool_bellman_ford_path_length`, `bool_bellman_ford_path`, `bool_all_pairs`, `bool_negative_edge_cycle`, `bool_negative_flags`, `bool_floyd_warshall`, `bool_floyd_warshall_predecessor` | the typecast BOOL to INT64 is part of the trusted reading of GraphBLAS |
| C111 | Graph-valued and matrix-valued results do not depend on names or numbering | partial | `relabel_complement`, `relabel_reverse`, `relabel_ego_graph`, `relabel_to_undirected`, `relabel_operators`, `relabel_compose_partial`, `compose_depends_on_numbering`, `relabel_adjacency_matrix`, `relabel_laplacian_matrix`, `relabel_normalized_laplacian_matrix`, `relabel_modularity_matrix`, `relabel_directed_modularity_matrix`, `relabel_bethe_hessian_matrix`, `relabel_google_matrix`, `google_matrix_nodelist_depends_on_numbering` | FALSE of the code for compose of graphs that share nodes and for google_matrix with a node list as long as the graph (proved witnesses); disjoint_union names nodes by row numbers by design; exact arithmetic |
| C112 | Unknown nodes are rejected | proved | `unknown_nodes_rejected`, `square_clustering_unknown`, `unknown_node_rejected` | average_clustering: of a nonempty graph (the null graph raises ZeroDivisionError first) |
| C113 | Collections of nodes are read as sets | proved | `node_lists_as_sets`, `weighted_node_lists_as_sets`, `square_node_lists_as_sets`, `node_sets_as_sets`, `communities_as_sets` | square_clustering: loop-free undirected graphs; Vector.from_coo with a scalar value accepts repeated indices (trusted reading of the library) |
| C114 | Bellman-Ford with a cutoff limits the running total, for weights of any sign | proved | `single_source_bellman_ford_path_length_cutoff_exact`, `single_source_bellman_ford_path_length_cutoff_nonneg`, `capUnbounded_negCycle`, `single_source_bellman_ford_path_length_cutoff_zero`, `single_source_bellman_ford_cutoff_hides` | Spec.CapWalk is the specification; the test after the loop only looks at nodes already reached, the proof shows that this suffices (no further node can appear in round n unless a reached node improves) |
| C115 | Functions about structure ignore edge weights | proved | `single_source_shortest_path_length_ignores_weights`, `single_target_shortest_path_length_ignores_weights`, `all_pairs_shortest_path_length_ignores_weights`, `bidirectional_shortest_path_length_ignores_weights`, `has_path_ignores_weights`, `efficiency_ignores_weights`, `descendants_ignores_weights`, `ancestors_ignores_weights`, `node_connected_component_ignores_weights`, `is_connected_ignores_weights`, `is_weakly_connected_ignores_weights`, `bfs_layers_ignores_weights`, `descendants_at_distance_ignores_weights`, `bfs_parent_ignores_weights`, `lowest_common_ancestor_ignores_weights`, `triangles_ignores_weights`, `single_triangle_ignores_weights`, `transitivity_ignores_weights`, `transitivity_directed_ignores_weights`, `clustering_ignores_weights`, `single_clustering_ignores_weights`, `clustering_directed_ignores_weights`, `single_clustering_directed_ignores_weights`, `average_clustering_ignores_weights`, `generalized_degree_ignores_weights`, `single_generalized_degree_ignores_weights`, `edge_boundary_ignores_weights`, `node_boundary_ignores_weights`, `cut_size_ignores_weights`, `volume_ignores_weights`, `normalized_cut_size_ignores_weights`, `conductance_ignores_weights`, `edge_expansion_ignores_weights`, `mixing_expansion_ignores_weights`, `node_expansion_ignores_weights`, `boundary_expansion_ignores_weights`, `is_dominating_set_ignores_weights`, `is_isolate_ignores_weights`, `isolates_ignores_weights`, `number_of_isolates_ignores_weights`, `is_regular_ignores_weights`, `is_k_regular_ignores_weights`, `is_tournament_ignores_weights`, `score_sequence_ignores_weights`, `is_simple_path_ignores_weights`, `overall_reciprocity_ignores_weights`, `reciprocity_node_ignores_weights`, `reciprocity_nodes_ignores_weights`, `s_metric_ignores_weights`, `intra_community_edges_ignores_weights`, `inter_community_edges_ignores_weights`, `is_triad_ignores_weights`, `degree_centrality_ignores_weights`, `in_degree_centrality_ignores_weights`, `out_degree_centrality_ignores_weights`, `faster_could_be_isomorphic_ignores_weights`, `fast_could_be_isomorphic_ignores_weights`, `k_truss_ignores_weights`, `ego_graph_ignores_weights`, `adjacency_matrix_ignores_weights`, `laplacian_matrix_ignores_weights`, `normalized_laplacian_matrix_ignores_weights`, `modularity_matrix_ignores_weights`, `directed_modularity_matrix_ignores_weights`, `square_clustering_does_not_ignore_weights` | For most of these functions the model is polymorphic in the weight type, as the code only uses pair/any/count operators; the theorems make the consequence explicit, error outcomes included. square_clustering is the exception (C40). |
| C116 | Weighted shortest paths in another unit or number type | proved | `single_source_bellman_ford_units`, `bellman_ford_path_length_units`, `bellmanFordPathLengths_units`, `all_pairs_bellman_ford_units`, `negative_edge_cycle_units`, `bellman_ford_path_units`, `floyd_warshall_units`, `floyd_warshall_numpy_units`, `floyd_warshall_predecessor_units`, `unit_mul`, `unit_int` | Spec.Unit' lists what a conversion must respect; unit_mul and unit_int show that a positive factor and the inclusion of the integers qualify. Exact arithmetic; rounding and overflow are C104-C110. |
| C117 | Multiplying every weight by one constant | partial | `pagerank_scale`, `google_matrix_scale`, `google_matrix_nodelist_scale_partial`, `google_matrix_nodelist_depends_on_unit`, `katz_centrality_scale`, `hits_scale`, `hits_authority_scale`, `clustering_weighted_scale`, `average_clustering_weighted_scale`, `single_clustering_weighted_scale`, `cut_size_weighted_scale`, `volume_weighted_scale`, `adjacency_matrix_scale`, `laplacian_matrix_scale`, `modularity_matrix_scale`, `directed_modularity_matrix_scale`, `normalized_laplacian_matrix_scale`, `eigenvector_centrality_depends_on_unit` | Partial because google_matrix with a node list as long as the graph looks up the empty rows in the wrong order (C67), so a rescaled graph gives another matrix (witness proved); all other parts are proved as stated. NotImplemented and conversion errors are included in the equalities. |
| C118 | Adding nodes and edges | proved | `hop_distances_shrink`, `reachable_sets_grow`, `efficiency_grows`, `triangles_grow`, `cuts_grow`, `isolates_shrink`, `k_truss_monotone`, `k_truss_symm`, `k_truss_stable`, `weighted_distances_shrink`, `negative_edge_cycle_grows` | Beside them: concrete nested graphs where the quantities change, and an example that transitivity is not monotone. |
| C119 | Results depend only on the part of the graph they are about | proved | `searches_local`, `ancestors_local`, `ego_graph_local`, `triangles_local`, `cuts_local`, `isolated_nodes_irrelevant`, `overall_reciprocity_ignores_isolated`, `bellman_ford_local` | Examples: a graph with an unreachable negative cycle and its reachable part. |
| C12 | NodeMap with a fill value is total | proved | `nodemap_fill_total`, `nodemap_fill_clear`, `nodemap_fill_popitem_empty` | every call sequence with node keys; popitem pops stored entries only (stated) |
| C120 | In-place iterations: no aliasing, no change of arguments | proved | `pagerank_in_place`, `katz_in_place`, `eigenvector_in_place`, `hits_in_place`, `hits_authority_in_place`, `eigenvector_twice`, `floyd_warshall_in_place`, `floyd_warshall_pred_in_place`, `floyd_warshall_sharing`, `bellman_ford_path_in_place` | Refinement: statement-by-statement models on a heap of vectors against the pure models of PowerIter, about which C60-C68 and others speak. Exact arithmetic, as in those. |
| C121 | Results that are produced lazily | proved | `bfs_layers_lazy`, `bfs_layers_next_keeps`, `bfs_layers_lazy_distances`, `all_pairs_spl_toList`, `all_pairs_shortest_path_length_lazy`, `all_pairs_bf_toList`, `all_pairs_bellman_ford_path_length_lazy` | bfs_layers is a step machine on a heap of vectors; the consumer is arbitrary on the vectors it holds (Spec/Lazy.lean). The all-pairs generators compute values only and are modelled as the sequence of their yields; the graph is not changed while the generator is suspended. |
| C122 | Comparing and combining NodeSets with other sets | proved | `nodeset_compare_sound`, `nodeset_compare_total`, `nodeset_eq_set`, `nodeset_compare_foreign`, `nodeset_operators_any`, `nodeset_union`, `nodeset_ior_isub`, `nodeset_iand`, `nodeset_ixor` | the mixin methods of CPython's collections.abc.Set and MutableSet are modelled as written there, with the callbacks of nodeset.py; == with a NodeSet of another graph answers, but rightly only for equal numberings (C14, nodeset_eq_across_wrong) |
| C123 | Reading a NodeMap as a whole, and update | proved | `nodemap_views`, `nodemap_view_membership`, `nodemap_keys_algebra`, `nodemap_update`, `overwrite_apply`, `nodemap_update_from` | the views and update are CPython's collections.abc mixins, modelled as written there over the methods of nodemap.py |
| C124 | Normalised results stay in their range | partial | `triangles_range`, `clustering_range`, `single_clustering_range`, `single_directed_clustering_range`, `directed_clustering_range_partial`, `directed_clustering_out_of_range`, `average_clustering_range`, `average_clustering_directed_range_partial`, `single_weighted_clustering_range`, `weighted_clustering_range_partial`, `weighted_average_range_partial`, `pagerank_range`, `hits_range`, `eigenvector_range`, `degree_centrality_range`, `efficiency_range`, `reciprocity_range`, `cut_ratios_range` | partial: with self-loops clustering and average_clustering of a digraph leave the range (directed_clustering_out_of_range); exact arithmetic for the numeric functions |
| C125 | End values of normalised results mean what they say | proved | `triangles_zero_iff`, `clustering_extremes`, `single_clustering_extremes`, `transitivity_extremes`, `average_clustering_extremes`, `degree_centrality_extremes`, `overall_reciprocity_extremes`, `cut_volume_zero`, `pagerank_floor`, `pagerank_positive` | undirected graphs for the clustering statements; exact arithmetic |
| C126 | A union of separate graphs behaves like its parts | proved | `union_splits`, `part_searches`, `part_ego_graph`, `part_node_values`, `part_bellman_ford`, `union_negative_edge_cycle`, `union_floyd_warshall`, `union_not_connected`, `union_counts`, `union_k_regular`, `union_dominating`, `union_volume_cut`, `union_k_truss`, `union_no_common_ancestor`, `renamed_union_parts`, `disjoint_union_parts`, `likeIn`, `likeIn_bellman_ford` | ego_graph with radius >= 0 and hop distance; for union with rename and disjoint_union: the searches, paths, clustering and weighted distances |
| C127 | pagerank in floating-point arithmetic: what rounding errors can do | proved | `float_pagerank_distribution`, `float_pagerank_accuracy`, `float_pagerank_converges`, `float_pagerank_exact`, `rnd64_correct`, `double_pagerank`, `double_pagerank_defaults` | the exponent range of the binary64 model has no upper end: runs that overflow are excluded; FP64 weights (integer weights are summed exactly by the library, which these bounds cover below 2^53) |
| C128 | Normalised results in double precision: correctly rounded, still in range, still consistent | proved | `rnd64_nearest`, `rnd64_fraction`, `double_transitivity`, `double_transitivity_directed`, `double_clustering`, `double_clustering_directed`, `double_average_clustering`, `double_average_clustering_directed`, `double_cuts`, `double_node_expansion`, `double_conductance_bounds`, `double_overall_reciprocity`, `double_reciprocity`, `double_efficiency`, `double_normalized_cut`, `double_degree_centrality`, `double_degree_full`, `ratio_exact`, `double_square_clustering`, `square_ratio_exact` | unweighted functions (square_clustering: unit weights, no self-loops, C40); mappings of directed coefficients and their averages without self-loops (with them the exact values are already wrong, C38); INT64 overflow is excluded by the size bounds |
| C129 | Katz centrality with rounded arithmetic and in double precision | proved | `float_katz_accuracy`, `float_katz_converges`, `float_katz_exact`, `double_katz`, `double_katz_converges`, `double_katz_defaults`, `float_katz_unit`, `double_katz_unit`, `double_katz_unit_defaults` | the norm of the normalised values assumes a square root accurate to one unit in the last place and a beta that is not negligible; weights whose attenuated row sums reach 1 are excluded: there the exact equation need not have a solution (C80) |
| C13 | Row-map views keep their row index coherent | partial | `vector_node_map_is_dict`, `node_node_map_is_dict_partial`, `node_node_map_fill`, `node_node_map_get_none`, `vector_map_getitem_none` | VectorNodeMap full; NodeNodeMap.get is broken in the code (proved) |
| C130 | HITS scores with rounded arithmetic and in double precision still sum (or peak) at 1 | proved | `float_hits`, `float_hits_exact`, `double_hits`, `hits_reciprocal_overflows` | without with_authority; how close the scores are to the exact ones is not bounded (the gap between the two largest eigenvalues decides); runs that overflow are excluded, and hits_reciprocal_overflows is one: tiny weights make 1.0 / denom infinite |
| C131 | google_matrix with rounded arithmetic and in double precision is still a transition matrix | proved | `float_google`, `float_google_exact`, `double_google` | without nodelist (C67 has the nodelist findings); runs that overflow are excluded by the size bounds |
| C132 | eigenvector_centrality with rounded arithmetic and in double precision returns a unit vector | proved | `float_eigenvector`, `float_eigenvector_exact`, `double_eigenvector`, `sqrt64_acc` | runs that overflow are excluded by the size bounds; convergence itself is not claimed |
| C133 | weighted cut_size and volume with rounded arithmetic and in double precision | proved | `float_cut_size`, `float_cut_size_complement`, `float_cut_size_directed_without_target`, `float_volume`, `volume_symm`, `float_cuts_exact`, `double_cut_size`, `double_volume`, `double_cut_size_exact`, `double_volume_exact` | no overflow; in a digraph cut_size needs T, as in C51, and volume counts the edges into S, as in C52 |
| C14 | NodeSet is a mutable set over the graph's nodes | proved | `nodeset_is_set`, `nodeset_non_node`, `nodeset_eq_iff`, `nodeset_eq_sound`, `nodeset_eq_across_wrong`, `nodeset_isdisjoin`, `nodeset_operators`, `nodeset_copy_independent` | every call sequence with node keys; equality across graphs numbered differently is wrong (witness) |
| C15 | single_source_shortest_path_length is the hop distance | proved | `single_source_shortest_path_length_correct`, `single_source_shortest_path_length_missing`, `shortest_path_length_negative_cutoff` | level loop of _bfs_level with every cutoff; includes zero-weight edges and self-loops |
| C16 | single_target_shortest_path_length is the distance towards the target | proved | `single_target_shortest_path_length_correct`, `single_target_eq_single_source`, `shortest_path_length_negative_cutoff` | as stated |
| C17 | all_pairs_shortest_path_length does not depend on chunksize | proved | `all_pairs_shortest_path_length_chunksize_independent` | as stated |
| C18 | Bidirectional search returns the exact distance | proved | `bidirectional_shortest_path_length_correct`, `bidirectional_shortest_path_length_missing`, `has_path_correct` | as stated |
| C19 | efficiency is the reciprocal of the distance | proved | `efficiency_correct`, `efficiency_same_node` | exact field arithmetic; efficiency(u,u) is shown to raise ZeroDivisionError |
| C20 | descendants and ancestors are reachability without the node itself | proved | `descendants_correct`, `ancestors_correct`, `descendants_ancestors_dual`, `descendants_ancestors_missing` | as stated |
| C21 | bfs_layers partitions the reachable nodes by distance | proved | `bfs_layers_correct`, `bfs_layers_disjoint`, `descendants_at_distance_correct`, `descendants_at_distance_negative` | as stated |
| C22 | is_connected and node_connected_component | proved | `node_connected_component_correct`, `is_connected_correct` | as stated |
| C23 | is_weakly_connected ignores edge direction | proved | `is_weakly_connected_correct` | as stated |
| C24 | BFS parents form a shortest-path tree | proved | `bfs_parent_correct`, `bfs_parent_chase` | as stated |
| C25 | ego_graph is the induced ball | proved | `ego_graph_correct`, `ego_graph_missing`, `ego_graph_weighted_correct`, `ego_graph_negative_radius` | Integer radius for the hop version, exact weights for the weighted one (non-negative weights; with undirected=True distances are those of G.to_undirected(), whose weights on antiparallel pairs are picked by the `any` operator). |
| C26 | lowest_common_ancestor is a lowest common ancestor | proved | `lowest_common_ancestor_correct`, `lowest_common_ancestor_exact`, `lowest_common_ancestor_on_cycle`, `lowest_common_ancestor_cycle_index_error` | _exact: every graph, cyclic ones included |
| C27 | single_source_bellman_ford_path_length is exact or Unbounded | proved | `single_source_bellman_ford_path_length_correct`, `single_source_bellman_ford_path_length_missing`, `single_source_bellman_ford_path_length_cutoff` | all three branches (iso / non-negative / general); cutoff statement in its own theorem; weights in any linearly ordered abelian group (floats not modelled) |
| C28 | bellman_ford_path_length to a target is exact | partial | `bellman_ford_path_length_correct_partial`, `bellman_ford_path_length_unbounded_sound`, `bellman_ford_path_length_missing`, `bellman_ford_path_length_misses_negative_cycle`, `bellman_ford_path_length_exact`, `bellman_ford_path_length_nonneg`, `bellman_ford_path_length_misses_negative_self_loop` | exact when no negative cycle is reachable, sound Unbounded; with negative cycles the result is characterised for every graph (exact), which shows that the code misses some (two proved witnesses) |
| C29 | all_pairs_bellman_ford_path_length agrees with single source for every chunksize | proved | `bellman_ford_path_lengths_batch`, `all_pairs_bellman_ford_path_length_chunksize_independent` | every chunksize gives the single-source answer for every node |
| C30 | bellman_ford_path returns a shortest path | partial | `bellman_ford_path_correct_partial`, `bellman_ford_path_missing`, `bellman_ford_path_iso_negative_rejected`, `bellman_ford_path_positive_loop_rejected`, `bellman_ford_path_may_not_terminate`, `bellman_ford_path_exact`, `bellman_ford_path_sound`, `bellman_ford_path_iso_negative_always` | exact result on every graph without a reachable negative cycle; on every graph any list returned is empty with the target unreachable, or a simple path along edges; iso-valued negative graphs are always rejected; FALSE of the code with proved witnesses: iso-negative acyclic graph rejected, positive self-loop rejected, non-termination with a negative cycle |
| C31 | negative_edge_cycle detects exactly the negative cycles | proved | `negative_edge_cycle_correct` | result is True iff some closed walk has negative total weight (fresh cache; see C06 for the cached-state finding) |
| C32 | floyd_warshall distances are exact | proved | `floyd_warshall_correct`, `floyd_warshall_diagonal`, `floyd_warshall_symmetric`, `floyd_warshall_hops` | weighted and unweighted, directed and undirected (upper-triangular storage), any behaviour of the ANY operator |
| C33 | floyd_warshall predecessors are predecessors on shortest paths | partial | `floyd_warshall_predecessor_correct_partial`, `floyd_warshall_predecessor_undirected_wrong`, `floyd_warshall_predecessor_distances`, `floyd_warshall_predecessor_undirected_symmetric`, `floyd_warshall_predecessor_undirected_always_wrong` | distances for all graphs, predecessors for directed graphs; FALSE of the code for undirected graphs: the predecessors are wrong on every undirected graph with positive weights and an edge between different nodes |
| C34 | floyd_warshall_numpy with nodelist permutes the result | partial | `floyd_warshall_numpy_nodelist_partial`, `floyd_warshall_numpy_bad_nodelist`, `floyd_warshall_numpy_nodelist_undirected_wrong`, `floyd_warshall_numpy_nodelist_undirected_partial`, `floyd_warshall_numpy_nodelist_undirected_sound` | directed graphs proved, bad nodelists rejected; undirected graphs proved when the nodelist keeps the order of the ends of every edge; FALSE of the code otherwise (proved witness), where still every entry is the weight of some walk and the pairs with an entry are exactly the connected ones |
| C35 | triangles counts triangles | proved | `triangles_correct`, `single_triangle_correct`, `total_triangles_correct`, `triangles_missing`, `weighted_triangles_correct` | all undirected graphs (symmetric matrix), self-loops allowed, with or without a node list |
| C36 | transitivity is triangles over connected triples | proved | `transitivity_correct`, `transitivity_directed_correct` | exact rational arithmetic; value, bounds and non-zero divisor |
| C37 | clustering coefficients are exact and in [0,1] | proved | `clustering_correct`, `clustering_bounds`, `single_clustering_correct`, `weighted_clustering_correct` | exact rational arithmetic; weighted normalisation cbrt(w/max) is an arbitrary function f |
| C38 | Directed clustering coefficients | partial | `directed_clustering_correct_partial`, `single_directed_clustering_correct`, `directed_clustering_denominator_pos`, `directed_clustering_self_loops_wrong`, `directed_clustering_value`, `directed_clustering_right_iff`, `directed_clustering_divides_by_zero` | FALSE of the code for the all-nodes call with self-loops (AT keeps the diagonal): the returned value is given exactly for every digraph, with the condition under which it is the coefficient; all digraphs for the one-node call |
| C39 | average_clustering is the mean | partial | `average_clustering_correct`, `average_clustering_directed_correct_partial`, `average_clustering_self_loops_wrong`, `average_clustering_directed_value` | undirected fully proved; directed: exact value for every digraph (when no count is divided by 0), right without self-loops; FALSE for digraphs with self-loops (proved witness) |
| C40 | square_clustering matches its definition | partial | `square_clustering_correct`, `square_clustering_bounds`, `square_clustering_single`, `square_clustering_subset_partial`, `square_clustering_subset_drops_zeros`, `square_clustering_chunked_edgeless`, `square_clustering_uses_weights`, `square_clustering_weighted_exact`, `square_clustering_right_iff`, `square_clustering_self_loop_wrong` | whole-graph and one-node calls fully proved for every chunk size (with chunking the graph needs an edge); FALSE of the code: node-list calls omit nodes whose coefficient is 0, chunked calls on edgeless graphs return an unusable map, weights leak into the denominator (exact value for all integer weights: square_clustering_weighted_exact; right exactly when the weights balance: square_clustering_right_iff), self-loops give wrong values (proved witnesses) |
| C41 | generalized_degree histogram | partial | `generalized_degree_correct`, `generalized_degree_sum`, `single_generalized_degree_partial`, `generalized_degree_single_wrong_keys`, `generalized_degree_isolated` | all-nodes and node-list calls proved; FALSE of the code: the one-node call shows node keys instead of triangle counts, and nodes without edges are missing from the full result (proved) |
| C42 | k_truss is the maximal k-truss | proved | `k_truss_correct` | every undirected graph and integer k; termination included |
| C43 | union and disjoint_union place graphs side by side | proved | `union_correct`, `union_no_cross`, `union_overlap`, `union_rename_correct`, `disjoint_union_correct`, `union_rename_collision` | every pair of graphs; renaming that is not injective on the nodes loses nodes (proved witness) |
| C44 | intersection, difference, symmetric_difference are edge-set operations by node key | proved | `intersection_correct`, `difference_correct`, `symmetric_difference_correct` | every pair of well-formed graphs, any numbering |
| C45 | compose is the edge union by key | partial | `compose_correct_iff`, `compose_wf_iff`, `compose_correct_partial`, `compose_same_nodes`, `compose_disjoint`, `compose_loses_edges`, `compose_bad_ids`, `compose_drops_edges` | complete: compose_correct_iff says exactly for which pairs of graphs the code is right (equal node sets, or a class of overlaps); FALSE of the code for all others |
| C46 | complement and reverse are involutive on structure | proved | `complement_correct`, `complement_involutive`, `reverse_correct` | every graph |
| C47 | to_undirected | proved | `to_undirected_correct`, `to_undirected_reciprocal`, `to_undirected_symm`, `to_undirected_weights_not_symmetric` | Holds for every behaviour of the `any` operator; the last theorem is a finding about weights of antiparallel edges. |
| C48 | full_join adds all cross edges | proved | `full_join_correct`, `full_join_overlap` | every pair of graphs with disjoint nodes |
| C49 | edge_boundary returns exactly the boundary edges | partial | `edge_boundary_correct_partial`, `edge_boundary_undirected`, `edge_boundary_misses_sinks` | exact edge set for every graph and both forms; with T omitted on a digraph the code drops edges into nodes without outgoing edges (proved witness) |
| C50 | node_boundary returns exactly the outer neighbours | proved | `node_boundary_correct` | every graph, S, optional T |
| C51 | cut_size counts cut edges | proved | `cut_size_correct`, `cut_size_weighted_correct`, `cut_size_complement`, `cut_size_weighted_complement`, `cut_size_directed_without_target`, `cut_size_symmetric`, `cut_size_weighted_directed_without_target` | every graph; T omitted on a digraph raises TypeError (proved) |
| C52 | volume is the sum of (out-)degrees | partial | `volume_correct`, `volume_missing`, `volume_weighted_correct_partial`, `volume_weighted_directed_wrong` | weighted volume on a digraph sums incoming weights (proved witness) |
| C53 | conductance and expansions | proved | `conductance_correct`, `conductance_bounds`, `edge_expansion_correct`, `node_expansion_correct` | every graph; the weight argument is ignored by the code for these functions |
| C54 | is_dominating_set | proved | `is_dominating_set_correct` | every graph and node list |
| C55 | isolates are the nodes without edges | proved | `is_isolate_correct`, `isolates_correct` | every graph |
| C56 | is_regular and is_k_regular | proved | `is_regular_correct_partial`, `is_regular_edgeless`, `is_regular_empty`, `is_k_regular_correct_partial`, `is_k_regular_zero`, `is_regular_exact`, `is_k_regular_exact` | exact result for every graph and every k; FALSE of the code on edgeless graphs and for k=0 (False), and it raises on the empty graph (proved) |
| C57 | is_tournament | proved | `is_tournament_correct` | every digraph |
| C58 | score_sequence and tournament_matrix | proved | `score_sequence_correct`, `score_sequence_sum`, `tournament_matrix_correct` | every digraph |
| C59 | is_simple_path | proved | `is_simple_path_correct` | every graph and every list |
| C60 | reciprocity | proved | `reciprocity_nodes_correct`, `reciprocity_node_correct`, `overall_reciprocity_correct`, `overall_reciprocity_bounds` | every digraph |
| C61 | s_metric | partial | `s_metric_correct_partial`, `s_metric_directed_half`, `s_metric_self_loop`, `s_metric_exact` | exact value for every graph; FALSE of the code: the value is halved for digraphs and for self-loops (proved) |
| C62 | Community edge counts | partial | `community_edges_correct`, `community_edges_partition`, `community_edges_undirected_doubled`, `community_edges_undirected_exact` | exact on every graph; FALSE for undirected graphs: every edge between different nodes is counted twice (proved for every undirected graph) |
| C63 | mutual_weight | proved | `mutual_weight_correct` | every graph and pair of keys |
| C64 | is_triad | partial | `is_triad_correct`, `is_triad_history_partial`, `isolates_poison_is_triad` | exact on a new object and after every history that C06 admits; FALSE of the code after isolates, s_metric, degree_centrality or total_degrees+ on a digraph with self-loops (proved witness) |
| C65 | Isomorphism tests never reject isomorphic graphs | partial | `faster_never_rejects`, `faster_could_be_isomorphic_iff`, `fast_never_rejects_partial`, `fast_could_be_isomorphic_iff_partial`, `fast_true_implies_faster_true`, `fast_rejects_isomorphic_digraphs` | faster: all graphs, answers True exactly when the degree sequences agree; fast: exact on undirected graphs (pairs of degree and triangle count), on digraphs it rejects isomorphic digraphs (proved witness) |
| C66 | pagerank iterates preserve probability mass | partial | `pagerank_correct`, `pagerank_sum`, `pagerank_nonneg`, `pagerank_accuracy`, `pagerank_converges`, `pagerank_vector`, `pagerank_zero_sum`, `pagerank_edgeless` | any graph with at least one edge, exact arithmetic; the edgeless graph returns all zeros (proved) |
| C67 | google_matrix is row-stochastic | partial | `google_matrix_correct`, `google_matrix_rows`, `google_matrix_nodelist_partial`, `google_matrix_permuted_nodelist`, `google_matrix_dangling_ignored`, `google_matrix_nodelist_exact`, `google_matrix_nodelist_lost_row`, `google_matrix_dangling_ignored_always` | without a nodelist for every graph; with a nodelist the matrix is given exactly (which rows are filled) and two ways it differs from NetworkX are proved |
| C68 | Power-iteration results satisfy their convergence criterion | proved | `katz_correct`, `katz_norm`, `katz_sources_missing`, `eigenvector_correct`, `eigenvector_norm`, `eigenvector_null`, `hits_correct`, `hits_with_authority_correct` | exact field arithmetic; katz_sources_missing covers the alternative reading of the library's scalar accumulation |
| C69 | Degree centralities | proved | `degree_centrality_directed`, `degree_centrality_undirected`, `in_out_degree_centrality`, `in_out_degree_centrality_undirected` | every graph |
| C70 | laplacian_matrix rows sum to zero | partial | `laplacian_matrix_correct_partial`, `laplacian_matrix_symmetric`, `normalized_laplacian_matrix_correct_partial`, `laplacian_matrix_digraph_raises` | every graph and node list, except unweighted digraphs without node list, where the code always raises KeyError (proved) |
| C71 | modularity matrices rows sum to zero | proved | `modularity_matrix_correct`, `directed_modularity_matrix_correct`, `modularity_matrix_kinds` | every graph and node list, total weight nonzero unless there is no edge |
| C72 | bethe_hessian_matrix formula | proved | `bethe_hessian_matrix_correct`, `bethe_hessian_matrix_no_edges` | every undirected graph, r, node list; default r too |
| C73 | adjacency_matrix reorders by nodelist | proved | `adjacency_matrix_correct`, `adjacency_matrix_missing` | every graph and node list |
| C74 | partition splits a list without loss | proved | `partition_correct`, `partition_one` | partition(1, L) yields bare elements (documented finding) |
| C75 | split_evenly | proved | `split_evenly_correct`, `split_evenly_count` | as stated |
| C76 | normalize_chunksize returns None or a usable size | proved | `normalize_chunksize_usable`, `normalize_chunksize_number`, `normalize_chunksize_insensitive`, `normalize_chunksize_all`, `normalize_chunksize_unit`, `normalize_chunksize_chunks`, `normalize_chunksize_errors` | float parsing of the numeric prefix is a parameter |
| C77 | Dispatcher conversion decisions | proved | `convert_from_nx_correct`, `convert_from_nx_unsupported` | every combination of arguments |
| C78 | Results converted back to NetworkX keep their meaning | partial | `convert_to_nx_correct`, `convert_to_nx_unreachable_zero` | floyd_warshall_numpy: unreachable pairs become 0 instead of infinity (proved for every such pair) |
| C79 | Weighted clustering coefficients | partial | `weighted_clustering_map_partial`, `single_weighted_clustering`, `weighted_directed_clustering_map_partial`, `single_weighted_directed_clustering`, `weighted_average_partial`, `weighted_average_directed_partial`, `weighted_clustering_self_loop_raises`, `weighted_directed_clustering_value`, `weighted_directed_clustering_right`, `weighted_average_directed_value`, `weighted_clustering_no_edges_raises` | one-node calls proved for all graphs with an edge between different nodes; undirected all-nodes calls and averages for graphs without self-loops (with them the call raises AttributeError, proved for every such graph); directed all-nodes calls exact for every digraph (value), right without self-loops at the node and its predecessors; FALSE of the code: self-loops count in digraphs, and graphs without an edge between different nodes raise (division by an empty Scalar, read as raising) |
| C80 | Katz centrality: convergence, accuracy, uniqueness | proved | `katz_contract`, `katz_solution_unique`, `katz_accuracy`, `katz_converges`, `katz_solution_exists`, `katz_lower`, `katz_beta_incomplete` | exact arithmetic |
| C81 | Traversal and shortest-path results do not depend on node names or internal numbering | proved | `relabel_single_source_shortest_path_length`, `relabel_single_target_shortest_path_length`, `relabel_all_pairs_shortest_path_length`, `relabel_bidirectional_shortest_path_length`, `relabel_efficiency`, `relabel_descendants`, `relabel_ancestors`, `relabel_descendants_at_distance`, `relabel_bfs_layers`, `relabel_node_connected_component`, `relabel_is_connected`, `relabel_is_weakly_connected`, `relabel_single_source_bellman_ford`, `relabel_single_source_bellman_ford_cutoff`, `relabel_bellman_ford_path_length`, `relabel_bellman_ford_path_length_all`, `relabel_single_source_bellman_ford_all`, `relabel_bfs_level`, `relabel_negative_edge_cycle`, `relabel_floyd_warshall`, `relabels_relabelled` | all graphs, negative cycles included; all cutoffs for the single-source functions |
| C82 | Counting results do not depend on node names or internal numbering | partial | `relabel_triangles`, `relabel_transitivity`, `relabel_clustering`, `relabel_clustering_directed`, `relabel_clustering_directed_loops`, `relabel_clustering_single`, `relabel_average_clustering`, `relabel_average_clustering_directed`, `relabel_square_clustering`, `relabel_square_clustering_subset`, `relabel_generalized_degree`, `relabel_k_truss`, `relabel_cut_size`, `relabel_volume`, `relabel_conductance`, `relabel_expansions`, `relabel_node_boundary`, `relabel_isolates`, `relabel_is_regular`, `relabel_is_k_regular`, `relabel_tournament`, `relabel_reciprocity`, `relabel_small`, `relabel_mutual_weight`, `relabel_tournament_matrix`, `relabel_is_k_regular_all`, `relabel_cut_size_complement`, `relabel_clustering_all`, `relabel_volume_all`, `relabel_expansions_directed` | every function covered, self-loops or not; average_clustering(count_zeros=False) of a digraph is excluded only where the code divides a positive count by 0 |
| C83 | Centralities do not depend on node names or internal numbering | proved | `relabel_pagerank_all`, `relabel_katz_all`, `relabel_eigenvector_all`, `relabel_hits_all`, `relabel_hits_authority_all`, `relabel_pagerank`, `relabel_katz`, `relabel_eigenvector`, `relabel_hits`, `relabel_degree_centrality` | every graph and every argument, valid or not; exact arithmetic, in which sums do not depend on the order of the nodes |
| C84 | Graph operators raise exactly when they should | proved | `operators_reject_multigraphs`, `operators_raise` | as stated |
| C85 | Operators on undirected graphs return undirected graphs | partial | `operators_symmetric`, `compose_symmetric`, `compose_symmetric_partial`, `union_mixed_not_symmetric`, `intersection_mixed_not_symmetric` | mixed arguments are accepted and give an undirected graph object with one-way edges (proved for every such pair) |
| C86 | Equality of maps | partial | `nodemap_eq_dict`, `nodemap_eq_sound`, `nodemap_eq_sound_keys`, `nodemap_eq_complete_partial`, `row_maps_eq`, `row_maps_eq_sound`, `nodemap_eq_modes`, `nodemap_eq_fill_wrong`, `nodemap_eq_across_wrong`, `vectormap_eq_nodemap_wrong`, `vectormap_eq_nodemap_partial` | comparison with dicts is exact; equal node maps of differently numbered graphs or with fill values may compare unequal, and a VectorMap compares equal to a NodeMap with other items (all proved) |
| C87 | VectorMap behaves as a dict | partial | `vector_map_is_dict_partial`, `vector_map_absent` | for absent keys m[k], pop(k), pop(k, d) return None and del is silent (proved) |
| C88 | Assigning a dict to a row of a map of maps | partial | `row_set_dict`, `row_set_dict_outside`, `row_set_dict_correct_partial`, `row_set_dict_wrong` | the keys of the dict are used as internal numbers: right only when every node is its own number (proved, with a counterexample) |
| C89 | Algorithms only see the kind of graph they are for | partial | `api_kind`, `api_plain`, `api_not_a_graph`, `not_implemented_for_iff`, `square_clustering_accepts_directed`, `reciprocity_rejects_both_only` | square_clustering treats a directed NetworkX graph as undirected; reciprocity raises TypeError for undirected graphs and accepts directed multigraphs (proved) |
| C90 | Calls do not modify existing objects | proved | `Effects.calls_keep_existing_objects`, `Effects.results_are_new`, `Effects.helpers_overwrite_one_argument`, `Effects.property_lookup_shares_the_matrix` | reference-level model generated from the Python sources by tools/effects.py; a checker proved sound in the kernel is evaluated on all 220 function bodies |
| C91 | Changing results never changes the graph | proved | `Effects.sessions_keep_the_graph` | results of property lookups, reverse(copy=False) and other sharing functions are excluded from what the user may write to |
| C92 | Building graph objects | partial | `construct_errors`, `construct_matrix`, `construct_nothing`, `construct_keys`, `construct_keys_unchecked` | a key_to_id that does not number its keys 0..n-1 is accepted and gives an inconsistent object (proved for every dictionary of the wrong size); consistent exactly when it does |
| C93 | A graph object answers consistently | proved | `graph_object_consistent`, `graph_step`, `new_object_ok`, `derived_objects` | well-formed objects (C07, C92) |
| C94 | Functions about hop distances agree | proved | `hop_distance_apis_agree`, `hop_distance_sets_agree`, `hop_distance_metric` | as stated |
| C95 | Functions about weighted distances agree | proved | `weighted_distance_apis_agree`, `weighted_distance_equal_weights`, `weighted_distance_metric` | Exact arithmetic. |
| C96 | Laws between graph operators and traversals | proved | `reverse_swaps_directions`, `weakly_connected_is_connected_undirected`, `edge_set_algebra`, `complement_partitions` | as stated |
| C97 | Totals agree with the parts | proved | `triangle_counts_agree`, `clustering_apis_agree`, `isolate_apis_agree` | as stated |
| C98 | Unsupported kinds of graph and null graphs are handled before anything else | proved | `null_graph_results`, `multigraph_centrality_rejected`, `matrices_wrong_kind`, `wrong_kind_rejected` | for every graph and all arguments of the listed functions |
| C99 | Property names mean what they say, whatever was looked up before | partial | `property_names_resolve`, `digraph_names_resolve`, `degree_names`, `digraph_has_no_degrees`, `only_names_resolve`, `name_errors`, `failing_name_changes_nothing`, `split_names`, `written_exists`, `get_property_by_name_partial`, `get_property_by_name_errors` | partial because C01/C02 are: the value of has_self_edges, has_negative_diagonal and of total_degrees+ on a DiGraph with self-edges can depend on the history. Everything about names is proved in full. Finding: DiGraph has no 'degrees' names (KeyError). |

## 5. Findings

Places where the code does not do what its user relies on.  Each is a theorem (namespace `Props`).

* Shortest paths: `bellman_ford_path_length_misses_negative_cycle`, `bellman_ford_path_length_misses_negative_self_loop`; `bellman_ford_path_iso_negative_rejected`,
  `bellman_ford_path_positive_loop_rejected`, `bellman_ford_path_exact` (no path: `[]`, not NoPath), `bellman_ford_path_may_not_terminate`;
  `bellman_ford_path_iso_negative_always`; `floyd_warshall_predecessor_undirected_wrong`, `floyd_warshall_predecessor_undirected_always_wrong`; `floyd_warshall_numpy_nodelist_undirected_wrong`;
  `efficiency_same_node` (ZeroDivisionError); `lowest_common_ancestor_cycle_index_error`, `lowest_common_ancestor_on_cycle`;
  `descendants_at_distance_negative`; `single_source_bellman_ford_cutoff_hides` (a cutoff hides negative cycles and near nodes behind far ones).
* Clustering: `directed_clustering_self_loops_wrong`, `average_clustering_self_loops_wrong`,
  `directed_clustering_out_of_range` (values above 1), `directed_clustering_right_iff` (exactly when), `directed_clustering_divides_by_zero` (a positive count over 0: `inf`);
  `square_clustering_subset_drops_zeros`, `square_clustering_chunked_edgeless`, `square_clustering_uses_weights`, `square_clustering_self_loop_wrong`;
  `generalized_degree_single_wrong_keys`, `generalized_degree_isolated`; `weighted_clustering_self_loop_raises`.
* Property cache: `has_negative_diagonal_depends_on_history`, `has_self_edges_wrong_after_negative_diagonal`,
  `total_degrees_poisons_has_self_edges`, `element_minus_attribute_error`, `iso_value_key_error`;
  memo: `average_clustering_memo_ignores_weight`, `negative_edge_cycle_depends_on_history`; between algorithms:
  `bellman_ford_breaks_pagerank` (`pagerank(G)` of a weighted graph raises KeyError after a Bellman-Ford call on `G`),
  `pagerank_races_with_bellman_ford` (the same between threads), `digraph_has_no_degrees`,
  `isolates_poison_reciprocity` (`isolates(G)` on a DiGraph with a self-loop changes a later `overall_reciprocity(G)` from 2/3 to 1), `isolates_poison_is_triad`.
* Operators: `compose_loses_edges`, `compose_bad_ids`, `compose_drops_edges`, `union_rename_collision`,
  `union_mixed_not_symmetric`, `backend_union_mixed_loses_edges`, `compose_depends_on_numbering`, `intersection_mixed_not_symmetric`, `to_undirected_weights_not_symmetric`.
* Conversions: `matrix_to_dicts_empty`, `matrix_to_dicts_transposed_flags_swapped`, `dict_to_vector_empty`,
  `convert_to_nx_unreachable_zero`, `partition_one`.
* Maps and sets: `nodemap_deviations`, `nodemap_setdefault_keys_wrong`, `nodemap_fill_popitem_empty`,
  `node_node_map_get_none`, `vector_map_getitem_none`, `vector_map_absent`, `nodeset_non_node`,
  `nodeset_eq_across_wrong`, `nodeset_isdisjoin`, `nodemap_eq_fill_wrong`, `nodemap_eq_across_wrong`,
  `vectormap_eq_nodemap_wrong`, `row_set_dict_wrong`.
* Node sets: `nodeset_compare_foreign` (`a >= s`, `a.isdisjoint(s)` raise when `s` has values outside the graph), `nodeset_ior_isub`
  (`a |= it`, `a -= it` leave a half-done update when they raise).
* Boundaries and cuts: `edge_boundary_misses_sinks`, `cut_size_directed_without_target`,
  `volume_weighted_directed_wrong`, `multigraph_edge_boundary_data_repeats`, `conductance_ignores_weight`.
* Small algorithms: `is_regular_edgeless`, `is_regular_empty`, `is_k_regular_zero`, `s_metric_directed_half`,
  `s_metric_self_loop`, `community_edges_undirected_doubled`, `fast_rejects_isomorphic_digraphs`.
* Numerics: `pagerank_edgeless`, `google_matrix_permuted_nodelist`, `google_matrix_dangling_ignored`, `google_matrix_dangling_ignored_always`, `google_matrix_nodelist_lost_row`, `google_matrix_nodelist_depends_on_numbering`,
  `katz_sources_missing` (depends on how the library accumulates a scalar), `laplacian_matrix_digraph_raises`.
* Number formats: `hits_reciprocal_overflows`, `uint_tournament_matrix`, `uint_laplacian_matrix`, `int8_sums_wrap`, `float_iso_storage_shows`.
* Exceptions: `unbounded_not_translated`, `no_path_not_raised`, `floyd_warshall_numpy_raises_partial` (KeyError for a foreign node).
* Input kinds: `square_clustering_accepts_directed`, `reciprocity_rejects_both_only`; sharing:
  `Effects.property_lookup_shares_the_matrix`.

Noticed while reading, not theorems: `VectorNodeMap`/`NodeNodeMap` without `key_to_id` use `A.size`, which matrices
lack; `NodeNodeMap[u][v] = x` updates a copy; the cache keys
`row_degrees±`/`column_degrees±` are never written; `degree_centrality` counts a self-loop once (NetworkX
twice); rows of cancelling weights divide by zero in pagerank; a cutoff with iso value 0 divides by zero; the
default `r` of `bethe_hessian_matrix` counts a self-loop once and its wrapper ignores weights; `to_undirected_graph`
of a matrix does not check symmetry; operators drop graph attributes.

## 6. Testing the theorems against wrong programs

`tools/mutate.py EDITS RESULTS` applies one edit at a time to a scratch copy of the model and rebuilds;
`tools/mutate_effects.py` edits the Python sources (in a scratch copy), regenerates the ownership table and rebuilds.
`seeded/LOG.jsonl` (written by `tools/log.py` from `seeded/results/*.jsonl`) has one line per attempt.  Survivors were
either equivalent programs (marked) or led to the tightened theorems named in the log.

## 7. Rebuilding

`cd lean && lake build`; `python3 tools/manifest.py` regenerates MANIFEST.json from `tools/claims.txt` and reports
names that do not exist; `python3 tools/effects.py write` regenerates `Model/EffectsTable.lean` from `/repo`;
`python3 tools/citations.py` checks the line citations; `python3 tools/design.py` reassembles this file.
