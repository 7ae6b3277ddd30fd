{"id": "C01", "title": "Graph property lookups are history independent (undirected)", "statement": "On a ga.Graph whose adjacency matrix is symmetric, G.get_property(name) returns the value its docstring defines (A, A.T, offdiag, triu/tril with and without the diagonal, diag, row/column reductions with '+' and without '-' the self-edges, has_self_edges, negativity flags) no matter which properties were requested before it, in which order, with which masks.", "quantifier": "every symmetric matrix, every finite sequence of get_property requests (with or without masks) on one graph object", "why_tests_cant": "The cache has about twenty inter-derived entries; correctness must hold for every interleaving of requests, a set that grows exponentially with history length; tests call properties in a handful of orders.", "anchors": ["graphblas_algorithms/classes/graph.py:get_offdiag,get_Up,get_Lp,get_Um,get_Lm,get_diag,has_self_edges,has_negative_diagonal", "graphblas_algorithms/classes/_caching.py:get_reduce_to_vector,get_reduce_to_scalar"]}
{"id": "C02", "title": "Graph property lookups are history independent (directed)", "statement": "On a ga.DiGraph, G.get_property(name) returns the value its docstring defines (including AT, recip_degrees±, total_degrees±, total_recip±) no matter which properties were requested before it, in which order, with which masks.", "quantifier": "every square matrix, every finite sequence of get_property requests on one DiGraph", "why_tests_cant": "Same as C01: the property quantifies over all request histories.", "anchors": ["graphblas_algorithms/classes/digraph.py:get_recip_degreesp,get_recip_degreesm,get_total_degreesp,get_total_degreesm,get_total_recipp,get_total_recipm,has_self_edges", "graphblas_algorithms/classes/_caching.py"]}
{"id": "C03", "title": "has_self_edges is exact", "statement": "After any sequence of property requests, has_self_edges is True exactly when some node has an edge to itself, and once known it never changes.", "quantifier": "every matrix and every request history", "why_tests_cant": "A wrong cached flag silently poisons every '-' property derived later; only some orders trigger it.", "anchors": ["graphblas_algorithms/classes/graph.py:has_self_edges", "graphblas_algorithms/classes/digraph.py:has_self_edges"]}
{"id": "C04", "title": "Masked property lookups are restrictions", "statement": "get_property(name, mask=m) for a vector-valued property equals the unmasked value restricted to the positions selected by m, for structural and complemented masks, whatever is already cached, and does not corrupt later unmasked lookups.", "quantifier": "every matrix, mask, property and prior history", "why_tests_cant": "All subsets of nodes and all cache states.", "anchors": ["graphblas_algorithms/classes/_caching.py:get_reduce_to_vector", "graphblas_algorithms/classes/digraph.py:get_recip_degreesm"]}
{"id": "C05", "title": "get_properties agrees with get_property and keeps the requested order", "statement": "get_properties(names) returns one value per requested name, in the requested order, each equal to what get_property would return, although lookups are performed in priority order.", "quantifier": "every list of names (with repetitions and aliases) and prior history", "why_tests_cant": "All name lists and histories.", "anchors": ["graphblas_algorithms/classes/_utils.py:get_properties,get_property"]}
{"id": "C06", "title": "Algorithm results do not depend on earlier algorithm calls", "statement": "Calling one algorithm on a graph object never changes what another call on the same object returns: memoised results (transitivity, average_clustering) are returned only for calls with the same arguments, and no algorithm mutates the adjacency matrix or a cached value.", "quantifier": "every pair of calls with arbitrary arguments on the same graph", "why_tests_cant": "Memo keys must separate every pair of distinct argument combinations; tests mostly convert a fresh graph per call.", "anchors": ["graphblas_algorithms/classes/_utils.py:_cacheit", "graphblas_algorithms/nxapi/cluster.py:average_clustering,transitivity"]}
{"id": "C07", "title": "Node keys and matrix indices are in bijection", "statement": "For every graph built by from_networkx or by wrapping a matrix, and for every graph returned by ego_graph, k_truss, union, intersection, difference, symmetric_difference, complement and reverse, each node key maps to exactly one valid row index, each index to exactly one key, and id_to_key inverts key_to_id.", "quantifier": "every input graph with distinct hashable keys", "why_tests_cant": "Holds for arbitrary node sets and sizes.", "anchors": ["graphblas_algorithms/classes/_utils.py:from_networkx,id_to_key,renumber_key_to_id"]}
{"id": "C08", "title": "Key/id and dict/vector conversions round-trip", "statement": "list_to_keys(list_to_ids(nodes)) = nodes for nodes of the graph; vector_to_dict(dict_to_vector(d)) = d for every non-empty dict on nodes; set_to_vector(ignore_extra=True) keeps exactly the members that are nodes; unknown nodes raise KeyError otherwise.", "quantifier": "every graph, node list, dict and set", "why_tests_cant": "Unbounded inputs.", "anchors": ["graphblas_algorithms/classes/_utils.py:dict_to_vector,list_to_ids,list_to_keys,set_to_vector,vector_to_dict,vector_to_set,vector_to_list"]}
{"id": "C09", "title": "matrix_to_dicts decodes exactly the stored entries", "statement": "matrix_to_dicts(A) returns a dict of dicts that has value v at [row][col] exactly when A stores v there, with rows/columns translated to node keys unless use_row_index / use_column_index asks for the raw index on that axis, also when A is a transposed matrix; rows without entries do not appear.", "quantifier": "every matrix, flag combination and transposition", "why_tests_cant": "All sparse structures incl. hypersparse, all flag combinations.", "anchors": ["graphblas_algorithms/classes/_utils.py:matrix_to_dicts"]}
{"id": "C10", "title": "Conversion to and from NetworkX is lossless", "statement": "G.to_networkx() of a graph obtained by from_networkx(H, weight) has the same nodes and the same weighted edges as H (weight default 1), for directed and undirected H.", "quantifier": "every simple NetworkX graph/digraph with numeric weights", "why_tests_cant": "All graphs.", "anchors": ["graphblas_algorithms/classes/_utils.py:from_networkx,to_networkx"]}
{"id": "C11", "title": "NodeMap is a mutable mapping over the graph's nodes", "statement": "A NodeMap without fill value behaves like a dict whose keys are restricted to graph nodes: any sequence of set, delete, get, setdefault, popitem, clear, len, iteration and containment gives the results a dict would give, and keys outside the graph raise KeyError.", "quantifier": "every operation sequence and every graph", "why_tests_cant": "All histories.", "anchors": ["graphblas_algorithms/classes/nodemap.py:NodeMap"]}
{"id": "C12", "title": "NodeMap with a fill value is total", "statement": "A NodeMap with a fill value has every graph node as a key: len is the number of nodes, iteration yields every node once, reads return the stored value or the fill value and never fail; clear empties it.", "quantifier": "every vector, fill value and operation sequence", "why_tests_cant": "All histories.", "anchors": ["graphblas_algorithms/classes/nodemap.py:NodeMap", "graphblas_algorithms/classes/_utils.py:vector_to_nodemap"]}
{"id": "C13", "title": "Row-map views keep their row index coherent", "statement": "VectorNodeMap and NodeNodeMap stay coherent under any sequence of set/delete/popitem/clear/read: a node is a key exactly when its matrix row has an entry, len counts those rows, and reading a key (by [] or .get) returns that row.", "quantifier": "every matrix and operation sequence", "why_tests_cant": "A lazily built row index must agree with the matrix after every history.", "anchors": ["graphblas_algorithms/classes/nodemap.py:VectorNodeMap,NodeNodeMap"]}
{"id": "C14", "title": "NodeSet is a mutable set over the graph's nodes", "statement": "A NodeSet behaves like a Python set restricted to graph nodes under any sequence of add, discard, remove, pop, clear, containment, len and iteration; two NodeSets over the same graph are equal exactly when they have the same members; copies are independent.", "quantifier": "every operation sequence and pairs of sets", "why_tests_cant": "All histories.", "anchors": ["graphblas_algorithms/classes/nodeset.py:NodeSet"]}
{"id": "C15", "title": "single_source_shortest_path_length is the hop distance", "statement": "The result has value d at node v exactly when the shortest directed walk from source to v has d edges and d is within the cutoff (None = unlimited, inclusive otherwise; a negative cutoff counts as 0); unreachable or too distant nodes are absent.", "quantifier": "every graph, source and integer cutoff", "why_tests_cant": "All graphs, sizes and cutoffs.", "anchors": ["graphblas_algorithms/algorithms/_bfs.py:_bfs_level,_get_cutoff", "graphblas_algorithms/algorithms/shortest_paths/unweighted.py:single_source_shortest_path_length"]}
{"id": "C16", "title": "single_target_shortest_path_length is the distance towards the target", "statement": "The result has value d at v exactly when the shortest walk from v to the target has d edges and d is within the cutoff (a negative cutoff counts as 0); on undirected graphs it equals the single-source result.", "quantifier": "every graph, target and cutoff", "why_tests_cant": "All graphs.", "anchors": ["graphblas_algorithms/algorithms/shortest_paths/unweighted.py:single_target_shortest_path_length", "graphblas_algorithms/algorithms/_bfs.py:_bfs_level"]}
{"id": "C17", "title": "all_pairs_shortest_path_length does not depend on chunksize", "statement": "For every chunksize (None, below 2, or any size), all_pairs_shortest_path_length yields for every source exactly the single-source result with the same cutoff, each source exactly once.", "quantifier": "every graph, cutoff and chunksize", "why_tests_cant": "The batched matrix BFS stops only when all rows are exhausted; equality must hold for every graph and chunking.", "anchors": ["graphblas_algorithms/algorithms/_bfs.py:_bfs_levels", "graphblas_algorithms/nxapi/shortest_paths/unweighted.py:all_pairs_shortest_path_length"]}
{"id": "C18", "title": "Bidirectional search returns the exact distance", "statement": "bidirectional_shortest_path_length returns the hop distance when a path exists and raises NoPath exactly when none exists; has_path is True exactly when target is reachable from source; unknown nodes raise KeyError.", "quantifier": "every graph, source and target", "why_tests_cant": "Two alternating frontiers with early exits; all graphs.", "anchors": ["graphblas_algorithms/algorithms/shortest_paths/unweighted.py:bidirectional_shortest_path_length", "graphblas_algorithms/algorithms/shortest_paths/generic.py:has_path"]}
{"id": "C19", "title": "efficiency is the reciprocal of the distance", "statement": "efficiency(G,u,v) is 1/d where d is the hop distance between distinct nodes u and v, and 0 when they are not connected.", "quantifier": "every graph and pair of distinct nodes", "why_tests_cant": "All graphs.", "anchors": ["graphblas_algorithms/algorithms/efficiency_measures.py:efficiency"]}
{"id": "C20", "title": "descendants and ancestors are reachability without the node itself", "statement": "descendants(G,s) is exactly the set of nodes other than s reachable from s; ancestors(G,s) exactly the nodes other than s from which s is reachable; u is a descendant of v exactly when v is an ancestor of u.", "quantifier": "every graph and node", "why_tests_cant": "All graphs, cyclic or not.", "anchors": ["graphblas_algorithms/algorithms/dag.py:descendants,ancestors", "graphblas_algorithms/algorithms/_bfs.py:_bfs_plain"]}
{"id": "C21", "title": "bfs_layers partitions the reachable nodes by distance", "statement": "The k-th layer yielded by bfs_layers(G, sources) is exactly the set of nodes whose distance from the nearest source is k; layers are non-empty, disjoint and cover every reachable node; descendants_at_distance(G,s,d) is the d-th layer (empty when beyond the last; {s} for a negative d).", "quantifier": "every graph, non-empty source set, distance", "why_tests_cant": "All graphs.", "anchors": ["graphblas_algorithms/algorithms/traversal/breadth_first_search.py:bfs_layers,descendants_at_distance"]}
{"id": "C22", "title": "is_connected and node_connected_component", "statement": "On an undirected graph, node_connected_component(G,n) is exactly the set of nodes reachable from n; is_connected(G) is True exactly when every node is reachable from every node and raises PointlessConcept exactly on the empty graph.", "quantifier": "every undirected graph and node", "why_tests_cant": "All graphs.", "anchors": ["graphblas_algorithms/algorithms/components/connected.py:is_connected,node_connected_component"]}
{"id": "C23", "title": "is_weakly_connected ignores edge direction", "statement": "is_weakly_connected(G) is True exactly when every two nodes are joined by a walk that may traverse edges in either direction; PointlessConcept exactly on the empty graph.", "quantifier": "every directed graph", "why_tests_cant": "Two interleaved frontiers with four emptiness cases; all graphs.", "anchors": ["graphblas_algorithms/algorithms/_bfs.py:_bfs_plain_bidirectional", "graphblas_algorithms/algorithms/components/weakly_connected.py:is_weakly_connected"]}
{"id": "C24", "title": "BFS parents form a shortest-path tree", "statement": "In the parent vector used to build unweighted shortest paths, every reached node other than the source has a parent that is one hop closer to the source and adjacent to it; following parents from any reached node terminates at the source and yields a shortest path.", "quantifier": "every graph and source", "why_tests_cant": "All graphs.", "anchors": ["graphblas_algorithms/algorithms/_bfs.py:_bfs_parent", "graphblas_algorithms/algorithms/shortest_paths/weighted.py:_reconstruct_path_from_parents"]}
{"id": "C25", "title": "ego_graph is the induced ball", "statement": "ego_graph(G,n,radius) has exactly the nodes within distance radius of n (a negative radius counts as 0; without n when center=False), exactly the edges of G between those nodes with their weights, and keys that still name the same nodes; with undirected=True distance ignores direction.", "quantifier": "every graph, node, integer radius and flags", "why_tests_cant": "All graphs.", "anchors": ["graphblas_algorithms/generators/ego.py:ego_graph", "graphblas_algorithms/classes/_utils.py:renumber_key_to_id"]}
{"id": "C26", "title": "lowest_common_ancestor is a lowest common ancestor", "statement": "On an acyclic graph, lowest_common_ancestor(G,u,v) returns a common ancestor (a node counts as its own ancestor) none of whose successors is a common ancestor, and returns the default exactly when there is no common ancestor. On any graph: IndexError is raised exactly if there are common ancestors but each has a successor that is one too (always so for two nodes of one cycle); otherwise the result is the lowest common ancestor that comes first in the node numbering.", "quantifier": "every directed graph, acyclic or not, and every pair of nodes", "why_tests_cant": "All DAGs.", "anchors": ["graphblas_algorithms/algorithms/lowest_common_ancestors.py:lowest_common_ancestor"]}
{"id": "C27", "title": "single_source_bellman_ford_path_length is exact or Unbounded", "statement": "It raises Unbounded exactly when a negative cycle (self-loops included) is reachable from the source; otherwise it returns, for exactly the reachable nodes, the minimum total weight over all walks from the source, whether or not the matrix is iso-valued.", "quantifier": "every weighted graph and source", "why_tests_cant": "Correctness over all walks, all weights, all sizes; the frontier variant must agree with the classical recurrence.", "anchors": ["graphblas_algorithms/algorithms/shortest_paths/weighted.py:_bellman_ford_path_length"]}
{"id": "C28", "title": "bellman_ford_path_length to a target is exact", "statement": "bellman_ford_path_length(G,s,t) returns the minimum weight over walks from s to t; raises NoPath exactly when t is unreachable and Unbounded when a negative cycle reachable from s can reach t.", "quantifier": "every weighted graph, source and target", "why_tests_cant": "Pruning by the current best and a target-only cycle test must be right for all graphs.", "anchors": ["graphblas_algorithms/algorithms/shortest_paths/weighted.py:_bellman_ford_path_length,bellman_ford_path_length"]}
{"id": "C29", "title": "all_pairs_bellman_ford_path_length agrees with single source for every chunksize", "statement": "Each yielded row equals the single-source result for that source, for every chunksize, and Unbounded is raised for a batch exactly when some source in the batch reaches a negative cycle.", "quantifier": "every weighted graph and chunksize", "why_tests_cant": "All graphs and chunkings.", "anchors": ["graphblas_algorithms/algorithms/shortest_paths/weighted.py:bellman_ford_path_lengths", "graphblas_algorithms/nxapi/shortest_paths/weighted.py:all_pairs_bellman_ford_path_length"]}
{"id": "C30", "title": "bellman_ford_path returns a shortest path", "statement": "When no negative cycle is reachable, bellman_ford_path(G,s,t) returns a list of nodes starting at s and ending at t, consecutive nodes adjacent, whose total weight is the distance; an unreachable target gives an empty list; the call always terminates.", "quantifier": "every weighted graph, source and target", "why_tests_cant": "Parent pointers are reverse-engineered each round; must hold for all graphs, ties and weights.", "anchors": ["graphblas_algorithms/algorithms/shortest_paths/weighted.py:bellman_ford_path,_reconstruct_path_from_parents"]}
{"id": "C31", "title": "negative_edge_cycle detects exactly the negative cycles", "statement": "negative_edge_cycle(G) is True exactly when the graph has a cycle (self-loops included) of negative total weight.", "quantifier": "every weighted graph", "why_tests_cant": "All graphs and weights.", "anchors": ["graphblas_algorithms/algorithms/shortest_paths/weighted.py:negative_edge_cycle"]}
{"id": "C32", "title": "floyd_warshall distances are exact", "statement": "Without negative cycles, floyd_warshall has value d at (u,v) exactly when v is reachable from u and d is the minimum walk weight (number of edges when unweighted), 0 on the diagonal; for undirected graphs the result is symmetric.", "quantifier": "every graph without negative cycles", "why_tests_cant": "All graphs; skipping of empty rows/columns and upper-triangular storage must be sound for all.", "anchors": ["graphblas_algorithms/algorithms/shortest_paths/dense.py:floyd_warshall_predecessor_and_distance"]}
{"id": "C33", "title": "floyd_warshall predecessors are predecessors on shortest paths", "statement": "floyd_warshall_predecessor_and_distance returns P with P[u][v] adjacent to v and dist(u,v) = dist(u,P[u][v]) + w(P[u][v],v) for every reachable pair u≠v.", "quantifier": "every graph with positive cycles only", "why_tests_cant": "All graphs.", "anchors": ["graphblas_algorithms/algorithms/shortest_paths/dense.py:floyd_warshall_predecessor_and_distance"]}
{"id": "C34", "title": "floyd_warshall_numpy with nodelist permutes the result", "statement": "floyd_warshall_numpy(G, nodelist) is the distance matrix with rows and columns listed in nodelist order; a nodelist that is not a permutation of the nodes is rejected.", "quantifier": "every graph and every permutation", "why_tests_cant": "All permutations.", "anchors": ["graphblas_algorithms/nxapi/shortest_paths/dense.py:floyd_warshall_numpy", "graphblas_algorithms/algorithms/shortest_paths/dense.py:floyd_warshall_predecessor_and_distance"]}
{"id": "C35", "title": "triangles counts triangles", "statement": "For an undirected graph, triangles(G)[v] is the number of unordered pairs of distinct neighbours of v (other than v) that are adjacent to each other, self-loops ignored; the per-node call and the all-nodes call agree; the total triangle count is a third of the sum.", "quantifier": "every undirected graph and node, with or without mask", "why_tests_cant": "Combinatorial identity over all graphs.", "anchors": ["graphblas_algorithms/algorithms/cluster.py:triangles,single_triangle,total_triangles"]}
{"id": "C36", "title": "transitivity is triangles over connected triples", "statement": "transitivity(G) equals 3*triangles/triads (0 when there is no triangle), a number in [0,1], for undirected graphs.", "quantifier": "every undirected graph", "why_tests_cant": "All graphs.", "anchors": ["graphblas_algorithms/algorithms/cluster.py:transitivity"]}
{"id": "C37", "title": "clustering coefficients are exact and in [0,1]", "statement": "For an undirected graph clustering(G)[v] = 2*T(v)/(d(v)(d(v)-1)) where d ignores self-loops (0 or absent when T(v)=0), lies in [0,1], and the single-node call returns the same number.", "quantifier": "every undirected graph and node", "why_tests_cant": "All graphs.", "anchors": ["graphblas_algorithms/algorithms/cluster.py:clustering,single_clustering"]}
{"id": "C38", "title": "Directed clustering coefficients", "statement": "For a directed graph clustering(G)[v] is the number of directed triangles through v (over both directions of each of the three edges, as NetworkX counts them) divided by d(d-1)-2r with d total degree and r reciprocal degree without self-loops; the single-node call agrees.", "quantifier": "every directed graph and node", "why_tests_cant": "All graphs.", "anchors": ["graphblas_algorithms/algorithms/cluster.py:clustering_directed,single_clustering_directed"]}
{"id": "C39", "title": "average_clustering is the mean", "statement": "average_clustering(G) is the mean of the clustering coefficients over all nodes (or over the given nodes), counting zeros; with count_zeros=False it is the mean of the non-zero ones.", "quantifier": "every graph and node subset", "why_tests_cant": "All graphs and subsets.", "anchors": ["graphblas_algorithms/algorithms/cluster.py:average_clustering,average_clustering_directed"]}
{"id": "C40", "title": "square_clustering matches its definition", "statement": "On an undirected graph without self-loops, square_clustering(G)[v] equals the fraction of possible squares at v by the published formula used by NetworkX (0 when there is none); single-node, subset and chunked evaluations agree with the whole-graph one for every chunk size.", "quantifier": "every undirected loop-free graph, node, chunking", "why_tests_cant": "All graphs and chunkings.", "anchors": ["graphblas_algorithms/algorithms/cluster.py:square_clustering,single_square_clustering", "graphblas_algorithms/nxapi/cluster.py:_square_clustering_split"]}
{"id": "C41", "title": "generalized_degree histogram", "statement": "generalized_degree(G)[v][t] is the number of edges at v (no self-loops) that take part in exactly t triangles; every count fits in the allocated n-1 columns; counts at v add up to its degree; single-node and masked calls agree.", "quantifier": "every undirected graph", "why_tests_cant": "Index bound n-2 must hold for every graph.", "anchors": ["graphblas_algorithms/algorithms/cluster.py:generalized_degree,single_generalized_degree"]}
{"id": "C42", "title": "k_truss is the maximal k-truss", "statement": "k_truss(G,k) for k>=3 keeps exactly the edges of the largest subgraph of G (self-loops removed) in which every edge lies in at least k-2 triangles, drops isolated nodes and keeps node keys; k<3 keeps all non-loop edges; the loop terminates.", "quantifier": "every undirected graph and k", "why_tests_cant": "Greatest fixpoint for all graphs.", "anchors": ["graphblas_algorithms/algorithms/core.py:k_truss"]}
{"id": "C43", "title": "union and disjoint_union place graphs side by side", "statement": "union(G,H) has exactly the nodes and weighted edges of both graphs and no edge between them, raises when node sets overlap; disjoint_union renumbers to 0..n-1 with the same property.", "quantifier": "every pair of graphs", "why_tests_cant": "All graphs.", "anchors": ["graphblas_algorithms/algorithms/operators/binary.py:union,disjoint_union"]}
{"id": "C44", "title": "intersection, difference, symmetric_difference are edge-set operations by node key", "statement": "The result has an edge u-v exactly when both / only the first / exactly one of the graphs has it, where nodes are matched by key even when the two graphs number nodes differently; difference and symmetric_difference reject different node sets, intersection keeps the common nodes.", "quantifier": "every pair of graphs with arbitrary, differently ordered keys", "why_tests_cant": "All numberings.", "anchors": ["graphblas_algorithms/algorithms/operators/binary.py:intersection,difference,symmetric_difference"]}
{"id": "C45", "title": "compose is the edge union by key", "statement": "compose(G,H) has the union of nodes and the union of edges of G and H, H's weight winning on common edges, and valid keys.", "quantifier": "every pair of graphs", "why_tests_cant": "All overlaps of node sets.", "anchors": ["graphblas_algorithms/algorithms/operators/binary.py:compose"]}
{"id": "C46", "title": "complement and reverse are involutive on structure", "statement": "complement(G) has an edge u-v (u≠v) exactly when G does not, no self-loops; complementing twice restores a loop-free structure. reverse(G) has u->v with weight w exactly when G has v->u with weight w; reversing twice is the identity; undirected graphs are rejected.", "quantifier": "every graph", "why_tests_cant": "All graphs.", "anchors": ["graphblas_algorithms/algorithms/operators/unary.py:complement,reverse", "graphblas_algorithms/classes/digraph.py:DiGraph.reverse"]}
{"id": "C47", "title": "to_undirected", "statement": "G.to_undirected() has an edge between u and v exactly when the digraph has u->v or v->u (both when reciprocal=True), is symmetric in structure, and keeps the keys.", "quantifier": "every directed graph", "why_tests_cant": "All graphs.", "anchors": ["graphblas_algorithms/classes/digraph.py:DiGraph.to_undirected"]}
{"id": "C48", "title": "full_join adds all cross edges", "statement": "full_join(G,H) has the edges of G and of H plus every edge between a node of G and a node of H in both directions, and nothing else.", "quantifier": "every pair of graphs with disjoint nodes", "why_tests_cant": "All graphs.", "anchors": ["graphblas_algorithms/algorithms/operators/binary.py:full_join"]}
{"id": "C49", "title": "edge_boundary returns exactly the boundary edges", "statement": "edge_boundary(G,S,T) is exactly the edges u->v of G with u in S and v in T; with T omitted, T is the complement of S.", "quantifier": "every graph and node sets", "why_tests_cant": "All graphs and subsets.", "anchors": ["graphblas_algorithms/algorithms/boundary.py:edge_boundary"]}
{"id": "C50", "title": "node_boundary returns exactly the outer neighbours", "statement": "node_boundary(G,S,T) is exactly the nodes outside S (and inside T when given) that have an edge from S.", "quantifier": "every graph and node sets", "why_tests_cant": "All subsets.", "anchors": ["graphblas_algorithms/algorithms/boundary.py:node_boundary"]}
{"id": "C51", "title": "cut_size counts cut edges", "statement": "cut_size(G,S,T) is the number (or total weight) of edges from S to T, plus, for digraphs, from T to S; it is symmetric in S and T for digraphs and for undirected graphs.", "quantifier": "every graph and node sets", "why_tests_cant": "All subsets.", "anchors": ["graphblas_algorithms/algorithms/cuts.py:cut_size"]}
{"id": "C52", "title": "volume is the sum of (out-)degrees", "statement": "volume(G,S) is the sum over S of the (out-)degree, weighted or not.", "quantifier": "every graph and node set", "why_tests_cant": "All subsets.", "anchors": ["graphblas_algorithms/algorithms/cuts.py:volume"]}
{"id": "C53", "title": "conductance and expansions", "statement": "conductance, normalized_cut_size, edge_expansion, node_expansion, boundary_expansion and mixing_expansion are the documented ratios of cut size, volumes, set sizes and neighbour counts; conductance of a cut of an undirected graph lies in [0,1].", "quantifier": "every graph and cut with positive volumes", "why_tests_cant": "All cuts.", "anchors": ["graphblas_algorithms/algorithms/cuts.py:conductance,normalized_cut_size,edge_expansion,node_expansion,boundary_expansion,mixing_expansion"]}
{"id": "C54", "title": "is_dominating_set", "statement": "is_dominating_set(G,S) is True exactly when every node outside S has an edge from some node in S.", "quantifier": "every graph and subset", "why_tests_cant": "All subsets.", "anchors": ["graphblas_algorithms/algorithms/dominating.py:is_dominating_set"]}
{"id": "C55", "title": "isolates are the nodes without edges", "statement": "is_isolate(G,n) is True exactly when n has no incident edge in either direction; isolates returns exactly these nodes and number_of_isolates their number.", "quantifier": "every graph and node", "why_tests_cant": "All graphs.", "anchors": ["graphblas_algorithms/algorithms/isolate.py:is_isolate,isolates,number_of_isolates"]}
{"id": "C56", "title": "is_regular and is_k_regular", "statement": "On a non-empty undirected graph is_regular is True exactly when all nodes have the same positive number of neighbours; on a digraph exactly when all out-degrees agree and all in-degrees agree and are positive; is_k_regular exactly when all degrees equal k (k>0).", "quantifier": "every non-empty graph", "why_tests_cant": "All graphs.", "anchors": ["graphblas_algorithms/algorithms/regular.py:is_regular,is_k_regular"]}
{"id": "C57", "title": "is_tournament", "statement": "is_tournament(G) is True exactly when there is no self-loop and every pair of distinct nodes is joined by exactly one directed edge.", "quantifier": "every digraph", "why_tests_cant": "A counting argument over all graphs.", "anchors": ["graphblas_algorithms/algorithms/tournament.py:is_tournament"]}
{"id": "C58", "title": "score_sequence and tournament_matrix", "statement": "score_sequence(G) is the sorted list of all out-degrees (zeros included); tournament_matrix(G) is A - A^T, hence antisymmetric.", "quantifier": "every digraph", "why_tests_cant": "All graphs.", "anchors": ["graphblas_algorithms/algorithms/tournament.py:score_sequence,tournament_matrix"]}
{"id": "C59", "title": "is_simple_path", "statement": "is_simple_path(G,nodes) is True exactly when the list is non-empty, all its members are distinct nodes of G and consecutive members are joined by an edge.", "quantifier": "every graph and list", "why_tests_cant": "All lists and graphs.", "anchors": ["graphblas_algorithms/algorithms/simple_paths.py:is_simple_path"]}
{"id": "C60", "title": "reciprocity", "statement": "overall_reciprocity is the fraction of edges that are non-loop edges whose reverse exists, EmptyGraphError exactly without edges; reciprocity(G,nodes)[v] is 2*|successors∩predecessors|/(in+out degree).", "quantifier": "every digraph", "why_tests_cant": "All graphs.", "anchors": ["graphblas_algorithms/algorithms/reciprocity.py:reciprocity,overall_reciprocity"]}
{"id": "C61", "title": "s_metric", "statement": "s_metric(G) is the sum over edges u-v of deg(u)*deg(v).", "quantifier": "every graph", "why_tests_cant": "All graphs.", "anchors": ["graphblas_algorithms/algorithms/smetric.py:s_metric"]}
{"id": "C62", "title": "Community edge counts", "statement": "intra_community_edges counts the edges inside blocks and inter_community_edges those between blocks; for a partition of all nodes the two add up to the number of edges.", "quantifier": "every graph and partition", "why_tests_cant": "All partitions.", "anchors": ["graphblas_algorithms/algorithms/community/quality.py:intra_community_edges,inter_community_edges"]}
{"id": "C63", "title": "mutual_weight", "statement": "mutual_weight(G,u,v) is w(u,v)+w(v,u) with missing edges counting 0, 0 for unknown nodes, and is symmetric in u and v.", "quantifier": "every graph and pair of keys", "why_tests_cant": "All graphs.", "anchors": ["graphblas_algorithms/algorithms/structuralholes.py:mutual_weight"]}
{"id": "C64", "title": "is_triad", "statement": "is_triad(G) is True exactly for directed graphs with three nodes and no self-loop.", "quantifier": "every graph and property history", "why_tests_cant": "All graphs.", "anchors": ["graphblas_algorithms/algorithms/triads.py:is_triad"]}
{"id": "C65", "title": "Isomorphism tests never reject isomorphic graphs", "statement": "fast_could_be_isomorphic and faster_could_be_isomorphic return True for isomorphic graphs.", "quantifier": "every pair of isomorphic graphs", "why_tests_cant": "All graphs and relabelings.", "anchors": ["graphblas_algorithms/algorithms/isomorphism/isomorph.py:fast_could_be_isomorphic,faster_could_be_isomorphic"]}
{"id": "C66", "title": "pagerank iterates preserve probability mass", "statement": "In exact arithmetic every pagerank iterate (hence the result) sums to 1 and is non-negative for non-negative weights, with or without personalization, dangling weights, iso-valued matrix; the result satisfies the stated convergence bound with respect to one application of the update, otherwise ConvergenceFailure is raised.", "quantifier": "every graph, alpha in [0,1], personalization, dangling, start vector, iteration count", "why_tests_cant": "Mass conservation for all graphs and iterations.", "anchors": ["graphblas_algorithms/algorithms/link_analysis/pagerank_alg.py:pagerank"]}
{"id": "C67", "title": "google_matrix is row-stochastic", "statement": "In exact arithmetic every row of google_matrix sums to 1 for positive weights, with or without personalization, dangling weights and nodelist.", "quantifier": "every graph and parameter", "why_tests_cant": "All graphs.", "anchors": ["graphblas_algorithms/algorithms/link_analysis/pagerank_alg.py:google_matrix"]}
{"id": "C68", "title": "Power-iteration results satisfy their convergence criterion", "statement": "katz_centrality, eigenvector_centrality and hits return a vector that is one update of a vector within N*tol (L1) of it, or raise ConvergenceFailure after exactly max_iter updates; katz folding of an iso value into alpha does not change the update.", "quantifier": "every graph (for hits: with non-negative weights and start values), tolerance and iteration bound", "why_tests_cant": "All graphs.", "anchors": ["graphblas_algorithms/algorithms/centrality/katz.py:katz_centrality", "graphblas_algorithms/algorithms/centrality/eigenvector.py:eigenvector_centrality", "graphblas_algorithms/algorithms/link_analysis/hits_alg.py:hits", "graphblas_algorithms/algorithms/_helpers.py:is_converged,normalize"]}
{"id": "C69", "title": "Degree centralities", "statement": "degree_centrality (in/out) is degree/(n-1) for n>1, absent degrees count 0, and 1 for n<=1; for digraphs total = in + out.", "quantifier": "every graph", "why_tests_cant": "All graphs.", "anchors": ["graphblas_algorithms/algorithms/centrality/degree_alg.py:degree_centrality,in_degree_centrality,out_degree_centrality"]}
{"id": "C70", "title": "laplacian_matrix rows sum to zero", "statement": "laplacian_matrix is D - A entrywise, every row sums to 0, and it is symmetric for undirected graphs, weighted or not, with or without nodelist.", "quantifier": "every graph and nodelist", "why_tests_cant": "All graphs.", "anchors": ["graphblas_algorithms/linalg/laplacianmatrix.py:laplacian_matrix,_laplacian_helper"]}
{"id": "C71", "title": "modularity matrices rows sum to zero", "statement": "modularity_matrix is A_ij - k_i k_j / sum(k) and directed_modularity_matrix A_ij - kout_i kin_j / m; rows (and for directed also columns) sum to 0.", "quantifier": "every graph with edges", "why_tests_cant": "All graphs.", "anchors": ["graphblas_algorithms/linalg/modularitymatrix.py:modularity_matrix,directed_modularity_matrix"]}
{"id": "C72", "title": "bethe_hessian_matrix formula", "statement": "bethe_hessian_matrix(G,r) is (r^2-1)I - rA + D; it is symmetric for undirected graphs.", "quantifier": "every undirected graph and r", "why_tests_cant": "All graphs.", "anchors": ["graphblas_algorithms/linalg/bethehessianmatrix.py:bethe_hessian_matrix"]}
{"id": "C73", "title": "adjacency_matrix reorders by nodelist", "statement": "adjacency_matrix(G,nodelist) has entry (i,j) exactly when G has the edge nodelist[i]->nodelist[j], with its weight or 1 when unweighted.", "quantifier": "every graph and nodelist", "why_tests_cant": "All nodelists.", "anchors": ["graphblas_algorithms/linalg/graphmatrix.py:adjacency_matrix"]}
{"id": "C74", "title": "partition splits a list without loss", "statement": "For chunksize other than 1, partition(chunksize,L) yields non-empty lists whose concatenation is L; when 1 < chunksize < len(L) no chunk is larger than chunksize and, when evenly, chunk sizes differ by at most one.", "quantifier": "every list, integer chunksize, evenly flag", "why_tests_cant": "All sizes.", "anchors": ["graphblas_algorithms/nxapi/_utils.py:partition,split_evenly"]}
{"id": "C75", "title": "split_evenly", "statement": "split_evenly(k,L) concatenates back to L, yields min(k,len(L)) (k>=1) non-empty pieces whose sizes differ by at most one.", "quantifier": "every list and integer k", "why_tests_cant": "All sizes.", "anchors": ["graphblas_algorithms/nxapi/_utils.py:split_evenly"]}
{"id": "C76", "title": "normalize_chunksize returns None or a usable size", "statement": "normalize_chunksize returns None or an integer r with 0 < r (and r < N when N is given); '', 'all', None mean None; letter case, spaces and underscores do not matter. A text 'number unit' means number * unit (powers of 1000 for kb..zb, of 1024 for kib..zib), divided by itemsize and at least 1 when the unit is a byte unit, rounded to nearest with ties to even; 'k chunks' means ceil(N / k); anything else raises ValueError (TypeError when N is missing or the argument is neither number nor string).", "quantifier": "every input value and string", "why_tests_cant": "All strings.", "anchors": ["graphblas_algorithms/nxapi/_utils.py:normalize_chunksize"]}
{"id": "C77", "title": "Dispatcher conversion decisions", "statement": "convert_from_nx either raises NotImplementedError/TypeError exactly in the documented unsupported cases or returns a graph of the class matching the input (multi/directed), reading exactly the requested edge attribute; graph attributes are copied exactly when preserve_graph_attrs.", "quantifier": "every combination of arguments", "why_tests_cant": "All attribute sets.", "anchors": ["graphblas_algorithms/interface.py:Dispatcher.convert_from_nx"]}
{"id": "C78", "title": "Results converted back to NetworkX keep their meaning", "statement": "convert_to_nx turns a graph into the equal NetworkX graph and a matrix into the array type NetworkX returns for that function, with every stored entry unchanged and missing entries shown as the value they stand for (0, or infinity for floyd_warshall_numpy); anything else is unchanged.", "quantifier": "every result object and function name", "why_tests_cant": "All graphs; unreachable pairs occur only in disconnected graphs.", "anchors": ["graphblas_algorithms/interface.py:Dispatcher.convert_to_nx", "graphblas_algorithms/nxapi/shortest_paths/dense.py:floyd_warshall_numpy"]}
{"id": "C79", "title": "Weighted clustering coefficients", "statement": "clustering(G, weight=...), clustering(G, nodes, weight=...), clustering(G, node, weight=...) and average_clustering(G, weight=...) give every node asked for the sum over its triangles of the cube-root product of the three edge weights divided by the largest weight in the graph (self-loops excluded), divided by the number of neighbour pairs (directed: d(d-1)-2r); the average is the mean over the nodes, without the zeros when count_zeros is False.", "quantifier": "every weighted graph and digraph with at least one edge between different nodes, every subset of nodes", "why_tests_cant": "All graphs and weights.", "anchors": ["graphblas_algorithms/algorithms/cluster.py:clustering,clustering_directed,single_clustering,single_clustering_directed,average_clustering", "graphblas_algorithms/nxapi/cluster.py:clustering,average_clustering"]}
{"id": "C80", "title": "Katz centrality: convergence, accuracy, uniqueness", "statement": "When alpha attenuates the graph (|alpha| times the total absolute weight leaving any node is at most q < 1), the Katz equation x = alpha*x*A + beta has at most one solution; katz_centrality(normalized=False) returns values within q/(1-q)*N*tol (L1) of it; the call succeeds as soon as max_iter exceeds a k with q^k * (size of the first update) < N*tol; with non-negative data every value is at least beta.", "quantifier": "every graph, weights, alpha, beta, nstart, max_iter, tol", "why_tests_cant": "Accuracy and convergence must hold for every graph and every parameter choice.", "anchors": ["graphblas_algorithms/algorithms/centrality/katz.py:katz_centrality", "graphblas_algorithms/algorithms/_helpers.py:is_converged"]}
{"id": "C81", "title": "Traversal and shortest-path results do not depend on node names or internal numbering", "statement": "Renaming the nodes of a graph by an injective map, and building it in any order, changes the results of the shortest-path length functions (unweighted, Bellman-Ford, Floyd-Warshall), efficiency, descendants, ancestors, descendants_at_distance, bfs_layers, node_connected_component, is_connected, is_weakly_connected and negative_edge_cycle only by that renaming; a call on one graph raises exactly when the same call raises on the other, with the same error.", "quantifier": "every pair of graphs related by an injective renaming, whatever order their nodes and edges were added in, and all arguments", "why_tests_cant": "It relates two runs on all pairs of isomorphic graphs; the internal numbering depends on insertion history.", "anchors": ["graphblas_algorithms/algorithms/_bfs.py:_bfs_level", "graphblas_algorithms/algorithms/shortest_paths/weighted.py", "graphblas_algorithms/algorithms/shortest_paths/dense.py:floyd_warshall", "graphblas_algorithms/classes/_utils.py"]}
{"id": "C82", "title": "Counting results do not depend on node names or internal numbering", "statement": "The same for triangles, transitivity, clustering, average_clustering, square_clustering, generalized_degree, k_truss, cut_size, volume, conductance, expansions, node_boundary, isolates, is_regular, is_k_regular, is_tournament, score_sequence, tournament_matrix, reciprocity, s_metric, is_simple_path, is_triad, mutual_weight: isomorphic graphs give the same results up to the renaming.", "quantifier": "every pair of graphs related by an injective renaming, whatever order their nodes and edges were added in, and all arguments", "why_tests_cant": "It relates two runs on all pairs of isomorphic graphs.", "anchors": ["graphblas_algorithms/algorithms/cluster.py", "graphblas_algorithms/algorithms/core.py:k_truss", "graphblas_algorithms/algorithms/cuts.py", "graphblas_algorithms/algorithms/boundary.py"]}
{"id": "C83", "title": "Centralities do not depend on node names or internal numbering", "statement": "The same for pagerank, katz_centrality, eigenvector_centrality, hits and the degree centralities, including the number of iterations after which they stop and hence whether they raise ConvergenceFailure: dict arguments (personalization, nstart, dangling, beta) renamed in the same way give the same values, renamed.", "quantifier": "every pair of graphs related by an injective renaming, whatever order their nodes and edges were added in, and all arguments", "why_tests_cant": "It relates two runs on all pairs of isomorphic graphs.", "anchors": ["graphblas_algorithms/algorithms/link_analysis/pagerank_alg.py", "graphblas_algorithms/algorithms/centrality/katz.py", "graphblas_algorithms/algorithms/centrality/eigenvector.py", "graphblas_algorithms/algorithms/link_analysis/hits_alg.py"]}
{"id": "C84", "title": "Graph operators raise exactly when they should", "statement": "Every binary operator raises GraphBlasAlgorithmException when one argument is a multigraph and the other is not and NotImplementedError when both are; otherwise union and full_join raise GraphBlasAlgorithmException exactly when the node sets overlap, difference and symmetric_difference exactly when the node sets differ, and intersection, disjoint_union and compose never raise.", "quantifier": "every pair of graphs", "why_tests_cant": "All pairs of graphs and multigraphs.", "anchors": ["graphblas_algorithms/algorithms/operators/binary.py"]}
{"id": "C85", "title": "Operators on undirected graphs return undirected graphs", "statement": "Union, disjoint_union, intersection, difference, symmetric_difference, full_join, compose and complement of undirected graphs (symmetric adjacency, equal weights both ways) are undirected graphs; a directed and an undirected graph cannot be combined into an undirected graph that has one-way edges.", "quantifier": "every pair of graphs", "why_tests_cant": "All pairs of graphs.", "anchors": ["graphblas_algorithms/algorithms/operators/binary.py", "graphblas_algorithms/algorithms/operators/unary.py:complement"]}
{"id": "C86", "title": "Equality of maps", "statement": "A NodeMap compares equal to a dict exactly when both hold the same items in any order; two NodeMaps, VectorNodeMaps or NodeNodeMaps compare equal exactly when they hold the same items.", "quantifier": "every map, with or without fill value, every dict, every pair of graphs", "why_tests_cant": "All maps and all internal numberings.", "anchors": ["graphblas_algorithms/classes/nodemap.py:NodeMap.__eq__,VectorMap.__eq__,VectorNodeMap.__eq__,NodeNodeMap.__eq__"]}
{"id": "C87", "title": "VectorMap behaves as a dict", "statement": "Any sequence of calls on a VectorMap gives the results the same calls give on a dict from indices to values.", "quantifier": "every sequence of method calls on every vector", "why_tests_cant": "All call histories.", "anchors": ["graphblas_algorithms/classes/nodemap.py:VectorMap"]}
{"id": "C88", "title": "Assigning a dict to a row of a map of maps", "statement": "After M[u] = {v: x, ...} the row M[u] shows exactly those items.", "quantifier": "every NodeNodeMap, node and dict", "why_tests_cant": "Depends on the internal numbering of the graph.", "anchors": ["graphblas_algorithms/classes/nodemap.py:NodeNodeMap.__setitem__,VectorNodeMap.__setitem__"]}
{"id": "C89", "title": "Algorithms only see the kind of graph they are for", "statement": "An nxapi function for undirected (directed) graphs raises NotImplemented for directed (undirected) NetworkX graphs and graph objects and otherwise calls its algorithm with an undirected (directed) graph object; functions not for multigraphs reject them; all other functions accept every graph and keep its direction; non-square matrices raise ValueError and other objects TypeError or AttributeError.", "quantifier": "every nxapi function and every kind of input", "why_tests_cant": "The full table of functions and inputs.", "anchors": ["graphblas_algorithms/utils/decorators.py:not_implemented_for", "graphblas_algorithms/classes/digraph.py:to_graph,to_directed_graph", "graphblas_algorithms/classes/graph.py:to_undirected_graph"]}
{"id": "C90", "title": "Calls do not modify existing objects", "statement": "No public function modifies the graph's matrix, the values the graph has cached, or the vectors and matrices passed as arguments - on any path, for any number of loop iterations, and also when the call ends with an exception. Apart from property lookups, views and conversions that are meant to share, every object a call returns is new and not kept by the graph.", "quantifier": "every function of algorithms/, linalg/, generators/, nxapi/, the conversions and property lookups; every start state; every control path, iteration count and exception point", "why_tests_cant": "a test sees one path; the in-place writes (<<, *=, del x[i], ...) are safe only if the written object is never an alias of the graph's matrix or of a cached value, on every path", "anchors": ["algorithms/*.py", "linalg/*.py", "nxapi/*.py", "classes/_utils.py", "classes/graph.py", "classes/digraph.py"]}
{"id": "C91", "title": "Changing results never changes the graph", "statement": "In any sequence of calls (with any arguments, succeeding or failing) interleaved with changes the user makes to returned maps, sets, matrices and graphs, the graph's matrix, node dictionary and cached values keep their contents, so later calls see the same graph.", "quantifier": "all interleavings of library calls and user writes to results of functions that return new objects", "why_tests_cant": "histories are unbounded", "anchors": ["classes/nodemap.py", "classes/nodeset.py", "classes/_utils.py:vector_to_nodemap", "classes/graph.py:get_property"]}
{"id": "C92", "title": "Building graph objects", "statement": "Graph(A), DiGraph(A) (and the Multi classes) raise ValueError exactly for a matrix that is not square and TypeError exactly for something that is no matrix; without data they give the graph without nodes; without key_to_id the nodes are 0..n-1 in order; with key_to_id they are its keys in its order; the edges are exactly the stored entries between the nodes' numbers; keyword arguments become attributes; the result is a consistent graph object.", "quantifier": "every matrix of every shape, every dictionary, every set of keyword arguments", "why_tests_cant": "All matrices and all dictionaries.", "anchors": ["graphblas_algorithms/classes/graph.py:Graph.__init__", "graphblas_algorithms/classes/digraph.py:DiGraph.__init__"]}
{"id": "C93", "title": "A graph object answers consistently", "statement": "In any sequence of calls on a graph object, iteration, containment, len, number_of_nodes and order speak about the same nodes, id_to_key inverts the numbering of the nodes however early or late it is first asked for, unhashable objects are not nodes, name and attributes are what was last assigned (name is '' if never assigned). reverse() keeps nodes, class and attributes; to_undirected() keeps the nodes, gives a plain undirected graph and drops the attributes.", "quantifier": "every well-formed graph object and every sequence of calls", "why_tests_cant": "All histories.", "anchors": ["graphblas_algorithms/classes/graph.py:Graph", "graphblas_algorithms/classes/digraph.py:DiGraph,reverse,to_undirected", "graphblas_algorithms/classes/_utils.py:id_to_key"]}
{"id": "C94", "title": "Functions about hop distances agree", "statement": "For a node s, single_source_shortest_path_length(G, s), the length of a shortest path between s and t, has_path(G, s, t), single_target_shortest_path_length(G, t)[s] and floyd_warshall without weight give the same answer for every t (no entry corresponding to NetworkXNoPath / False); descendants, node_connected_component, bfs_layers, descendants_at_distance and a cutoff are read off from the same distances; the distances satisfy the triangle inequality and are symmetric on undirected graphs.", "quantifier": "all well-formed graphs (symmetric if undirected), all nodes, all cutoffs", "why_tests_cant": "Six different loops compute these values; agreement must hold on every graph.", "anchors": ["algorithms/shortest_paths/unweighted.py", "algorithms/shortest_paths/generic.py:has_path", "algorithms/dag.py", "algorithms/traversal/breadth_first_search.py", "algorithms/shortest_paths/dense.py"]}
{"id": "C95", "title": "Functions about weighted distances agree", "statement": "Without negative cycles single_source_bellman_ford_path_length(G, s)[t], bellman_ford_path_length(G, s, t) and floyd_warshall(G)[s][t] are equal, or all say there is no path; when every weight is the same c >= 0 the weighted distance is c times the hop distance; the distances satisfy the triangle inequality and every edge is relaxed.", "quantifier": "all well-formed graphs without negative cycles, weights in any ordered abelian group, all nodes", "why_tests_cant": "Different algorithms, including a special branch for iso-valued matrices, must agree on every graph.", "anchors": ["algorithms/shortest_paths/weighted.py", "algorithms/shortest_paths/dense.py"]}
{"id": "C96", "title": "Laws between graph operators and traversals", "statement": "Asking the reversed graph forwards is asking the graph backwards (distances, ancestors/descendants); is_weakly_connected(G) equals is_connected(G.to_undirected()), errors included; difference(G, G) has no edges, symmetric_difference is the two differences together and symmetric in its arguments, intersection is symmetric and equals difference(G, difference(G, H)); between two different nodes exactly one of G and complement(G) has the edge.", "quantifier": "all well-formed graphs (on the same nodes where two are given), whatever the any operator picks", "why_tests_cant": "Laws over all graphs and all pairs of nodes.", "anchors": ["algorithms/operators/unary.py", "algorithms/operators/binary.py", "classes/digraph.py:DiGraph.reverse", "classes/digraph.py:DiGraph.to_undirected", "algorithms/components/weakly_connected.py"]}
{"id": "C97", "title": "Totals agree with the parts", "statement": "triangles(G, u), triangles(G, nodes)[u] and triangles(G)[u] are equal and the last ones add up to three times the number of triangles; clustering(G, u) equals clustering(G)[u] and average_clustering(G) is the mean of these; number_of_isolates counts the nodes for which is_isolate is True, which are the nodes isolates yields.", "quantifier": "all well-formed undirected graphs (isolates: all graphs), all nodes and node lists", "why_tests_cant": "Single-node and batch paths are separate code and must agree on every graph.", "anchors": ["algorithms/cluster.py", "nxapi/cluster.py", "algorithms/isolate.py"]}
{"id": "C98", "title": "Unsupported kinds of graph and null graphs are handled before anything else", "statement": "A function for directed (undirected, simple) graphs raises NotImplemented on every graph of the other kind, whatever the graph holds and whatever the other arguments are; on a graph without nodes pagerank, katz_centrality and hits return empty dicts, eigenvector_centrality raises NetworkXPointlessConcept.", "quantifier": "all graphs of the wrong kind, all null graphs, all values of the other arguments (valid or not)", "why_tests_cant": "a test fixes one graph and valid arguments; the guard must win for every combination, including invalid ones that would raise another exception later", "anchors": ["graphblas_algorithms/nxapi/centrality/katz.py:katz_centrality", "graphblas_algorithms/nxapi/centrality/eigenvector.py:eigenvector_centrality", "graphblas_algorithms/nxapi/link_analysis/pagerank_alg.py:pagerank", "graphblas_algorithms/nxapi/link_analysis/hits_alg.py:hits", "graphblas_algorithms/nxapi/linalg/modularitymatrix.py", "graphblas_algorithms/nxapi/linalg/bethehessianmatrix.py", "graphblas_algorithms/nxapi/tournament.py", "graphblas_algorithms/nxapi/reciprocity.py", "graphblas_algorithms/nxapi/regular.py"]}
{"id": "C99", "title": "Property names mean what they say, whatever was looked up before", "statement": "G.get_property(name) with the documented name of a property ('plus_rowwise-', 'max_element+', 'min_diagonal', 'U-', 'degrees+', ...) returns the defined value of exactly that property, although the table from names to getters belongs to the class and is extended by lookups on every graph object; on a Graph a column name may be served by the row reduction, whose value is the same. No other strings are accepted: the empty string raises IndexError, a reduction by an unknown operator ValueError, everything else KeyError, and a failed lookup leaves the class unchanged. get_properties splits a string into the names in it, in order, for any mixture of commas and spaces.", "quantifier": "all strings, all histories of names looked up on any object of the class, all histories of lookups on the object, all masks, both classes, all operator tables", "why_tests_cant": "Names form an infinite set, and what a name leads to could depend on which names were asked for first, on other objects of the same class.", "anchors": ["graphblas_algorithms/classes/graph.py:AutoDict", "graphblas_algorithms/classes/digraph.py:AutoDict", "graphblas_algorithms/classes/_utils.py:get_property", "graphblas_algorithms/classes/_utils.py:get_properties", "graphblas_algorithms/classes/_caching.py"]}
{"id": "C100", "title": "Threads that share a graph object get the defined results", "statement": "Several threads call library functions and look properties up on one graph object at the same time. Whatever the schedule of their accesses to the object's cache, each call returns what it is defined to return -- the same as when nobody else uses the object --, no thread raises an exception that the call could not raise alone, and a thread that keeps being scheduled finishes.", "quantifier": "all graphs, any number of threads, all lists of calls and property lookups with all arguments per thread, all earlier histories of the object, all interleavings of single cache accesses, all fair infinite schedules", "why_tests_cant": "The number of interleavings is exponential and a test runs one of them; the damage of a race is a wrong entry that a later call reads.", "anchors": ["graphblas_algorithms/classes/graph.py:get_A..has_self_edges", "graphblas_algorithms/classes/digraph.py", "graphblas_algorithms/classes/_caching.py", "graphblas_algorithms/classes/_utils.py:get_property"]}
{"id": "C101", "title": "An interrupted call leaves a usable graph object", "statement": "Calls on a graph object may be cut off at any point (KeyboardInterrupt, MemoryError). A later complete call returns what it is defined to return, the same as on an object that was never used: a partly executed call leaves no entry in the object's cache that a later call misreads.", "quantifier": "all graphs, all histories of calls with all arguments, each complete or cut off after any number of cache accesses, all later calls", "why_tests_cant": "An interrupt can hit between any two cache accesses of any call in any history; tests do not interrupt calls at all.", "anchors": ["graphblas_algorithms/classes/graph.py:get_A..has_self_edges", "graphblas_algorithms/classes/digraph.py", "graphblas_algorithms/classes/_utils.py:_cacheit", "graphblas_algorithms/classes/_utils.py:get_property"]}
{"id": "C102", "title": "Cuts, volumes and boundaries of NetworkX graphs and multigraphs follow the attribute dictionaries", "statement": "cut_size, volume, edge_boundary, conductance, normalized_cut_size, edge_expansion and mixing_expansion, called with a NetworkX graph of any of the four classes, count every edge between the given sets, each parallel edge separately, with the value of the attribute named by weight (1 if the edge lacks it); edge_boundary yields every boundary edge once per parallel edge.", "quantifier": "all NetworkX graphs, digraphs, multigraphs and multidigraphs with all attribute dictionaries, all node sets (target given or omitted), all weight/data names", "why_tests_cant": "The result depends on the class, on the multiplicity of each edge and on which edges carry the attribute; tests use a few weighted graphs.", "anchors": ["graphblas_algorithms/nxapi/cuts.py", "graphblas_algorithms/nxapi/boundary.py", "graphblas_algorithms/classes/digraph.py:to_graph"]}
{"id": "C103", "title": "Graph-valued calls through the NetworkX backend", "statement": "For NetworkX graphs (of one kind, without parallel edges) nx.complement, reverse, intersection, difference, symmetric_difference, union, full_join, disjoint_union, compose, ego_graph and k_truss with backend='graphblas' return a NetworkX graph of the right kind with exactly the nodes and weighted edges the operation defines, whatever the node names and their order; arguments the operation does not allow raise. A missing weight counts as 1.", "quantifier": "every NetworkX graph or pair of graphs of the same kind, every node naming and order, all parameters", "why_tests_cant": "All graphs and orders; conversion, operation and conversion back must agree on numbering and symmetry.", "anchors": ["graphblas_algorithms/interface.py:Dispatcher.convert_from_nx,convert_to_nx", "graphblas_algorithms/classes/_utils.py:from_networkx,to_networkx", "graphblas_algorithms/algorithms/operators/binary.py", "graphblas_algorithms/algorithms/operators/unary.py", "graphblas_algorithms/generators/ego.py:ego_graph", "graphblas_algorithms/algorithms/core.py:k_truss"]}
{"id": "C104", "title": "Failures surface as the documented exceptions", "statement": "Each function of the NetworkX-like API ends with an exception exactly when its documentation says, and with the class it says: NodeNotFound / NetworkXError for unknown nodes, NetworkXNoPath for unreachable targets, NetworkXUnbounded for reachable negative cycles, NetworkXPointlessConcept for the null graph, NetworkXError for wrong operands, PowerIterationFailedConvergence (hits: ArpackNoConvergence, or ValueError for max_iter < 1) if and only if no step meets the tolerance; no other exception reaches the caller. Generators yield only right results before they stop: for every chunk size all_pairs_bellman_ford_path_length yields each source at most once, with its distances, and ends with NetworkXUnbounded exactly if a negative cycle can be reached from some node.", "quantifier": "all well-formed graphs, all nodes and non-nodes, all arguments, all chunk sizes", "why_tests_cant": "Exactness (if and only if) over all graphs and arguments; a test shows only that one bad input raises.", "anchors": ["graphblas_algorithms/nxapi/exception.py", "graphblas_algorithms/algorithms/exceptions.py", "graphblas_algorithms/nxapi/shortest_paths/weighted.py", "graphblas_algorithms/nxapi/shortest_paths/unweighted.py", "graphblas_algorithms/nxapi/shortest_paths/generic.py", "graphblas_algorithms/nxapi/shortest_paths/dense.py", "graphblas_algorithms/nxapi/dag.py", "graphblas_algorithms/nxapi/traversal/breadth_first_search.py", "graphblas_algorithms/nxapi/components", "graphblas_algorithms/nxapi/reciprocity.py", "graphblas_algorithms/nxapi/operators", "graphblas_algorithms/nxapi/link_analysis", "graphblas_algorithms/nxapi/centrality"]}
{"id": "C105", "title": "Value-valued calls through the NetworkX backend", "statement": "nx.f(H, backend='graphblas') for a function that returns numbers, sets or maps answers for H itself: for every NetworkX graph H of any of the four classes, with any attributes, and every supported choice of weight attribute, reading item u of the result (or the elements of a set, or the number) gives the value the definition of f gives on H's own nodes, edges and weights (parallel edges: weights added, a missing attribute counts 1; counts of edges: parallel edges count once), and KeyError for nodes without a value; a conversion that is not supported raises and f never runs.", "quantifier": "all NetworkX graphs of the four classes with arbitrary node objects, attribute dicts and parallel edges, all supported conversion arguments, all nodes read", "why_tests_cant": "Composes conversion, algorithm and result object for all graphs, node orders and attribute dicts; a test fixes one graph.", "anchors": ["graphblas_algorithms/interface.py:Dispatcher.convert_from_nx", "graphblas_algorithms/interface.py:Dispatcher.convert_to_nx", "graphblas_algorithms/classes/_utils.py:from_networkx", "graphblas_algorithms/classes/nodemap.py:NodeMap.__getitem__", "graphblas_algorithms/classes/nodeset.py:NodeSet.__iter__"]}
{"id": "C106", "title": "Integer dtypes in weighted shortest paths", "statement": "On a graph whose weights are stored in an integer dtype (INT8 ... INT64, UINT8 ... UINT64), single_source_bellman_ford_path_length, bellman_ford_path_length, bellman_ford_path_lengths, all_pairs_bellman_ford_path_length (any chunk size), bellman_ford_path, negative_edge_cycle, floyd_warshall and (directed) floyd_warshall_predecessor_and_distance return the true distances, paths and predecessors (and Unbounded/NoPath/True exactly when they apply) for the integers the weights stand for, although the code adds in that dtype: whenever number of nodes times largest absolute weight fits in the dtype (twice that for floyd_warshall). Without that bound the sums wrap: positive-weight INT8 graphs get negative distances, a longer path or a false 'Negative cycle detected.'.", "quantifier": "all bit widths, signed and unsigned, all graphs, all weights within the bound, all sources, targets, batches and cutoffs, with and without the iso-valued shortcut", "why_tests_cant": "The bound must be safe for every graph and every width; the tests use weights that never come near it.", "anchors": ["graphblas_algorithms/algorithms/shortest_paths/weighted.py:_bellman_ford_path_length", "graphblas_algorithms/algorithms/shortest_paths/weighted.py:bellman_ford_path_lengths", "graphblas_algorithms/algorithms/shortest_paths/weighted.py:negative_edge_cycle", "graphblas_algorithms/algorithms/shortest_paths/dense.py:floyd_warshall_predecessor_and_distance", "graphblas_algorithms/algorithms/_bfs.py:_bfs_level", "graphblas_algorithms/algorithms/shortest_paths/weighted.py:bellman_ford_path"]}
{"id": "C107", "title": "Integer dtypes in sums and differences of weights", "statement": "On a graph whose weights are stored in an integer dtype of b bits, weighted cut_size and volume, tournament_matrix and the entries of laplacian_matrix (weighted, or with a node list) equal the true integer reduced modulo 2^b into the range of the dtype: hence they are exact whenever the final value is in range, even if partial sums are not, and never otherwise. In a digraph cut_size adds the two directions exactly, and mutual_weight is always exact. On unsigned dtypes the negative entries of tournament_matrix and laplacian_matrix are therefore 2^b - w instead of -w.", "quantifier": "all bit widths, signed and unsigned, all graphs, all weights, all node sets and node lists", "why_tests_cant": "The tests use small weights; exactness despite wrapped partial sums is a statement about every order of summation and every magnitude.", "anchors": ["graphblas_algorithms/algorithms/cuts.py:cut_size", "graphblas_algorithms/algorithms/cuts.py:volume", "graphblas_algorithms/algorithms/structuralholes.py:mutual_weight", "graphblas_algorithms/algorithms/tournament.py:tournament_matrix", "graphblas_algorithms/linalg/laplacianmatrix.py:laplacian_matrix"]}
{"id": "C108", "title": "Floating-point weights in shortest paths", "statement": "On non-negative floating-point weights the weighted shortest-path functions do not raise, and have a value exactly at the reachable nodes. If the matrix is not stored iso-valued, each value is the minimum, over all walks, of the left-to-right rounded sums of the weights; so single-source (with or without cutoff), single-target, batched and all-pairs calls with any chunk size agree bit for bit. Whenever single_source_bellman_ford_path_length returns, also on negative weights, its values are such minima. If the matrix is stored iso-valued, each value is the hop count times the weight, rounded once. In a format with unit roundoff u, as long as n-1 weights of the largest size do not overflow, each value differs from the exact distance by a factor between (1-u)^(n-1) and (1+u)^(n-1); for floyd_warshall the exponent is n. bellman_ford_path returns a simple path whose left-to-right rounded sum is the value bellman_ford_path_length returns and whose exact weight is at most ((1+u)/(1-u))^(n-1) times the exact distance (on an iso-valued matrix, exactly the distance), or the empty list exactly when there is no walk. For doubles (up to 2^40 nodes) the relative error is at most (n-1)*2^-52 (n*2^-52 for floyd_warshall). If all weights are multiples of one power of two, such as integers, and n-1 times the largest fits 53 bits (for floyd_warshall, twice that), distances, cutoffs and paths are exact, iso-valued or not.", "quantifier": "all graphs, all non-negative weights, all roundings (monotone, fixing the representable numbers; any unit roundoff), all sources, cutoffs, chunk sizes, and all ways SuiteSparse may store the matrix", "why_tests_cant": "Tests compare a few sums of small integers stored as floats, which never round; the claim is about every accumulated rounding error in every graph.", "anchors": ["graphblas_algorithms/algorithms/shortest_paths/weighted.py:_bellman_ford_path_length", "graphblas_algorithms/algorithms/shortest_paths/weighted.py:bellman_ford_path_lengths", "graphblas_algorithms/algorithms/shortest_paths/dense.py:floyd_warshall_predecessor_and_distance", "graphblas_algorithms/nxapi/shortest_paths/weighted.py:all_pairs_bellman_ford_path_length", "graphblas_algorithms/algorithms/shortest_paths/weighted.py:bellman_ford_path"]}
{"id": "C109", "title": "k_truss and its 32-bit triangle counters", "statement": "k_truss counts triangles in 32-bit integers. On every undirected graph with fewer than 2^31 nodes the counters do not overflow and the result is the largest k-truss, with the number of triangles as edge weights. The size limit is real: with b-bit counters the complete graph on 2^(b-1)+2 nodes loses all its edges for every k >= 3.", "quantifier": "every undirected graph with fewer than 2^31 nodes and every k; every counter width for the overflow", "why_tests_cant": "The overflow needs a graph with about 2^31 nodes; that nothing goes wrong below needs all graphs.", "anchors": ["graphblas_algorithms/algorithms/core.py:k_truss"]}
{"id": "C110", "title": "Boolean graphs in the weighted shortest-path functions", "statement": "On a graph with Boolean values the weighted shortest-path functions treat a stored True as an edge of length 1 and a stored False as an edge of length 0: single_source_bellman_ford_path_length (with or without cutoff), bellman_ford_path_length, bellman_ford_path, all_pairs_bellman_ford_path_length (any chunk size), floyd_warshall and floyd_warshall_predecessor_and_distance (directed) give the smallest number of True edges on a walk, never report a negative cycle, never overflow, and do not depend on whether the matrix is reported as iso-valued; negative_edge_cycle is False. Exception: a cutoff on a matrix reported as iso-valued False raises ZeroDivisionError.", "quantifier": "every Boolean graph with at most 2^60 nodes (the GraphBLAS limit), every source, target, cutoff and chunk size", "why_tests_cant": "The INT64 sums and the iso shortcut must agree on every Boolean graph.", "anchors": ["graphblas_algorithms/algorithms/shortest_paths/weighted.py:_bellman_ford_path_length", "graphblas_algorithms/algorithms/shortest_paths/weighted.py:bellman_ford_path", "graphblas_algorithms/algorithms/shortest_paths/dense.py:floyd_warshall_predecessor_and_distance", "graphblas_algorithms/algorithms/_bfs.py:_bfs_level"]}
{"id": "C111", "title": "Graph-valued and matrix-valued results do not depend on names or numbering", "statement": "Renaming the nodes and building the graph in another node order changes nothing but the names in the resulting graphs and matrices: complement, reverse, ego_graph, to_undirected, union, intersection, difference, symmetric_difference, full_join and compose (of node-disjoint graphs) give renamed graphs, and adjacency_matrix, laplacian_matrix, normalized_laplacian_matrix, modularity_matrix, directed_modularity_matrix, bethe_hessian_matrix and google_matrix have equal entries at corresponding positions (the same positions of the node list, if there is one), or raise the same exception.", "quantifier": "every pair of graphs related by an injective renaming and a renumbering, every node list and every other argument", "why_tests_cant": "Internal numbers are used as positions everywhere; a test fixes one numbering.", "anchors": ["graphblas_algorithms/algorithms/operators/binary.py:compose", "graphblas_algorithms/algorithms/operators/unary.py:complement", "graphblas_algorithms/generators/ego.py:ego_graph", "graphblas_algorithms/linalg/laplacianmatrix.py:laplacian_matrix", "graphblas_algorithms/linalg/modularitymatrix.py:modularity_matrix", "graphblas_algorithms/linalg/bethehessianmatrix.py:bethe_hessian_matrix", "graphblas_algorithms/algorithms/link_analysis/pagerank_alg.py:google_matrix"]}
{"id": "C112", "title": "Unknown nodes are rejected", "statement": "A node argument, or a member of a node list, that is not a node of the graph makes triangles, clustering, average_clustering, square_clustering, generalized_degree, reciprocity, volume, node_expansion and is_isolate raise KeyError, whatever else is in the list.", "quantifier": "every graph, every list and every position of the unknown node", "why_tests_cant": "All lists.", "anchors": ["graphblas_algorithms/classes/_utils.py:list_to_vector", "graphblas_algorithms/classes/_utils.py:list_to_mask", "graphblas_algorithms/classes/_utils.py:list_to_ids", "graphblas_algorithms/nxapi/cluster.py:triangles", "graphblas_algorithms/nxapi/cuts.py:volume"]}
{"id": "C113", "title": "Collections of nodes are read as sets", "statement": "The order and the repetitions in a collection of nodes never change the result of triangles, clustering, average_clustering (weighted or not), square_clustering, generalized_degree, reciprocity, volume and node_expansion; for cut_size, normalized_cut_size, conductance, edge_expansion, mixing_expansion, boundary_expansion, edge_boundary, node_boundary, is_dominating_set and the community edge counts, members that are not nodes of the graph do not change it either.", "quantifier": "every graph and every two collections with the same members (the same members among the nodes)", "why_tests_cant": "All collections.", "anchors": ["graphblas_algorithms/classes/_utils.py:set_to_vector", "graphblas_algorithms/classes/_utils.py:list_to_mask", "graphblas_algorithms/nxapi/cuts.py:cut_size", "graphblas_algorithms/nxapi/boundary.py:edge_boundary", "graphblas_algorithms/nxapi/community/quality.py:intra_community_edges"]}
{"id": "C114", "title": "Bellman-Ford with a cutoff limits the running total, for weights of any sign", "statement": "For a graph with edge weights of any sign, a node s and a cutoff x, single_source_bellman_ford_path_length(G, s, cutoff=x) returns a value for exactly the nodes that can be reached from s by a walk whose running total never exceeds x after any edge (and for s itself), namely the least total of such a walk. It raises Unbounded exactly if for some such node there is no least total (for x < 0 also if s has a negative self-loop, or if all edges have the same negative weight, the graph is undirected and s has an edge). A negative cycle that can only be entered beyond the cutoff is not an error, and a node whose distance is at most x is missing if every walk to it exceeds x on the way. With a constant weight 0 the division of the cutoff raises ZeroDivisionError.", "quantifier": "all graphs with weights in any linearly ordered abelian group, of any sign, with any negative cycles and self-loops; all sources; all cutoffs, negative ones included; constant weights stored as such or not", "why_tests_cant": "Concerns every walk of every graph; the interaction of the cutoff with negative edges, rounds and the negative-cycle check has no finite set of representative inputs.", "anchors": ["graphblas_algorithms/algorithms/shortest_paths/weighted.py: _bellman_ford_path_length, single_source_bellman_ford_path_length"]}
{"id": "C115", "title": "Functions about structure ignore edge weights", "statement": "Putting other weights on the same edges (zero, negative, of another type) changes no result of the functions that are documented to look at the structure only: unweighted shortest path lengths, has_path, efficiency, descendants, ancestors, components, BFS layers, lowest_common_ancestor; triangles, transitivity, (average_)clustering without weight, generalized_degree; edge_boundary, node_boundary, cut_size, volume, conductance and the expansions without weight; isolates, regularity, tournaments, is_simple_path, reciprocity, s_metric, community edge counts, is_triad, degree centralities, could-be-isomorphic tests; adjacency, Laplacian and modularity matrices with weight=None; and the nodes and edges of k_truss and ego_graph. Exception, proved: square_clustering does use the weights.", "quantifier": "all graphs (well-formed or not), all reassignments of weights of any type, all arguments, including the error outcomes", "why_tests_cant": "Quantifies over every graph and every second assignment of weights; tests with unit weights cannot see a value leaking into a count.", "anchors": ["graphblas_algorithms/algorithms/_bfs.py", "graphblas_algorithms/algorithms/cluster.py", "graphblas_algorithms/algorithms/cuts.py", "graphblas_algorithms/algorithms/core.py", "graphblas_algorithms/generators/ego.py", "graphblas_algorithms/linalg"]}
{"id": "C116", "title": "Weighted shortest paths in another unit or number type", "statement": "Converting every edge weight (and the cutoff) to another unit or to a wider number type, by a strictly increasing map that respects 0 and sums, converts every distance returned by single_source_bellman_ford_path_length, bellman_ford_path_length, all_pairs_bellman_ford_path_length (any chunk size), floyd_warshall, floyd_warshall_numpy and floyd_warshall_predecessor_and_distance, and leaves the nodes listed, the path of bellman_ford_path, the predecessors, the answer of negative_edge_cycle and every error unchanged.", "quantifier": "all graphs (well-formed or not), all such conversions, all sources, targets, cutoffs, chunk sizes, node lists; with and without the iso-valued fast path", "why_tests_cant": "Relates two runs over every graph and every conversion; tests use a handful of integer weights.", "anchors": ["graphblas_algorithms/algorithms/shortest_paths/weighted.py", "graphblas_algorithms/algorithms/shortest_paths/dense.py"]}
{"id": "C117", "title": "Multiplying every weight by one constant", "statement": "Multiplying all edge weights by the same c leaves pagerank, google_matrix (c ≠ 0), weighted clustering and average_clustering, hits with non-negative weights and start values (also with_authority; c > 0) and the normalized Laplacian unchanged, errors and iteration counts included; katz_centrality with alpha/c equals katz_centrality with alpha; weighted cut_size, volume, adjacency_matrix, laplacian_matrix, modularity_matrix and directed_modularity_matrix are multiplied by c. Exceptions, proved: google_matrix with a node list that reorders all the nodes, and eigenvector_centrality (its iteration is that of A + I), depend on the unit.", "quantifier": "all graphs, all c, all arguments; with and without the iso-valued fast path; exact arithmetic", "why_tests_cant": "Relates two runs over every graph and every factor; a test fixes one graph and one unit.", "anchors": ["graphblas_algorithms/algorithms/link_analysis/pagerank_alg.py", "graphblas_algorithms/algorithms/link_analysis/hits_alg.py", "graphblas_algorithms/algorithms/centrality/katz.py", "graphblas_algorithms/algorithms/centrality/eigenvector.py", "graphblas_algorithms/algorithms/cluster.py", "graphblas_algorithms/algorithms/cuts.py", "graphblas_algorithms/linalg"]}
{"id": "C118", "title": "Adding nodes and edges", "statement": "When a graph H has every node and every edge of G, whatever the internal numbering and the weights: hop distances (from a source, to a target, between two nodes, with any cutoff) never get longer and no reachable node is lost; efficiency never drops; descendants, ancestors, components, node boundaries, triangle counts, cut sizes and volumes only grow; has_path, is_connected, is_weakly_connected and is_dominating_set stay True (the last three when no node is added); isolates only disappear; the k-truss of G lies in the k'-truss of H for k' <= k. A k-truss is its own k-truss and each of its nodes has at least max(1, k-1) neighbours inside it. With cheaper or additional weighted edges a Bellman-Ford distance that is still defined never grows, and a negative cycle never disappears.", "quantifier": "all pairs of graphs one of which contains the other, all sources, cutoffs, node sets and k", "why_tests_cant": "Relates two runs on any two nested graphs; a test fixes one pair.", "anchors": ["graphblas_algorithms/algorithms/shortest_paths/unweighted.py", "graphblas_algorithms/algorithms/shortest_paths/weighted.py", "graphblas_algorithms/algorithms/core.py:k_truss", "graphblas_algorithms/algorithms/cluster.py", "graphblas_algorithms/algorithms/cuts.py", "graphblas_algorithms/algorithms/dominating.py", "graphblas_algorithms/algorithms/isolate.py"]}
{"id": "C119", "title": "Results depend only on the part of the graph they are about", "statement": "If everything reachable from s has the same outgoing edges in two graphs, then single_source_shortest_path_length (any cutoff), descendants, descendants_at_distance, node_connected_component, bidirectional distances, has_path and ego_graph from s agree, whatever the rest of the graphs, node order and numbering; with the same weights single_source_bellman_ford_path_length agrees too, including whether it raises for a negative cycle. The same holds for ancestors and single_target distances with edges reversed. triangles and clustering of a node depend only on its neighbours and the edges between them, cut_size only on the edges between the two sets, node_boundary only on the edges leaving the set. Isolated nodes do not influence transitivity, the total number of triangles, k_truss or overall_reciprocity.", "quantifier": "all pairs of graphs that agree on the part named, all nodes, cutoffs, radii, k", "why_tests_cant": "Ranges over all ways the rest of the graph can differ.", "anchors": ["graphblas_algorithms/algorithms/_bfs.py", "graphblas_algorithms/algorithms/shortest_paths", "graphblas_algorithms/generators/ego.py", "graphblas_algorithms/algorithms/cluster.py", "graphblas_algorithms/algorithms/cuts.py", "graphblas_algorithms/algorithms/core.py", "graphblas_algorithms/algorithms/reciprocity.py"]}
{"id": "C120", "title": "In-place iterations: no aliasing, no change of arguments", "statement": "pagerank, katz_centrality, eigenvector_centrality and hits (with or without the authority matrix) overwrite a handful of vectors in place, exchange two of them at every pass, and their convergence test destroys the older one. For every number of passes, start vector and earlier contents of memory the call returns or raises exactly what the pure iteration x -> step(x) does; the result is a new object (two different ones for hits); and no vector that existed before the call - start vector, personalization, dangling weights, beta, the cached row sums of the graph - is changed, even when the call raises. So a second call with the same objects gives the same numbers and leaves the first result intact. floyd_warshall (with and without predecessors) and bellman_ford_path reuse a work space in which names are shared, are transposed views or are exchanged; their results are those of the pure passes whatever the work space held, and do not depend on whether Row and P_row are one object.", "quantifier": "all graphs, all parameters, all memory contents, all numbers of passes, normal and exceptional exits", "why_tests_cant": "Aliasing and stale buffers show only after particular numbers of passes or in later calls that share an object; the claim is for all of them.", "anchors": ["graphblas_algorithms/algorithms/link_analysis/pagerank_alg.py:pagerank", "graphblas_algorithms/algorithms/link_analysis/hits_alg.py:hits", "graphblas_algorithms/algorithms/centrality/katz.py:katz_centrality", "graphblas_algorithms/algorithms/centrality/eigenvector.py:eigenvector_centrality", "graphblas_algorithms/algorithms/_helpers.py:is_converged,normalize", "graphblas_algorithms/algorithms/shortest_paths/dense.py:floyd_warshall_predecessor_and_distance", "graphblas_algorithms/algorithms/shortest_paths/weighted.py:bellman_ford_path"]}
{"id": "C121", "title": "Results that are produced lazily", "statement": "bfs_layers, all_pairs_shortest_path_length and all_pairs_bellman_ford_path_length are generators. However a consumer interleaves next() with its own work - changing the layers it was given, making vectors, stopping early - every layer of bfs_layers held, when it was handed out, exactly the nodes at its distance; no later next() changes a vector the consumer holds; the layers are different new objects; the generator returns right after the last layer and raises (at the first next()) only for unknown sources. Any t calls of next() on the all-pairs generators bring the first t members of one fixed sequence of correct single-source results. With a negative cycle all_pairs_bellman_ford_path_length hands out the results of all blocks of sources before the first block that contains a source reaching a negative cycle and then raises NetworkXUnbounded: how much is received before the exception depends on chunksize (one block for None, single sources below 2, else blocks of at most chunksize in node order), the results themselves do not.", "quantifier": "every graph, source list, cutoff, chunk size, number of next() calls and every behaviour of the consumer in between", "why_tests_cant": "The interleavings of generator and consumer are unbounded, and tests consume generators with list().", "anchors": ["graphblas_algorithms/algorithms/traversal/breadth_first_search.py:bfs_layers", "graphblas_algorithms/nxapi/shortest_paths/unweighted.py:all_pairs_shortest_path_length", "graphblas_algorithms/nxapi/shortest_paths/weighted.py:all_pairs_bellman_ford_path_length"]}
{"id": "C122", "title": "Comparing and combining NodeSets with other sets", "statement": "The set protocol NodeSet inherits works against any operand - a builtin set, a NodeSet of this or another graph, any iterable. Comparisons (<=, <, >=, >, ==, isdisjoint): whenever they answer, the answer is the right one about the members; <= and < always answer for a builtin set, >=, > and isdisjoint whenever all values of the other operand are nodes, and otherwise may raise KeyError. Operators (&, |, -, ^, reflected -): the result has exactly the members it should have or KeyError is raised, and which of the two is determined by the operands (a - s works for every builtin set s, a & s, a | s, s - a and a ^ s only if all of s are nodes). union(*args) never raises and includes values that are no nodes. In-place operators: |= and -= with a value that is no node raise KeyError after having applied exactly the values before it (the update is half done, so a - s succeeds where a -= s fails); &= and ^= raise before any change, except ^= with a NodeSet of another graph; x |= x, x &= x, x -= x, x ^= x are right.", "quantifier": "every graph, node set, operand of any kind and size, with any values, and every iteration order of the operand", "why_tests_cant": "All operands and iteration orders; the half-done updates depend on where the first unknown value comes.", "anchors": ["graphblas_algorithms/classes/nodeset.py:NodeSet", "graphblas_algorithms/classes/nodeset.py:NodeSet._from_iterable", "graphblas_algorithms/classes/nodeset.py:NodeSet.union"]}
{"id": "C123", "title": "Reading a NodeMap as a whole, and update", "statement": "dict(m), list(m.items()), list(m.values()), list(m) and len(m) of a NodeMap always succeed and agree: the items are the keys, each once, with the values of m[k], the values come in the order of the keys. (k, u) in m.items() and u in m.values() are right for all arguments and never raise; k in m.keys() is right for nodes and raises KeyError otherwise, so m.keys() & s is right only for sets of nodes, while m.keys() - s is right for every set. m.update(pairs) overwrites in order, the last pair for a key wins, the fill value stays; if a pair cannot be stored it raises with exactly the pairs before it stored. m.update(other NodeMap), of any graph, gives other's value where it has one.", "quantifier": "every graph, every NodeMap with or without fill value and with plain or node values, every argument and every list of pairs", "why_tests_cant": "All maps, pair lists and failure positions.", "anchors": ["graphblas_algorithms/classes/nodemap.py:NodeMap"]}
{"id": "C124", "title": "Normalised results stay in their range", "statement": "Clustering coefficients (one node, several, all; directed or not; weighted with non-negative weights), their means, efficiency, reciprocity, PageRank, HITS and (for non-negative weights) eigenvector scores, conductance and mixing expansion of undirected graphs lie in [0, 1]; normalised cut sizes of undirected graphs in [0, 2]; degree centralities of nodes without self-loop in [0, 1], in [0, 2] for degree_centrality of digraphs; a node has at most one triangle per pair of neighbours. efficiency is 1 exactly for adjacent nodes and 0 exactly for unreachable ones. Falsified by clustering and average_clustering on digraphs with self-loops, which can exceed 1.", "quantifier": "every graph, every set of nodes, every admissible argument, every number of iterations", "why_tests_cant": "The bound must hold for every graph; tests see single values.", "anchors": ["graphblas_algorithms/algorithms/cluster.py:clustering,clustering_directed,average_clustering,single_clustering,triangles", "graphblas_algorithms/algorithms/centrality/degree_alg.py", "graphblas_algorithms/algorithms/centrality/eigenvector.py", "graphblas_algorithms/algorithms/link_analysis/pagerank_alg.py:pagerank", "graphblas_algorithms/algorithms/link_analysis/hits_alg.py:hits", "graphblas_algorithms/algorithms/efficiency_measures.py:efficiency", "graphblas_algorithms/algorithms/reciprocity.py", "graphblas_algorithms/algorithms/cuts.py"]}
{"id": "C125", "title": "End values of normalised results mean what they say", "statement": "clustering(G, u) is 1 exactly when u has two different neighbours and any two of them are joined, and 0 exactly when no two of them are joined (undirected, self-loops ignored), likewise for several nodes; triangles gives 0 in exactly that case; average_clustering is 1 (0) exactly when every node averaged over has coefficient 1 (0); transitivity is 0 exactly without triangles and 1 exactly when there is a path of two edges and each is closed; a degree centrality of 0 means no edge and, for a node without self-loop, 1 means joined to every other node; overall_reciprocity is 0 exactly when no edge is answered and 1 exactly when every edge is and none is a self-loop; cut_size is 0 exactly when no edge joins the two sets; volume is 0 exactly when no edge leaves the set; every node's PageRank is at least its share (1 - alpha) p(u) of the jumps, hence positive without personalization and with alpha < 1.", "quantifier": "every graph, every node, every set of nodes, every admissible argument", "why_tests_cant": "An equivalence between a number and a shape of the graph ranges over all graphs, in both directions.", "anchors": ["graphblas_algorithms/algorithms/cluster.py:clustering,triangles,transitivity,average_clustering,single_clustering", "graphblas_algorithms/algorithms/centrality/degree_alg.py", "graphblas_algorithms/algorithms/link_analysis/pagerank_alg.py:pagerank", "graphblas_algorithms/algorithms/reciprocity.py:overall_reciprocity", "graphblas_algorithms/algorithms/cuts.py:cut_size,volume"]}
{"id": "C126", "title": "A union of separate graphs behaves like its parts", "statement": "When union(G, H) succeeds, its nodes and edges are those of the two graphs and no edge joins them. For a node of one part, every search (distances from and to it, descendants, ancestors, component, nodes at a distance, has_path, shortest path length), ego_graph, weighted distances including the negative-cycle error, triangles, clustering, reciprocity and is_isolate give in the union what they give in the part; between the parts has_path is False and path lengths raise NoPath. The union of non-empty graphs is neither connected nor weakly connected; the numbers of isolates and triangles and the volumes add up; the k-truss of the union is the union of the k-trusses; it has a negative cycle, is k-regular, is dominated by a set exactly when one part has, both parts are, both are; its floyd_warshall distances are those of the parts and absent across; nodes of different parts have no lowest common ancestor; no cut edge joins the parts. The same searches, paths, coefficients and weighted distances are those of the part in union(G, H, rename=...) (when the renaming keeps the nodes of each graph apart), and in disjoint_union(G, H), where node i of G is called i and node j of H len(G)+j.", "quantifier": "all pairs of graphs with disjoint node sets, all nodes, all arguments", "why_tests_cant": "Relates two algorithms' composition on all pairs of graphs; tests compare a few.", "anchors": ["graphblas_algorithms/algorithms/operators/binary.py:union", "graphblas_algorithms/algorithms/shortest_paths", "graphblas_algorithms/algorithms/components", "graphblas_algorithms/algorithms/core.py:k_truss", "graphblas_algorithms/algorithms/cluster.py", "graphblas_algorithms/algorithms/isolate.py", "graphblas_algorithms/algorithms/regular.py:is_k_regular", "graphblas_algorithms/algorithms/dominating.py:is_dominating_set", "graphblas_algorithms/algorithms/cuts.py:volume,cut_size"]}
{"id": "C127", "title": "pagerank in floating-point arithmetic: what rounding errors can do", "statement": "When every addition, subtraction, product, quotient and sum of pagerank is rounded (relative error u, underflow error eta, sums in any order), the values are still nonnegative, still sum to 1 up to the rounding error of a single pass divided by 1 - alpha however many passes are made, and are within (alpha * N * tol + the same rounding error) / (1 - alpha), up to factors 1 + O(N u), of the exact PageRank vector in L1 norm; the only error is PowerIterationFailedConvergence, and it is not raised when tol exceeds the error level and max_iter the number of passes to reach it. For IEEE double precision: the error of a pass is at most (N + 3) * 2^-50 for up to 2^40 nodes and weights up to 2^900, and with the default alpha, tol and max_iter a result is returned for every graph.", "quantifier": "all graphs with an edge, nonnegative weights with positive row sums, all valid dicts, 0 <= alpha < 1, all tol and max_iter, all summation orders; all arithmetics with the stated rounding bounds, and binary64 (roundTiesToEven, gradual underflow) in particular, as long as nothing overflows", "why_tests_cant": "The error bound is over all graphs and all summation orders; a test compares a few results to a tolerance that was chosen to make it pass.", "anchors": ["graphblas_algorithms/algorithms/link_analysis/pagerank_alg.py:pagerank", "graphblas_algorithms/algorithms/_helpers.py:is_converged", "graphblas_algorithms/nxapi/link_analysis/pagerank_alg.py:pagerank"]}
{"id": "C128", "title": "Normalised results in double precision: correctly rounded, still in range, still consistent", "statement": "With divisions as Python and GraphBLAS do them in IEEE double precision, transitivity, clustering and square clustering coefficients (the latter chunked or not), reciprocity, conductance, edge/mixing/node/boundary expansion and efficiency return the double nearest to the exact quotient of the two counts (ties to even), so a value computed for one node (in Python) and the same value in a whole mapping (in GraphBLAS) are the same number; clustering coefficients stay in [0,1] and are 1 or 0 exactly when the exact coefficient is. average_clustering, with any order of summation, stays in [0,1] and is within a fraction (N+2)*2^-52 of the exact mean; normalized_cut_size within 3*2^-52; degree centralities within 3*2^-53, at most 1 for degrees up to N-1, 0 exactly for degree 0, and they rank nodes exactly as degrees do. A node adjacent to all others can score less than 1 (N = 50 gives 0.9999999999999999).", "quantifier": "all graphs, node sets, nodes and node lists; up to 2^25 nodes where counts pass through FP64 in GraphBLAS (2^17 for square clustering, 2^48 for degree centralities, 2^51 for reciprocity), all summation orders", "why_tests_cant": "Whether a rounded quotient can leave [0,1], tie with or overtake another, or differ between the two code paths depends on every pair of counts; tests compare with approx.", "anchors": ["graphblas_algorithms/algorithms/cluster.py:clustering", "graphblas_algorithms/algorithms/cluster.py:single_clustering", "graphblas_algorithms/algorithms/cluster.py:average_clustering", "graphblas_algorithms/algorithms/cluster.py:square_clustering", "graphblas_algorithms/algorithms/cluster.py:transitivity", "graphblas_algorithms/algorithms/cuts.py:conductance", "graphblas_algorithms/algorithms/reciprocity.py:reciprocity", "graphblas_algorithms/algorithms/centrality/degree_alg.py:degree_centrality", "graphblas_algorithms/nxapi/efficiency_measures.py:efficiency"]}
{"id": "C129", "title": "Katz centrality with rounded arithmetic and in double precision", "statement": "In rounded arithmetic, when alpha times the weights out of any node total at most q < 1, katz_centrality gives every node a nonnegative number, and its values (not normalized) are within (rounding error of one pass + q * tolerance) / (1 - q) of the exact solution of the Katz equation, however many passes were made; the only error is PowerIterationFailedConvergence, and there is none when N*tol exceeds what rounding and the passes made can leave. In IEEE double precision with any order of summation the distance is at most (q*(1 + (N+3)*2^-52)*N*tol + (N+5)*2^-52*T)/(1-q) with T = 2*(total of beta and nstart)/(1-q) + 1; with the default arguments it always returns a result on graphs with up to 2^22 nodes and at most 9 unweighted out-edges per node. The squares of the normalized values sum to 1 up to rounding (in double precision within (N+10)*2^-52), unless beta is negligible.", "quantifier": "all graphs with nonnegative weights, alpha, beta (number or dict), nstart, tolerances and iteration counts; all rounding arithmetics and summation orders; in double precision up to 2^40 nodes", "why_tests_cant": "Accumulated rounding error over any number of passes, and whether it can keep the iteration from ever meeting the tolerance, depends on all graphs, values and summation orders.", "anchors": ["graphblas_algorithms/algorithms/centrality/katz.py:katz_centrality", "graphblas_algorithms/nxapi/centrality/katz.py:katz_centrality", "graphblas_algorithms/algorithms/_helpers.py:is_converged"]}
{"id": "C130", "title": "HITS scores with rounded arithmetic and in double precision still sum (or peak) at 1", "statement": "In rounded arithmetic, hub and authority scores returned by hits exist for every node and are nonnegative; the hubs, and the authorities, are all 0, or sum to 1 up to rounding (normalized=True), or have maximum 1 up to rounding (normalized=False), however many passes were made. In IEEE double precision with any order of summation: the sum is within (N+3)*2^-52 of 1, the maximum within 3*2^-52. (Weights of 2^-520 do overflow: 1/max is above every finite double.) The only errors are ArpackNoConvergence, and ValueError when max_iter < 1.", "quantifier": "all graphs with nonnegative weights, nstart with positive total, tolerances and iteration counts; all rounding arithmetics and summation orders; in double precision up to 2^40 nodes, total weights at a node up to 2^449 and nstart totals up to 2^900, as long as nothing overflows", "why_tests_cant": "Whether rounding or underflow can push scores out of range or spoil the normalisation depends on all weights, start vectors and numbers of passes.", "anchors": ["graphblas_algorithms/algorithms/link_analysis/hits_alg.py:hits", "graphblas_algorithms/nxapi/link_analysis/hits_alg.py:hits", "graphblas_algorithms/algorithms/_helpers.py:normalize"]}
{"id": "C131", "title": "google_matrix with rounded arithmetic and in double precision is still a transition matrix", "statement": "In rounded arithmetic google_matrix(G) succeeds on the arguments on which it succeeds exactly; no entry is negative, each entry is the transition probability up to rounding, and each row, also that of a dangling node, sums to 1 up to rounding. In IEEE double precision with any order of summation: entries within (3N+9)*2^-52 of the probability, row sums within (N+5)*2^-52 of 1.", "quantifier": "all nonempty graphs with nonnegative weights and positive row sums of the nonempty rows, alpha in [0,1], personalization and dangling dicts with nonnegative values and positive totals; all rounding arithmetics and summation orders; in double precision up to 2^40 nodes and totals up to 2^900", "why_tests_cant": "The rounding error of an entry depends on all weights of its row and on the order of summation; a test sees a few matrices.", "anchors": ["graphblas_algorithms/algorithms/link_analysis/pagerank_alg.py:google_matrix", "graphblas_algorithms/nxapi/link_analysis/pagerank_alg.py:google_matrix"]}
{"id": "C132", "title": "eigenvector_centrality with rounded arithmetic and in double precision returns a unit vector", "statement": "In rounded arithmetic, with a square root accurate to one unit in the last place, what eigenvector_centrality returns is nonnegative and its squares sum to 1 up to rounding, however many passes were made, and \"not converged\" is the only error. In IEEE double precision with any order of summation the sum of the squares is within (N+10)*2^-52 of 1.", "quantifier": "all nonempty simple graphs with nonnegative weights, nstart dicts with nonnegative values and positive total, max_iter, tol; all rounding arithmetics, square roots of that accuracy and summation orders; in double precision up to 2^40 nodes and totals up to 2^900", "why_tests_cant": "The rounding error depends on all weights, on the number of passes and on the order of summation; underflow could lose the whole vector.", "anchors": ["graphblas_algorithms/algorithms/centrality/eigenvector.py:eigenvector_centrality", "graphblas_algorithms/algorithms/_helpers.py:normalize"]}
{"id": "C133", "title": "weighted cut_size and volume with rounded arithmetic and in double precision", "statement": "Weighted cut_size(G, S, T) computed with rounded additions in any order is within the relative error of one rounding per counted edge of the total weight of the edges between S and T; weighted volume(G, S) is within the relative error of 2N roundings of the total weight of the edges into S (at S, in an undirected graph). In IEEE double precision these are (M+1)*2^-52 for a cut of M edges and 2N*2^-52; when the weights are natural numbers and the exact result is at most 2^53 the result is exact, whatever the order of summation.", "quantifier": "all graphs with nonnegative weights, all node sets S and T, T omitted in undirected graphs (for volume: S within the graph); all rounding arithmetics and all orders and bracketings of summation; in double precision cuts of up to 2^50 edges and graphs of up to 2^40 nodes", "why_tests_cant": "The rounding error depends on all the weights and on the order in which a parallel reduction adds them, which no test controls.", "anchors": ["graphblas_algorithms/algorithms/cuts.py:cut_size", "graphblas_algorithms/algorithms/cuts.py:volume", "graphblas_algorithms/nxapi/cuts.py:cut_size", "graphblas_algorithms/nxapi/cuts.py:volume"]}
