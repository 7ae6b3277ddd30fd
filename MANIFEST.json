{
 "claims": [
  {
   "property": "C15",
   "status": "proved",
   "theorems": [
    "Props.single_source_shortest_path_length_correct",
    "Props.single_source_shortest_path_length_missing",
    "Props.shortest_path_length_negative_cutoff"
   ],
   "note": "level loop of _bfs_level with every cutoff; includes zero-weight edges and self-loops"
  },
  {
   "property": "C16",
   "status": "proved",
   "theorems": [
    "Props.single_target_shortest_path_length_correct",
    "Props.single_target_eq_single_source",
    "Props.shortest_path_length_negative_cutoff"
   ],
   "note": ""
  },
  {
   "property": "C17",
   "status": "proved",
   "theorems": [
    "Props.all_pairs_shortest_path_length_chunksize_independent"
   ],
   "note": ""
  },
  {
   "property": "C18",
   "status": "proved",
   "theorems": [
    "Props.bidirectional_shortest_path_length_correct",
    "Props.bidirectional_shortest_path_length_missing",
    "Props.has_path_correct"
   ],
   "note": ""
  },
  {
   "property": "C19",
   "status": "proved",
   "theorems": [
    "Props.efficiency_correct",
    "Props.efficiency_same_node"
   ],
   "note": "exact field arithmetic; efficiency(u,u) is shown to raise ZeroDivisionError"
  },
  {
   "property": "C20",
   "status": "proved",
   "theorems": [
    "Props.descendants_correct",
    "Props.ancestors_correct",
    "Props.descendants_ancestors_dual",
    "Props.descendants_ancestors_missing"
   ],
   "note": ""
  },
  {
   "property": "C21",
   "status": "proved",
   "theorems": [
    "Props.bfs_layers_correct",
    "Props.bfs_layers_disjoint",
    "Props.descendants_at_distance_correct",
    "Props.descendants_at_distance_negative"
   ],
   "note": ""
  },
  {
   "property": "C22",
   "status": "proved",
   "theorems": [
    "Props.node_connected_component_correct",
    "Props.is_connected_correct"
   ],
   "note": ""
  },
  {
   "property": "C23",
   "status": "proved",
   "theorems": [
    "Props.is_weakly_connected_correct"
   ],
   "note": ""
  },
  {
   "property": "C24",
   "status": "proved",
   "theorems": [
    "Props.bfs_parent_correct",
    "Props.bfs_parent_chase"
   ],
   "note": ""
  },
  {
   "property": "C26",
   "status": "proved",
   "theorems": [
    "Props.lowest_common_ancestor_correct",
    "Props.lowest_common_ancestor_exact",
    "Props.lowest_common_ancestor_on_cycle",
    "Props.lowest_common_ancestor_cycle_index_error"
   ],
   "note": "_exact: every graph, cyclic ones included"
  },
  {
   "property": "C74",
   "status": "proved",
   "theorems": [
    "Props.partition_correct",
    "Props.partition_one"
   ],
   "note": "partition(1, L) yields bare elements (documented finding)"
  },
  {
   "property": "C75",
   "status": "proved",
   "theorems": [
    "Props.split_evenly_correct",
    "Props.split_evenly_count"
   ],
   "note": ""
  },
  {
   "property": "C76",
   "status": "proved",
   "theorems": [
    "Props.normalize_chunksize_usable",
    "Props.normalize_chunksize_number",
    "Props.normalize_chunksize_insensitive",
    "Props.normalize_chunksize_all",
    "Props.normalize_chunksize_unit",
    "Props.normalize_chunksize_chunks",
    "Props.normalize_chunksize_errors"
   ],
   "note": "float parsing of the numeric prefix is a parameter"
  },
  {
   "property": "C27",
   "status": "proved",
   "theorems": [
    "Props.single_source_bellman_ford_path_length_correct",
    "Props.single_source_bellman_ford_path_length_missing",
    "Props.single_source_bellman_ford_path_length_cutoff"
   ],
   "note": "all three branches (iso / non-negative / general); cutoff statement in its own theorem; weights in any linearly ordered abelian group (floats not modelled)"
  },
  {
   "property": "C28",
   "status": "partial",
   "theorems": [
    "Props.bellman_ford_path_length_correct_partial",
    "Props.bellman_ford_path_length_unbounded_sound",
    "Props.bellman_ford_path_length_missing",
    "Props.bellman_ford_path_length_misses_negative_cycle",
    "Props.bellman_ford_path_length_exact",
    "Props.bellman_ford_path_length_nonneg",
    "Props.bellman_ford_path_length_misses_negative_self_loop"
   ],
   "note": "exact when no negative cycle is reachable, sound Unbounded; with negative cycles the result is characterised for every graph (exact), which shows that the code misses some (two proved witnesses)"
  },
  {
   "property": "C29",
   "status": "proved",
   "theorems": [
    "Props.bellman_ford_path_lengths_batch",
    "Props.all_pairs_bellman_ford_path_length_chunksize_independent"
   ],
   "note": "every chunksize gives the single-source answer for every node"
  },
  {
   "property": "C31",
   "status": "proved",
   "theorems": [
    "Props.negative_edge_cycle_correct"
   ],
   "note": "result is True iff some closed walk has negative total weight (fresh cache; see C06 for the cached-state finding)"
  },
  {
   "property": "C30",
   "status": "partial",
   "theorems": [
    "Props.bellman_ford_path_correct_partial",
    "Props.bellman_ford_path_missing",
    "Props.bellman_ford_path_iso_negative_rejected",
    "Props.bellman_ford_path_positive_loop_rejected",
    "Props.bellman_ford_path_may_not_terminate",
    "Props.bellman_ford_path_exact",
    "Props.bellman_ford_path_sound",
    "Props.bellman_ford_path_iso_negative_always"
   ],
   "note": "exact result on every graph without a reachable negative cycle; on every graph any list returned is empty with the target unreachable, or a simple path along edges; iso-valued negative graphs are always rejected; FALSE of the code with proved witnesses: iso-negative acyclic graph rejected, positive self-loop rejected, non-termination with a negative cycle"
  },
  {
   "property": "C32",
   "status": "proved",
   "theorems": [
    "Props.floyd_warshall_correct",
    "Props.floyd_warshall_diagonal",
    "Props.floyd_warshall_symmetric",
    "Props.floyd_warshall_hops"
   ],
   "note": "weighted and unweighted, directed and undirected (upper-triangular storage), any behaviour of the ANY operator"
  },
  {
   "property": "C33",
   "status": "partial",
   "theorems": [
    "Props.floyd_warshall_predecessor_correct_partial",
    "Props.floyd_warshall_predecessor_undirected_wrong",
    "Props.floyd_warshall_predecessor_distances",
    "Props.floyd_warshall_predecessor_undirected_symmetric",
    "Props.floyd_warshall_predecessor_undirected_always_wrong"
   ],
   "note": "distances for all graphs, predecessors for directed graphs; FALSE of the code for undirected graphs: the predecessors are wrong on every undirected graph with positive weights and an edge between different nodes"
  },
  {
   "property": "C34",
   "status": "partial",
   "theorems": [
    "Props.floyd_warshall_numpy_nodelist_partial",
    "Props.floyd_warshall_numpy_bad_nodelist",
    "Props.floyd_warshall_numpy_nodelist_undirected_wrong",
    "Props.floyd_warshall_numpy_nodelist_undirected_partial",
    "Props.floyd_warshall_numpy_nodelist_undirected_sound"
   ],
   "note": "directed graphs proved, bad nodelists rejected; undirected graphs proved when the nodelist keeps the order of the ends of every edge; FALSE of the code otherwise (proved witness), where still every entry is the weight of some walk and the pairs with an entry are exactly the connected ones"
  },
  {
   "property": "C25",
   "status": "proved",
   "theorems": [
    "Props.ego_graph_correct",
    "Props.ego_graph_missing",
    "Props.ego_graph_weighted_correct",
    "Props.ego_graph_negative_radius"
   ],
   "note": "Integer radius for the hop version, exact weights for the weighted one (non-negative weights; with undirected=True distances are those of G.to_undirected(), whose weights on antiparallel pairs are picked by the `any` operator)."
  },
  {
   "property": "C47",
   "status": "proved",
   "theorems": [
    "Props.to_undirected_correct",
    "Props.to_undirected_reciprocal",
    "Props.to_undirected_symm",
    "Props.to_undirected_weights_not_symmetric"
   ],
   "note": "Holds for every behaviour of the `any` operator; the last theorem is a finding about weights of antiparallel edges."
  },
  {
   "property": "C35",
   "status": "proved",
   "theorems": [
    "Props.triangles_correct",
    "Props.single_triangle_correct",
    "Props.total_triangles_correct",
    "Props.triangles_missing",
    "Props.weighted_triangles_correct"
   ],
   "note": "all undirected graphs (symmetric matrix), self-loops allowed, with or without a node list"
  },
  {
   "property": "C36",
   "status": "proved",
   "theorems": [
    "Props.transitivity_correct",
    "Props.transitivity_directed_correct"
   ],
   "note": "exact rational arithmetic; value, bounds and non-zero divisor"
  },
  {
   "property": "C37",
   "status": "proved",
   "theorems": [
    "Props.clustering_correct",
    "Props.clustering_bounds",
    "Props.single_clustering_correct",
    "Props.weighted_clustering_correct"
   ],
   "note": "exact rational arithmetic; weighted normalisation cbrt(w/max) is an arbitrary function f"
  },
  {
   "property": "C38",
   "status": "partial",
   "theorems": [
    "Props.directed_clustering_correct_partial",
    "Props.single_directed_clustering_correct",
    "Props.directed_clustering_denominator_pos",
    "Props.directed_clustering_self_loops_wrong",
    "Props.directed_clustering_value",
    "Props.directed_clustering_right_iff",
    "Props.directed_clustering_divides_by_zero"
   ],
   "note": "FALSE of the code for the all-nodes call with self-loops (AT keeps the diagonal): the returned value is given exactly for every digraph, with the condition under which it is the coefficient; all digraphs for the one-node call"
  },
  {
   "property": "C39",
   "status": "partial",
   "theorems": [
    "Props.average_clustering_correct",
    "Props.average_clustering_directed_correct_partial",
    "Props.average_clustering_self_loops_wrong",
    "Props.average_clustering_directed_value"
   ],
   "note": "undirected fully proved; directed: exact value for every digraph (when no count is divided by 0), right without self-loops; FALSE for digraphs with self-loops (proved witness)"
  },
  {
   "property": "C40",
   "status": "partial",
   "theorems": [
    "Props.square_clustering_correct",
    "Props.square_clustering_bounds",
    "Props.square_clustering_single",
    "Props.square_clustering_subset_partial",
    "Props.square_clustering_subset_drops_zeros",
    "Props.square_clustering_chunked_edgeless",
    "Props.square_clustering_uses_weights",
    "Props.square_clustering_weighted_exact",
    "Props.square_clustering_right_iff",
    "Props.square_clustering_self_loop_wrong"
   ],
   "note": "whole-graph and one-node calls fully proved for every chunk size (with chunking the graph needs an edge); FALSE of the code: node-list calls omit nodes whose coefficient is 0, chunked calls on edgeless graphs return an unusable map, weights leak into the denominator (exact value for all integer weights: square_clustering_weighted_exact; right exactly when the weights balance: square_clustering_right_iff), self-loops give wrong values (proved witnesses)"
  },
  {
   "property": "C41",
   "status": "partial",
   "theorems": [
    "Props.generalized_degree_correct",
    "Props.generalized_degree_sum",
    "Props.single_generalized_degree_partial",
    "Props.generalized_degree_single_wrong_keys",
    "Props.generalized_degree_isolated"
   ],
   "note": "all-nodes and node-list calls proved; FALSE of the code: the one-node call shows node keys instead of triangle counts, and nodes without edges are missing from the full result (proved)"
  },
  {
   "property": "C42",
   "status": "proved",
   "theorems": [
    "Props.k_truss_correct"
   ],
   "note": "every undirected graph and integer k; termination included"
  },
  {
   "property": "C01",
   "status": "partial",
   "theorems": [
    "Props.graph_lookup_history_independent_partial",
    "Props.graph_lookup_errors",
    "Props.has_negative_diagonal_partial",
    "Props.lookup_total_without_self_edges",
    "Props.has_negative_diagonal_depends_on_history",
    "Props.element_minus_attribute_error",
    "Props.iso_value_key_error"
   ],
   "note": "every symmetric matrix, every history (masked, failing requests included), every name but has_negative_diagonal exact whenever it returns, and a complete list of the lookups that may raise; FALSE of the code: has_negative_diagonal after has_negative_edges+, AttributeError of {op}_element- and KeyError of iso_value depending on the history (proved witnesses)"
  },
  {
   "property": "C02",
   "status": "partial",
   "theorems": [
    "Props.digraph_lookup_history_independent_partial",
    "Props.digraph_lookup_errors",
    "Props.has_negative_diagonal_partial",
    "Props.lookup_total_without_self_edges",
    "Props.total_degrees_poisons_has_self_edges",
    "Props.has_negative_diagonal_depends_on_history"
   ],
   "note": "as C01 for DiGraph; FALSE of the code after an unmasked total_degrees+ of a graph with self-edges (proved witness); exact for all other histories"
  },
  {
   "property": "C03",
   "status": "partial",
   "theorems": [
    "Props.has_self_edges_exact_partial",
    "Props.has_self_edges_sound",
    "Props.has_self_edges_stable",
    "Props.has_self_edges_wrong_after_negative_diagonal",
    "Props.total_degrees_poisons_has_self_edges"
   ],
   "note": "stable after every history; exact for histories without has_negative_diagonal (and unmasked total_degrees+ of digraphs with self-edges); FALSE otherwise (proved witnesses)"
  },
  {
   "property": "C04",
   "status": "partial",
   "theorems": [
    "Props.masked_lookup_same_history",
    "Props.masked_lookup_is_restriction",
    "Props.unmasked_after_masked",
    "Props.masked_lookup_corrupts_after_total_degrees"
   ],
   "note": "first half without exception: every vector-valued name, every mask (structural, value, complemented), every history, the corrupting ones of C02 included; second half (no corruption) for histories of masked lookups; it is false after an unmasked total_degrees+ of a digraph with self-edges, shown by masked_lookup_corrupts_after_total_degrees"
  },
  {
   "property": "C05",
   "status": "partial",
   "theorems": [
    "Props.get_properties_as_lookups",
    "Props.get_properties_correct",
    "Props.get_properties_correct_partial",
    "Props.get_properties_errors",
    "Props.get_properties_wrong_with_total_degrees"
   ],
   "note": "any name list with repetitions, any history: the values are those of successive get_property calls; that they equal the defined values fails when total_degrees+ is requested from a digraph with self-edges (get_properties_wrong_with_total_degrees)"
  },
  {
   "property": "C06",
   "status": "partial",
   "theorems": [
    "Props.result_independent_of_history_partial",
    "Props.result_independent_of_history",
    "Props.result_independent_of_history_undirected",
    "Props.transitivity_independent_of_history",
    "Props.average_clustering_independent_of_history_partial",
    "Props.weighted_average_clustering_independent_of_history_partial",
    "Props.weighted_average_clustering_on_object_partial",
    "Props.isolates_poison_reciprocity",
    "Props.result_independent_of_numeric_history_partial",
    "Props.numeric_result_independent_of_history_partial",
    "Props.numeric_result_independent_of_history",
    "Props.bellman_ford_breaks_pagerank",
    "Props.transitivity_history_independent",
    "Props.average_clustering_history_independent_partial",
    "Props.average_clustering_agree_partial",
    "Props.average_clustering_nodes_history_independent",
    "Props.negative_edge_cycle_history_partial",
    "Props.average_clustering_memo_ignores_weight",
    "Props.weighted_average_clustering_self_loop_attribute_error",
    "Props.negative_edge_cycle_depends_on_history"
   ],
   "note": "53 library functions run as programs on a graph object with its property cache and memo table: after any history of calls of any of them (any arguments, failing calls included), lookups and memoised averages, a call returns the result of its cache-free model; exact for graphs without self-loops and for undirected graphs; FALSE of the code: pagerank/katz_centrality of a weighted graph raise KeyError after a Bellman-Ford call, isolates etc. on DiGraphs with self-loops poison has_self_edges, average_clustering memo key omits `weight`, negative_edge_cycle depends on earlier user lookups and the weighted average on a graph with self-loops (proved witnesses)"
  },
  {
   "property": "C07",
   "status": "proved",
   "theorems": [
    "Props.wrap_matrix_wf",
    "Props.from_networkx_wf",
    "Props.key_id_bijection",
    "Props.results_wf",
    "Props.k_truss_correct",
    "Props.ego_graph_correct",
    "Props.ego_graph_weighted_correct"
   ],
   "note": "well-formedness of every constructed or returned graph object; compose with overlapping node sets is the exception (C45)"
  },
  {
   "property": "C08",
   "status": "proved",
   "theorems": [
    "Props.list_to_keys_ids",
    "Props.list_to_ids_keys",
    "Props.conversions_missing",
    "Props.vector_to_dict_correct",
    "Props.vector_to_dict_dict_to_vector",
    "Props.vector_to_dict_fill",
    "Props.set_to_vector_ignore_extra",
    "Props.vector_to_list_correct",
    "Props.dict_to_vector_empty",
    "Props.vector_to_list_values"
   ],
   "note": "every graph, list, dictionary and set; the last theorem records that the empty dict raises ValueError"
  },
  {
   "property": "C09",
   "status": "partial",
   "theorems": [
    "Props.matrix_to_dicts_partial",
    "Props.matrix_to_dicts_empty",
    "Props.matrix_to_dicts_transposed_flags_swapped"
   ],
   "note": "every matrix with an entry, all flag combinations, and transposed matrices when the flags agree; FALSE of the code for transposed matrices with exactly one flag and for matrices without entries (proved)"
  },
  {
   "property": "C10",
   "status": "proved",
   "theorems": [
    "Props.from_networkx_edges",
    "Props.to_networkx_correct",
    "Props.networkx_round_trip",
    "Props.graph_round_trip"
   ],
   "note": "every simple graph / digraph with or without weights; gb.io.from_networkx and nx.add_edges are trusted"
  },
  {
   "property": "C43",
   "status": "proved",
   "theorems": [
    "Props.union_correct",
    "Props.union_no_cross",
    "Props.union_overlap",
    "Props.union_rename_correct",
    "Props.disjoint_union_correct",
    "Props.union_rename_collision"
   ],
   "note": "every pair of graphs; renaming that is not injective on the nodes loses nodes (proved witness)"
  },
  {
   "property": "C44",
   "status": "proved",
   "theorems": [
    "Props.intersection_correct",
    "Props.difference_correct",
    "Props.symmetric_difference_correct"
   ],
   "note": "every pair of well-formed graphs, any numbering"
  },
  {
   "property": "C45",
   "status": "partial",
   "theorems": [
    "Props.compose_correct_iff",
    "Props.compose_wf_iff",
    "Props.compose_correct_partial",
    "Props.compose_same_nodes",
    "Props.compose_disjoint",
    "Props.compose_loses_edges",
    "Props.compose_bad_ids",
    "Props.compose_drops_edges"
   ],
   "note": "complete: compose_correct_iff says exactly for which pairs of graphs the code is right (equal node sets, or a class of overlaps); FALSE of the code for all others"
  },
  {
   "property": "C46",
   "status": "proved",
   "theorems": [
    "Props.complement_correct",
    "Props.complement_involutive",
    "Props.reverse_correct"
   ],
   "note": "every graph"
  },
  {
   "property": "C48",
   "status": "proved",
   "theorems": [
    "Props.full_join_correct",
    "Props.full_join_overlap"
   ],
   "note": "every pair of graphs with disjoint nodes"
  },
  {
   "property": "C11",
   "status": "partial",
   "theorems": [
    "Props.nodemap_is_dict_partial",
    "Props.plain_sound",
    "Props.keys_sound",
    "Props.nodemap_deviations",
    "Props.nodemap_setdefault_keys_wrong"
   ],
   "note": "every call sequence within the promise (Fits); FALSE of the code outside: non-node keys in `in`/get raise, del of a missing node is silent, setdefault(None) and setdefault of node values (proved witnesses)"
  },
  {
   "property": "C12",
   "status": "proved",
   "theorems": [
    "Props.nodemap_fill_total",
    "Props.nodemap_fill_clear",
    "Props.nodemap_fill_popitem_empty"
   ],
   "note": "every call sequence with node keys; popitem pops stored entries only (stated)"
  },
  {
   "property": "C13",
   "status": "partial",
   "theorems": [
    "Props.vector_node_map_is_dict",
    "Props.node_node_map_is_dict_partial",
    "Props.node_node_map_fill",
    "Props.node_node_map_get_none",
    "Props.vector_map_getitem_none"
   ],
   "note": "VectorNodeMap full; NodeNodeMap.get is broken in the code (proved)"
  },
  {
   "property": "C14",
   "status": "proved",
   "theorems": [
    "Props.nodeset_is_set",
    "Props.nodeset_non_node",
    "Props.nodeset_eq_iff",
    "Props.nodeset_eq_sound",
    "Props.nodeset_eq_across_wrong",
    "Props.nodeset_isdisjoin",
    "Props.nodeset_operators",
    "Props.nodeset_copy_independent"
   ],
   "note": "every call sequence with node keys; equality across graphs numbered differently is wrong (witness)"
  },
  {
   "property": "C49",
   "status": "partial",
   "theorems": [
    "Props.edge_boundary_correct_partial",
    "Props.edge_boundary_undirected",
    "Props.edge_boundary_misses_sinks"
   ],
   "note": "exact edge set for every graph and both forms; with T omitted on a digraph the code drops edges into nodes without outgoing edges (proved witness)"
  },
  {
   "property": "C50",
   "status": "proved",
   "theorems": [
    "Props.node_boundary_correct"
   ],
   "note": "every graph, S, optional T"
  },
  {
   "property": "C51",
   "status": "proved",
   "theorems": [
    "Props.cut_size_correct",
    "Props.cut_size_weighted_correct",
    "Props.cut_size_complement",
    "Props.cut_size_weighted_complement",
    "Props.cut_size_directed_without_target",
    "Props.cut_size_symmetric",
    "Props.cut_size_weighted_directed_without_target"
   ],
   "note": "every graph; T omitted on a digraph raises TypeError (proved)"
  },
  {
   "property": "C52",
   "status": "partial",
   "theorems": [
    "Props.volume_correct",
    "Props.volume_missing",
    "Props.volume_weighted_correct_partial",
    "Props.volume_weighted_directed_wrong"
   ],
   "note": "weighted volume on a digraph sums incoming weights (proved witness)"
  },
  {
   "property": "C53",
   "status": "proved",
   "theorems": [
    "Props.conductance_correct",
    "Props.conductance_bounds",
    "Props.edge_expansion_correct",
    "Props.node_expansion_correct"
   ],
   "note": "every graph; the weight argument is ignored by the code for these functions"
  },
  {
   "property": "C54",
   "status": "proved",
   "theorems": [
    "Props.is_dominating_set_correct"
   ],
   "note": "every graph and node list"
  },
  {
   "property": "C55",
   "status": "proved",
   "theorems": [
    "Props.is_isolate_correct",
    "Props.isolates_correct"
   ],
   "note": "every graph"
  },
  {
   "property": "C56",
   "status": "proved",
   "theorems": [
    "Props.is_regular_correct_partial",
    "Props.is_regular_edgeless",
    "Props.is_regular_empty",
    "Props.is_k_regular_correct_partial",
    "Props.is_k_regular_zero",
    "Props.is_regular_exact",
    "Props.is_k_regular_exact"
   ],
   "note": "exact result for every graph and every k; FALSE of the code on edgeless graphs and for k=0 (False), and it raises on the empty graph (proved)"
  },
  {
   "property": "C57",
   "status": "proved",
   "theorems": [
    "Props.is_tournament_correct"
   ],
   "note": "every digraph"
  },
  {
   "property": "C58",
   "status": "proved",
   "theorems": [
    "Props.score_sequence_correct",
    "Props.score_sequence_sum",
    "Props.tournament_matrix_correct"
   ],
   "note": "every digraph"
  },
  {
   "property": "C59",
   "status": "proved",
   "theorems": [
    "Props.is_simple_path_correct"
   ],
   "note": "every graph and every list"
  },
  {
   "property": "C60",
   "status": "proved",
   "theorems": [
    "Props.reciprocity_nodes_correct",
    "Props.reciprocity_node_correct",
    "Props.overall_reciprocity_correct",
    "Props.overall_reciprocity_bounds"
   ],
   "note": "every digraph"
  },
  {
   "property": "C61",
   "status": "partial",
   "theorems": [
    "Props.s_metric_correct_partial",
    "Props.s_metric_directed_half",
    "Props.s_metric_self_loop",
    "Props.s_metric_exact"
   ],
   "note": "exact value for every graph; FALSE of the code: the value is halved for digraphs and for self-loops (proved)"
  },
  {
   "property": "C62",
   "status": "partial",
   "theorems": [
    "Props.community_edges_correct",
    "Props.community_edges_partition",
    "Props.community_edges_undirected_doubled",
    "Props.community_edges_undirected_exact"
   ],
   "note": "exact on every graph; FALSE for undirected graphs: every edge between different nodes is counted twice (proved for every undirected graph)"
  },
  {
   "property": "C63",
   "status": "proved",
   "theorems": [
    "Props.mutual_weight_correct"
   ],
   "note": "every graph and pair of keys"
  },
  {
   "property": "C64",
   "status": "partial",
   "theorems": [
    "Props.is_triad_correct",
    "Props.is_triad_history_partial",
    "Props.isolates_poison_is_triad"
   ],
   "note": "exact on a new object and after every history that C06 admits; FALSE of the code after isolates, s_metric, degree_centrality or total_degrees+ on a digraph with self-loops (proved witness)"
  },
  {
   "property": "C65",
   "status": "partial",
   "theorems": [
    "Props.faster_never_rejects",
    "Props.faster_could_be_isomorphic_iff",
    "Props.fast_never_rejects_partial",
    "Props.fast_could_be_isomorphic_iff_partial",
    "Props.fast_true_implies_faster_true",
    "Props.fast_rejects_isomorphic_digraphs"
   ],
   "note": "faster: all graphs, answers True exactly when the degree sequences agree; fast: exact on undirected graphs (pairs of degree and triangle count), on digraphs it rejects isomorphic digraphs (proved witness)"
  },
  {
   "property": "C66",
   "status": "partial",
   "theorems": [
    "Props.pagerank_correct",
    "Props.pagerank_sum",
    "Props.pagerank_nonneg",
    "Props.pagerank_accuracy",
    "Props.pagerank_converges",
    "Props.pagerank_vector",
    "Props.pagerank_zero_sum",
    "Props.pagerank_edgeless"
   ],
   "note": "any graph with at least one edge, exact arithmetic; the edgeless graph returns all zeros (proved)"
  },
  {
   "property": "C67",
   "status": "partial",
   "theorems": [
    "Props.google_matrix_correct",
    "Props.google_matrix_rows",
    "Props.google_matrix_nodelist_partial",
    "Props.google_matrix_permuted_nodelist",
    "Props.google_matrix_dangling_ignored",
    "Props.google_matrix_nodelist_exact",
    "Props.google_matrix_nodelist_lost_row",
    "Props.google_matrix_dangling_ignored_always"
   ],
   "note": "without a nodelist for every graph; with a nodelist the matrix is given exactly (which rows are filled) and two ways it differs from NetworkX are proved"
  },
  {
   "property": "C68",
   "status": "proved",
   "theorems": [
    "Props.katz_correct",
    "Props.katz_norm",
    "Props.katz_sources_missing",
    "Props.eigenvector_correct",
    "Props.eigenvector_norm",
    "Props.eigenvector_null",
    "Props.hits_correct",
    "Props.hits_with_authority_correct"
   ],
   "note": "exact field arithmetic; katz_sources_missing covers the alternative reading of the library's scalar accumulation"
  },
  {
   "property": "C69",
   "status": "proved",
   "theorems": [
    "Props.degree_centrality_directed",
    "Props.degree_centrality_undirected",
    "Props.in_out_degree_centrality",
    "Props.in_out_degree_centrality_undirected"
   ],
   "note": "every graph"
  },
  {
   "property": "C70",
   "status": "partial",
   "theorems": [
    "Props.laplacian_matrix_correct_partial",
    "Props.laplacian_matrix_symmetric",
    "Props.normalized_laplacian_matrix_correct_partial",
    "Props.laplacian_matrix_digraph_raises"
   ],
   "note": "every graph and node list, except unweighted digraphs without node list, where the code always raises KeyError (proved)"
  },
  {
   "property": "C71",
   "status": "proved",
   "theorems": [
    "Props.modularity_matrix_correct",
    "Props.directed_modularity_matrix_correct",
    "Props.modularity_matrix_kinds"
   ],
   "note": "every graph and node list, total weight nonzero unless there is no edge"
  },
  {
   "property": "C72",
   "status": "proved",
   "theorems": [
    "Props.bethe_hessian_matrix_correct",
    "Props.bethe_hessian_matrix_no_edges"
   ],
   "note": "every undirected graph, r, node list; default r too"
  },
  {
   "property": "C73",
   "status": "proved",
   "theorems": [
    "Props.adjacency_matrix_correct",
    "Props.adjacency_matrix_missing"
   ],
   "note": "every graph and node list"
  },
  {
   "property": "C77",
   "status": "proved",
   "theorems": [
    "Props.convert_from_nx_correct",
    "Props.convert_from_nx_unsupported"
   ],
   "note": "every combination of arguments"
  },
  {
   "property": "C78",
   "status": "partial",
   "theorems": [
    "Props.convert_to_nx_correct",
    "Props.convert_to_nx_unreachable_zero"
   ],
   "note": "floyd_warshall_numpy: unreachable pairs become 0 instead of infinity (proved for every such pair)"
  },
  {
   "property": "C79",
   "status": "partial",
   "theorems": [
    "Props.weighted_clustering_map_partial",
    "Props.single_weighted_clustering",
    "Props.weighted_directed_clustering_map_partial",
    "Props.single_weighted_directed_clustering",
    "Props.weighted_average_partial",
    "Props.weighted_average_directed_partial",
    "Props.weighted_clustering_self_loop_raises",
    "Props.weighted_directed_clustering_value",
    "Props.weighted_directed_clustering_right",
    "Props.weighted_average_directed_value",
    "Props.weighted_clustering_no_edges_raises"
   ],
   "note": "one-node calls proved for all graphs with an edge between different nodes; undirected all-nodes calls and averages for graphs without self-loops (with them the call raises AttributeError, proved for every such graph); directed all-nodes calls exact for every digraph (value), right without self-loops at the node and its predecessors; FALSE of the code: self-loops count in digraphs, and graphs without an edge between different nodes raise (division by an empty Scalar, read as raising)"
  },
  {
   "property": "C80",
   "status": "proved",
   "theorems": [
    "Props.katz_contract",
    "Props.katz_solution_unique",
    "Props.katz_accuracy",
    "Props.katz_converges",
    "Props.katz_solution_exists",
    "Props.katz_lower",
    "Props.katz_beta_incomplete"
   ],
   "note": "exact arithmetic"
  },
  {
   "property": "C81",
   "status": "proved",
   "theorems": [
    "Props.relabel_single_source_shortest_path_length",
    "Props.relabel_single_target_shortest_path_length",
    "Props.relabel_all_pairs_shortest_path_length",
    "Props.relabel_bidirectional_shortest_path_length",
    "Props.relabel_efficiency",
    "Props.relabel_descendants",
    "Props.relabel_ancestors",
    "Props.relabel_descendants_at_distance",
    "Props.relabel_bfs_layers",
    "Props.relabel_node_connected_component",
    "Props.relabel_is_connected",
    "Props.relabel_is_weakly_connected",
    "Props.relabel_single_source_bellman_ford",
    "Props.relabel_single_source_bellman_ford_cutoff",
    "Props.relabel_bellman_ford_path_length",
    "Props.relabel_bellman_ford_path_length_all",
    "Props.relabel_single_source_bellman_ford_all",
    "Props.relabel_bfs_level",
    "Props.relabel_negative_edge_cycle",
    "Props.relabel_floyd_warshall",
    "Props.relabels_relabelled"
   ],
   "note": "all graphs, negative cycles included; all cutoffs for the single-source functions"
  },
  {
   "property": "C82",
   "status": "partial",
   "theorems": [
    "Props.relabel_triangles",
    "Props.relabel_transitivity",
    "Props.relabel_clustering",
    "Props.relabel_clustering_directed",
    "Props.relabel_clustering_directed_loops",
    "Props.relabel_clustering_single",
    "Props.relabel_average_clustering",
    "Props.relabel_average_clustering_directed",
    "Props.relabel_square_clustering",
    "Props.relabel_square_clustering_subset",
    "Props.relabel_generalized_degree",
    "Props.relabel_k_truss",
    "Props.relabel_cut_size",
    "Props.relabel_volume",
    "Props.relabel_conductance",
    "Props.relabel_expansions",
    "Props.relabel_node_boundary",
    "Props.relabel_isolates",
    "Props.relabel_is_regular",
    "Props.relabel_is_k_regular",
    "Props.relabel_tournament",
    "Props.relabel_reciprocity",
    "Props.relabel_small",
    "Props.relabel_mutual_weight",
    "Props.relabel_tournament_matrix",
    "Props.relabel_is_k_regular_all",
    "Props.relabel_cut_size_complement",
    "Props.relabel_clustering_all",
    "Props.relabel_volume_all",
    "Props.relabel_expansions_directed"
   ],
   "note": "every function covered, self-loops or not; average_clustering(count_zeros=False) of a digraph is excluded only where the code divides a positive count by 0"
  },
  {
   "property": "C83",
   "status": "proved",
   "theorems": [
    "Props.relabel_pagerank_all",
    "Props.relabel_katz_all",
    "Props.relabel_eigenvector_all",
    "Props.relabel_hits_all",
    "Props.relabel_hits_authority_all",
    "Props.relabel_pagerank",
    "Props.relabel_katz",
    "Props.relabel_eigenvector",
    "Props.relabel_hits",
    "Props.relabel_degree_centrality"
   ],
   "note": "every graph and every argument, valid or not; exact arithmetic, in which sums do not depend on the order of the nodes"
  },
  {
   "property": "C84",
   "status": "proved",
   "theorems": [
    "Props.operators_reject_multigraphs",
    "Props.operators_raise"
   ],
   "note": ""
  },
  {
   "property": "C85",
   "status": "partial",
   "theorems": [
    "Props.operators_symmetric",
    "Props.compose_symmetric",
    "Props.compose_symmetric_partial",
    "Props.union_mixed_not_symmetric",
    "Props.intersection_mixed_not_symmetric"
   ],
   "note": "mixed arguments are accepted and give an undirected graph object with one-way edges (proved for every such pair)"
  },
  {
   "property": "C86",
   "status": "partial",
   "theorems": [
    "Props.nodemap_eq_dict",
    "Props.nodemap_eq_sound",
    "Props.nodemap_eq_sound_keys",
    "Props.nodemap_eq_complete_partial",
    "Props.row_maps_eq",
    "Props.row_maps_eq_sound",
    "Props.nodemap_eq_modes",
    "Props.nodemap_eq_fill_wrong",
    "Props.nodemap_eq_across_wrong",
    "Props.vectormap_eq_nodemap_wrong",
    "Props.vectormap_eq_nodemap_partial"
   ],
   "note": "comparison with dicts is exact; equal node maps of differently numbered graphs or with fill values may compare unequal, and a VectorMap compares equal to a NodeMap with other items (all proved)"
  },
  {
   "property": "C87",
   "status": "partial",
   "theorems": [
    "Props.vector_map_is_dict_partial",
    "Props.vector_map_absent"
   ],
   "note": "for absent keys m[k], pop(k), pop(k, d) return None and del is silent (proved)"
  },
  {
   "property": "C88",
   "status": "partial",
   "theorems": [
    "Props.row_set_dict",
    "Props.row_set_dict_outside",
    "Props.row_set_dict_correct_partial",
    "Props.row_set_dict_wrong"
   ],
   "note": "the keys of the dict are used as internal numbers: right only when every node is its own number (proved, with a counterexample)"
  },
  {
   "property": "C89",
   "status": "partial",
   "theorems": [
    "Props.api_kind",
    "Props.api_plain",
    "Props.api_not_a_graph",
    "Props.not_implemented_for_iff",
    "Props.square_clustering_accepts_directed",
    "Props.reciprocity_rejects_both_only"
   ],
   "note": "square_clustering treats a directed NetworkX graph as undirected; reciprocity raises TypeError for undirected graphs and accepts directed multigraphs (proved)"
  },
  {
   "property": "C90",
   "status": "proved",
   "theorems": [
    "Props.Effects.calls_keep_existing_objects",
    "Props.Effects.results_are_new",
    "Props.Effects.helpers_overwrite_one_argument",
    "Props.Effects.property_lookup_shares_the_matrix"
   ],
   "note": "reference-level model generated from the Python sources by tools/effects.py; a checker proved sound in the kernel is evaluated on all 220 function bodies"
  },
  {
   "property": "C91",
   "status": "proved",
   "theorems": [
    "Props.Effects.sessions_keep_the_graph"
   ],
   "note": "results of property lookups, reverse(copy=False) and other sharing functions are excluded from what the user may write to"
  },
  {
   "property": "C92",
   "status": "partial",
   "theorems": [
    "Props.construct_errors",
    "Props.construct_matrix",
    "Props.construct_nothing",
    "Props.construct_keys",
    "Props.construct_keys_unchecked"
   ],
   "note": "a key_to_id that does not number its keys 0..n-1 is accepted and gives an inconsistent object (proved for every dictionary of the wrong size); consistent exactly when it does"
  },
  {
   "property": "C93",
   "status": "proved",
   "theorems": [
    "Props.graph_object_consistent",
    "Props.graph_step",
    "Props.new_object_ok",
    "Props.derived_objects"
   ],
   "note": "well-formed objects (C07, C92)"
  },
  {
   "property": "C94",
   "status": "proved",
   "theorems": [
    "Props.hop_distance_apis_agree",
    "Props.hop_distance_sets_agree",
    "Props.hop_distance_metric"
   ],
   "note": ""
  },
  {
   "property": "C95",
   "status": "proved",
   "theorems": [
    "Props.weighted_distance_apis_agree",
    "Props.weighted_distance_equal_weights",
    "Props.weighted_distance_metric"
   ],
   "note": "Exact arithmetic."
  },
  {
   "property": "C96",
   "status": "proved",
   "theorems": [
    "Props.reverse_swaps_directions",
    "Props.weakly_connected_is_connected_undirected",
    "Props.edge_set_algebra",
    "Props.complement_partitions"
   ],
   "note": ""
  },
  {
   "property": "C97",
   "status": "proved",
   "theorems": [
    "Props.triangle_counts_agree",
    "Props.clustering_apis_agree",
    "Props.isolate_apis_agree"
   ],
   "note": ""
  },
  {
   "property": "C98",
   "status": "proved",
   "theorems": [
    "Props.null_graph_results",
    "Props.multigraph_centrality_rejected",
    "Props.matrices_wrong_kind",
    "Props.wrong_kind_rejected"
   ],
   "note": "for every graph and all arguments of the listed functions"
  },
  {
   "property": "C99",
   "status": "partial",
   "theorems": [
    "Props.property_names_resolve",
    "Props.digraph_names_resolve",
    "Props.degree_names",
    "Props.digraph_has_no_degrees",
    "Props.only_names_resolve",
    "Props.name_errors",
    "Props.failing_name_changes_nothing",
    "Props.split_names",
    "Props.written_exists",
    "Props.get_property_by_name_partial",
    "Props.get_property_by_name_errors"
   ],
   "note": "partial because C01/C02 are: the value of has_self_edges, has_negative_diagonal and of total_degrees+ on a DiGraph with self-edges can depend on the history. Everything about names is proved in full. Finding: DiGraph has no 'degrees' names (KeyError)."
  },
  {
   "property": "C100",
   "status": "partial",
   "theorems": [
    "Props.concurrent_lookups_partial",
    "Props.concurrent_has_self_edges_partial",
    "Props.concurrent_lookups_finish",
    "Props.concurrent_calls_partial",
    "Props.concurrent_calls_loop_free_partial",
    "Props.concurrent_calls_finish",
    "Props.complete_calls_sequential",
    "Props.pagerank_races_with_bellman_ford"
   ],
   "note": "partial: excluded are the calls and lookups for which C01/C02/C06 fail without threads (has_negative_diagonal, total_degrees+ with self-edges, weighted and unweighted averages mixed, KeyError of pagerank/katz_centrality after a stored is_iso: pagerank_races_with_bellman_ford). Assumption: one access to a Python dict is atomic."
  },
  {
   "property": "C101",
   "status": "partial",
   "theorems": [
    "Props.call_after_interrupts_partial",
    "Props.call_after_interrupts_loop_free_partial",
    "Props.complete_calls_sequential"
   ],
   "note": "partial: the calls that C06 excludes (they go wrong without interrupts) are excluded. Interrupts inside one GraphBLAS call or one dict access are outside the model."
  },
  {
   "property": "C102",
   "status": "partial",
   "theorems": [
    "Props.nx_cut_size_correct",
    "Props.nx_cut_size_counts",
    "Props.nx_cut_size_complement",
    "Props.nx_volume_correct_partial",
    "Props.nx_edge_boundary_correct",
    "Props.nx_edge_boundary_undirected",
    "Props.nx_edge_boundary_data_exact",
    "Props.multigraph_edge_boundary_data_repeats",
    "Props.nx_conductance_counts_pairs_partial",
    "Props.nx_expansions_count_pairs_partial",
    "Props.conductance_ignores_weight"
   ],
   "note": "partial: the code violates it for data= on multigraphs (an edge is repeated by its weight), for weighted or multi digraphs in volume (incoming edges are added), for T omitted in digraphs (TypeError), and conductance, normalized_cut_size and the expansions ignore weights and parallel edges; what they do return is proved for all graphs. Integer attribute values for edge_boundary."
  },
  {
   "property": "C103",
   "status": "partial",
   "theorems": [
    "Props.backend_complement",
    "Props.backend_reverse",
    "Props.backend_intersection",
    "Props.backend_difference",
    "Props.backend_symmetric_difference",
    "Props.backend_union",
    "Props.backend_full_join",
    "Props.backend_disjoint_union",
    "Props.backend_compose_partial",
    "Props.backend_ego_graph",
    "Props.backend_k_truss",
    "Props.backend_union_mixed_loses_edges"
   ],
   "note": "complete except compose of graphs on different nodes, where the code is wrong (C45); graphs of different kinds are outside the statement: union silently loses edges there (proved witness)"
  },
  {
   "property": "C104",
   "status": "partial",
   "theorems": [
    "Props.shortest_path_length_raises",
    "Props.has_path_raises",
    "Props.reachability_raises",
    "Props.bfs_layers_raises",
    "Props.components_raise",
    "Props.all_pairs_shortest_path_length_yields",
    "Props.single_source_bellman_ford_raises",
    "Props.bellman_ford_path_length_raises_partial",
    "Props.bellman_ford_path_raises_partial",
    "Props.all_pairs_bellman_ford_yields",
    "Props.unbounded_not_translated",
    "Props.no_path_not_raised",
    "Props.floyd_warshall_numpy_raises_partial",
    "Props.reciprocity_raises",
    "Props.graph_operators_raise",
    "Props.operators_raise_on_multigraphs",
    "Props.reverse_raises",
    "Props.pagerank_raises",
    "Props.katz_raises",
    "Props.eigenvector_raises",
    "Props.hits_raises"
   ],
   "note": "false of the code in three places, each proved: bellman_ford_path and bellman_ford_path_length let the implementation's Unbounded escape instead of NetworkXUnbounded; bellman_ford_path returns [] instead of raising NetworkXNoPath; floyd_warshall_numpy raises KeyError for a nodelist of the right length with a foreign node"
  },
  {
   "property": "C105",
   "status": "partial",
   "theorems": [
    "Props.nx_single_source_shortest_path_length",
    "Props.nx_has_path",
    "Props.nx_descendants_ancestors",
    "Props.nx_bfs_sets",
    "Props.nx_is_connected",
    "Props.nx_triangles",
    "Props.nx_clustering",
    "Props.nx_transitivity",
    "Props.nx_average_clustering",
    "Props.nx_degree_centrality",
    "Props.nx_single_source_bellman_ford_path_length",
    "Props.nx_negative_edge_cycle",
    "Props.nx_isolates",
    "Props.nx_tournament",
    "Props.nx_overall_reciprocity",
    "Props.nx_cuts",
    "Props.nx_pagerank",
    "Props.nx_unsupported",
    "Props.nx_bfs_layers",
    "Props.nx_all_pairs_shortest_path_length",
    "Props.nx_efficiency",
    "Props.nx_lowest_common_ancestor",
    "Props.nx_generalized_degree",
    "Props.nx_boundaries_partial",
    "Props.nx_cut_ratios_partial",
    "Props.nx_expansions",
    "Props.nx_community",
    "Props.nx_regular_partial",
    "Props.nx_reciprocity",
    "Props.nx_s_metric_partial",
    "Props.nx_number_of_isolates",
    "Props.nx_weighted_cuts_partial",
    "Props.nx_floyd_warshall",
    "Props.nx_bellman_ford_path_partial",
    "Props.nx_all_pairs_bellman_ford",
    "Props.nx_eigenvector_centrality",
    "Props.nx_katz_centrality",
    "Props.nx_hits",
    "Props.nx_matrices_partial",
    "Props.nx_normalized_laplacian_matrix_partial",
    "Props.nx_modularity_matrix",
    "Props.nx_bethe_hessian_matrix",
    "Props.nx_tournament_matrix",
    "Props.nx_google_matrix",
    "Props.nx_square_clustering_partial",
    "Props.nx_directed_clustering_partial",
    "Props.nx_could_be_isomorphic_partial",
    "Props.nx_floyd_warshall_predecessor_partial",
    "Props.nx_floyd_warshall_numpy_partial"
   ],
   "note": "the functions named in the theorems.  _partial: where the function is wrong on graph objects themselves (C28, C49, C56, C61, C70: Laplacians of unweighted digraphs, edge_boundary of digraphs, is_regular without edges, s_metric of digraphs and self-loops, one-set cuts of digraphs, bellman_ford_path near negative cycles, square_clustering with self-loops) the same holds through the backend.  NetworkX's own dispatch code, which chooses the conversion arguments, is trusted"
  },
  {
   "property": "C106",
   "status": "partial",
   "theorems": [
    "Props.int_single_source_bellman_ford_path_length",
    "Props.int_single_source_bellman_ford_path_length_cutoff",
    "Props.int_bellman_ford_path_length",
    "Props.int_bellman_ford_path_lengths",
    "Props.int_negative_edge_cycle",
    "Props.int_floyd_warshall",
    "Props.int_bellman_ford_path",
    "Props.int_all_pairs",
    "Props.int_floyd_warshall_predecessor",
    "Props.uint_single_source_bellman_ford_path_length",
    "Props.uint_bellman_ford_path_length",
    "Props.uint_bellman_ford_path_lengths",
    "Props.uint_all_pairs",
    "Props.uint_bellman_ford_path",
    "Props.uint_negative_edge_cycle_false",
    "Props.uint_floyd_warshall",
    "Props.int8_distances_wrap",
    "Props.int8_false_negative_cycle",
    "Props.int8_iso_wraps",
    "Props.uint8_distances_wrap",
    "Props.int8_path_wraps"
   ],
   "note": "partial because the property without the size bound is false of the code (int8_*_wrap* and uint8_distances_wrap are the counterexamples); cutoffs are machine values of the same dtype; predecessors for directed graphs (undirected ones are wrong anyway, C33)"
  },
  {
   "property": "C107",
   "status": "proved",
   "theorems": [
    "Props.int_cut_size",
    "Props.int_cut_size_complement",
    "Props.int_volume",
    "Props.int_mutual_weight",
    "Props.int_tournament_matrix",
    "Props.int_laplacian_matrix",
    "Props.uint_cut_size",
    "Props.uint_volume",
    "Props.uint_mutual_weight",
    "Props.uint_tournament_matrix",
    "Props.uint_laplacian_matrix",
    "Props.int8_sums_wrap",
    "Props.exact_sums"
   ],
   "note": "`Spec.Wraps lo m x r` says r is x reduced into [lo, lo+m); `Wraps.exact` and `Wraps.unique` are its two consequences. Findings: INT8 weights 100 and 100 give a cut (and volume) of -56; unsigned Laplacian and tournament matrices contain 2^b - w."
  },
  {
   "property": "C108",
   "status": "proved",
   "theorems": [
    "Props.rounded_single_source_sound",
    "Props.rounded_single_source",
    "Props.rounded_single_source_cutoff",
    "Props.rounded_target",
    "Props.rounded_bellman_ford_path",
    "Props.rounded_iso",
    "Props.rounded_batch",
    "Props.rounded_all_pairs",
    "Props.rounded_dist_accurate",
    "Props.float_single_source_accurate",
    "Props.float_target_accurate",
    "Props.float_path_accurate",
    "Props.float_floyd_warshall_accurate",
    "Props.float_iso_storage_shows",
    "Props.double_accurate",
    "Props.multiples_accurate",
    "Props.double_single_source",
    "Props.double_floyd_warshall",
    "Props.double_single_source_exact",
    "Props.double_cutoff_exact",
    "Props.double_target_exact",
    "Props.double_path_exact",
    "Props.double_floyd_warshall_exact",
    "Props.double_iso_storage_shows"
   ],
   "note": "The Bellman-Ford invariants need only that addition is monotone and that adding a non-negative number does not decrease (Spec.MonoAdd); rounded addition satisfies this (also with overflow to infinity, on the extended reals). `Rounding.nearest`: rounding to nearest with any tie rule is such a rounding. Not covered: NaN, Floyd-Warshall predecessors, the cutoff of the iso-valued case (`int(cutoff // iso_value)` in floating point). `double` is IEEE 754 binary64 (Model/Binary64.lean, exponents unbounded above; the theorems assume the sums stay below 2^1023). Finding: double_iso_storage_shows, ten steps of 0.1 sum to 0.9999999999999999, or to 1.0 if SuiteSparse stores the matrix iso-valued."
  },
  {
   "property": "C109",
   "status": "proved",
   "theorems": [
    "Props.k_truss_int32",
    "Props.k_truss_counters_exact",
    "Props.k_truss_counters_overflow"
   ],
   "note": "32-bit counters as in core.py:21; k - 2 is assumed to fit into the counter type"
  },
  {
   "property": "C110",
   "status": "proved",
   "theorems": [
    "Props.bool_single_source_bellman_ford_path_length",
    "Props.bool_single_source_bellman_ford_path_length_cutoff",
    "Props.bool_single_source_cutoff_all_false",
    "Props.bool_bellman_ford_path_length",
    "Props.bool_bellman_ford_path",
    "Props.bool_all_pairs",
    "Props.bool_negative_edge_cycle",
    "Props.bool_negative_flags",
    "Props.bool_floyd_warshall",
    "Props.bool_floyd_warshall_predecessor"
   ],
   "note": "the typecast BOOL to INT64 is part of the trusted reading of GraphBLAS"
  },
  {
   "property": "C111",
   "status": "partial",
   "theorems": [
    "Props.relabel_complement",
    "Props.relabel_reverse",
    "Props.relabel_ego_graph",
    "Props.relabel_to_undirected",
    "Props.relabel_operators",
    "Props.relabel_compose_partial",
    "Props.compose_depends_on_numbering",
    "Props.relabel_adjacency_matrix",
    "Props.relabel_laplacian_matrix",
    "Props.relabel_normalized_laplacian_matrix",
    "Props.relabel_modularity_matrix",
    "Props.relabel_directed_modularity_matrix",
    "Props.relabel_bethe_hessian_matrix",
    "Props.relabel_google_matrix",
    "Props.google_matrix_nodelist_depends_on_numbering"
   ],
   "note": "FALSE of the code for compose of graphs that share nodes and for google_matrix with a node list as long as the graph (proved witnesses); disjoint_union names nodes by row numbers by design; exact arithmetic"
  },
  {
   "property": "C112",
   "status": "proved",
   "theorems": [
    "Props.unknown_nodes_rejected",
    "Props.square_clustering_unknown",
    "Props.unknown_node_rejected"
   ],
   "note": "average_clustering: of a nonempty graph (the null graph raises ZeroDivisionError first)"
  },
  {
   "property": "C113",
   "status": "proved",
   "theorems": [
    "Props.node_lists_as_sets",
    "Props.weighted_node_lists_as_sets",
    "Props.square_node_lists_as_sets",
    "Props.node_sets_as_sets",
    "Props.communities_as_sets"
   ],
   "note": "square_clustering: loop-free undirected graphs; Vector.from_coo with a scalar value accepts repeated indices (trusted reading of the library)"
  },
  {
   "property": "C114",
   "status": "proved",
   "theorems": [
    "Props.single_source_bellman_ford_path_length_cutoff_exact",
    "Props.single_source_bellman_ford_path_length_cutoff_nonneg",
    "Props.capUnbounded_negCycle",
    "Props.single_source_bellman_ford_path_length_cutoff_zero",
    "Props.single_source_bellman_ford_cutoff_hides"
   ],
   "note": "Spec.CapWalk is the specification; the test after the loop only looks at nodes already reached, the proof shows that this suffices (no further node can appear in round n unless a reached node improves)"
  },
  {
   "property": "C115",
   "status": "proved",
   "theorems": [
    "Props.single_source_shortest_path_length_ignores_weights",
    "Props.single_target_shortest_path_length_ignores_weights",
    "Props.all_pairs_shortest_path_length_ignores_weights",
    "Props.bidirectional_shortest_path_length_ignores_weights",
    "Props.has_path_ignores_weights",
    "Props.efficiency_ignores_weights",
    "Props.descendants_ignores_weights",
    "Props.ancestors_ignores_weights",
    "Props.node_connected_component_ignores_weights",
    "Props.is_connected_ignores_weights",
    "Props.is_weakly_connected_ignores_weights",
    "Props.bfs_layers_ignores_weights",
    "Props.descendants_at_distance_ignores_weights",
    "Props.bfs_parent_ignores_weights",
    "Props.lowest_common_ancestor_ignores_weights",
    "Props.triangles_ignores_weights",
    "Props.single_triangle_ignores_weights",
    "Props.transitivity_ignores_weights",
    "Props.transitivity_directed_ignores_weights",
    "Props.clustering_ignores_weights",
    "Props.single_clustering_ignores_weights",
    "Props.clustering_directed_ignores_weights",
    "Props.single_clustering_directed_ignores_weights",
    "Props.average_clustering_ignores_weights",
    "Props.generalized_degree_ignores_weights",
    "Props.single_generalized_degree_ignores_weights",
    "Props.edge_boundary_ignores_weights",
    "Props.node_boundary_ignores_weights",
    "Props.cut_size_ignores_weights",
    "Props.volume_ignores_weights",
    "Props.normalized_cut_size_ignores_weights",
    "Props.conductance_ignores_weights",
    "Props.edge_expansion_ignores_weights",
    "Props.mixing_expansion_ignores_weights",
    "Props.node_expansion_ignores_weights",
    "Props.boundary_expansion_ignores_weights",
    "Props.is_dominating_set_ignores_weights",
    "Props.is_isolate_ignores_weights",
    "Props.isolates_ignores_weights",
    "Props.number_of_isolates_ignores_weights",
    "Props.is_regular_ignores_weights",
    "Props.is_k_regular_ignores_weights",
    "Props.is_tournament_ignores_weights",
    "Props.score_sequence_ignores_weights",
    "Props.is_simple_path_ignores_weights",
    "Props.overall_reciprocity_ignores_weights",
    "Props.reciprocity_node_ignores_weights",
    "Props.reciprocity_nodes_ignores_weights",
    "Props.s_metric_ignores_weights",
    "Props.intra_community_edges_ignores_weights",
    "Props.inter_community_edges_ignores_weights",
    "Props.is_triad_ignores_weights",
    "Props.degree_centrality_ignores_weights",
    "Props.in_degree_centrality_ignores_weights",
    "Props.out_degree_centrality_ignores_weights",
    "Props.faster_could_be_isomorphic_ignores_weights",
    "Props.fast_could_be_isomorphic_ignores_weights",
    "Props.k_truss_ignores_weights",
    "Props.ego_graph_ignores_weights",
    "Props.adjacency_matrix_ignores_weights",
    "Props.laplacian_matrix_ignores_weights",
    "Props.normalized_laplacian_matrix_ignores_weights",
    "Props.modularity_matrix_ignores_weights",
    "Props.directed_modularity_matrix_ignores_weights",
    "Props.square_clustering_does_not_ignore_weights"
   ],
   "note": "For most of these functions the model is polymorphic in the weight type, as the code only uses pair/any/count operators; the theorems make the consequence explicit, error outcomes included. square_clustering is the exception (C40)."
  },
  {
   "property": "C116",
   "status": "proved",
   "theorems": [
    "Props.single_source_bellman_ford_units",
    "Props.bellman_ford_path_length_units",
    "Props.bellmanFordPathLengths_units",
    "Props.all_pairs_bellman_ford_units",
    "Props.negative_edge_cycle_units",
    "Props.bellman_ford_path_units",
    "Props.floyd_warshall_units",
    "Props.floyd_warshall_numpy_units",
    "Props.floyd_warshall_predecessor_units",
    "Props.unit_mul",
    "Props.unit_int"
   ],
   "note": "Spec.Unit' lists what a conversion must respect; unit_mul and unit_int show that a positive factor and the inclusion of the integers qualify. Exact arithmetic; rounding and overflow are C104-C110."
  },
  {
   "property": "C117",
   "status": "partial",
   "theorems": [
    "Props.pagerank_scale",
    "Props.google_matrix_scale",
    "Props.google_matrix_nodelist_scale_partial",
    "Props.google_matrix_nodelist_depends_on_unit",
    "Props.katz_centrality_scale",
    "Props.hits_scale",
    "Props.hits_authority_scale",
    "Props.clustering_weighted_scale",
    "Props.average_clustering_weighted_scale",
    "Props.single_clustering_weighted_scale",
    "Props.cut_size_weighted_scale",
    "Props.volume_weighted_scale",
    "Props.adjacency_matrix_scale",
    "Props.laplacian_matrix_scale",
    "Props.modularity_matrix_scale",
    "Props.directed_modularity_matrix_scale",
    "Props.normalized_laplacian_matrix_scale",
    "Props.eigenvector_centrality_depends_on_unit"
   ],
   "note": "Partial because google_matrix with a node list as long as the graph looks up the empty rows in the wrong order (C67), so a rescaled graph gives another matrix (witness proved); all other parts are proved as stated. NotImplemented and conversion errors are included in the equalities."
  },
  {
   "property": "C118",
   "status": "proved",
   "theorems": [
    "Props.hop_distances_shrink",
    "Props.reachable_sets_grow",
    "Props.efficiency_grows",
    "Props.triangles_grow",
    "Props.cuts_grow",
    "Props.isolates_shrink",
    "Props.k_truss_monotone",
    "Props.k_truss_symm",
    "Props.k_truss_stable",
    "Props.weighted_distances_shrink",
    "Props.negative_edge_cycle_grows"
   ],
   "note": "Beside them: concrete nested graphs where the quantities change, and an example that transitivity is not monotone."
  },
  {
   "property": "C119",
   "status": "proved",
   "theorems": [
    "Props.searches_local",
    "Props.ancestors_local",
    "Props.ego_graph_local",
    "Props.triangles_local",
    "Props.cuts_local",
    "Props.isolated_nodes_irrelevant",
    "Props.overall_reciprocity_ignores_isolated",
    "Props.bellman_ford_local"
   ],
   "note": "Examples: a graph with an unreachable negative cycle and its reachable part."
  },
  {
   "property": "C120",
   "status": "proved",
   "theorems": [
    "Props.pagerank_in_place",
    "Props.katz_in_place",
    "Props.eigenvector_in_place",
    "Props.hits_in_place",
    "Props.hits_authority_in_place",
    "Props.eigenvector_twice",
    "Props.floyd_warshall_in_place",
    "Props.floyd_warshall_pred_in_place",
    "Props.floyd_warshall_sharing",
    "Props.bellman_ford_path_in_place"
   ],
   "note": "Refinement: statement-by-statement models on a heap of vectors against the pure models of PowerIter, about which C60-C68 and others speak. Exact arithmetic, as in those."
  },
  {
   "property": "C121",
   "status": "proved",
   "theorems": [
    "Props.bfs_layers_lazy",
    "Props.bfs_layers_next_keeps",
    "Props.bfs_layers_lazy_distances",
    "Props.all_pairs_spl_toList",
    "Props.all_pairs_shortest_path_length_lazy",
    "Props.all_pairs_bf_toList",
    "Props.all_pairs_bellman_ford_path_length_lazy"
   ],
   "note": "bfs_layers is a step machine on a heap of vectors; the consumer is arbitrary on the vectors it holds (Spec/Lazy.lean). The all-pairs generators compute values only and are modelled as the sequence of their yields; the graph is not changed while the generator is suspended."
  },
  {
   "property": "C122",
   "status": "proved",
   "theorems": [
    "Props.nodeset_compare_sound",
    "Props.nodeset_compare_total",
    "Props.nodeset_eq_set",
    "Props.nodeset_compare_foreign",
    "Props.nodeset_operators_any",
    "Props.nodeset_union",
    "Props.nodeset_ior_isub",
    "Props.nodeset_iand",
    "Props.nodeset_ixor"
   ],
   "note": "the mixin methods of CPython's collections.abc.Set and MutableSet are modelled as written there, with the callbacks of nodeset.py; == with a NodeSet of another graph answers, but rightly only for equal numberings (C14, nodeset_eq_across_wrong)"
  },
  {
   "property": "C123",
   "status": "proved",
   "theorems": [
    "Props.nodemap_views",
    "Props.nodemap_view_membership",
    "Props.nodemap_keys_algebra",
    "Props.nodemap_update",
    "Props.overwrite_apply",
    "Props.nodemap_update_from"
   ],
   "note": "the views and update are CPython's collections.abc mixins, modelled as written there over the methods of nodemap.py"
  },
  {
   "property": "C124",
   "status": "partial",
   "theorems": [
    "Props.triangles_range",
    "Props.clustering_range",
    "Props.single_clustering_range",
    "Props.single_directed_clustering_range",
    "Props.directed_clustering_range_partial",
    "Props.directed_clustering_out_of_range",
    "Props.average_clustering_range",
    "Props.average_clustering_directed_range_partial",
    "Props.single_weighted_clustering_range",
    "Props.weighted_clustering_range_partial",
    "Props.weighted_average_range_partial",
    "Props.pagerank_range",
    "Props.hits_range",
    "Props.eigenvector_range",
    "Props.degree_centrality_range",
    "Props.efficiency_range",
    "Props.reciprocity_range",
    "Props.cut_ratios_range"
   ],
   "note": "partial: with self-loops clustering and average_clustering of a digraph leave the range (directed_clustering_out_of_range); exact arithmetic for the numeric functions"
  },
  {
   "property": "C125",
   "status": "proved",
   "theorems": [
    "Props.triangles_zero_iff",
    "Props.clustering_extremes",
    "Props.single_clustering_extremes",
    "Props.transitivity_extremes",
    "Props.average_clustering_extremes",
    "Props.degree_centrality_extremes",
    "Props.overall_reciprocity_extremes",
    "Props.cut_volume_zero",
    "Props.pagerank_floor",
    "Props.pagerank_positive"
   ],
   "note": "undirected graphs for the clustering statements; exact arithmetic"
  },
  {
   "property": "C126",
   "status": "proved",
   "theorems": [
    "Props.union_splits",
    "Props.part_searches",
    "Props.part_ego_graph",
    "Props.part_node_values",
    "Props.part_bellman_ford",
    "Props.union_negative_edge_cycle",
    "Props.union_floyd_warshall",
    "Props.union_not_connected",
    "Props.union_counts",
    "Props.union_k_regular",
    "Props.union_dominating",
    "Props.union_volume_cut",
    "Props.union_k_truss",
    "Props.union_no_common_ancestor",
    "Props.renamed_union_parts",
    "Props.disjoint_union_parts",
    "Props.likeIn",
    "Props.likeIn_bellman_ford"
   ],
   "note": "ego_graph with radius >= 0 and hop distance; for union with rename and disjoint_union: the searches, paths, clustering and weighted distances"
  },
  {
   "property": "C127",
   "status": "proved",
   "theorems": [
    "Props.float_pagerank_distribution",
    "Props.float_pagerank_accuracy",
    "Props.float_pagerank_converges",
    "Props.float_pagerank_exact",
    "Props.rnd64_correct",
    "Props.double_pagerank",
    "Props.double_pagerank_defaults"
   ],
   "note": "the exponent range of the binary64 model has no upper end: runs that overflow are excluded; FP64 weights (integer weights are summed exactly by the library, which these bounds cover below 2^53)"
  },
  {
   "property": "C128",
   "status": "proved",
   "theorems": [
    "Props.rnd64_nearest",
    "Props.rnd64_fraction",
    "Props.double_transitivity",
    "Props.double_transitivity_directed",
    "Props.double_clustering",
    "Props.double_clustering_directed",
    "Props.double_average_clustering",
    "Props.double_average_clustering_directed",
    "Props.double_cuts",
    "Props.double_node_expansion",
    "Props.double_conductance_bounds",
    "Props.double_overall_reciprocity",
    "Props.double_reciprocity",
    "Props.double_efficiency",
    "Props.double_normalized_cut",
    "Props.double_degree_centrality",
    "Props.double_degree_full",
    "Props.ratio_exact",
    "Props.double_square_clustering",
    "Props.square_ratio_exact"
   ],
   "note": "unweighted functions (square_clustering: unit weights, no self-loops, C40); mappings of directed coefficients and their averages without self-loops (with them the exact values are already wrong, C38); INT64 overflow is excluded by the size bounds"
  },
  {
   "property": "C129",
   "status": "proved",
   "theorems": [
    "Props.float_katz_accuracy",
    "Props.float_katz_converges",
    "Props.float_katz_exact",
    "Props.double_katz",
    "Props.double_katz_converges",
    "Props.double_katz_defaults",
    "Props.float_katz_unit",
    "Props.double_katz_unit",
    "Props.double_katz_unit_defaults"
   ],
   "note": "the norm of the normalised values assumes a square root accurate to one unit in the last place and a beta that is not negligible; weights whose attenuated row sums reach 1 are excluded: there the exact equation need not have a solution (C80)"
  },
  {
   "property": "C130",
   "status": "proved",
   "theorems": [
    "Props.float_hits",
    "Props.float_hits_exact",
    "Props.double_hits",
    "Props.hits_reciprocal_overflows"
   ],
   "note": "without with_authority; how close the scores are to the exact ones is not bounded (the gap between the two largest eigenvalues decides); runs that overflow are excluded, and hits_reciprocal_overflows is one: tiny weights make 1.0 / denom infinite"
  },
  {
   "property": "C131",
   "status": "proved",
   "theorems": [
    "Props.float_google",
    "Props.float_google_exact",
    "Props.double_google"
   ],
   "note": "without nodelist (C67 has the nodelist findings); runs that overflow are excluded by the size bounds"
  },
  {
   "property": "C132",
   "status": "proved",
   "theorems": [
    "Props.float_eigenvector",
    "Props.float_eigenvector_exact",
    "Props.double_eigenvector",
    "Props.sqrt64_acc"
   ],
   "note": "runs that overflow are excluded by the size bounds; convergence itself is not claimed"
  },
  {
   "property": "C133",
   "status": "proved",
   "theorems": [
    "Props.float_cut_size",
    "Props.float_cut_size_complement",
    "Props.float_cut_size_directed_without_target",
    "Props.float_volume",
    "Props.volume_symm",
    "Props.float_cuts_exact",
    "Props.double_cut_size",
    "Props.double_volume",
    "Props.double_cut_size_exact",
    "Props.double_volume_exact"
   ],
   "note": "no overflow; in a digraph cut_size needs T, as in C51, and volume counts the edges into S, as in C52"
  }
 ]
}