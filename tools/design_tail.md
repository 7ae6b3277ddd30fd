## 5. Findings

Places where the code does not do what its user relies on.  Each is a theorem (namespace `Props`).

* Shortest paths: `bellman_ford_path_length_misses_negative_cycle`, `bellman_ford_path_length_misses_negative_self_loop`; `bellman_ford_path_iso_negative_rejected`,
  `bellman_ford_path_positive_loop_rejected`, `bellman_ford_path_exact` (no path: `[]`, not NoPath), `bellman_ford_path_may_not_terminate`;
  `bellman_ford_path_iso_negative_always`; `floyd_warshall_predecessor_undirected_wrong`, `floyd_warshall_predecessor_undirected_always_wrong`; `floyd_warshall_numpy_nodelist_undirected_wrong`;
  `efficiency_same_node` (ZeroDivisionError); `lowest_common_ancestor_cycle_index_error`, `lowest_common_ancestor_on_cycle`;
  `descendants_at_distance_negative`; `single_source_bellman_ford_cutoff_hides` (a cutoff hides negative cycles and near nodes behind far ones).
* Clustering: `directed_clustering_self_loops_wrong`, `average_clustering_self_loops_wrong`,
  `directed_clustering_out_of_range` (values above 1), `directed_clustering_right_iff` (exactly when), `directed_clustering_divides_by_zero` (a positive count over 0: `inf`);
  `square_clustering_subset_drops_zeros`, `square_clustering_chunked_edgeless`, `square_clustering_uses_weights`, `square_clustering_self_loop_wrong`;
  `generalized_degree_single_wrong_keys`, `generalized_degree_isolated`; `weighted_clustering_self_loop_raises`.
* Property cache: `has_negative_diagonal_depends_on_history`, `has_self_edges_wrong_after_negative_diagonal`,
  `total_degrees_poisons_has_self_edges`, `element_minus_attribute_error`, `iso_value_key_error`;
  memo: `average_clustering_memo_ignores_weight`, `negative_edge_cycle_depends_on_history`; between algorithms:
  `bellman_ford_breaks_pagerank` (`pagerank(G)` of a weighted graph raises KeyError after a Bellman-Ford call on `G`),
  `pagerank_races_with_bellman_ford` (the same between threads), `digraph_has_no_degrees`,
  `isolates_poison_reciprocity` (`isolates(G)` on a DiGraph with a self-loop changes a later `overall_reciprocity(G)` from 2/3 to 1), `isolates_poison_is_triad`.
* Operators: `compose_loses_edges`, `compose_bad_ids`, `compose_drops_edges`, `union_rename_collision`,
  `union_mixed_not_symmetric`, `backend_union_mixed_loses_edges`, `compose_depends_on_numbering`, `intersection_mixed_not_symmetric`, `to_undirected_weights_not_symmetric`.
* Conversions: `matrix_to_dicts_empty`, `matrix_to_dicts_transposed_flags_swapped`, `dict_to_vector_empty`,
  `convert_to_nx_unreachable_zero`, `partition_one`.
* Maps and sets: `nodemap_deviations`, `nodemap_setdefault_keys_wrong`, `nodemap_fill_popitem_empty`,
  `node_node_map_get_none`, `vector_map_getitem_none`, `vector_map_absent`, `nodeset_non_node`,
  `nodeset_eq_across_wrong`, `nodeset_isdisjoin`, `nodemap_eq_fill_wrong`, `nodemap_eq_across_wrong`,
  `vectormap_eq_nodemap_wrong`, `row_set_dict_wrong`.
* Node sets: `nodeset_compare_foreign` (`a >= s`, `a.isdisjoint(s)` raise when `s` has values outside the graph), `nodeset_ior_isub`
  (`a |= it`, `a -= it` leave a half-done update when they raise).
* Boundaries and cuts: `edge_boundary_misses_sinks`, `cut_size_directed_without_target`,
  `volume_weighted_directed_wrong`, `multigraph_edge_boundary_data_repeats`, `conductance_ignores_weight`.
* Small algorithms: `is_regular_edgeless`, `is_regular_empty`, `is_k_regular_zero`, `s_metric_directed_half`,
  `s_metric_self_loop`, `community_edges_undirected_doubled`, `fast_rejects_isomorphic_digraphs`.
* Numerics: `pagerank_edgeless`, `google_matrix_permuted_nodelist`, `google_matrix_dangling_ignored`, `google_matrix_dangling_ignored_always`, `google_matrix_nodelist_lost_row`, `google_matrix_nodelist_depends_on_numbering`,
  `katz_sources_missing` (depends on how the library accumulates a scalar), `laplacian_matrix_digraph_raises`.
* Number formats: `hits_reciprocal_overflows`, `uint_tournament_matrix`, `uint_laplacian_matrix`, `int8_sums_wrap`, `float_iso_storage_shows`.
* Exceptions: `unbounded_not_translated`, `no_path_not_raised`, `floyd_warshall_numpy_raises_partial` (KeyError for a foreign node).
* Input kinds: `square_clustering_accepts_directed`, `reciprocity_rejects_both_only`; sharing:
  `Effects.property_lookup_shares_the_matrix`.

Noticed while reading, not theorems: `VectorNodeMap`/`NodeNodeMap` without `key_to_id` use `A.size`, which matrices
lack; `NodeNodeMap[u][v] = x` updates a copy; the cache keys
`row_degrees±`/`column_degrees±` are never written; `degree_centrality` counts a self-loop once (NetworkX
twice); rows of cancelling weights divide by zero in pagerank; a cutoff with iso value 0 divides by zero; the
default `r` of `bethe_hessian_matrix` counts a self-loop once and its wrapper ignores weights; `to_undirected_graph`
of a matrix does not check symmetry; operators drop graph attributes.

## 6. Testing the theorems against wrong programs

`tools/mutate.py EDITS RESULTS` applies one edit at a time to a scratch copy of the model and rebuilds;
`tools/mutate_effects.py` edits the Python sources (in a scratch copy), regenerates the ownership table and rebuilds.
`seeded/LOG.jsonl` (written by `tools/log.py` from `seeded/results/*.jsonl`) has one line per attempt.  Survivors were
either equivalent programs (marked) or led to the tightened theorems named in the log.

## 7. Rebuilding

`cd lean && lake build`; `python3 tools/manifest.py` regenerates MANIFEST.json from `tools/claims.txt` and reports
names that do not exist; `python3 tools/effects.py write` regenerates `Model/EffectsTable.lean` from `/repo`;
`python3 tools/citations.py` checks the line citations; `python3 tools/design.py` reassembles this file.
