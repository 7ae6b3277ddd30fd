import Verif.Model.Effects

/-!
# The functions of the library as `Effects.Stmt`

GENERATED by `tools/effects.py` from the Python sources; do not edit.  Every definition is one Python function:
branches, loops, `try` and calls are kept, expressions are reduced to whether they give a new object, an object the
graph or the caller also holds, or the object of another variable.  Reading a property is `.shared` (the lookup
functions are in the table too).  Variables `_1`, `_2`, .. are temporaries; variables first bound inside a loop start
with a dummy object.  A graph object, node map or node set stands for the matrix or vector it wraps.  Python numbers
count as new objects.
-/

namespace Model.Effects.Table

/-- `from_networkx` -- classes/_utils.py:11-18 -/
def classes__utils_from_networkx : Fn where
  name := "classes._utils.from_networkx"
  params := ["cls", "G", "weight", "dtype"]
  body :=
    .new "rv" ;;
    .write "rv" ;;
    .ite (.write "rv")
      (.ite (.move "_1" "dtype")
        (.new "_1") ;;
      .write "rv") ;;
    .ret ["rv"]

/-- `id_to_key` -- classes/_utils.py:26-29 -/
def classes__utils_id_to_key : Fn where
  name := "classes._utils.id_to_key"
  params := ["self"]
  body :=
    .shared "_1" ;;
    .ret ["_1"]

/-- `get_property` -- classes/_utils.py:37-38 -/
def classes__utils_get_property : Fn where
  name := "classes._utils.get_property"
  params := ["self", "name", "mask"]
  body :=
    .shared "_1" ;;
    .ret ["_1"]

/-- `get_properties` -- classes/_utils.py:41-55 -/
def classes__utils_get_properties : Fn where
  name := "classes._utils.get_properties"
  params := ["self", "names", "mask"]
  body :=
    .ite (.new "names")
      (.new "names") ;;
    .new "results" ;;
    .new "_1" ;;
    .ret ["_1"]

/-- `dict_to_vector` -- classes/_utils.py:58-65 -/
def classes__utils_dict_to_vector : Fn where
  name := "classes._utils.dict_to_vector"
  params := ["self", "d", "size", "dtype", "name"]
  body :=
    .ite (.new "_1" ;;
      .ret ["_1"])
      (.skip) ;;
    .ite (.new "size")
      (.skip) ;;
    .shared "key_to_id" ;;
    .new "indices" ;;
    .new "values" ;;
    .new "_2" ;;
    .ret ["_2"]

/-- `list_to_vector` -- classes/_utils.py:68-75 -/
def classes__utils_list_to_vector : Fn where
  name := "classes._utils.list_to_vector"
  params := ["self", "nodes", "dtype", "values", "size", "name"]
  body :=
    .ite (.new "_1" ;;
      .ret ["_1"])
      (.skip) ;;
    .ite (.new "size")
      (.skip) ;;
    .shared "key_to_id" ;;
    .new "index" ;;
    .new "_2" ;;
    .ret ["_2"]

/-- `list_to_mask` -- classes/_utils.py:78-81 -/
def classes__utils_list_to_mask : Fn where
  name := "classes._utils.list_to_mask"
  params := ["self", "nodes", "size", "name"]
  body :=
    .ite (.new "_1" ;;
      .ret ["_1"])
      (.skip) ;;
    .new "_3" ;;
    .new "_4" ;;
    classes__utils_list_to_vector.call ["_2"] ["self", "nodes", "_3", "_4", "size", "name"] ;;
    .ret ["_2"]

/-- `list_to_ids` -- classes/_utils.py:84-88 -/
def classes__utils_list_to_ids : Fn where
  name := "classes._utils.list_to_ids"
  params := ["self", "nodes"]
  body :=
    .ite (.new "_1" ;;
      .ret ["_1"])
      (.skip) ;;
    .shared "key_to_id" ;;
    .new "_2" ;;
    .ret ["_2"]

/-- `list_to_keys` -- classes/_utils.py:91-95 -/
def classes__utils_list_to_keys : Fn where
  name := "classes._utils.list_to_keys"
  params := ["self", "indices"]
  body :=
    .ite (.new "_1" ;;
      .ret ["_1"])
      (.skip) ;;
    .shared "id_to_key" ;;
    .new "_2" ;;
    .ret ["_2"]

/-- `set_to_vector` -- classes/_utils.py:98-109 -/
def classes__utils_set_to_vector : Fn where
  name := "classes._utils.set_to_vector"
  params := ["self", "nodes", "dtype", "ignore_extra", "size", "name"]
  body :=
    .ite (.new "_1" ;;
      .ret ["_1"])
      (.skip) ;;
    .ite (.new "size")
      (.skip) ;;
    .shared "key_to_id" ;;
    .ite (.ite (.new "nodes")
        (.skip) ;;
      .new "nodes")
      (.skip) ;;
    .new "index" ;;
    .new "_2" ;;
    .ret ["_2"]

/-- `vector_to_dict` -- classes/_utils.py:112-119 -/
def classes__utils_vector_to_dict : Fn where
  name := "classes._utils.vector_to_dict"
  params := ["self", "v", "mask", "fill_value"]
  body :=
    .ite (.ite (.write "v")
        (.skip))
      (.ite (.write "v")
        (.skip)) ;;
    .shared "id_to_key" ;;
    .new "_1" ;;
    .ret ["_1"]

/-- `vector_to_list` -- classes/_utils.py:122-129 -/
def classes__utils_vector_to_list : Fn where
  name := "classes._utils.vector_to_list"
  params := ["self", "v", "values_are_keys"]
  body :=
    .shared "id_to_key" ;;
    .new "_1" ;;
    .ret ["_1"]

/-- `vector_to_nodemap` -- classes/_utils.py:132-144 -/
def classes__utils_vector_to_nodemap : Fn where
  name := "classes._utils.vector_to_nodemap"
  params := ["self", "v", "mask", "fill_value", "values_are_keys"]
  body :=
    .ite (.ite (.write "v")
        (.skip) ;;
      .new "fill_value")
      (.skip) ;;
    .move "rv" "v" ;;
    .ret ["rv"]

/-- `vector_to_nodeset` -- classes/_utils.py:147-152 -/
def classes__utils_vector_to_nodeset : Fn where
  name := "classes._utils.vector_to_nodeset"
  params := ["self", "v"]
  body :=
    .move "rv" "v" ;;
    .ret ["rv"]

/-- `vector_to_set` -- classes/_utils.py:155-158 -/
def classes__utils_vector_to_set : Fn where
  name := "classes._utils.vector_to_set"
  params := ["self", "v"]
  body :=
    .shared "id_to_key" ;;
    .new "indices" ;;
    .new "_" ;;
    .new "_1" ;;
    .ret ["_1"]

/-- `matrix_to_nodenodemap` -- classes/_utils.py:161-168 -/
def classes__utils_matrix_to_nodenodemap : Fn where
  name := "classes._utils.matrix_to_nodenodemap"
  params := ["self", "A", "fill_value", "values_are_keys"]
  body :=
    .move "rv" "A" ;;
    .ret ["rv"]

/-- `matrix_to_vectornodemap` -- classes/_utils.py:171-176 -/
def classes__utils_matrix_to_vectornodemap : Fn where
  name := "classes._utils.matrix_to_vectornodemap"
  params := ["self", "A"]
  body :=
    .move "rv" "A" ;;
    .ret ["rv"]

/-- `matrix_to_dicts` -- classes/_utils.py:179-226 -/
def classes__utils_matrix_to_dicts : Fn where
  name := "classes._utils.matrix_to_dicts"
  params := ["self", "A", "use_row_index", "use_column_index", "values_are_keys"]
  body :=
    .ite (.new "d" ;;
      .new "rows" ;;
      .new "col_indices" ;;
      .move "_1" "use_column_index" ;;
      .move "_2" "use_row_index" ;;
      .move "use_row_index" "_1" ;;
      .move "use_column_index" "_2")
      (.new "d" ;;
      .new "rows" ;;
      .new "col_indices") ;;
    .new "indptr" ;;
    .new "values" ;;
    .shared "id_to_key" ;;
    .ite (.new "values")
      (.skip) ;;
    .new "it" ;;
    .ite (.new "_3" ;;
      .ret ["_3"])
      (.skip) ;;
    .ite (.new "_4" ;;
      .ret ["_4"])
      (.skip) ;;
    .ite (.new "_5" ;;
      .ret ["_5"])
      (.skip) ;;
    .new "_6" ;;
    .ret ["_6"]

/-- `to_networkx` -- classes/_utils.py:229-249 -/
def classes__utils_to_networkx : Fn where
  name := "classes._utils.to_networkx"
  params := ["self", "edge_attribute"]
  body :=
    .ite (.new "G" ;;
      .shared "A")
      (.new "G" ;;
      .shared "_p" ;;
      .shared "A") ;;
    .write "G" ;;
    .shared "id_to_key" ;;
    .new "rows" ;;
    .new "cols" ;;
    .new "vals" ;;
    .new "rows" ;;
    .new "cols" ;;
    .ite (.write "G")
      (.write "G") ;;
    .ret ["G"]

/-- `_cacheit` -- classes/_utils.py:252-255 -/
def classes__utils__cacheit : Fn where
  name := "classes._utils._cacheit"
  params := ["self", "key", "func"]
  body :=
    .shared "_1" ;;
    .ret ["_1"]

/-- `renumber_key_to_id` -- classes/_utils.py:258-261 -/
def classes__utils_renumber_key_to_id : Fn where
  name := "classes._utils.renumber_key_to_id"
  params := ["self", "indices"]
  body :=
    .shared "id_to_key" ;;
    .new "_1" ;;
    .ret ["_1"]

/-- `get_AT` -- classes/digraph.py:24-30 -/
def classes_digraph_get_AT : Fn where
  name := "classes.digraph.get_AT"
  params := ["G", "mask"]
  body :=
    .shared "A" ;;
    .shared "cache" ;;
    .shared "_1" ;;
    .ret ["_1"]

/-- `get_Up` -- classes/digraph.py:33-49 -/
def classes_digraph_get_Up : Fn where
  name := "classes.digraph.get_Up"
  params := ["G", "mask"]
  body :=
    .shared "A" ;;
    .shared "cache" ;;
    .ite (.ite (.shared "_p")
        (.skip))
      (.skip) ;;
    .shared "_1" ;;
    .ret ["_1"]

/-- `get_Lp` -- classes/digraph.py:52-68 -/
def classes_digraph_get_Lp : Fn where
  name := "classes.digraph.get_Lp"
  params := ["G", "mask"]
  body :=
    .shared "A" ;;
    .shared "cache" ;;
    .ite (.ite (.shared "_p")
        (.skip))
      (.skip) ;;
    .shared "_1" ;;
    .ret ["_1"]

/-- `get_Um` -- classes/digraph.py:71-92 -/
def classes_digraph_get_Um : Fn where
  name := "classes.digraph.get_Um"
  params := ["G", "mask"]
  body :=
    .shared "A" ;;
    .shared "cache" ;;
    .shared "_1" ;;
    .ret ["_1"]

/-- `get_Lm` -- classes/digraph.py:95-116 -/
def classes_digraph_get_Lm : Fn where
  name := "classes.digraph.get_Lm"
  params := ["G", "mask"]
  body :=
    .shared "A" ;;
    .shared "cache" ;;
    .shared "_1" ;;
    .ret ["_1"]

/-- `get_recip_degreesp` -- classes/digraph.py:119-158 -/
def classes_digraph_get_recip_degreesp : Fn where
  name := "classes.digraph.get_recip_degreesp"
  params := ["G", "mask"]
  body :=
    .shared "A" ;;
    .shared "cache" ;;
    .new "AT" ;;
    .ite (.ite (.new "_1" ;;
        .ret ["_1"])
        (.skip) ;;
      .ite (.new "_2" ;;
        .ret ["_2"])
        (.skip) ;;
      .ite (.new "_3" ;;
        .ret ["_3"])
        (.skip) ;;
      .ite (.shared "_p")
        (.skip) ;;
      .ite (.new "_4" ;;
        .ret ["_4"])
        (.skip) ;;
      .new "_5" ;;
      .ret ["_5"])
      (.skip) ;;
    .ite (.ite (.skip)
        (.ite (.skip)
          (.ite (.shared "_p")
            (.skip))))
      (.skip) ;;
    .shared "_6" ;;
    .ret ["_6"]

/-- `get_recip_degreesm` -- classes/digraph.py:161-235 -/
def classes_digraph_get_recip_degreesm : Fn where
  name := "classes.digraph.get_recip_degreesm"
  params := ["G", "mask"]
  body :=
    .shared "A" ;;
    .shared "cache" ;;
    .ite (.shared "AT")
      (.ite (.shared "AT")
        (.move "AT" "A")) ;;
    .ite (.ite (.new "_1" ;;
        .ret ["_1"])
        (.skip) ;;
      .ite (.new "_2" ;;
        .ret ["_2"])
        (.skip) ;;
      .ite (.new "rv" ;;
        .write "rv" ;;
        .ret ["rv"])
        (.skip) ;;
      .shared "_p" ;;
      .ite (.shared "_p" ;;
        .shared "_3" ;;
        .ret ["_3"])
        (.skip) ;;
      .ite (.new "_4" ;;
        .ret ["_4"])
        (.skip) ;;
      .ite (.new "_5" ;;
        .ret ["_5"])
        (.skip) ;;
      .shared "_p" ;;
      .shared "diag" ;;
      .new "overlap" ;;
      .new "rv" ;;
      .write "rv" ;;
      .ret ["rv"])
      (.skip) ;;
    .ite (.ite (.skip)
        (.ite (.new "rv" ;;
          .write "rv")
          (.shared "_p" ;;
          .ite (.shared "_p")
            (.ite (.skip)
              (.ite (.skip)
                (.shared "_p" ;;
                .shared "diag" ;;
                .new "overlap" ;;
                .new "rv" ;;
                .write "rv"))))))
      (.skip) ;;
    .shared "_6" ;;
    .ret ["_6"]

/-- `get_total_degreesp` -- classes/digraph.py:238-265 -/
def classes_digraph_get_total_degreesp : Fn where
  name := "classes.digraph.get_total_degreesp"
  params := ["G", "mask"]
  body :=
    .shared "cache" ;;
    .ite (.ite (.new "_1" ;;
        .ret ["_1"])
        (.skip) ;;
      .ite (.new "_2" ;;
        .ret ["_2"])
        (.skip) ;;
      .shared "_p" ;;
      .shared "_p" ;;
      .new "_3" ;;
      .ret ["_3"])
      (.skip) ;;
    .ite (.ite (.skip)
        (.shared "_p" ;;
        .shared "_p"))
      (.skip) ;;
    .shared "_4" ;;
    .ret ["_4"]

/-- `get_total_degreesm` -- classes/digraph.py:268-295 -/
def classes_digraph_get_total_degreesm : Fn where
  name := "classes.digraph.get_total_degreesm"
  params := ["G", "mask"]
  body :=
    .shared "cache" ;;
    .ite (.ite (.new "_1" ;;
        .ret ["_1"])
        (.skip) ;;
      .ite (.new "_2" ;;
        .ret ["_2"])
        (.skip) ;;
      .shared "_p" ;;
      .shared "_p" ;;
      .new "_3" ;;
      .ret ["_3"])
      (.skip) ;;
    .ite (.ite (.skip)
        (.shared "_p" ;;
        .shared "_p"))
      (.skip) ;;
    .shared "_4" ;;
    .ret ["_4"]

/-- `get_total_recipp` -- classes/digraph.py:298-314 -/
def classes_digraph_get_total_recipp : Fn where
  name := "classes.digraph.get_total_recipp"
  params := ["G", "mask"]
  body :=
    .shared "A" ;;
    .shared "cache" ;;
    .ite (.ite (.skip)
        (.ite (.skip)
          (.new "AT")))
      (.skip) ;;
    .shared "_1" ;;
    .ret ["_1"]

/-- `get_total_recipm` -- classes/digraph.py:317-329 -/
def classes_digraph_get_total_recipm : Fn where
  name := "classes.digraph.get_total_recipm"
  params := ["G", "mask"]
  body :=
    .shared "cache" ;;
    .ite (.ite (.skip)
        (.shared "_p"))
      (.skip) ;;
    .shared "_1" ;;
    .ret ["_1"]

/-- `has_self_edges` -- classes/digraph.py:332-371 -/
def classes_digraph_has_self_edges : Fn where
  name := "classes.digraph.has_self_edges"
  params := ["G", "mask"]
  body :=
    .shared "A" ;;
    .shared "cache" ;;
    .ite (.ite (.skip)
        (.ite (.skip)
          (.ite (.skip)
            (.ite (.skip)
              (.ite (.skip)
                (.ite (.skip)
                  (.ite (.skip)
                    (.ite (.skip)
                      (.ite (.skip)
                        (.ite (.skip)
                          (.ite (.skip)
                            (.ite (.skip)
                              (.ite (.skip)
                                (.shared "_p"))))))))))))))
      (.skip) ;;
    .shared "_1" ;;
    .ret ["_1"]

/-- `to_undirected` -- classes/digraph.py:604-612 -/
def classes_digraph_DiGraph_to_undirected : Fn where
  name := "classes.digraph.DiGraph.to_undirected"
  params := ["self", "reciprocal", "as_view", "name"]
  body :=
    .shared "A" ;;
    .ite (.new "B")
      (.new "B") ;;
    .move "_1" "B" ;;
    .ret ["_1"]

/-- `reverse` -- classes/digraph.py:614-621 -/
def classes_digraph_DiGraph_reverse : Fn where
  name := "classes.digraph.DiGraph.reverse"
  params := ["self", "copy"]
  body :=
    .shared "A" ;;
    .ite (.new "A")
      (.skip) ;;
    .move "rv" "A" ;;
    .ret ["rv"]

/-- `get_A` -- classes/graph.py:12-14 -/
def classes_graph_get_A : Fn where
  name := "classes.graph.get_A"
  params := ["G", "mask"]
  body :=
    .shared "_1" ;;
    .ret ["_1"]

/-- `get_AT` -- classes/graph.py:17-21 -/
def classes_graph_get_AT : Fn where
  name := "classes.graph.get_AT"
  params := ["G", "mask"]
  body :=
    .shared "A" ;;
    .ret ["A"]

/-- `get_offdiag` -- classes/graph.py:24-37 -/
def classes_graph_get_offdiag : Fn where
  name := "classes.graph.get_offdiag"
  params := ["G", "mask"]
  body :=
    .shared "A" ;;
    .shared "cache" ;;
    .shared "_1" ;;
    .ret ["_1"]

/-- `get_Up` -- classes/graph.py:40-53 -/
def classes_graph_get_Up : Fn where
  name := "classes.graph.get_Up"
  params := ["G", "mask"]
  body :=
    .shared "A" ;;
    .shared "cache" ;;
    .ite (.ite (.shared "_p")
        (.skip))
      (.skip) ;;
    .shared "_1" ;;
    .ret ["_1"]

/-- `get_Lp` -- classes/graph.py:56-69 -/
def classes_graph_get_Lp : Fn where
  name := "classes.graph.get_Lp"
  params := ["G", "mask"]
  body :=
    .shared "A" ;;
    .shared "cache" ;;
    .ite (.ite (.shared "_p")
        (.skip))
      (.skip) ;;
    .shared "_1" ;;
    .ret ["_1"]

/-- `get_Um` -- classes/graph.py:72-90 -/
def classes_graph_get_Um : Fn where
  name := "classes.graph.get_Um"
  params := ["G", "mask"]
  body :=
    .shared "A" ;;
    .shared "cache" ;;
    .ite (.ite (.shared "_p")
        (.skip))
      (.skip) ;;
    .shared "_1" ;;
    .ret ["_1"]

/-- `get_Lm` -- classes/graph.py:93-111 -/
def classes_graph_get_Lm : Fn where
  name := "classes.graph.get_Lm"
  params := ["G", "mask"]
  body :=
    .shared "A" ;;
    .shared "cache" ;;
    .ite (.ite (.shared "_p")
        (.skip))
      (.skip) ;;
    .shared "_1" ;;
    .ret ["_1"]

/-- `get_diag` -- classes/graph.py:114-131 -/
def classes_graph_get_diag : Fn where
  name := "classes.graph.get_diag"
  params := ["G", "mask"]
  body :=
    .shared "A" ;;
    .shared "cache" ;;
    .ite (.new "_1" ;;
      .ret ["_1"])
      (.skip) ;;
    .shared "_2" ;;
    .ret ["_2"]

/-- `has_negative_diagonal` -- classes/graph.py:134-151 -/
def classes_graph_has_negative_diagonal : Fn where
  name := "classes.graph.has_negative_diagonal"
  params := ["G", "mask"]
  body :=
    .shared "A" ;;
    .shared "cache" ;;
    .ite (.ite (.skip)
        (.ite (.skip)
          (.shared "_p")))
      (.skip) ;;
    .shared "_1" ;;
    .ret ["_1"]

/-- `has_negative_edgesp` -- classes/graph.py:154-174 -/
def classes_graph_has_negative_edgesp : Fn where
  name := "classes.graph.has_negative_edgesp"
  params := ["G", "mask"]
  body :=
    .shared "A" ;;
    .shared "cache" ;;
    .ite (.ite (.skip)
        (.ite (.skip)
          (.ite (.skip)
            (.ite (.shared "_p")
              (.shared "_p")))))
      (.skip) ;;
    .shared "_1" ;;
    .ret ["_1"]

/-- `has_negative_edgesm` -- classes/graph.py:177-192 -/
def classes_graph_has_negative_edgesm : Fn where
  name := "classes.graph.has_negative_edgesm"
  params := ["G", "mask"]
  body :=
    .shared "A" ;;
    .shared "cache" ;;
    .ite (.ite (.skip)
        (.ite (.skip)
          (.shared "_p")))
      (.skip) ;;
    .shared "_1" ;;
    .ret ["_1"]

/-- `has_self_edges` -- classes/graph.py:195-214 -/
def classes_graph_has_self_edges : Fn where
  name := "classes.graph.has_self_edges"
  params := ["G", "mask"]
  body :=
    .shared "A" ;;
    .shared "cache" ;;
    .ite (.ite (.skip)
        (.ite (.skip)
          (.ite (.skip)
            (.ite (.skip)
              (.ite (.skip)
                (.ite (.skip)
                  (.shared "_p")))))))
      (.skip) ;;
    .shared "_1" ;;
    .ret ["_1"]

/-- `is_iso` -- classes/graph.py:217-227 -/
def classes_graph_is_iso : Fn where
  name := "classes.graph.is_iso"
  params := ["G", "mask"]
  body :=
    .shared "A" ;;
    .shared "cache" ;;
    .shared "_1" ;;
    .ret ["_1"]

/-- `get_iso_value` -- classes/graph.py:230-249 -/
def classes_graph_get_iso_value : Fn where
  name := "classes.graph.get_iso_value"
  params := ["G", "mask"]
  body :=
    .shared "A" ;;
    .shared "cache" ;;
    .shared "_1" ;;
    .ret ["_1"]

/-- `_get_cutoff` -- algorithms/_bfs.py:8-11 -/
def algorithms__bfs__get_cutoff : Fn where
  name := "algorithms._bfs._get_cutoff"
  params := ["n", "cutoff"]
  body :=
    .ite (.ret ["n"])
      (.skip) ;;
    .new "_1" ;;
    .ret ["_1"]

/-- `_bfs_plain` -- algorithms/_bfs.py:15-45 -/
def algorithms__bfs__bfs_plain : Fn where
  name := "algorithms._bfs._bfs_plain"
  params := ["G", "source", "target", "index", "cutoff", "transpose", "name"]
  body :=
    .new "_i" ;;
    .ite (.new "index")
      (.skip) ;;
    .ite (.new "dst_id")
      (.new "dst_id") ;;
    .shared "_p" ;;
    .shared "A" ;;
    .ite (.move "A" "A")
      (.skip) ;;
    .new "n" ;;
    .new "v" ;;
    .new "q" ;;
    .write "v" ;;
    .write "q" ;;
    .new "any_pair_bool" ;;
    algorithms__bfs__get_cutoff.call ["cutoff"] ["n", "cutoff"] ;;
    .loop ["_i", "any_pair_bool", "cutoff", "dst_id", "n", "q", "v"]
      (.new "_i" ;;
      .write "q" ;;
      .write "v") ;;
    .ret ["v"]

/-- `_bfs_level` -- algorithms/_bfs.py:48-75 -/
def algorithms__bfs__bfs_level : Fn where
  name := "algorithms._bfs._bfs_level"
  params := ["G", "source", "target", "cutoff", "transpose", "dtype"]
  body :=
    .new "i" ;;
    .ite (.new "dtype")
      (.skip) ;;
    .new "index" ;;
    .ite (.new "dst_id")
      (.new "dst_id") ;;
    .shared "_p" ;;
    .shared "A" ;;
    .ite (.move "A" "A")
      (.skip) ;;
    .new "n" ;;
    .new "v" ;;
    .new "q" ;;
    .write "v" ;;
    .write "q" ;;
    .new "any_pair_bool" ;;
    algorithms__bfs__get_cutoff.call ["cutoff"] ["n", "cutoff"] ;;
    .loop ["any_pair_bool", "cutoff", "dst_id", "i", "index", "n", "q", "v"]
      (.new "i" ;;
      .write "q" ;;
      .write "v") ;;
    .ret ["v"]

/-- `_bfs_levels` -- algorithms/_bfs.py:78-107 -/
def algorithms__bfs__bfs_levels : Fn where
  name := "algorithms._bfs._bfs_levels"
  params := ["G", "nodes", "cutoff", "dtype"]
  body :=
    .new "i" ;;
    .ite (.new "dtype")
      (.skip) ;;
    .shared "_p" ;;
    .shared "A" ;;
    .new "n" ;;
    .ite (.new "D" ;;
      .write "D" ;;
      .new "D")
      (classes__utils_list_to_ids.call ["ids"] ["G", "nodes"] ;;
      .new "D") ;;
    .new "Q" ;;
    .new "any_pair_bool" ;;
    algorithms__bfs__get_cutoff.call ["cutoff"] ["n", "cutoff"] ;;
    .loop ["D", "Q", "any_pair_bool", "cutoff", "i", "n"]
      (.new "i" ;;
      .write "Q" ;;
      .write "D") ;;
    .ret ["D"]

/-- `_bfs_parent` -- algorithms/_bfs.py:110-137 -/
def algorithms__bfs__bfs_parent : Fn where
  name := "algorithms._bfs._bfs_parent"
  params := ["G", "source", "target", "cutoff", "transpose", "dtype"]
  body :=
    .new "_i" ;;
    .ite (.new "dtype")
      (.skip) ;;
    .new "index" ;;
    .ite (.new "dst_id")
      (.new "dst_id") ;;
    .shared "_p" ;;
    .shared "A" ;;
    .ite (.move "A" "A")
      (.skip) ;;
    .new "n" ;;
    .new "v" ;;
    .new "q" ;;
    .write "v" ;;
    .write "q" ;;
    .new "min_first" ;;
    .new "index" ;;
    algorithms__bfs__get_cutoff.call ["cutoff"] ["n", "cutoff"] ;;
    .loop ["_i", "cutoff", "dst_id", "index", "min_first", "n", "q", "v"]
      (.new "_i" ;;
      .write "q" ;;
      .write "v" ;;
      .write "q") ;;
    .ret ["v"]

/-- `_bfs_plain_bidirectional` -- algorithms/_bfs.py:141-178 -/
def algorithms__bfs__bfs_plain_bidirectional : Fn where
  name := "algorithms._bfs._bfs_plain_bidirectional"
  params := ["G", "source"]
  body :=
    .new "_i" ;;
    .new "is_out_empty" ;;
    .new "is_in_empty" ;;
    .new "index" ;;
    .shared "_p" ;;
    .shared "A" ;;
    .new "n" ;;
    .new "v" ;;
    .new "q_out" ;;
    .new "q_in" ;;
    .write "v" ;;
    .write "q_in" ;;
    .new "any_pair_bool" ;;
    .new "is_out_empty" ;;
    .new "is_in_empty" ;;
    .loop ["_i", "any_pair_bool", "index", "is_in_empty", "is_out_empty", "n", "q_in", "q_out", "v"]
      (.new "_i" ;;
      .ite (.write "q_out")
        (.write "q_out" ;;
        .write "q_out") ;;
      .new "is_out_empty" ;;
      .ite (.write "v")
        (.skip) ;;
      .ite (.write "q_in")
        (.write "q_in" ;;
        .write "q_in") ;;
      .new "is_in_empty" ;;
      .ite (.write "v")
        (.skip)) ;;
    .ret ["v"]

/-- `normalize` -- algorithms/_helpers.py:4-18 -/
def algorithms__helpers_normalize : Fn where
  name := "algorithms._helpers.normalize"
  params := ["x", "how"]
  body :=
    .new "how" ;;
    .ite (.new "denom")
      (.ite (.new "denom")
        (.ite (.new "denom")
          (.skip))) ;;
    .attempt ["how"]
      (.write "x")
      (.skip) ;;
    .ret ["x"]

/-- `is_converged` -- algorithms/_helpers.py:21-29 -/
def algorithms__helpers_is_converged : Fn where
  name := "algorithms._helpers.is_converged"
  params := ["xprev", "x", "tol"]
  body :=
    .write "xprev" ;;
    .write "xprev" ;;
    .new "err" ;;
    .new "_1" ;;
    .ret ["_1"]

/-- `edge_boundary` -- algorithms/boundary.py:7-20 -/
def algorithms_boundary_edge_boundary : Fn where
  name := "algorithms.boundary.edge_boundary"
  params := ["G", "nbunch1", "nbunch2", "is_weighted"]
  body :=
    .ite (.new "B")
      (.new "B") ;;
    .ite (.shared "_p" ;;
      .shared "nbunch2")
      (.skip) ;;
    .ite (.write "B")
      (.write "B") ;;
    .ret ["B"]

/-- `node_boundary` -- algorithms/boundary.py:23-29 -/
def algorithms_boundary_node_boundary : Fn where
  name := "algorithms.boundary.node_boundary"
  params := ["G", "nbunch1", "mask"]
  body :=
    .ite (.new "mask")
      (.new "mask") ;;
    .new "bdy" ;;
    .ret ["bdy"]

/-- `single_triangle` -- algorithms/cluster.py:24-41 -/
def algorithms_cluster_single_triangle : Fn where
  name := "algorithms.cluster.single_triangle"
  params := ["G", "node", "weighted"]
  body :=
    .new "index" ;;
    .new "r" ;;
    .shared "_p" ;;
    .shared "L" ;;
    .shared "_p" ;;
    .ite (.write "r")
      (.skip) ;;
    .ite (.shared "_p" ;;
      .shared "maxval" ;;
      .new "L" ;;
      .new "r" ;;
      .new "semiring")
      (.new "semiring") ;;
    .new "val" ;;
    .ite (.write "val")
      (.skip) ;;
    .new "_1" ;;
    .ret ["_1"]

/-- `triangles` -- algorithms/cluster.py:44-64 -/
def algorithms_cluster_triangles : Fn where
  name := "algorithms.cluster.triangles"
  params := ["G", "weighted", "mask"]
  body :=
    .shared "_p" ;;
    .shared "L" ;;
    .shared "U" ;;
    .ite (.shared "_p" ;;
      .shared "maxval" ;;
      .new "L" ;;
      .new "U" ;;
      .new "semiring")
      (.new "semiring") ;;
    .new "C" ;;
    .new "D" ;;
    .ite (.write "C" ;;
      .write "D")
      (.skip) ;;
    .new "_1" ;;
    .ret ["_1"]

/-- `total_triangles` -- algorithms/cluster.py:67-71 -/
def algorithms_cluster_total_triangles : Fn where
  name := "algorithms.cluster.total_triangles"
  params := ["G"]
  body :=
    .shared "_p" ;;
    .shared "L" ;;
    .shared "U" ;;
    .new "_1" ;;
    .ret ["_1"]

/-- `transitivity` -- algorithms/cluster.py:74-80 -/
def algorithms_cluster_transitivity : Fn where
  name := "algorithms.cluster.transitivity"
  params := ["G"]
  body :=
    algorithms_cluster_total_triangles.call ["numerator"] ["G"] ;;
    .ite (.new "_1" ;;
      .ret ["_1"])
      (.skip) ;;
    .shared "_p" ;;
    .shared "degrees" ;;
    .new "denom" ;;
    .new "_2" ;;
    .ret ["_2"]

/-- `transitivity_directed` -- algorithms/cluster.py:83-91 -/
def algorithms_cluster_transitivity_directed : Fn where
  name := "algorithms.cluster.transitivity_directed"
  params := ["G"]
  body :=
    .shared "_p" ;;
    .shared "A" ;;
    .shared "AT" ;;
    .new "numerator" ;;
    .ite (.new "_1" ;;
      .ret ["_1"])
      (.skip) ;;
    .shared "_p" ;;
    .shared "degrees" ;;
    .new "denom" ;;
    .new "_2" ;;
    .ret ["_2"]

/-- `clustering` -- algorithms/cluster.py:94-98 -/
def algorithms_cluster_clustering : Fn where
  name := "algorithms.cluster.clustering"
  params := ["G", "weighted", "mask"]
  body :=
    algorithms_cluster_triangles.call ["tri"] ["G", "weighted", "mask"] ;;
    .shared "_p" ;;
    .shared "degrees" ;;
    .new "denom" ;;
    .new "_1" ;;
    .ret ["_1"]

/-- `clustering_directed` -- algorithms/cluster.py:101-126 -/
def algorithms_cluster_clustering_directed : Fn where
  name := "algorithms.cluster.clustering_directed"
  params := ["G", "weighted", "mask"]
  body :=
    .shared "_p" ;;
    .shared "A" ;;
    .shared "AT" ;;
    .ite (.shared "_p" ;;
      .shared "maxval" ;;
      .new "A" ;;
      .new "AT" ;;
      .new "semiring")
      (.new "semiring") ;;
    .new "C" ;;
    .new "D" ;;
    .new "E" ;;
    .ite (.write "C" ;;
      .write "D" ;;
      .write "E")
      (.skip) ;;
    .new "tri" ;;
    .shared "_p" ;;
    .shared "recip_degrees" ;;
    .shared "total_degrees" ;;
    .new "denom" ;;
    .new "_1" ;;
    .ret ["_1"]

/-- `single_clustering` -- algorithms/cluster.py:129-147 -/
def algorithms_cluster_single_clustering : Fn where
  name := "algorithms.cluster.single_clustering"
  params := ["G", "node", "weighted"]
  body :=
    algorithms_cluster_single_triangle.call ["tri"] ["G", "node", "weighted"] ;;
    .ite (.new "_1" ;;
      .ret ["_1"])
      (.skip) ;;
    .new "index" ;;
    .ite (.shared "_p" ;;
      .new "degrees")
      (.ite (.shared "_p" ;;
        .new "degrees" ;;
        .shared "_p" ;;
        .ite (.write "degrees")
          (.skip))
        (.new "row" ;;
        .new "degrees" ;;
        .shared "_p" ;;
        .ite (.write "degrees")
          (.skip))) ;;
    .new "denom" ;;
    .new "_2" ;;
    .ret ["_2"]

/-- `single_clustering_directed` -- algorithms/cluster.py:150-173 -/
def algorithms_cluster_single_clustering_directed : Fn where
  name := "algorithms.cluster.single_clustering_directed"
  params := ["G", "node", "weighted"]
  body :=
    .new "x" ;;
    .new "y" ;;
    .new "v" ;;
    .shared "_p" ;;
    .shared "A" ;;
    .new "index" ;;
    .ite (.shared "_p" ;;
      .shared "maxval" ;;
      .new "A" ;;
      .new "semiring")
      (.new "semiring") ;;
    .new "r" ;;
    .new "c" ;;
    .new "tris" ;;
    .loop ["c", "index", "r", "semiring", "tris", "v", "x", "y"]
      (.new "x" ;;
      .new "y" ;;
      .new "v" ;;
      .ite (.write "v")
        (.skip) ;;
      .write "tris") ;;
    .new "tri" ;;
    .ite (.new "_1" ;;
      .ret ["_1"])
      (.skip) ;;
    .new "total_degrees" ;;
    .new "recip_degrees" ;;
    .new "_2" ;;
    .ret ["_2"]

/-- `average_clustering` -- algorithms/cluster.py:176-183 -/
def algorithms_cluster_average_clustering : Fn where
  name := "algorithms.cluster.average_clustering"
  params := ["G", "count_zeros", "weighted", "mask"]
  body :=
    algorithms_cluster_clustering.call ["c"] ["G", "weighted", "mask"] ;;
    .new "val" ;;
    .ite (.new "_1" ;;
      .ret ["_1"])
      (.skip) ;;
    .ite (.new "_2" ;;
      .ret ["_2"])
      (.skip) ;;
    .new "_3" ;;
    .ret ["_3"]

/-- `average_clustering_directed` -- algorithms/cluster.py:186-193 -/
def algorithms_cluster_average_clustering_directed : Fn where
  name := "algorithms.cluster.average_clustering_directed"
  params := ["G", "count_zeros", "weighted", "mask"]
  body :=
    algorithms_cluster_clustering_directed.call ["c"] ["G", "weighted", "mask"] ;;
    .new "val" ;;
    .ite (.new "_1" ;;
      .ret ["_1"])
      (.skip) ;;
    .ite (.new "_2" ;;
      .ret ["_2"])
      (.skip) ;;
    .new "_3" ;;
    .ret ["_3"]

/-- `single_square_clustering` -- algorithms/cluster.py:196-224 -/
def algorithms_cluster_single_square_clustering : Fn where
  name := "algorithms.cluster.single_square_clustering"
  params := ["G", "idx"]
  body :=
    .shared "_p" ;;
    .shared "A" ;;
    .shared "degrees" ;;
    .new "deg" ;;
    .ite (.new "_1" ;;
      .ret ["_1"])
      (.skip) ;;
    .new "v" ;;
    .new "p2" ;;
    .write "p2" ;;
    .new "denom" ;;
    .write "p2" ;;
    .new "squares" ;;
    .ite (.new "_2" ;;
      .ret ["_2"])
      (.skip) ;;
    .write "denom" ;;
    .write "denom" ;;
    .write "denom" ;;
    .new "_3" ;;
    .ret ["_3"]

/-- `square_clustering` -- algorithms/cluster.py:227-282 -/
def algorithms_cluster_square_clustering : Fn where
  name := "algorithms.cluster.square_clustering"
  params := ["G", "node_ids"]
  body :=
    .shared "_p" ;;
    .shared "A" ;;
    .shared "degrees" ;;
    .ite (.new "v" ;;
      .new "Asubset")
      (.move "Asubset" "A" ;;
      .move "A" "A") ;;
    .new "D" ;;
    .new "P2" ;;
    .write "D" ;;
    .new "neg_denom" ;;
    .write "P2" ;;
    .new "squares" ;;
    .write "squares" ;;
    .new "denom" ;;
    .write "neg_denom" ;;
    .write "denom" ;;
    .write "denom" ;;
    .new "_1" ;;
    .ret ["_1"]

/-- `generalized_degree` -- algorithms/cluster.py:285-310 -/
def algorithms_cluster_generalized_degree : Fn where
  name := "algorithms.cluster.generalized_degree"
  params := ["G", "mask"]
  body :=
    .shared "_p" ;;
    .shared "A" ;;
    .new "Tri" ;;
    .ite (.ite (.shared "v_mask")
        (.new "v_mask") ;;
      .write "Tri" ;;
      .write "Tri")
      (.write "Tri") ;;
    .write "Tri" ;;
    .new "rows" ;;
    .new "cols" ;;
    .new "vals" ;;
    .new "_1" ;;
    .ret ["_1"]

/-- `single_generalized_degree` -- algorithms/cluster.py:313-318 -/
def algorithms_cluster_single_generalized_degree : Fn where
  name := "algorithms.cluster.single_generalized_degree"
  params := ["G", "node"]
  body :=
    .new "index" ;;
    .new "v" ;;
    .write "v" ;;
    .move "_2" "v" ;;
    algorithms_cluster_generalized_degree.call [] ["G", "_2"] ;;
    .new "_1" ;;
    .ret ["_1"]

/-- `k_truss` -- algorithms/core.py:8-37 -/
def algorithms_core_k_truss : Fn where
  name := "algorithms.core.k_truss"
  params := ["G", "k"]
  body :=
    .new "nvals_last" ;;
    .new "S" ;;
    .shared "_p" ;;
    .shared "S" ;;
    .ite (.move "C" "S")
      (.new "nvals_last" ;;
      .new "plus_pair" ;;
      .new "C" ;;
      .loop ["C", "nvals_last", "plus_pair"]
        (.write "C" ;;
        .write "C" ;;
        .new "nvals_last" ;;
        .move "S" "C")) ;;
    .new "indices" ;;
    .new "_" ;;
    .new "Ktruss" ;;
    .new "_1" ;;
    classes__utils_renumber_key_to_id.call ["key_to_id"] ["G", "_1"] ;;
    .move "_2" "Ktruss" ;;
    .ret ["_2"]

/-- `cut_size` -- algorithms/cuts.py:18-30 -/
def algorithms_cuts_cut_size : Fn where
  name := "algorithms.cuts.cut_size"
  params := ["G", "S", "T", "is_weighted"]
  body :=
    algorithms_boundary_edge_boundary.call ["edges"] ["G", "S", "T", "is_weighted"] ;;
    .ite (.new "rv")
      (.new "rv") ;;
    .ite (algorithms_boundary_edge_boundary.call ["edges"] ["G", "T", "S", "is_weighted"] ;;
      .ite (.write "rv")
        (.write "rv"))
      (.skip) ;;
    .ret ["rv"]

/-- `volume` -- algorithms/cuts.py:33-38 -/
def algorithms_cuts_volume : Fn where
  name := "algorithms.cuts.volume"
  params := ["G", "S", "weighted"]
  body :=
    .ite (.new "degrees")
      (.shared "_p" ;;
      .shared "degrees") ;;
    .new "_1" ;;
    .ret ["_1"]

/-- `normalized_cut_size` -- algorithms/cuts.py:41-45 -/
def algorithms_cuts_normalized_cut_size : Fn where
  name := "algorithms.cuts.normalized_cut_size"
  params := ["G", "S", "T"]
  body :=
    .new "_1" ;;
    algorithms_cuts_cut_size.call ["num_cut_edges"] ["G", "S", "T", "_1"] ;;
    .new "_2" ;;
    algorithms_cuts_volume.call ["volume_S"] ["G", "S", "_2"] ;;
    .new "_3" ;;
    algorithms_cuts_volume.call ["volume_T"] ["G", "T", "_3"] ;;
    .new "_4" ;;
    .ret ["_4"]

/-- `conductance` -- algorithms/cuts.py:48-52 -/
def algorithms_cuts_conductance : Fn where
  name := "algorithms.cuts.conductance"
  params := ["G", "S", "T"]
  body :=
    .new "_1" ;;
    algorithms_cuts_cut_size.call ["num_cut_edges"] ["G", "S", "T", "_1"] ;;
    .new "_2" ;;
    algorithms_cuts_volume.call ["volume_S"] ["G", "S", "_2"] ;;
    .new "_3" ;;
    algorithms_cuts_volume.call ["volume_T"] ["G", "T", "_3"] ;;
    .new "_4" ;;
    .ret ["_4"]

/-- `edge_expansion` -- algorithms/cuts.py:55-61 -/
def algorithms_cuts_edge_expansion : Fn where
  name := "algorithms.cuts.edge_expansion"
  params := ["G", "S", "T"]
  body :=
    .new "_1" ;;
    algorithms_cuts_cut_size.call ["num_cut_edges"] ["G", "S", "T", "_1"] ;;
    .ite (.new "Tnvals")
      (.new "Tnvals") ;;
    .new "_2" ;;
    .ret ["_2"]

/-- `mixing_expansion` -- algorithms/cuts.py:64-66 -/
def algorithms_cuts_mixing_expansion : Fn where
  name := "algorithms.cuts.mixing_expansion"
  params := ["G", "S", "T"]
  body :=
    .new "_1" ;;
    algorithms_cuts_cut_size.call ["num_cut_edges"] ["G", "S", "T", "_1"] ;;
    .new "_2" ;;
    .ret ["_2"]

/-- `node_expansion` -- algorithms/cuts.py:69-71 -/
def algorithms_cuts_node_expansion : Fn where
  name := "algorithms.cuts.node_expansion"
  params := ["G", "S"]
  body :=
    .new "neighborhood" ;;
    .new "_1" ;;
    .ret ["_1"]

/-- `boundary_expansion` -- algorithms/cuts.py:74-76 -/
def algorithms_cuts_boundary_expansion : Fn where
  name := "algorithms.cuts.boundary_expansion"
  params := ["G", "S"]
  body :=
    .new "_1" ;;
    algorithms_boundary_node_boundary.call ["result"] ["G", "S", "_1"] ;;
    .new "_2" ;;
    .ret ["_2"]

/-- `descendants` -- algorithms/dag.py:6-10 -/
def algorithms_dag_descendants : Fn where
  name := "algorithms.dag.descendants"
  params := ["G", "source"]
  body :=
    .new "_1" ;;
    .new "_2" ;;
    .new "_3" ;;
    .new "_4" ;;
    .new "_5" ;;
    algorithms__bfs__bfs_plain.call ["rv"] ["G", "source", "_2", "_3", "_4", "_5", "_1"] ;;
    .new "index" ;;
    .write "rv" ;;
    .ret ["rv"]

/-- `ancestors` -- algorithms/dag.py:13-17 -/
def algorithms_dag_ancestors : Fn where
  name := "algorithms.dag.ancestors"
  params := ["G", "source"]
  body :=
    .new "_1" ;;
    .new "_2" ;;
    .new "_3" ;;
    .new "_4" ;;
    .new "_5" ;;
    algorithms__bfs__bfs_plain.call ["rv"] ["G", "source", "_3", "_4", "_5", "_1", "_2"] ;;
    .new "index" ;;
    .write "rv" ;;
    .ret ["rv"]

/-- `is_dominating_set` -- algorithms/dominating.py:6-8 -/
def algorithms_dominating_is_dominating_set : Fn where
  name := "algorithms.dominating.is_dominating_set"
  params := ["G", "nbunch"]
  body :=
    .new "nbrs" ;;
    .new "_1" ;;
    .ret ["_1"]

/-- `bidirectional_shortest_path_length` -- algorithms/shortest_paths/unweighted.py:32-64 -/
def algorithms_shortest_paths_unweighted_bidirectional_shortest_path_length : Fn where
  name := "algorithms.shortest_paths.unweighted.bidirectional_shortest_path_length"
  params := ["G", "source", "target"]
  body :=
    .new "i" ;;
    .new "_2" ;;
    .new "src" ;;
    .new "dst" ;;
    .ite (.new "_1" ;;
      .ret ["_1"])
      (.skip) ;;
    .shared "_p" ;;
    .shared "A" ;;
    .new "q_src" ;;
    .write "q_src" ;;
    .new "seen_src" ;;
    .new "q_dst" ;;
    .write "q_dst" ;;
    .new "seen_dst" ;;
    .new "any_pair_bool" ;;
    .loop ["_2", "any_pair_bool", "dst", "i", "q_dst", "q_src", "seen_dst", "seen_src", "src"]
      (.new "i" ;;
      .write "q_src" ;;
      .ite (.ret ["i"])
        (.skip) ;;
      .write "seen_dst" ;;
      .write "q_dst" ;;
      .ite (.new "_2" ;;
        .ret ["_2"])
        (.skip) ;;
      .write "seen_src")

/-- `efficiency` -- algorithms/efficiency_measures.py:7-12 -/
def algorithms_efficiency_measures_efficiency : Fn where
  name := "algorithms.efficiency_measures.efficiency"
  params := ["G", "u", "v"]
  body :=
    .attempt []
      (algorithms_shortest_paths_unweighted_bidirectional_shortest_path_length.call [] ["G", "u", "v"] ;;
      .new "eff")
      (.new "eff") ;;
    .ret ["eff"]

/-- `is_isolate` -- algorithms/isolate.py:4-10 -/
def algorithms_isolate_is_isolate : Fn where
  name := "algorithms.isolate.is_isolate"
  params := ["G", "n"]
  body :=
    .new "index" ;;
    .ite (.shared "_p" ;;
      .shared "degrees")
      (.shared "_p" ;;
      .shared "degrees") ;;
    .new "_1" ;;
    .ret ["_1"]

/-- `isolates` -- algorithms/isolate.py:13-18 -/
def algorithms_isolate_isolates : Fn where
  name := "algorithms.isolate.isolates"
  params := ["G"]
  body :=
    .ite (.shared "_p" ;;
      .shared "degrees")
      (.shared "_p" ;;
      .shared "degrees") ;;
    .new "_1" ;;
    .ret ["_1"]

/-- `number_of_isolates` -- algorithms/isolate.py:21-26 -/
def algorithms_isolate_number_of_isolates : Fn where
  name := "algorithms.isolate.number_of_isolates"
  params := ["G"]
  body :=
    .ite (.shared "_p" ;;
      .shared "degrees")
      (.shared "_p" ;;
      .shared "degrees") ;;
    .new "_1" ;;
    .ret ["_1"]

/-- `lowest_common_ancestor` -- algorithms/lowest_common_ancestors.py:9-21 -/
def algorithms_lowest_common_ancestors_lowest_common_ancestor : Fn where
  name := "algorithms.lowest_common_ancestors.lowest_common_ancestor"
  params := ["G", "node1", "node2", "default"]
  body :=
    .new "_1" ;;
    .new "_2" ;;
    .new "_3" ;;
    .new "_4" ;;
    .new "_5" ;;
    algorithms__bfs__bfs_plain.call ["common_ancestors"] ["G", "node1", "_3", "_4", "_5", "_2", "_1"] ;;
    .new "_6" ;;
    .new "_7" ;;
    .new "_8" ;;
    .new "_9" ;;
    .new "_10" ;;
    algorithms__bfs__bfs_plain.call ["other_ancestors"] ["G", "node2", "_8", "_9", "_10", "_7", "_6"] ;;
    .write "common_ancestors" ;;
    .ite (.ret ["default"])
      (.skip) ;;
    .write "other_ancestors" ;;
    .write "common_ancestors" ;;
    .new "index" ;;
    .new "_11" ;;
    .ret ["_11"]

/-- `reciprocity` -- algorithms/reciprocity.py:8-12 -/
def algorithms_reciprocity_reciprocity : Fn where
  name := "algorithms.reciprocity.reciprocity"
  params := ["G", "mask"]
  body :=
    .shared "_p" ;;
    .shared "overlap" ;;
    .shared "total_degrees" ;;
    .new "_1" ;;
    .ret ["_1"]

/-- `overall_reciprocity` -- algorithms/reciprocity.py:15-22 -/
def algorithms_reciprocity_overall_reciprocity : Fn where
  name := "algorithms.reciprocity.overall_reciprocity"
  params := ["G"]
  body :=
    .new "n_all_edge" ;;
    .shared "_p" ;;
    .new "n_overlap_edges" ;;
    .new "has_self_edges" ;;
    .ite (.shared "_p" ;;
      .write "n_overlap_edges")
      (.skip) ;;
    .new "_1" ;;
    .ret ["_1"]

/-- `is_regular` -- algorithms/regular.py:6-23 -/
def algorithms_regular_is_regular : Fn where
  name := "algorithms.regular.is_regular"
  params := ["G"]
  body :=
    .ite (.shared "_p" ;;
      .shared "degrees" ;;
      .ite (.new "_1" ;;
        .ret ["_1"])
        (.skip) ;;
      .new "d" ;;
      .new "_2" ;;
      .ret ["_2"])
      (.skip) ;;
    .shared "_p" ;;
    .shared "row_degrees" ;;
    .ite (.new "_3" ;;
      .ret ["_3"])
      (.skip) ;;
    .shared "_p" ;;
    .shared "column_degrees" ;;
    .ite (.new "_4" ;;
      .ret ["_4"])
      (.skip) ;;
    .new "d" ;;
    .ite (.new "_5" ;;
      .ret ["_5"])
      (.skip) ;;
    .new "d" ;;
    .new "_6" ;;
    .ret ["_6"]

/-- `is_k_regular` -- algorithms/regular.py:26-30 -/
def algorithms_regular_is_k_regular : Fn where
  name := "algorithms.regular.is_k_regular"
  params := ["G", "k"]
  body :=
    .shared "_p" ;;
    .shared "degrees" ;;
    .ite (.new "_1" ;;
      .ret ["_1"])
      (.skip) ;;
    .new "_2" ;;
    .ret ["_2"]

/-- `is_simple_path` -- algorithms/simple_paths.py:6-21 -/
def algorithms_simple_paths_is_simple_path : Fn where
  name := "algorithms.simple_paths.is_simple_path"
  params := ["G", "nodes"]
  body :=
    .ite (.new "_1" ;;
      .ret ["_1"])
      (.skip) ;;
    .ite (.new "_2" ;;
      .ret ["_2"])
      (.skip) ;;
    .shared "A" ;;
    .ite (.new "_3" ;;
      .ret ["_3"])
      (.skip) ;;
    .shared "key_to_id" ;;
    .new "indices" ;;
    .ite (.new "_4" ;;
      .ret ["_4"])
      (.skip) ;;
    .new "P" ;;
    .write "P" ;;
    .new "_5" ;;
    .ret ["_5"]

/-- `s_metric` -- algorithms/smetric.py:6-11 -/
def algorithms_smetric_s_metric : Fn where
  name := "algorithms.smetric.s_metric"
  params := ["G"]
  body :=
    .ite (.shared "_p" ;;
      .shared "degrees")
      (.shared "_p" ;;
      .shared "degrees") ;;
    .new "_1" ;;
    .ret ["_1"]

/-- `mutual_weight` -- algorithms/structuralholes.py:4-11 -/
def algorithms_structuralholes_mutual_weight : Fn where
  name := "algorithms.structuralholes.mutual_weight"
  params := ["G", "u", "v"]
  body :=
    .shared "key_to_id" ;;
    .ite (.new "_1" ;;
      .ret ["_1"])
      (.skip) ;;
    .new "u" ;;
    .new "v" ;;
    .shared "A" ;;
    .new "_2" ;;
    .ret ["_2"]

/-- `is_tournament` -- algorithms/tournament.py:7-13 -/
def algorithms_tournament_is_tournament : Fn where
  name := "algorithms.tournament.is_tournament"
  params := ["G"]
  body :=
    .shared "A" ;;
    .ite (.shared "_p")
      (.skip) ;;
    .ite (.new "_1" ;;
      .ret ["_1"])
      (.skip) ;;
    .new "val" ;;
    .new "_2" ;;
    .ret ["_2"]

/-- `score_sequence` -- algorithms/tournament.py:16-22 -/
def algorithms_tournament_score_sequence : Fn where
  name := "algorithms.tournament.score_sequence"
  params := ["G"]
  body :=
    .shared "_p" ;;
    .shared "degrees" ;;
    .new "_" ;;
    .new "values" ;;
    .ite (.new "values")
      (.skip) ;;
    .ret ["values"]

/-- `tournament_matrix` -- algorithms/tournament.py:25-27 -/
def algorithms_tournament_tournament_matrix : Fn where
  name := "algorithms.tournament.tournament_matrix"
  params := ["G"]
  body :=
    .shared "A" ;;
    .new "_1" ;;
    .ret ["_1"]

/-- `is_triad` -- algorithms/triads.py:6-12 -/
def algorithms_triads_is_triad : Fn where
  name := "algorithms.triads.is_triad"
  params := ["G"]
  body :=
    .ite (.shared "_p")
      (.skip) ;;
    .new "_1" ;;
    .ret ["_1"]

/-- `_degree_centrality` -- algorithms/centrality/degree_alg.py:6-14 -/
def algorithms_centrality_degree_alg__degree_centrality : Fn where
  name := "algorithms.centrality.degree_alg._degree_centrality"
  params := ["G", "degrees", "name"]
  body :=
    .new "N" ;;
    .new "rv" ;;
    .ite (.write "rv")
      (.new "s" ;;
      .write "rv") ;;
    .ret ["rv"]

/-- `degree_centrality` -- algorithms/centrality/degree_alg.py:17-22 -/
def algorithms_centrality_degree_alg_degree_centrality : Fn where
  name := "algorithms.centrality.degree_alg.degree_centrality"
  params := ["G", "name"]
  body :=
    .ite (.shared "_p" ;;
      .shared "degrees")
      (.shared "_p" ;;
      .shared "degrees") ;;
    algorithms_centrality_degree_alg__degree_centrality.call ["_1"] ["G", "degrees", "name"] ;;
    .ret ["_1"]

/-- `in_degree_centrality` -- algorithms/centrality/degree_alg.py:25-27 -/
def algorithms_centrality_degree_alg_in_degree_centrality : Fn where
  name := "algorithms.centrality.degree_alg.in_degree_centrality"
  params := ["G", "name"]
  body :=
    .shared "_p" ;;
    .shared "degrees" ;;
    algorithms_centrality_degree_alg__degree_centrality.call ["_1"] ["G", "degrees", "name"] ;;
    .ret ["_1"]

/-- `out_degree_centrality` -- algorithms/centrality/degree_alg.py:30-32 -/
def algorithms_centrality_degree_alg_out_degree_centrality : Fn where
  name := "algorithms.centrality.degree_alg.out_degree_centrality"
  params := ["G", "name"]
  body :=
    .shared "_p" ;;
    .shared "degrees" ;;
    algorithms_centrality_degree_alg__degree_centrality.call ["_1"] ["G", "degrees", "name"] ;;
    .ret ["_1"]

/-- `eigenvector_centrality` -- algorithms/centrality/eigenvector.py:9-33 -/
def algorithms_centrality_eigenvector_eigenvector_centrality : Fn where
  name := "algorithms.centrality.eigenvector.eigenvector_centrality"
  params := ["G", "max_iter", "tol", "nstart", "name"]
  body :=
    .new "_i" ;;
    .new "_1" ;;
    .new "N" ;;
    .new "x" ;;
    .ite (.write "x")
      (.write "x" ;;
      .new "denom" ;;
      .write "x") ;;
    .shared "A" ;;
    .new "xprev" ;;
    .loop ["N", "_1", "_i", "x", "xprev"]
      (.new "_i" ;;
      .write "xprev" ;;
      .write "x" ;;
      .new "_1" ;;
      algorithms__helpers_normalize.call [] ["x", "_1"] ;;
      algorithms__helpers_is_converged.call [] ["xprev", "x", "tol"] ;;
      .ite (.write "x" ;;
        .ret ["x"])
        (.skip))

/-- `katz_centrality` -- algorithms/centrality/katz.py:11-55 -/
def algorithms_centrality_katz_katz_centrality : Fn where
  name := "algorithms.centrality.katz.katz_centrality"
  params := ["G", "alpha", "beta", "max_iter", "tol", "nstart", "normalized", "name"]
  body :=
    .new "_i" ;;
    .new "_1" ;;
    .new "_2" ;;
    .new "xprev" ;;
    .new "x" ;;
    .new "_3" ;;
    .new "N" ;;
    .new "x" ;;
    .ite (.write "x")
      (.write "x") ;;
    .ite (.new "b")
      (.move "b" "beta") ;;
    .shared "A" ;;
    .shared "_p" ;;
    .shared "iso_value" ;;
    .ite (.new "alpha" ;;
      .new "semiring")
      (.new "semiring") ;;
    .new "xprev" ;;
    .loop ["N", "_1", "_2", "_3", "_i", "semiring", "x", "xprev"]
      (.new "_i" ;;
      .move "_1" "x" ;;
      .move "_2" "xprev" ;;
      .move "xprev" "_1" ;;
      .move "x" "_2" ;;
      .write "x" ;;
      .write "x" ;;
      .write "x" ;;
      algorithms__helpers_is_converged.call [] ["xprev", "x", "tol"] ;;
      .ite (.write "x" ;;
        .ite (.new "_3" ;;
          algorithms__helpers_normalize.call [] ["x", "_3"])
          (.skip) ;;
        .ret ["x"])
        (.skip))

/-- `intra_community_edges` -- algorithms/community/quality.py:6-12 -/
def algorithms_community_quality_intra_community_edges : Fn where
  name := "algorithms.community.quality.intra_community_edges"
  params := ["G", "partition"]
  body :=
    .new "block" ;;
    .shared "A" ;;
    .new "count" ;;
    .loop ["count"]
      (.shared "block" ;;
      .write "count") ;;
    .ret ["count"]

/-- `inter_community_edges` -- algorithms/community/quality.py:15-21 -/
def algorithms_community_quality_inter_community_edges : Fn where
  name := "algorithms.community.quality.inter_community_edges"
  params := ["G", "partition"]
  body :=
    .new "block" ;;
    .shared "A" ;;
    .new "count" ;;
    .loop ["count"]
      (.shared "block" ;;
      .write "count") ;;
    .ret ["count"]

/-- `is_connected` -- algorithms/components/connected.py:5-8 -/
def algorithms_components_connected_is_connected : Fn where
  name := "algorithms.components.connected.is_connected"
  params := ["G"]
  body :=
    .new "_2" ;;
    .new "_3" ;;
    .new "_4" ;;
    .new "_5" ;;
    .new "_6" ;;
    .new "_7" ;;
    algorithms__bfs__bfs_plain.call [] ["G", "_2", "_3", "_4", "_5", "_6", "_7"] ;;
    .new "_1" ;;
    .ret ["_1"]

/-- `node_connected_component` -- algorithms/components/connected.py:11-12 -/
def algorithms_components_connected_node_connected_component : Fn where
  name := "algorithms.components.connected.node_connected_component"
  params := ["G", "n"]
  body :=
    .new "_2" ;;
    .new "_3" ;;
    .new "_4" ;;
    .new "_5" ;;
    .new "_6" ;;
    algorithms__bfs__bfs_plain.call ["_1"] ["G", "n", "_2", "_3", "_4", "_5", "_6"] ;;
    .ret ["_1"]

/-- `is_weakly_connected` -- algorithms/components/weakly_connected.py:5-8 -/
def algorithms_components_weakly_connected_is_weakly_connected : Fn where
  name := "algorithms.components.weakly_connected.is_weakly_connected"
  params := ["G"]
  body :=
    .new "_2" ;;
    algorithms__bfs__bfs_plain_bidirectional.call [] ["G", "_2"] ;;
    .new "_1" ;;
    .ret ["_1"]

/-- `fast_could_be_isomorphic` -- algorithms/isomorphism/isomorph.py:12-40 -/
def algorithms_isomorphism_isomorph_fast_could_be_isomorphic : Fn where
  name := "algorithms.isomorphism.isomorph.fast_could_be_isomorphic"
  params := ["G1", "G2"]
  body :=
    .ite (.new "_1" ;;
      .ret ["_1"])
      (.skip) ;;
    .ite (.new "_2")
      (.new "_2") ;;
    .shared "_p" ;;
    .shared "d1" ;;
    .ite (.new "_3")
      (.new "_3") ;;
    .shared "_p" ;;
    .shared "d2" ;;
    .ite (.new "_4" ;;
      .ret ["_4"])
      (.skip) ;;
    .new "_5" ;;
    .new "_6" ;;
    algorithms_cluster_triangles.call ["t1"] ["G1", "_5", "_6"] ;;
    .new "_7" ;;
    .new "_8" ;;
    algorithms_cluster_triangles.call ["t2"] ["G2", "_7", "_8"] ;;
    .ite (.new "_9" ;;
      .ret ["_9"])
      (.skip) ;;
    .ite (.write "t1")
      (.skip) ;;
    .ite (.write "t2")
      (.skip) ;;
    .new "d1" ;;
    .new "d2" ;;
    .new "t1" ;;
    .new "t2" ;;
    .new "ind1" ;;
    .new "ind2" ;;
    .ite (.new "_10" ;;
      .ret ["_10"])
      (.skip) ;;
    .ite (.new "_11" ;;
      .ret ["_11"])
      (.skip) ;;
    .new "_12" ;;
    .ret ["_12"]

/-- `faster_could_be_isomorphic` -- algorithms/isomorphism/isomorph.py:43-56 -/
def algorithms_isomorphism_isomorph_faster_could_be_isomorphic : Fn where
  name := "algorithms.isomorphism.isomorph.faster_could_be_isomorphic"
  params := ["G1", "G2"]
  body :=
    .ite (.new "_1" ;;
      .ret ["_1"])
      (.skip) ;;
    .ite (.new "_2")
      (.new "_2") ;;
    .shared "_p" ;;
    .shared "d1" ;;
    .ite (.new "_3")
      (.new "_3") ;;
    .shared "_p" ;;
    .shared "d2" ;;
    .ite (.new "_4" ;;
      .ret ["_4"])
      (.skip) ;;
    .new "d1" ;;
    .new "d2" ;;
    .ite (.new "_5" ;;
      .ret ["_5"])
      (.skip) ;;
    .new "_6" ;;
    .ret ["_6"]

/-- `hits` -- algorithms/link_analysis/hits_alg.py:9-62 -/
def algorithms_link_analysis_hits_alg_hits : Fn where
  name := "algorithms.link_analysis.hits_alg.hits"
  params := ["G", "max_iter", "tol", "nstart", "normalized", "with_authority"]
  body :=
    .new "_i" ;;
    .new "_3" ;;
    .new "_4" ;;
    .new "aprev" ;;
    .new "a" ;;
    .new "_5" ;;
    .new "_6" ;;
    .new "_7" ;;
    .new "hprev" ;;
    .new "h" ;;
    .new "_8" ;;
    .new "N" ;;
    .new "h" ;;
    .new "a" ;;
    .ite (.ret ["h", "a"])
      (.skip) ;;
    .ite (.write "h")
      (.write "h" ;;
      .new "denom" ;;
      .write "h") ;;
    .shared "A" ;;
    .ite (.move "_1" "h" ;;
      .move "_2" "a" ;;
      .move "a" "_1" ;;
      .move "h" "_2" ;;
      .new "ATA" ;;
      .new "aprev" ;;
      .loop ["ATA", "N", "_1", "_2", "_3", "_4", "_5", "_6", "_7", "_8", "_i", "a", "aprev", "h", "hprev"]
        (.new "_i" ;;
        .move "_3" "a" ;;
        .move "_4" "aprev" ;;
        .move "aprev" "_3" ;;
        .move "a" "_4" ;;
        .write "a" ;;
        .new "_5" ;;
        algorithms__helpers_normalize.call [] ["a", "_5"] ;;
        algorithms__helpers_is_converged.call [] ["aprev", "a", "tol"] ;;
        .ite (.write "h")
          (.skip)))
      (.new "hprev" ;;
      .loop ["N", "_3", "_4", "_5", "_6", "_7", "_8", "_i", "a", "aprev", "h", "hprev"]
        (.new "_i" ;;
        .move "_6" "h" ;;
        .move "_7" "hprev" ;;
        .move "hprev" "_6" ;;
        .move "h" "_7" ;;
        .write "a" ;;
        .write "h" ;;
        .new "_8" ;;
        algorithms__helpers_normalize.call [] ["h", "_8"] ;;
        algorithms__helpers_is_converged.call [] ["hprev", "h", "tol"])) ;;
    .ite (.new "_9" ;;
      algorithms__helpers_normalize.call [] ["h", "_9"] ;;
      .new "_10" ;;
      algorithms__helpers_normalize.call [] ["a", "_10"])
      (.ite (.new "_11" ;;
        algorithms__helpers_normalize.call [] ["h", "_11"])
        (.new "_12" ;;
        algorithms__helpers_normalize.call [] ["a", "_12"])) ;;
    .write "h" ;;
    .write "a" ;;
    .ret ["h", "a"]

/-- `pagerank` -- algorithms/link_analysis/pagerank_alg.py:12-101 -/
def algorithms_link_analysis_pagerank_alg_pagerank : Fn where
  name := "algorithms.link_analysis.pagerank_alg.pagerank"
  params := ["G", "alpha", "personalization", "max_iter", "tol", "nstart", "dangling", "row_degrees", "name"]
  body :=
    .new "_i" ;;
    .new "_2" ;;
    .new "_3" ;;
    .new "xprev" ;;
    .new "x" ;;
    .shared "A" ;;
    .new "N" ;;
    .ite (.new "_1" ;;
      .ret ["_1"])
      (.skip) ;;
    .new "x" ;;
    .ite (.write "x")
      (.new "denom" ;;
      .write "x") ;;
    .ite (.new "p")
      (.new "denom" ;;
      .new "p") ;;
    .ite (.shared "_p" ;;
      .shared "row_degrees")
      (.skip) ;;
    .new "S" ;;
    .shared "_p" ;;
    .shared "iso_value" ;;
    .ite (.ite (.write "S")
        (.skip) ;;
      .new "semiring")
      (.new "semiring") ;;
    .new "is_dangling" ;;
    .ite (.new "dangling_mask" ;;
      .write "dangling_mask" ;;
      .ite (.new "dangling_weights")
        (.ite (.write "dangling_mask")
          (.new "dangling_weights")))
      (.skip) ;;
    .write "p" ;;
    .new "xprev" ;;
    .new "w" ;;
    .loop ["N", "S", "_2", "_3", "_i", "is_dangling", "p", "semiring", "w", "x", "xprev"]
      (.new "_i" ;;
      .move "_2" "x" ;;
      .move "_3" "xprev" ;;
      .move "xprev" "_2" ;;
      .move "x" "_3" ;;
      .write "x" ;;
      .ite (.ite (.write "x")
          (.write "x"))
        (.skip) ;;
      .write "w" ;;
      .write "x" ;;
      algorithms__helpers_is_converged.call [] ["xprev", "x", "tol"] ;;
      .ite (.write "x" ;;
        .ret ["x"])
        (.skip))

/-- `google_matrix` -- algorithms/link_analysis/pagerank_alg.py:104-162 -/
def algorithms_link_analysis_pagerank_alg_google_matrix : Fn where
  name := "algorithms.link_analysis.pagerank_alg.google_matrix"
  params := ["G", "alpha", "personalization", "nodelist", "dangling", "name"]
  body :=
    .shared "A" ;;
    classes__utils_list_to_ids.call ["ids"] ["G", "nodelist"] ;;
    .ite (.new "A")
      (.new "A") ;;
    .new "N" ;;
    .ite (.ret ["A"])
      (.skip) ;;
    .ite (.new "p")
      (.ite (.new "personalization")
        (.skip) ;;
      .new "denom" ;;
      .new "p") ;;
    .ite (.shared "_p" ;;
      .shared "nonempty_rows")
      (.new "nonempty_rows") ;;
    .new "is_dangling" ;;
    .ite (.new "empty_rows" ;;
      .ite (.ite (.new "dangling")
          (.skip) ;;
        .new "dangling_weights" ;;
        .write "A")
        (.ite (.write "A")
          (.write "A")))
      (.skip) ;;
    .new "scale" ;;
    .write "scale" ;;
    .write "A" ;;
    .write "p" ;;
    .ite (.write "A")
      (.write "A") ;;
    .ret ["A"]

/-- `union` -- algorithms/operators/binary.py:16-43 -/
def algorithms_operators_binary_union : Fn where
  name := "algorithms.operators.binary.union"
  params := ["G", "H", "rename", "name"]
  body :=
    .ite (.new "prefix" ;;
      .ite (.shared "G")
        (.skip) ;;
      .ite (.new "prefix" ;;
        .ite (.shared "H")
          (.skip))
        (.skip))
      (.skip) ;;
    .shared "A" ;;
    .shared "B" ;;
    .new "C" ;;
    .write "C" ;;
    .write "C" ;;
    .new "offset" ;;
    .new "key_to_id" ;;
    .write "key_to_id" ;;
    .move "_1" "C" ;;
    .ret ["_1"]

/-- `disjoint_union` -- algorithms/operators/binary.py:46-56 -/
def algorithms_operators_binary_disjoint_union : Fn where
  name := "algorithms.operators.binary.disjoint_union"
  params := ["G", "H", "name"]
  body :=
    .shared "A" ;;
    .shared "B" ;;
    .new "C" ;;
    .write "C" ;;
    .write "C" ;;
    .move "_1" "C" ;;
    .ret ["_1"]

/-- `intersection` -- algorithms/operators/binary.py:59-70 -/
def algorithms_operators_binary_intersection : Fn where
  name := "algorithms.operators.binary.intersection"
  params := ["G", "H", "name"]
  body :=
    .new "keys" ;;
    classes__utils_list_to_ids.call ["ids"] ["G", "keys"] ;;
    .new "A" ;;
    classes__utils_list_to_ids.call ["ids"] ["H", "keys"] ;;
    .new "B" ;;
    .write "B" ;;
    .move "_1" "B" ;;
    .ret ["_1"]

/-- `difference` -- algorithms/operators/binary.py:73-89 -/
def algorithms_operators_binary_difference : Fn where
  name := "algorithms.operators.binary.difference"
  params := ["G", "H", "name"]
  body :=
    .shared "A" ;;
    .ite (.shared "B")
      (.new "keys" ;;
      classes__utils_list_to_ids.call ["ids"] ["H", "keys"] ;;
      .new "B") ;;
    .new "C" ;;
    .move "_1" "C" ;;
    .ret ["_1"]

/-- `symmetric_difference` -- algorithms/operators/binary.py:92-109 -/
def algorithms_operators_binary_symmetric_difference : Fn where
  name := "algorithms.operators.binary.symmetric_difference"
  params := ["G", "H", "name"]
  body :=
    .shared "A" ;;
    .ite (.shared "B")
      (.new "keys" ;;
      classes__utils_list_to_ids.call ["ids"] ["H", "keys"] ;;
      .new "B") ;;
    .new "Mask" ;;
    .new "C" ;;
    .move "_1" "C" ;;
    .ret ["_1"]

/-- `compose` -- algorithms/operators/binary.py:112-147 -/
def algorithms_operators_binary_compose : Fn where
  name := "algorithms.operators.binary.compose"
  params := ["G", "H", "name"]
  body :=
    .shared "A" ;;
    .shared "B" ;;
    .ite (.ite (.new "keys" ;;
        classes__utils_list_to_ids.call ["ids"] ["H", "keys"] ;;
        .new "B")
        (.skip) ;;
      .new "C" ;;
      .shared "key_to_id")
      (.new "keys" ;;
      .shared "B" ;;
      .new "C" ;;
      .write "C" ;;
      classes__utils_list_to_ids.call ["ids1"] ["G", "keys"] ;;
      classes__utils_list_to_ids.call ["ids2"] ["H", "keys"] ;;
      .write "C" ;;
      .new "newkeys" ;;
      classes__utils_list_to_ids.call ["ids"] ["H", "newkeys"] ;;
      .write "C" ;;
      .write "ids" ;;
      .new "key_to_id" ;;
      .write "key_to_id") ;;
    .move "_1" "C" ;;
    .ret ["_1"]

/-- `full_join` -- algorithms/operators/binary.py:150-155 -/
def algorithms_operators_binary_full_join : Fn where
  name := "algorithms.operators.binary.full_join"
  params := ["G", "H", "rename", "name"]
  body :=
    algorithms_operators_binary_union.call ["rv"] ["G", "H", "rename", "name"] ;;
    .new "nrows" ;;
    .new "ncols" ;;
    .write "rv" ;;
    .write "rv" ;;
    .ret ["rv"]

/-- `complement` -- algorithms/operators/unary.py:8-12 -/
def algorithms_operators_unary_complement : Fn where
  name := "algorithms.operators.unary.complement"
  params := ["G", "name"]
  body :=
    .shared "A" ;;
    .new "R" ;;
    .write "R" ;;
    .move "_1" "R" ;;
    .ret ["_1"]

/-- `reverse` -- algorithms/operators/unary.py:15-18 -/
def algorithms_operators_unary_reverse : Fn where
  name := "algorithms.operators.unary.reverse"
  params := ["G", "copy"]
  body :=
    classes_digraph_DiGraph_reverse.call ["_1"] ["G", "copy"] ;;
    .ret ["_1"]

/-- `floyd_warshall_predecessor_and_distance` -- algorithms/shortest_paths/dense.py:13-111 -/
def algorithms_shortest_paths_dense_floyd_warshall_predecessor_and_distance : Fn where
  name := "algorithms.shortest_paths.dense.floyd_warshall_predecessor_and_distance"
  params := ["G", "is_weighted", "compute_predecessors", "permutation"]
  body :=
    .new "i" ;;
    .new "Col" ;;
    .new "is_directed" ;;
    .ite (.shared "_p" ;;
      .shared "A" ;;
      .shared "row_degrees" ;;
      .shared "column_degrees" ;;
      .new "nonempty_nodes")
      (.shared "_p" ;;
      .shared "A" ;;
      .shared "nonempty_nodes") ;;
    .ite (.new "A" ;;
      .new "nonempty_nodes")
      (.skip) ;;
    .ite (.new "dtype")
      (.new "dtype") ;;
    .new "n" ;;
    .new "D" ;;
    .ite (.write "D")
      (.write "D") ;;
    .new "Row" ;;
    .ite (.new "Col")
      (.new "Col") ;;
    .new "Outer" ;;
    .ite (.new "Mask" ;;
      .new "P" ;;
      .ite (.move "P_row" "Row")
        (.new "P_row"))
      (.new "_m" ;;
      .move "Mask" "_m" ;;
      .move "P" "_m" ;;
      .move "P_row" "_m") ;;
    .loop ["Col", "D", "Mask", "Outer", "P", "P_row", "Row", "dtype", "is_directed", "n"]
      (.shared "i" ;;
      .write "Row" ;;
      .ite (.write "Col")
        (.write "Row" ;;
        .move "Col" "Row") ;;
      .write "Outer" ;;
      .ite (.ite (.write "D")
          (.write "D"))
        (.ite (.write "Mask")
          (.write "Mask") ;;
        .write "Mask" ;;
        .write "Outer" ;;
        .write "D" ;;
        .write "P_row" ;;
        .ite (.write "P_row" ;;
          .move "Col" "P_row")
          (.skip) ;;
        .write "P")) ;;
    .ite (.write "D" ;;
      .ite (.write "P")
        (.skip))
      (.skip) ;;
    .new "diag_mask" ;;
    .write "diag_mask" ;;
    .new "Diag_mask" ;;
    .write "D" ;;
    .ret ["P", "D"]

/-- `floyd_warshall` -- algorithms/shortest_paths/dense.py:9-10 -/
def algorithms_shortest_paths_dense_floyd_warshall : Fn where
  name := "algorithms.shortest_paths.dense.floyd_warshall"
  params := ["G", "is_weighted"]
  body :=
    .new "_2" ;;
    .new "_3" ;;
    algorithms_shortest_paths_dense_floyd_warshall_predecessor_and_distance.call [] ["G", "is_weighted", "_2", "_3"] ;;
    .new "_1" ;;
    .ret ["_1"]

/-- `has_path` -- algorithms/shortest_paths/generic.py:7-12 -/
def algorithms_shortest_paths_generic_has_path : Fn where
  name := "algorithms.shortest_paths.generic.has_path"
  params := ["G", "source", "target"]
  body :=
    .attempt []
      (algorithms_shortest_paths_unweighted_bidirectional_shortest_path_length.call [] ["G", "source", "target"])
      (.new "_1" ;;
      .ret ["_1"]) ;;
    .new "_2" ;;
    .ret ["_2"]

/-- `single_source_shortest_path_length` -- algorithms/shortest_paths/unweighted.py:14-15 -/
def algorithms_shortest_paths_unweighted_single_source_shortest_path_length : Fn where
  name := "algorithms.shortest_paths.unweighted.single_source_shortest_path_length"
  params := ["G", "source", "cutoff"]
  body :=
    .new "_2" ;;
    .new "_3" ;;
    .new "_4" ;;
    algorithms__bfs__bfs_level.call ["_1"] ["G", "source", "_2", "cutoff", "_3", "_4"] ;;
    .ret ["_1"]

/-- `single_target_shortest_path_length` -- algorithms/shortest_paths/unweighted.py:18-19 -/
def algorithms_shortest_paths_unweighted_single_target_shortest_path_length : Fn where
  name := "algorithms.shortest_paths.unweighted.single_target_shortest_path_length"
  params := ["G", "target", "cutoff"]
  body :=
    .new "_2" ;;
    .new "_3" ;;
    .new "_4" ;;
    algorithms__bfs__bfs_level.call ["_1"] ["G", "target", "_3", "cutoff", "_2", "_4"] ;;
    .ret ["_1"]

/-- `all_pairs_shortest_path_length` -- algorithms/shortest_paths/unweighted.py:22-29 -/
def algorithms_shortest_paths_unweighted_all_pairs_shortest_path_length : Fn where
  name := "algorithms.shortest_paths.unweighted.all_pairs_shortest_path_length"
  params := ["G", "cutoff", "nodes", "expand_output"]
  body :=
    .new "_1" ;;
    algorithms__bfs__bfs_levels.call ["D"] ["G", "nodes", "cutoff", "_1"] ;;
    .ite (classes__utils_list_to_ids.call ["ids"] ["G", "nodes"] ;;
      .new "rv" ;;
      .write "rv" ;;
      .ret ["rv"])
      (.skip) ;;
    .ret ["D"]

/-- `_bellman_ford_path_length` -- algorithms/shortest_paths/weighted.py:17-105 -/
def algorithms_shortest_paths_weighted__bellman_ford_path_length : Fn where
  name := "algorithms.shortest_paths.weighted._bellman_ford_path_length"
  params := ["G", "source", "target", "cutoff", "name"]
  body :=
    .new "_i" ;;
    .new "src_id" ;;
    .ite (.new "dst_id")
      (.new "dst_id") ;;
    .shared "_p" ;;
    .ite (.shared "_p" ;;
      .new "is_negative" ;;
      .shared "iso_value" ;;
      .ite (.ite (.new "cutoff")
          (.skip) ;;
        .new "_1" ;;
        .new "_2" ;;
        algorithms__bfs__bfs_level.call ["d"] ["G", "source", "target", "cutoff", "_2", "_1"] ;;
        .ite (.new "d")
          (.skip) ;;
        .ite (.write "d")
          (.skip) ;;
        .ret ["d"])
        (.skip))
      (.skip) ;;
    .ite (.shared "_p" ;;
      .shared "A" ;;
      .new "has_negative_diagonal")
      (.shared "_p" ;;
      .shared "A" ;;
      .new "is_negative" ;;
      .new "has_negative_diagonal") ;;
    .ite (.new "dtype")
      (.new "dtype") ;;
    .new "n" ;;
    .new "d" ;;
    .write "d" ;;
    .new "cur" ;;
    .new "mask" ;;
    .new "one" ;;
    .loop ["_i", "cur", "d", "dst_id", "dtype", "has_negative_diagonal", "mask", "n", "one", "src_id"]
      (.new "_i" ;;
      .write "cur" ;;
      .ite (.write "cur")
        (.skip) ;;
      .write "mask" ;;
      .write "mask" ;;
      .write "cur" ;;
      .write "d" ;;
      .ite (.new "cutoff")
        (.skip)) ;;
    (.write "cur" ;;
    .ite (.write "cur")
      (.skip) ;;
    .write "mask") ;;
    .ite (.shared "_p" ;;
      .shared "diag" ;;
      .write "cur")
      (.skip) ;;
    .ite (.new "d")
      (.skip) ;;
    .ret ["d"]

/-- `single_source_bellman_ford_path_length` -- algorithms/shortest_paths/weighted.py:108-111 -/
def algorithms_shortest_paths_weighted_single_source_bellman_ford_path_length : Fn where
  name := "algorithms.shortest_paths.weighted.single_source_bellman_ford_path_length"
  params := ["G", "source", "cutoff", "name"]
  body :=
    .new "_2" ;;
    algorithms_shortest_paths_weighted__bellman_ford_path_length.call ["_1"] ["G", "source", "_2", "cutoff", "name"] ;;
    .ret ["_1"]

/-- `bellman_ford_path_length` -- algorithms/shortest_paths/weighted.py:114-115 -/
def algorithms_shortest_paths_weighted_bellman_ford_path_length : Fn where
  name := "algorithms.shortest_paths.weighted.bellman_ford_path_length"
  params := ["G", "source", "target"]
  body :=
    .new "_2" ;;
    .new "_3" ;;
    algorithms_shortest_paths_weighted__bellman_ford_path_length.call ["_1"] ["G", "source", "target", "_3", "_2"] ;;
    .ret ["_1"]

/-- `bellman_ford_path_lengths` -- algorithms/shortest_paths/weighted.py:118-197 -/
def algorithms_shortest_paths_weighted_bellman_ford_path_lengths : Fn where
  name := "algorithms.shortest_paths.weighted.bellman_ford_path_lengths"
  params := ["G", "nodes", "expand_output"]
  body :=
    .new "_i" ;;
    .shared "_p" ;;
    .ite (.shared "_p" ;;
      .new "is_negative" ;;
      .shared "iso_value" ;;
      .ite (.new "_1" ;;
        .new "_2" ;;
        algorithms__bfs__bfs_levels.call ["D"] ["G", "nodes", "_2", "_1"] ;;
        .ite (.write "D")
          (.skip) ;;
        .ite (classes__utils_list_to_ids.call ["ids"] ["G", "nodes"] ;;
          .new "rv" ;;
          .write "rv" ;;
          .ret ["rv"])
          (.skip) ;;
        .ret ["D"])
        (.skip) ;;
      .ite (.ite (classes__utils_list_to_ids.call ["ids"] ["G", "nodes"])
          (.skip))
        (.skip))
      (.skip) ;;
    .shared "_p" ;;
    .shared "A" ;;
    .new "has_negative_diagonal" ;;
    .ite (.new "dtype")
      (.new "dtype") ;;
    .new "n" ;;
    .ite (.new "D" ;;
      .write "D" ;;
      .new "D")
      (classes__utils_list_to_ids.call ["ids"] ["G", "nodes"] ;;
      .new "D") ;;
    .new "Cur" ;;
    .new "Mask" ;;
    .new "one" ;;
    .loop ["Cur", "D", "Mask", "_i", "dtype", "has_negative_diagonal", "n", "one"]
      (.new "_i" ;;
      .write "Cur" ;;
      .write "Mask" ;;
      .write "Mask" ;;
      .write "Cur" ;;
      .write "D") ;;
    (.write "Cur" ;;
    .write "Mask") ;;
    .ite (.shared "_p" ;;
      .shared "diag" ;;
      .new "cur")
      (.skip) ;;
    .ite (.new "rv" ;;
      .write "rv" ;;
      .ret ["rv"])
      (.skip) ;;
    .ret ["D"]

/-- `_reconstruct_path_from_parents` -- algorithms/shortest_paths/weighted.py:200-210 -/
def algorithms_shortest_paths_weighted__reconstruct_path_from_parents : Fn where
  name := "algorithms.shortest_paths.weighted._reconstruct_path_from_parents"
  params := ["G", "parents", "src", "dst"]
  body :=
    .new "cur" ;;
    .new "indices" ;;
    .new "values" ;;
    .new "d" ;;
    .ite (.new "_1" ;;
      .ret ["_1"])
      (.skip) ;;
    .move "cur" "dst" ;;
    .new "path" ;;
    .loop ["d", "indices", "path", "values"]
      (.new "cur" ;;
      .write "path") ;;
    .new "_3" ;;
    classes__utils_list_to_keys.call ["_2"] ["G", "_3"] ;;
    .ret ["_2"]

/-- `bellman_ford_path` -- algorithms/shortest_paths/weighted.py:213-308 -/
def algorithms_shortest_paths_weighted_bellman_ford_path : Fn where
  name := "algorithms.shortest_paths.weighted.bellman_ford_path"
  params := ["G", "source", "target"]
  body :=
    .new "_i" ;;
    .new "cutoff" ;;
    .new "rows" ;;
    .new "cols" ;;
    .new "_5" ;;
    .new "_6" ;;
    .new "prev" ;;
    .new "cur" ;;
    .new "src_id" ;;
    .new "dst_id" ;;
    .shared "_p" ;;
    .ite (.shared "_p" ;;
      .new "is_negative" ;;
      .ite (.new "_1" ;;
        .new "_2" ;;
        .new "_3" ;;
        algorithms__bfs__bfs_parent.call ["p"] ["G", "source", "target", "_1", "_2", "_3"] ;;
        algorithms_shortest_paths_weighted__reconstruct_path_from_parents.call ["_4"] ["G", "p", "src_id", "dst_id"] ;;
        .ret ["_4"])
        (.skip))
      (.skip) ;;
    .shared "_p" ;;
    .shared "A" ;;
    .new "is_negative" ;;
    .new "has_negative_diagonal" ;;
    .ite (.new "dtype")
      (.new "dtype") ;;
    .new "cutoff" ;;
    .new "n" ;;
    .new "d" ;;
    .write "d" ;;
    .new "p" ;;
    .write "p" ;;
    .new "prev" ;;
    .new "cur" ;;
    .new "indices" ;;
    .new "mask" ;;
    .new "B" ;;
    .new "Indices" ;;
    .new "cols" ;;
    .new "one" ;;
    .loop ["B", "Indices", "_5", "_6", "_i", "cols", "cur", "cutoff", "d", "dst_id", "dtype", "has_negative_diagonal", "indices", "is_negative", "mask", "n", "one", "p", "prev", "rows", "src_id"]
      (.new "_i" ;;
      .write "cur" ;;
      .ite (.write "cur")
        (.skip) ;;
      .write "mask" ;;
      .write "mask" ;;
      .write "cur" ;;
      .write "d" ;;
      .ite (.new "cutoff")
        (.skip) ;;
      .move "rows" "cols" ;;
      .new "cols" ;;
      .write "B" ;;
      .write "B" ;;
      .write "B" ;;
      .write "B" ;;
      .write "B" ;;
      .write "Indices" ;;
      .write "indices" ;;
      .write "p" ;;
      .move "_5" "cur" ;;
      .move "_6" "prev" ;;
      .move "prev" "_5" ;;
      .move "cur" "_6") ;;
    (.write "cur" ;;
    .ite (.write "cur")
      (.skip) ;;
    .write "mask") ;;
    algorithms_shortest_paths_weighted__reconstruct_path_from_parents.call ["path"] ["G", "p", "src_id", "dst_id"] ;;
    .ite (.write "mask" ;;
      .write "mask" ;;
      .shared "_p" ;;
      .shared "diag" ;;
      .write "mask" ;;
      .ite (.new "indices" ;;
        .new "_" ;;
        .new "_7" ;;
        .new "_8" ;;
        .new "_9" ;;
        algorithms__bfs__bfs_plain.call ["q"] ["G", "_7", "target", "indices", "_i", "_8", "_9"])
        (.skip))
      (.skip) ;;
    .ret ["path"]

/-- `negative_edge_cycle` -- algorithms/shortest_paths/weighted.py:311-348 -/
def algorithms_shortest_paths_weighted_negative_edge_cycle : Fn where
  name := "algorithms.shortest_paths.weighted.negative_edge_cycle"
  params := ["G"]
  body :=
    .new "_i" ;;
    .new "_3" ;;
    .ite (.new "deg")
      (.new "deg") ;;
    .shared "_p" ;;
    .shared "A" ;;
    .shared "degrees" ;;
    .shared "has_negative_diagonal" ;;
    .shared "has_negative_edges" ;;
    .ite (.new "_1" ;;
      .ret ["_1"])
      (.skip) ;;
    .ite (.new "_2" ;;
      .ret ["_2"])
      (.skip) ;;
    .ite (.new "dtype")
      (.new "dtype") ;;
    .new "n" ;;
    .new "d" ;;
    .write "d" ;;
    .new "cur" ;;
    .new "mask" ;;
    .new "one" ;;
    .loop ["_3", "_i", "cur", "d", "deg", "dtype", "mask", "n", "one"]
      (.new "_i" ;;
      .write "cur" ;;
      .write "mask" ;;
      .write "mask" ;;
      .write "cur" ;;
      .ite (.new "_3" ;;
        .ret ["_3"])
        (.skip) ;;
      .write "d") ;;
    .write "cur" ;;
    .write "mask" ;;
    .ite (.new "_4" ;;
      .ret ["_4"])
      (.skip) ;;
    .new "_5" ;;
    .ret ["_5"]

/-- `bfs_layers` -- algorithms/traversal/breadth_first_search.py:10-27 -/
def algorithms_traversal_breadth_first_search_bfs_layers : Fn where
  name := "algorithms.traversal.breadth_first_search.bfs_layers"
  params := ["G", "sources"]
  body :=
    .new "i" ;;
    .new "_2" ;;
    .ite (.new "sources")
      (.skip) ;;
    classes__utils_list_to_ids.call ["ids"] ["G", "sources"] ;;
    .ite (.ret [])
      (.skip) ;;
    .shared "_p" ;;
    .shared "A" ;;
    .new "n" ;;
    .new "v" ;;
    .new "q" ;;
    .new "any_pair_bool" ;;
    .new "_1" ;;
    .yield ["_1"] ;;
    .loop ["_1", "_2", "any_pair_bool", "i", "ids", "n", "q", "v"]
      (.new "i" ;;
      .write "v" ;;
      .write "q" ;;
      .ite (.ret [])
        (.skip) ;;
      .new "_2" ;;
      .yield ["_2"])

/-- `descendants_at_distance` -- algorithms/traversal/breadth_first_search.py:30-45 -/
def algorithms_traversal_breadth_first_search_descendants_at_distance : Fn where
  name := "algorithms.traversal.breadth_first_search.descendants_at_distance"
  params := ["G", "source", "distance"]
  body :=
    .new "_i" ;;
    .new "index" ;;
    .shared "_p" ;;
    .shared "A" ;;
    .new "n" ;;
    .new "q" ;;
    .write "q" ;;
    .ite (.ret ["q"])
      (.skip) ;;
    .new "v" ;;
    .new "any_pair_bool" ;;
    .loop ["_i", "any_pair_bool", "index", "n", "q", "v"]
      (.new "_i" ;;
      .write "v" ;;
      .write "q") ;;
    .ret ["q"]

/-- `bethe_hessian_matrix` -- linalg/bethehessianmatrix.py:6-25 -/
def linalg_bethehessianmatrix_bethe_hessian_matrix : Fn where
  name := "linalg.bethehessianmatrix.bethe_hessian_matrix"
  params := ["G", "r", "nodelist", "name"]
  body :=
    .shared "A" ;;
    .ite (classes__utils_list_to_ids.call ["ids"] ["G", "nodelist"] ;;
      .new "A" ;;
      .new "d")
      (.shared "_p" ;;
      .shared "d") ;;
    .ite (.shared "_p" ;;
      .shared "degrees" ;;
      .new "k" ;;
      .new "k2" ;;
      .new "r")
      (.skip) ;;
    .new "n" ;;
    .new "ri" ;;
    .write "ri" ;;
    .new "rI" ;;
    .write "rI" ;;
    .ret ["rI"]

/-- `adjacency_matrix` -- linalg/graphmatrix.py:6-19 -/
def linalg_graphmatrix_adjacency_matrix : Fn where
  name := "linalg.graphmatrix.adjacency_matrix"
  params := ["G", "nodelist", "dtype", "is_weighted", "name"]
  body :=
    .ite (.new "dtype")
      (.skip) ;;
    .ite (.new "is_weighted")
      (.skip) ;;
    .ite (.ite (.new "_1" ;;
        .ret ["_1"])
        (.skip) ;;
      .new "_2" ;;
      .ret ["_2"])
      (.skip) ;;
    classes__utils_list_to_ids.call ["ids"] ["G", "nodelist"] ;;
    .new "A" ;;
    .ite (.write "A")
      (.skip) ;;
    .ret ["A"]

/-- `_laplacian_helper` -- linalg/laplacianmatrix.py:9-24 -/
def linalg_laplacianmatrix__laplacian_helper : Fn where
  name := "linalg.laplacianmatrix._laplacian_helper"
  params := ["G", "nodelist", "is_weighted"]
  body :=
    .ite (.new "is_weighted")
      (.skip) ;;
    .shared "A" ;;
    .ite (classes__utils_list_to_ids.call ["ids"] ["G", "nodelist"] ;;
      .new "A" ;;
      .ite (.write "A")
        (.skip) ;;
      .new "d")
      (.ite (.shared "_p" ;;
        .shared "d")
        (.shared "_p" ;;
        .shared "d" ;;
        .new "A")) ;;
    .ret ["d", "A"]

/-- `laplacian_matrix` -- linalg/laplacianmatrix.py:27-30 -/
def linalg_laplacianmatrix_laplacian_matrix : Fn where
  name := "linalg.laplacianmatrix.laplacian_matrix"
  params := ["G", "nodelist", "is_weighted", "name"]
  body :=
    linalg_laplacianmatrix__laplacian_helper.call ["d", "A"] ["G", "nodelist", "is_weighted"] ;;
    .new "D" ;;
    .new "_1" ;;
    .ret ["_1"]

/-- `normalized_laplacian_matrix` -- linalg/laplacianmatrix.py:33-54 -/
def linalg_laplacianmatrix_normalized_laplacian_matrix : Fn where
  name := "linalg.laplacianmatrix.normalized_laplacian_matrix"
  params := ["G", "nodelist", "is_weighted", "name"]
  body :=
    linalg_laplacianmatrix__laplacian_helper.call ["d", "A"] ["G", "nodelist", "is_weighted"] ;;
    .new "d_invsqrt" ;;
    .write "d_invsqrt" ;;
    .new "A_weighted" ;;
    .write "A_weighted" ;;
    .write "d_invsqrt" ;;
    .new "D" ;;
    .write "A_weighted" ;;
    .ret ["A_weighted"]

/-- `modularity_matrix` -- linalg/modularitymatrix.py:8-14 -/
def linalg_modularitymatrix_modularity_matrix : Fn where
  name := "linalg.modularitymatrix.modularity_matrix"
  params := ["G", "nodelist", "is_weighted", "name"]
  body :=
    linalg_laplacianmatrix__laplacian_helper.call ["k", "A"] ["G", "nodelist", "is_weighted"] ;;
    .new "m" ;;
    .new "X" ;;
    .write "X" ;;
    .write "X" ;;
    .ret ["X"]

/-- `directed_modularity_matrix` -- linalg/modularitymatrix.py:17-37 -/
def linalg_modularitymatrix_directed_modularity_matrix : Fn where
  name := "linalg.modularitymatrix.directed_modularity_matrix"
  params := ["G", "nodelist", "is_weighted", "name"]
  body :=
    .shared "A" ;;
    .ite (classes__utils_list_to_ids.call ["ids"] ["G", "nodelist"] ;;
      .new "A" ;;
      .ite (.write "A")
        (.skip) ;;
      .new "k_out" ;;
      .new "k_in")
      (.ite (.shared "_p" ;;
        .shared "k_out" ;;
        .shared "k_in")
        (.new "A" ;;
        .shared "_p" ;;
        .shared "k_out" ;;
        .shared "k_in")) ;;
    .new "m" ;;
    .new "X" ;;
    .write "X" ;;
    .write "X" ;;
    .ret ["X"]

/-- `ego_graph` -- generators/ego.py:7-24 -/
def generators_ego_ego_graph : Fn where
  name := "generators.ego.ego_graph"
  params := ["G", "n", "radius", "center", "undirected", "is_weighted"]
  body :=
    .ite (.new "_1" ;;
      .new "_2" ;;
      .new "_3" ;;
      classes_digraph_DiGraph_to_undirected.call ["G2"] ["G", "_1", "_2", "_3"])
      (.move "G2" "G") ;;
    .ite (.new "_4" ;;
      algorithms_shortest_paths_weighted_single_source_bellman_ford_path_length.call ["v"] ["G2", "n", "radius", "_4"])
      (.new "_5" ;;
      .new "_6" ;;
      .new "_7" ;;
      .new "_8" ;;
      algorithms__bfs__bfs_plain.call ["v"] ["G2", "n", "_5", "_6", "radius", "_7", "_8"]) ;;
    .ite (.write "v")
      (.skip) ;;
    .new "indices" ;;
    .new "_" ;;
    .new "A" ;;
    .new "_9" ;;
    classes__utils_renumber_key_to_id.call ["key_to_id"] ["G", "_9"] ;;
    .move "_10" "A" ;;
    .ret ["_10"]

/-- `edge_boundary` -- nxapi/boundary.py:9-45 -/
def nxapi_boundary_edge_boundary : Fn where
  name := "nxapi.boundary.edge_boundary"
  params := ["G", "nbunch1", "nbunch2", "data", "keys", "default"]
  body :=
    .new "is_multigraph" ;;
    .ite (.new "weight")
      (.ite (.new "weight")
        (.move "weight" "data")) ;;
    .shared "G" ;;
    .new "_1" ;;
    .new "_2" ;;
    .new "_3" ;;
    .new "_4" ;;
    classes__utils_set_to_vector.call ["v1"] ["G", "nbunch1", "_2", "_1", "_3", "_4"] ;;
    .new "_5" ;;
    .new "_6" ;;
    .new "_7" ;;
    .new "_8" ;;
    classes__utils_set_to_vector.call ["v2"] ["G", "nbunch2", "_6", "_5", "_7", "_8"] ;;
    .shared "_9" ;;
    algorithms_boundary_edge_boundary.call ["result"] ["G", "v1", "v2", "_9"] ;;
    .new "rows" ;;
    .new "cols" ;;
    .new "vals" ;;
    .shared "id_to_key" ;;
    .ite (.new "it")
      (.new "it") ;;
    .ite (.new "it")
      (.skip) ;;
    .ret ["it"]

/-- `node_boundary` -- nxapi/boundary.py:48-56 -/
def nxapi_boundary_node_boundary : Fn where
  name := "nxapi.boundary.node_boundary"
  params := ["G", "nbunch1", "nbunch2"]
  body :=
    .shared "G" ;;
    .new "_1" ;;
    .new "_2" ;;
    .new "_3" ;;
    .new "_4" ;;
    classes__utils_set_to_vector.call ["v1"] ["G", "nbunch1", "_2", "_1", "_3", "_4"] ;;
    .ite (.new "_5" ;;
      .new "_6" ;;
      .new "_7" ;;
      .new "_8" ;;
      classes__utils_set_to_vector.call ["mask"] ["G", "nbunch2", "_6", "_5", "_7", "_8"])
      (.new "mask") ;;
    algorithms_boundary_node_boundary.call ["result"] ["G", "v1", "mask"] ;;
    classes__utils_vector_to_nodeset.call ["_9"] ["G", "result"] ;;
    .ret ["_9"]

/-- `triangles` -- nxapi/cluster.py:21-29 -/
def nxapi_cluster_triangles : Fn where
  name := "nxapi.cluster.triangles"
  params := ["G", "nodes"]
  body :=
    .shared "G" ;;
    .ite (.new "_1" ;;
      .ret ["_1"])
      (.skip) ;;
    .ite (.new "_3" ;;
      algorithms_cluster_single_triangle.call ["_2"] ["G", "nodes", "_3"] ;;
      .ret ["_2"])
      (.skip) ;;
    .new "_4" ;;
    .new "_5" ;;
    classes__utils_list_to_mask.call ["mask"] ["G", "nodes", "_4", "_5"] ;;
    .new "_6" ;;
    algorithms_cluster_triangles.call ["result"] ["G", "_6", "mask"] ;;
    .new "_8" ;;
    .new "_9" ;;
    classes__utils_vector_to_nodemap.call ["_7"] ["G", "result", "mask", "_8", "_9"] ;;
    .ret ["_7"]

/-- `transitivity` -- nxapi/cluster.py:32-40 -/
def nxapi_cluster_transitivity : Fn where
  name := "nxapi.cluster.transitivity"
  params := ["G"]
  body :=
    .shared "G" ;;
    .ite (.new "_1" ;;
      .ret ["_1"])
      (.skip) ;;
    .ite (.new "func")
      (.new "func") ;;
    .ite (algorithms_cluster_transitivity.call ["_c"] ["G"])
      (.ite (algorithms_cluster_transitivity_directed.call ["_c"] ["G"])
        (.skip)) ;;
    .shared "_2" ;;
    .ret ["_2"]

/-- `clustering` -- nxapi/cluster.py:43-57 -/
def nxapi_cluster_clustering : Fn where
  name := "nxapi.cluster.clustering"
  params := ["G", "nodes", "weight"]
  body :=
    .shared "G" ;;
    .ite (.new "_1" ;;
      .ret ["_1"])
      (.skip) ;;
    .new "weighted" ;;
    .ite (.ite (algorithms_cluster_single_clustering_directed.call ["_2"] ["G", "nodes", "weighted"] ;;
        .ret ["_2"])
        (.skip) ;;
      algorithms_cluster_single_clustering.call ["_3"] ["G", "nodes", "weighted"] ;;
      .ret ["_3"])
      (.skip) ;;
    .new "_4" ;;
    .new "_5" ;;
    classes__utils_list_to_mask.call ["mask"] ["G", "nodes", "_4", "_5"] ;;
    .ite (algorithms_cluster_clustering_directed.call ["result"] ["G", "weighted", "mask"])
      (algorithms_cluster_clustering.call ["result"] ["G", "weighted", "mask"]) ;;
    .new "_7" ;;
    .new "_8" ;;
    classes__utils_vector_to_nodemap.call ["_6"] ["G", "result", "mask", "_7", "_8"] ;;
    .ret ["_6"]

/-- `average_clustering` -- nxapi/cluster.py:60-78 -/
def nxapi_cluster_average_clustering : Fn where
  name := "nxapi.cluster.average_clustering"
  params := ["G", "nodes", "weight", "count_zeros"]
  body :=
    .shared "G" ;;
    .new "weighted" ;;
    .new "_1" ;;
    .new "_2" ;;
    classes__utils_list_to_mask.call ["mask"] ["G", "nodes", "_1", "_2"] ;;
    .ite (.new "func")
      (.new "func") ;;
    .ite (.ite (.new "_5" ;;
        algorithms_cluster_average_clustering.call ["_c"] ["G", "count_zeros", "weighted", "_5"])
        (.ite (.new "_4" ;;
          algorithms_cluster_average_clustering_directed.call ["_c"] ["G", "count_zeros", "weighted", "_4"])
          (.skip)) ;;
      .shared "_3" ;;
      .ret ["_3"])
      (.skip) ;;
    .ite (algorithms_cluster_average_clustering.call ["_7"] ["G", "count_zeros", "weighted", "mask"])
      (algorithms_cluster_average_clustering_directed.call ["_7"] ["G", "count_zeros", "weighted", "mask"]) ;;
    .move "_6" "_7" ;;
    .ret ["_6"]

/-- `_square_clustering_split` -- nxapi/cluster.py:82-92 -/
def nxapi_cluster__square_clustering_split : Fn where
  name := "nxapi.cluster._square_clustering_split"
  params := ["G", "node_ids", "chunksize"]
  body :=
    .new "chunk_ids" ;;
    .new "res" ;;
    .new "result" ;;
    .ite (.new "node_ids" ;;
      .new "_")
      (.skip) ;;
    .new "result" ;;
    .loop ["chunk_ids", "res", "result"]
      (.new "chunk_ids" ;;
      algorithms_cluster_square_clustering.call ["res"] ["G", "chunk_ids"] ;;
      .ite (.move "result" "res")
        (.write "result")) ;;
    .ret ["result"]

/-- `square_clustering` -- nxapi/cluster.py:95-121 -/
def nxapi_cluster_square_clustering : Fn where
  name := "nxapi.cluster.square_clustering"
  params := ["G", "nodes", "chunksize"]
  body :=
    .shared "G" ;;
    .ite (.new "_1" ;;
      .ret ["_1"])
      (.skip) ;;
    .new "chunksize" ;;
    .ite (.ite (.new "_2" ;;
        algorithms_cluster_square_clustering.call ["result"] ["G", "_2"])
        (.new "_3" ;;
        nxapi_cluster__square_clustering_split.call ["result"] ["G", "_3", "chunksize"]) ;;
      .new "_5" ;;
      .new "_6" ;;
      .new "_7" ;;
      classes__utils_vector_to_nodemap.call ["_4"] ["G", "result", "_6", "_5", "_7"] ;;
      .ret ["_4"])
      (.skip) ;;
    .ite (.new "idx" ;;
      algorithms_cluster_single_square_clustering.call ["_8"] ["G", "idx"] ;;
      .ret ["_8"])
      (.skip) ;;
    classes__utils_list_to_ids.call ["ids"] ["G", "nodes"] ;;
    .ite (algorithms_cluster_square_clustering.call ["result"] ["G", "ids"])
      (nxapi_cluster__square_clustering_split.call ["result"] ["G", "ids", "chunksize"]) ;;
    .new "_10" ;;
    .new "_11" ;;
    .new "_12" ;;
    classes__utils_vector_to_nodemap.call ["_9"] ["G", "result", "_10", "_11", "_12"] ;;
    .ret ["_9"]

/-- `generalized_degree` -- nxapi/cluster.py:125-134 -/
def nxapi_cluster_generalized_degree : Fn where
  name := "nxapi.cluster.generalized_degree"
  params := ["G", "nodes"]
  body :=
    .shared "G" ;;
    .ite (.new "_1" ;;
      .ret ["_1"])
      (.skip) ;;
    .ite (algorithms_cluster_single_generalized_degree.call ["result"] ["G", "nodes"] ;;
      .new "_3" ;;
      .new "_4" ;;
      .new "_5" ;;
      classes__utils_vector_to_nodemap.call ["_2"] ["G", "result", "_3", "_4", "_5"] ;;
      .ret ["_2"])
      (.skip) ;;
    .new "_6" ;;
    .new "_7" ;;
    classes__utils_list_to_mask.call ["mask"] ["G", "nodes", "_6", "_7"] ;;
    algorithms_cluster_generalized_degree.call ["result"] ["G", "mask"] ;;
    classes__utils_matrix_to_vectornodemap.call ["_8"] ["G", "result"] ;;
    .ret ["_8"]

/-- `k_truss` -- nxapi/core.py:10-13 -/
def nxapi_core_k_truss : Fn where
  name := "nxapi.core.k_truss"
  params := ["G", "k"]
  body :=
    .shared "G" ;;
    algorithms_core_k_truss.call ["result"] ["G", "k"] ;;
    .ret ["result"]

/-- `cut_size` -- nxapi/cuts.py:16-21 -/
def nxapi_cuts_cut_size : Fn where
  name := "nxapi.cuts.cut_size"
  params := ["G", "S", "T", "weight"]
  body :=
    .new "is_multigraph" ;;
    .shared "G" ;;
    .new "_1" ;;
    .new "_2" ;;
    .new "_3" ;;
    .new "_4" ;;
    classes__utils_set_to_vector.call ["S"] ["G", "S", "_2", "_1", "_3", "_4"] ;;
    .new "_5" ;;
    .new "_6" ;;
    .new "_7" ;;
    .new "_8" ;;
    classes__utils_set_to_vector.call ["T"] ["G", "T", "_6", "_5", "_7", "_8"] ;;
    .shared "_10" ;;
    algorithms_cuts_cut_size.call ["_9"] ["G", "S", "T", "_10"] ;;
    .ret ["_9"]

/-- `volume` -- nxapi/cuts.py:24-28 -/
def nxapi_cuts_volume : Fn where
  name := "nxapi.cuts.volume"
  params := ["G", "S", "weight"]
  body :=
    .new "is_multigraph" ;;
    .shared "G" ;;
    .new "_1" ;;
    .new "_2" ;;
    .new "_3" ;;
    .new "_4" ;;
    classes__utils_list_to_vector.call ["S"] ["G", "S", "_1", "_2", "_3", "_4"] ;;
    .shared "_6" ;;
    algorithms_cuts_volume.call ["_5"] ["G", "S", "_6"] ;;
    .ret ["_5"]

/-- `normalized_cut_size` -- nxapi/cuts.py:31-38 -/
def nxapi_cuts_normalized_cut_size : Fn where
  name := "nxapi.cuts.normalized_cut_size"
  params := ["G", "S", "T", "weight"]
  body :=
    .shared "G" ;;
    .new "_1" ;;
    .new "_2" ;;
    .new "_3" ;;
    .new "_4" ;;
    classes__utils_set_to_vector.call ["S"] ["G", "S", "_2", "_1", "_3", "_4"] ;;
    .ite (.new "T")
      (.new "_5" ;;
      .new "_6" ;;
      .new "_7" ;;
      .new "_8" ;;
      classes__utils_set_to_vector.call ["T"] ["G", "T", "_6", "_5", "_7", "_8"]) ;;
    algorithms_cuts_normalized_cut_size.call ["_9"] ["G", "S", "T"] ;;
    .ret ["_9"]

/-- `conductance` -- nxapi/cuts.py:41-48 -/
def nxapi_cuts_conductance : Fn where
  name := "nxapi.cuts.conductance"
  params := ["G", "S", "T", "weight"]
  body :=
    .shared "G" ;;
    .new "_1" ;;
    .new "_2" ;;
    .new "_3" ;;
    .new "_4" ;;
    classes__utils_set_to_vector.call ["S"] ["G", "S", "_2", "_1", "_3", "_4"] ;;
    .ite (.new "T")
      (.new "_5" ;;
      .new "_6" ;;
      .new "_7" ;;
      .new "_8" ;;
      classes__utils_set_to_vector.call ["T"] ["G", "T", "_6", "_5", "_7", "_8"]) ;;
    algorithms_cuts_conductance.call ["_9"] ["G", "S", "T"] ;;
    .ret ["_9"]

/-- `edge_expansion` -- nxapi/cuts.py:51-55 -/
def nxapi_cuts_edge_expansion : Fn where
  name := "nxapi.cuts.edge_expansion"
  params := ["G", "S", "T", "weight"]
  body :=
    .shared "G" ;;
    .new "_1" ;;
    .new "_2" ;;
    .new "_3" ;;
    .new "_4" ;;
    classes__utils_set_to_vector.call ["S"] ["G", "S", "_2", "_1", "_3", "_4"] ;;
    .new "_5" ;;
    .new "_6" ;;
    .new "_7" ;;
    .new "_8" ;;
    classes__utils_set_to_vector.call ["T"] ["G", "T", "_6", "_5", "_7", "_8"] ;;
    algorithms_cuts_edge_expansion.call ["_9"] ["G", "S", "T"] ;;
    .ret ["_9"]

/-- `mixing_expansion` -- nxapi/cuts.py:58-62 -/
def nxapi_cuts_mixing_expansion : Fn where
  name := "nxapi.cuts.mixing_expansion"
  params := ["G", "S", "T", "weight"]
  body :=
    .shared "G" ;;
    .new "_1" ;;
    .new "_2" ;;
    .new "_3" ;;
    .new "_4" ;;
    classes__utils_set_to_vector.call ["S"] ["G", "S", "_2", "_1", "_3", "_4"] ;;
    .new "_5" ;;
    .new "_6" ;;
    .new "_7" ;;
    .new "_8" ;;
    classes__utils_set_to_vector.call ["T"] ["G", "T", "_6", "_5", "_7", "_8"] ;;
    algorithms_cuts_mixing_expansion.call ["_9"] ["G", "S", "T"] ;;
    .ret ["_9"]

/-- `node_expansion` -- nxapi/cuts.py:65-68 -/
def nxapi_cuts_node_expansion : Fn where
  name := "nxapi.cuts.node_expansion"
  params := ["G", "S"]
  body :=
    .shared "G" ;;
    .new "_1" ;;
    .new "_2" ;;
    .new "_3" ;;
    .new "_4" ;;
    classes__utils_list_to_vector.call ["S"] ["G", "S", "_1", "_2", "_3", "_4"] ;;
    algorithms_cuts_node_expansion.call ["_5"] ["G", "S"] ;;
    .ret ["_5"]

/-- `boundary_expansion` -- nxapi/cuts.py:71-74 -/
def nxapi_cuts_boundary_expansion : Fn where
  name := "nxapi.cuts.boundary_expansion"
  params := ["G", "S"]
  body :=
    .shared "G" ;;
    .new "_1" ;;
    .new "_2" ;;
    .new "_3" ;;
    .new "_4" ;;
    classes__utils_set_to_vector.call ["S"] ["G", "S", "_2", "_1", "_3", "_4"] ;;
    algorithms_cuts_boundary_expansion.call ["_5"] ["G", "S"] ;;
    .ret ["_5"]

/-- `descendants` -- nxapi/dag.py:9-16 -/
def nxapi_dag_descendants : Fn where
  name := "nxapi.dag.descendants"
  params := ["G", "source"]
  body :=
    .shared "G" ;;
    algorithms_dag_descendants.call ["result"] ["G", "source"] ;;
    classes__utils_vector_to_nodeset.call ["_1"] ["G", "result"] ;;
    .ret ["_1"]

/-- `ancestors` -- nxapi/dag.py:19-26 -/
def nxapi_dag_ancestors : Fn where
  name := "nxapi.dag.ancestors"
  params := ["G", "source"]
  body :=
    .shared "G" ;;
    algorithms_dag_ancestors.call ["result"] ["G", "source"] ;;
    classes__utils_vector_to_nodeset.call ["_1"] ["G", "result"] ;;
    .ret ["_1"]

/-- `is_dominating_set` -- nxapi/dominating.py:7-10 -/
def nxapi_dominating_is_dominating_set : Fn where
  name := "nxapi.dominating.is_dominating_set"
  params := ["G", "nbunch"]
  body :=
    .shared "G" ;;
    .new "_1" ;;
    .new "_2" ;;
    .new "_3" ;;
    .new "_4" ;;
    classes__utils_set_to_vector.call ["v"] ["G", "nbunch", "_2", "_1", "_3", "_4"] ;;
    algorithms_dominating_is_dominating_set.call ["_5"] ["G", "v"] ;;
    .ret ["_5"]

/-- `efficiency` -- nxapi/efficiency_measures.py:7-9 -/
def nxapi_efficiency_measures_efficiency : Fn where
  name := "nxapi.efficiency_measures.efficiency"
  params := ["G", "u", "v"]
  body :=
    .shared "G" ;;
    algorithms_efficiency_measures_efficiency.call ["_1"] ["G", "u", "v"] ;;
    .ret ["_1"]

/-- `is_isolate` -- nxapi/isolate.py:7-9 -/
def nxapi_isolate_is_isolate : Fn where
  name := "nxapi.isolate.is_isolate"
  params := ["G", "n"]
  body :=
    .shared "G" ;;
    algorithms_isolate_is_isolate.call ["_1"] ["G", "n"] ;;
    .ret ["_1"]

/-- `isolates` -- nxapi/isolate.py:12-15 -/
def nxapi_isolate_isolates : Fn where
  name := "nxapi.isolate.isolates"
  params := ["G"]
  body :=
    .shared "G" ;;
    algorithms_isolate_isolates.call ["result"] ["G"] ;;
    classes__utils_vector_to_nodeset.call ["_1"] ["G", "result"] ;;
    .ret ["_1"]

/-- `number_of_isolates` -- nxapi/isolate.py:18-20 -/
def nxapi_isolate_number_of_isolates : Fn where
  name := "nxapi.isolate.number_of_isolates"
  params := ["G"]
  body :=
    .shared "G" ;;
    algorithms_isolate_number_of_isolates.call ["_1"] ["G"] ;;
    .ret ["_1"]

/-- `lowest_common_ancestor` -- nxapi/lowest_common_ancestors.py:9-11 -/
def nxapi_lowest_common_ancestors_lowest_common_ancestor : Fn where
  name := "nxapi.lowest_common_ancestors.lowest_common_ancestor"
  params := ["G", "node1", "node2", "default"]
  body :=
    .shared "G" ;;
    algorithms_lowest_common_ancestors_lowest_common_ancestor.call ["_1"] ["G", "node1", "node2", "default"] ;;
    .ret ["_1"]

/-- `overall_reciprocity` -- nxapi/reciprocity.py:28-33 -/
def nxapi_reciprocity_overall_reciprocity : Fn where
  name := "nxapi.reciprocity.overall_reciprocity"
  params := ["G"]
  body :=
    .shared "G" ;;
    algorithms_reciprocity_overall_reciprocity.call ["_1"] ["G"] ;;
    .ret ["_1"]

/-- `reciprocity` -- nxapi/reciprocity.py:11-24 -/
def nxapi_reciprocity_reciprocity : Fn where
  name := "nxapi.reciprocity.reciprocity"
  params := ["G", "nodes"]
  body :=
    .ite (nxapi_reciprocity_overall_reciprocity.call ["_1"] ["G"] ;;
      .ret ["_1"])
      (.skip) ;;
    .shared "G" ;;
    .ite (.new "_2" ;;
      .new "_3" ;;
      .new "_4" ;;
      classes__utils_list_to_mask.call ["mask"] ["G", "_2", "_3", "_4"] ;;
      algorithms_reciprocity_reciprocity.call ["result"] ["G", "mask"] ;;
      .new "rv" ;;
      .ret ["rv"])
      (.skip) ;;
    .new "_5" ;;
    .new "_6" ;;
    classes__utils_list_to_mask.call ["mask"] ["G", "nodes", "_5", "_6"] ;;
    algorithms_reciprocity_reciprocity.call ["result"] ["G", "mask"] ;;
    .new "_8" ;;
    .new "_9" ;;
    classes__utils_vector_to_nodemap.call ["_7"] ["G", "result", "mask", "_8", "_9"] ;;
    .ret ["_7"]

/-- `is_regular` -- nxapi/regular.py:9-11 -/
def nxapi_regular_is_regular : Fn where
  name := "nxapi.regular.is_regular"
  params := ["G"]
  body :=
    .shared "G" ;;
    algorithms_regular_is_regular.call ["_1"] ["G"] ;;
    .ret ["_1"]

/-- `is_k_regular` -- nxapi/regular.py:15-17 -/
def nxapi_regular_is_k_regular : Fn where
  name := "nxapi.regular.is_k_regular"
  params := ["G", "k"]
  body :=
    .shared "G" ;;
    algorithms_regular_is_k_regular.call ["_1"] ["G", "k"] ;;
    .ret ["_1"]

/-- `is_simple_path` -- nxapi/simple_paths.py:7-9 -/
def nxapi_simple_paths_is_simple_path : Fn where
  name := "nxapi.simple_paths.is_simple_path"
  params := ["G", "nodes"]
  body :=
    .shared "G" ;;
    algorithms_simple_paths_is_simple_path.call ["_1"] ["G", "nodes"] ;;
    .ret ["_1"]

/-- `s_metric` -- nxapi/smetric.py:9-22 -/
def nxapi_smetric_s_metric : Fn where
  name := "nxapi.smetric.s_metric"
  params := ["G"]
  body :=
    .shared "G" ;;
    algorithms_smetric_s_metric.call ["_1"] ["G"] ;;
    .ret ["_1"]

/-- `mutual_weight` -- nxapi/structuralholes.py:7-9 -/
def nxapi_structuralholes_mutual_weight : Fn where
  name := "nxapi.structuralholes.mutual_weight"
  params := ["G", "u", "v", "weight"]
  body :=
    .shared "G" ;;
    algorithms_structuralholes_mutual_weight.call ["_1"] ["G", "u", "v"] ;;
    .ret ["_1"]

/-- `is_tournament` -- nxapi/tournament.py:12-14 -/
def nxapi_tournament_is_tournament : Fn where
  name := "nxapi.tournament.is_tournament"
  params := ["G"]
  body :=
    .shared "G" ;;
    algorithms_tournament_is_tournament.call ["_1"] ["G"] ;;
    .ret ["_1"]

/-- `score_sequence` -- nxapi/tournament.py:19-22 -/
def nxapi_tournament_score_sequence : Fn where
  name := "nxapi.tournament.score_sequence"
  params := ["G"]
  body :=
    .shared "G" ;;
    algorithms_tournament_score_sequence.call [] ["G"] ;;
    .new "_1" ;;
    .ret ["_1"]

/-- `tournament_matrix` -- nxapi/tournament.py:27-30 -/
def nxapi_tournament_tournament_matrix : Fn where
  name := "nxapi.tournament.tournament_matrix"
  params := ["G"]
  body :=
    .shared "G" ;;
    algorithms_tournament_tournament_matrix.call ["_1"] ["G"] ;;
    .ret ["_1"]

/-- `is_triad` -- nxapi/triads.py:7-9 -/
def nxapi_triads_is_triad : Fn where
  name := "nxapi.triads.is_triad"
  params := ["G"]
  body :=
    .shared "G" ;;
    algorithms_triads_is_triad.call ["_1"] ["G"] ;;
    .ret ["_1"]

/-- `degree_centrality` -- nxapi/centrality/degree_alg.py:8-11 -/
def nxapi_centrality_degree_alg_degree_centrality : Fn where
  name := "nxapi.centrality.degree_alg.degree_centrality"
  params := ["G"]
  body :=
    .shared "G" ;;
    .new "_1" ;;
    algorithms_centrality_degree_alg_degree_centrality.call ["result"] ["G", "_1"] ;;
    .new "_3" ;;
    .new "_4" ;;
    .new "_5" ;;
    classes__utils_vector_to_nodemap.call ["_2"] ["G", "result", "_4", "_3", "_5"] ;;
    .ret ["_2"]

/-- `in_degree_centrality` -- nxapi/centrality/degree_alg.py:15-18 -/
def nxapi_centrality_degree_alg_in_degree_centrality : Fn where
  name := "nxapi.centrality.degree_alg.in_degree_centrality"
  params := ["G"]
  body :=
    .shared "G" ;;
    .new "_1" ;;
    algorithms_centrality_degree_alg_in_degree_centrality.call ["result"] ["G", "_1"] ;;
    .new "_3" ;;
    .new "_4" ;;
    .new "_5" ;;
    classes__utils_vector_to_nodemap.call ["_2"] ["G", "result", "_4", "_3", "_5"] ;;
    .ret ["_2"]

/-- `out_degree_centrality` -- nxapi/centrality/degree_alg.py:22-25 -/
def nxapi_centrality_degree_alg_out_degree_centrality : Fn where
  name := "nxapi.centrality.degree_alg.out_degree_centrality"
  params := ["G"]
  body :=
    .shared "G" ;;
    .new "_1" ;;
    algorithms_centrality_degree_alg_out_degree_centrality.call ["result"] ["G", "_1"] ;;
    .new "_3" ;;
    .new "_4" ;;
    .new "_5" ;;
    classes__utils_vector_to_nodemap.call ["_2"] ["G", "result", "_4", "_3", "_5"] ;;
    .ret ["_2"]

/-- `eigenvector_centrality` -- nxapi/centrality/eigenvector.py:11-22 -/
def nxapi_centrality_eigenvector_eigenvector_centrality : Fn where
  name := "nxapi.centrality.eigenvector.eigenvector_centrality"
  params := ["G", "max_iter", "tol", "nstart", "weight"]
  body :=
    .shared "G" ;;
    .new "_1" ;;
    .new "_2" ;;
    .new "_3" ;;
    classes__utils_dict_to_vector.call ["x"] ["G", "nstart", "_3", "_1", "_2"] ;;
    (.new "_4" ;;
    algorithms_centrality_eigenvector_eigenvector_centrality.call ["result"] ["G", "max_iter", "tol", "x", "_4"]) ;;
    .new "_6" ;;
    .new "_7" ;;
    .new "_8" ;;
    classes__utils_vector_to_nodemap.call ["_5"] ["G", "result", "_6", "_7", "_8"] ;;
    .ret ["_5"]

/-- `katz_centrality` -- nxapi/centrality/katz.py:11-40 -/
def nxapi_centrality_katz_katz_centrality : Fn where
  name := "nxapi.centrality.katz.katz_centrality"
  params := ["G", "alpha", "beta", "max_iter", "tol", "nstart", "normalized", "weight"]
  body :=
    .shared "G" ;;
    .ite (.new "_1" ;;
      .ret ["_1"])
      (.skip) ;;
    .new "_2" ;;
    .new "_3" ;;
    .new "_4" ;;
    classes__utils_dict_to_vector.call ["x"] ["G", "nstart", "_4", "_2", "_3"] ;;
    .attempt ["_2", "_3", "_4", "x"]
      (.new "b")
      (.new "_5" ;;
      .new "_6" ;;
      .new "_7" ;;
      classes__utils_dict_to_vector.call ["b"] ["G", "beta", "_7", "_5", "_6"]) ;;
    (.new "_8" ;;
    algorithms_centrality_katz_katz_centrality.call ["result"] ["G", "alpha", "b", "max_iter", "tol", "x", "normalized", "_8"]) ;;
    .new "_10" ;;
    .new "_11" ;;
    .new "_12" ;;
    classes__utils_vector_to_nodemap.call ["_9"] ["G", "result", "_10", "_11", "_12"] ;;
    .ret ["_9"]

/-- `intra_community_edges` -- nxapi/community/quality.py:7-10 -/
def nxapi_community_quality_intra_community_edges : Fn where
  name := "nxapi.community.quality.intra_community_edges"
  params := ["G", "partition"]
  body :=
    .new "_1" ;;
    .new "_2" ;;
    .new "_3" ;;
    .new "_4" ;;
    .shared "G" ;;
    .loop ["_1", "_2", "_3", "_4"]
      (.new "_1" ;;
      .new "_2" ;;
      .new "_3" ;;
      .new "_4" ;;
      classes__utils_set_to_vector.call [] ["G", "block", "_2", "_1", "_3", "_4"]) ;;
    .new "partition" ;;
    algorithms_community_quality_intra_community_edges.call ["_5"] ["G", "partition"] ;;
    .ret ["_5"]

/-- `inter_community_edges` -- nxapi/community/quality.py:13-16 -/
def nxapi_community_quality_inter_community_edges : Fn where
  name := "nxapi.community.quality.inter_community_edges"
  params := ["G", "partition"]
  body :=
    .new "_1" ;;
    .new "_2" ;;
    .new "_3" ;;
    .new "_4" ;;
    .shared "G" ;;
    .loop ["_1", "_2", "_3", "_4"]
      (.new "_1" ;;
      .new "_2" ;;
      .new "_3" ;;
      .new "_4" ;;
      classes__utils_set_to_vector.call [] ["G", "block", "_2", "_1", "_3", "_4"]) ;;
    .new "partition" ;;
    algorithms_community_quality_inter_community_edges.call ["_5"] ["G", "partition"] ;;
    .ret ["_5"]

/-- `is_connected` -- nxapi/components/connected.py:15-20 -/
def nxapi_components_connected_is_connected : Fn where
  name := "nxapi.components.connected.is_connected"
  params := ["G"]
  body :=
    .shared "G" ;;
    algorithms_components_connected_is_connected.call ["_1"] ["G"] ;;
    .ret ["_1"]

/-- `node_connected_component` -- nxapi/components/connected.py:24-27 -/
def nxapi_components_connected_node_connected_component : Fn where
  name := "nxapi.components.connected.node_connected_component"
  params := ["G", "n"]
  body :=
    .shared "G" ;;
    algorithms_components_connected_node_connected_component.call ["rv"] ["G", "n"] ;;
    classes__utils_vector_to_nodeset.call ["_1"] ["G", "rv"] ;;
    .ret ["_1"]

/-- `is_weakly_connected` -- nxapi/components/weakly_connected.py:14-19 -/
def nxapi_components_weakly_connected_is_weakly_connected : Fn where
  name := "nxapi.components.weakly_connected.is_weakly_connected"
  params := ["G"]
  body :=
    .shared "G" ;;
    algorithms_components_weakly_connected_is_weakly_connected.call ["_1"] ["G"] ;;
    .ret ["_1"]

/-- `ego_graph` -- nxapi/generators/ego.py:7-11 -/
def nxapi_generators_ego_ego_graph : Fn where
  name := "nxapi.generators.ego.ego_graph"
  params := ["G", "n", "radius", "center", "undirected", "distance"]
  body :=
    .shared "G" ;;
    .new "_2" ;;
    generators_ego_ego_graph.call ["_1"] ["G", "n", "radius", "center", "undirected", "_2"] ;;
    .ret ["_1"]

/-- `fast_could_be_isomorphic` -- nxapi/isomorphism/isomorph.py:10-13 -/
def nxapi_isomorphism_isomorph_fast_could_be_isomorphic : Fn where
  name := "nxapi.isomorphism.isomorph.fast_could_be_isomorphic"
  params := ["G1", "G2"]
  body :=
    .shared "G1" ;;
    .shared "G2" ;;
    algorithms_isomorphism_isomorph_fast_could_be_isomorphic.call ["_1"] ["G1", "G2"] ;;
    .ret ["_1"]

/-- `faster_could_be_isomorphic` -- nxapi/isomorphism/isomorph.py:19-22 -/
def nxapi_isomorphism_isomorph_faster_could_be_isomorphic : Fn where
  name := "nxapi.isomorphism.isomorph.faster_could_be_isomorphic"
  params := ["G1", "G2"]
  body :=
    .shared "G1" ;;
    .shared "G2" ;;
    algorithms_isomorphism_isomorph_faster_could_be_isomorphic.call ["_1"] ["G1", "G2"] ;;
    .ret ["_1"]

/-- `bethe_hessian_matrix` -- nxapi/linalg/bethehessianmatrix.py:10-12 -/
def nxapi_linalg_bethehessianmatrix_bethe_hessian_matrix : Fn where
  name := "nxapi.linalg.bethehessianmatrix.bethe_hessian_matrix"
  params := ["G", "r", "nodelist"]
  body :=
    .shared "G" ;;
    .new "_2" ;;
    linalg_bethehessianmatrix_bethe_hessian_matrix.call ["_1"] ["G", "r", "nodelist", "_2"] ;;
    .ret ["_1"]

/-- `adjacency_matrix` -- nxapi/linalg/graphmatrix.py:7-9 -/
def nxapi_linalg_graphmatrix_adjacency_matrix : Fn where
  name := "nxapi.linalg.graphmatrix.adjacency_matrix"
  params := ["G", "nodelist", "dtype", "weight"]
  body :=
    .shared "G" ;;
    .new "_2" ;;
    .new "_3" ;;
    linalg_graphmatrix_adjacency_matrix.call ["_1"] ["G", "nodelist", "dtype", "_2", "_3"] ;;
    .ret ["_1"]

/-- `laplacian_matrix` -- nxapi/linalg/laplacianmatrix.py:7-9 -/
def nxapi_linalg_laplacianmatrix_laplacian_matrix : Fn where
  name := "nxapi.linalg.laplacianmatrix.laplacian_matrix"
  params := ["G", "nodelist", "weight"]
  body :=
    .shared "G" ;;
    .new "_2" ;;
    .new "_3" ;;
    linalg_laplacianmatrix_laplacian_matrix.call ["_1"] ["G", "nodelist", "_2", "_3"] ;;
    .ret ["_1"]

/-- `normalized_laplacian_matrix` -- nxapi/linalg/laplacianmatrix.py:12-14 -/
def nxapi_linalg_laplacianmatrix_normalized_laplacian_matrix : Fn where
  name := "nxapi.linalg.laplacianmatrix.normalized_laplacian_matrix"
  params := ["G", "nodelist", "weight"]
  body :=
    .shared "G" ;;
    .new "_2" ;;
    .new "_3" ;;
    linalg_laplacianmatrix_normalized_laplacian_matrix.call ["_1"] ["G", "nodelist", "_2", "_3"] ;;
    .ret ["_1"]

/-- `modularity_matrix` -- nxapi/linalg/modularitymatrix.py:11-13 -/
def nxapi_linalg_modularitymatrix_modularity_matrix : Fn where
  name := "nxapi.linalg.modularitymatrix.modularity_matrix"
  params := ["G", "nodelist", "weight"]
  body :=
    .shared "G" ;;
    .new "_2" ;;
    .new "_3" ;;
    linalg_modularitymatrix_modularity_matrix.call ["_1"] ["G", "nodelist", "_2", "_3"] ;;
    .ret ["_1"]

/-- `directed_modularity_matrix` -- nxapi/linalg/modularitymatrix.py:18-20 -/
def nxapi_linalg_modularitymatrix_directed_modularity_matrix : Fn where
  name := "nxapi.linalg.modularitymatrix.directed_modularity_matrix"
  params := ["G", "nodelist", "weight"]
  body :=
    .shared "G" ;;
    .new "_2" ;;
    .new "_3" ;;
    linalg_modularitymatrix_directed_modularity_matrix.call ["_1"] ["G", "nodelist", "_2", "_3"] ;;
    .ret ["_1"]

/-- `hits` -- nxapi/link_analysis/hits_alg.py:9-22 -/
def nxapi_link_analysis_hits_alg_hits : Fn where
  name := "nxapi.link_analysis.hits_alg.hits"
  params := ["G", "max_iter", "tol", "nstart", "normalized"]
  body :=
    .shared "G" ;;
    .ite (.new "_1" ;;
      .new "_2" ;;
      .ret ["_1", "_2"])
      (.skip) ;;
    .new "_3" ;;
    .new "_4" ;;
    .new "_5" ;;
    classes__utils_dict_to_vector.call ["x"] ["G", "nstart", "_5", "_3", "_4"] ;;
    (.new "_6" ;;
    algorithms_link_analysis_hits_alg_hits.call ["h", "a"] ["G", "max_iter", "tol", "x", "normalized", "_6"]) ;;
    .new "_8" ;;
    .new "_9" ;;
    .new "_10" ;;
    classes__utils_vector_to_nodemap.call ["_7"] ["G", "h", "_9", "_8", "_10"] ;;
    .new "_12" ;;
    .new "_13" ;;
    .new "_14" ;;
    classes__utils_vector_to_nodemap.call ["_11"] ["G", "a", "_13", "_12", "_14"] ;;
    .ret ["_7", "_11"]

/-- `pagerank` -- nxapi/link_analysis/pagerank_alg.py:9-45 -/
def nxapi_link_analysis_pagerank_alg_pagerank : Fn where
  name := "nxapi.link_analysis.pagerank_alg.pagerank"
  params := ["G", "alpha", "personalization", "max_iter", "tol", "nstart", "weight", "dangling"]
  body :=
    .shared "G" ;;
    .new "N" ;;
    .ite (.new "_1" ;;
      .ret ["_1"])
      (.skip) ;;
    .new "_2" ;;
    .new "_3" ;;
    .new "_4" ;;
    classes__utils_dict_to_vector.call ["x"] ["G", "nstart", "_4", "_2", "_3"] ;;
    .new "_5" ;;
    .new "_6" ;;
    .new "_7" ;;
    classes__utils_dict_to_vector.call ["p"] ["G", "personalization", "_7", "_5", "_6"] ;;
    .shared "_p" ;;
    .shared "row_degrees" ;;
    .ite (.new "_8" ;;
      .new "_9" ;;
      .new "_10" ;;
      classes__utils_dict_to_vector.call ["dangling_weights"] ["G", "dangling", "_10", "_8", "_9"])
      (.new "dangling_weights") ;;
    (.new "_11" ;;
    algorithms_link_analysis_pagerank_alg_pagerank.call ["result"] ["G", "alpha", "p", "max_iter", "tol", "x", "dangling_weights", "row_degrees", "_11"]) ;;
    .new "_13" ;;
    .new "_14" ;;
    .new "_15" ;;
    classes__utils_vector_to_nodemap.call ["_12"] ["G", "result", "_14", "_13", "_15"] ;;
    .ret ["_12"]

/-- `google_matrix` -- nxapi/link_analysis/pagerank_alg.py:48-63 -/
def nxapi_link_analysis_pagerank_alg_google_matrix : Fn where
  name := "nxapi.link_analysis.pagerank_alg.google_matrix"
  params := ["G", "alpha", "personalization", "nodelist", "weight", "dangling"]
  body :=
    .shared "G" ;;
    .new "_1" ;;
    .new "_2" ;;
    .new "_3" ;;
    classes__utils_dict_to_vector.call ["p"] ["G", "personalization", "_3", "_1", "_2"] ;;
    .ite (.shared "_p")
      (.skip) ;;
    .ite (.new "_4" ;;
      .new "_5" ;;
      .new "_6" ;;
      classes__utils_dict_to_vector.call ["dangling_weights"] ["G", "dangling", "_6", "_4", "_5"])
      (.new "dangling_weights") ;;
    .new "_8" ;;
    algorithms_link_analysis_pagerank_alg_google_matrix.call ["_7"] ["G", "alpha", "p", "nodelist", "dangling_weights", "_8"] ;;
    .ret ["_7"]

/-- `union` -- nxapi/operators/binary.py:17-23 -/
def nxapi_operators_binary_union : Fn where
  name := "nxapi.operators.binary.union"
  params := ["G", "H", "rename"]
  body :=
    .shared "G" ;;
    .shared "H" ;;
    .new "_2" ;;
    algorithms_operators_binary_union.call ["_1"] ["G", "H", "rename", "_2"] ;;
    .ret ["_1"]

/-- `disjoint_union` -- nxapi/operators/binary.py:26-32 -/
def nxapi_operators_binary_disjoint_union : Fn where
  name := "nxapi.operators.binary.disjoint_union"
  params := ["G", "H"]
  body :=
    .shared "G" ;;
    .shared "H" ;;
    .new "_2" ;;
    algorithms_operators_binary_disjoint_union.call ["_1"] ["G", "H", "_2"] ;;
    .ret ["_1"]

/-- `intersection` -- nxapi/operators/binary.py:35-41 -/
def nxapi_operators_binary_intersection : Fn where
  name := "nxapi.operators.binary.intersection"
  params := ["G", "H"]
  body :=
    .shared "G" ;;
    .shared "H" ;;
    .new "_2" ;;
    algorithms_operators_binary_intersection.call ["_1"] ["G", "H", "_2"] ;;
    .ret ["_1"]

/-- `difference` -- nxapi/operators/binary.py:44-50 -/
def nxapi_operators_binary_difference : Fn where
  name := "nxapi.operators.binary.difference"
  params := ["G", "H"]
  body :=
    .shared "G" ;;
    .shared "H" ;;
    .new "_2" ;;
    algorithms_operators_binary_difference.call ["_1"] ["G", "H", "_2"] ;;
    .ret ["_1"]

/-- `symmetric_difference` -- nxapi/operators/binary.py:53-59 -/
def nxapi_operators_binary_symmetric_difference : Fn where
  name := "nxapi.operators.binary.symmetric_difference"
  params := ["G", "H"]
  body :=
    .shared "G" ;;
    .shared "H" ;;
    .new "_2" ;;
    algorithms_operators_binary_symmetric_difference.call ["_1"] ["G", "H", "_2"] ;;
    .ret ["_1"]

/-- `compose` -- nxapi/operators/binary.py:62-68 -/
def nxapi_operators_binary_compose : Fn where
  name := "nxapi.operators.binary.compose"
  params := ["G", "H"]
  body :=
    .shared "G" ;;
    .shared "H" ;;
    .new "_2" ;;
    algorithms_operators_binary_compose.call ["_1"] ["G", "H", "_2"] ;;
    .ret ["_1"]

/-- `full_join` -- nxapi/operators/binary.py:71-77 -/
def nxapi_operators_binary_full_join : Fn where
  name := "nxapi.operators.binary.full_join"
  params := ["G", "H", "rename"]
  body :=
    .shared "G" ;;
    .shared "H" ;;
    .new "_2" ;;
    algorithms_operators_binary_full_join.call ["_1"] ["G", "H", "rename", "_2"] ;;
    .ret ["_1"]

/-- `complement` -- nxapi/operators/unary.py:12-14 -/
def nxapi_operators_unary_complement : Fn where
  name := "nxapi.operators.unary.complement"
  params := ["G"]
  body :=
    .shared "G" ;;
    .new "_2" ;;
    algorithms_operators_unary_complement.call ["_1"] ["G", "_2"] ;;
    .ret ["_1"]

/-- `reverse` -- nxapi/operators/unary.py:17-22 -/
def nxapi_operators_unary_reverse : Fn where
  name := "nxapi.operators.unary.reverse"
  params := ["G", "copy"]
  body :=
    .shared "G" ;;
    algorithms_operators_unary_reverse.call ["_1"] ["G", "copy"] ;;
    .ret ["_1"]

/-- `floyd_warshall` -- nxapi/shortest_paths/dense.py:9-12 -/
def nxapi_shortest_paths_dense_floyd_warshall : Fn where
  name := "nxapi.shortest_paths.dense.floyd_warshall"
  params := ["G", "weight"]
  body :=
    .shared "G" ;;
    .new "_1" ;;
    algorithms_shortest_paths_dense_floyd_warshall.call ["D"] ["G", "_1"] ;;
    .new "_3" ;;
    .new "_4" ;;
    classes__utils_matrix_to_nodenodemap.call ["_2"] ["G", "D", "_3", "_4"] ;;
    .ret ["_2"]

/-- `floyd_warshall_predecessor_and_distance` -- nxapi/shortest_paths/dense.py:15-21 -/
def nxapi_shortest_paths_dense_floyd_warshall_predecessor_and_distance : Fn where
  name := "nxapi.shortest_paths.dense.floyd_warshall_predecessor_and_distance"
  params := ["G", "weight"]
  body :=
    .shared "G" ;;
    .new "_1" ;;
    .new "_2" ;;
    .new "_3" ;;
    algorithms_shortest_paths_dense_floyd_warshall_predecessor_and_distance.call ["P", "D"] ["G", "_1", "_2", "_3"] ;;
    .new "_5" ;;
    .new "_6" ;;
    classes__utils_matrix_to_nodenodemap.call ["_4"] ["G", "P", "_6", "_5"] ;;
    .new "_8" ;;
    .new "_9" ;;
    classes__utils_matrix_to_nodenodemap.call ["_7"] ["G", "D", "_8", "_9"] ;;
    .ret ["_4", "_7"]

/-- `floyd_warshall_numpy` -- nxapi/shortest_paths/dense.py:24-37 -/
def nxapi_shortest_paths_dense_floyd_warshall_numpy : Fn where
  name := "nxapi.shortest_paths.dense.floyd_warshall_numpy"
  params := ["G", "nodelist", "weight"]
  body :=
    .shared "G" ;;
    .ite (classes__utils_list_to_ids.call ["permutation"] ["G", "nodelist"])
      (.new "permutation") ;;
    .new "_2" ;;
    .new "_3" ;;
    algorithms_shortest_paths_dense_floyd_warshall_predecessor_and_distance.call [] ["G", "_2", "_3", "permutation"] ;;
    .new "_1" ;;
    .ret ["_1"]

/-- `has_path` -- nxapi/shortest_paths/generic.py:9-14 -/
def nxapi_shortest_paths_generic_has_path : Fn where
  name := "nxapi.shortest_paths.generic.has_path"
  params := ["G", "source", "target"]
  body :=
    .shared "G" ;;
    algorithms_shortest_paths_generic_has_path.call ["_1"] ["G", "source", "target"] ;;
    .ret ["_1"]

/-- `single_source_shortest_path_length` -- nxapi/shortest_paths/unweighted.py:14-19 -/
def nxapi_shortest_paths_unweighted_single_source_shortest_path_length : Fn where
  name := "nxapi.shortest_paths.unweighted.single_source_shortest_path_length"
  params := ["G", "source", "cutoff"]
  body :=
    .shared "G" ;;
    algorithms_shortest_paths_unweighted_single_source_shortest_path_length.call ["v"] ["G", "source", "cutoff"] ;;
    .new "_2" ;;
    .new "_3" ;;
    .new "_4" ;;
    classes__utils_vector_to_nodemap.call ["_1"] ["G", "v", "_2", "_3", "_4"] ;;
    .ret ["_1"]

/-- `single_target_shortest_path_length` -- nxapi/shortest_paths/unweighted.py:22-27 -/
def nxapi_shortest_paths_unweighted_single_target_shortest_path_length : Fn where
  name := "nxapi.shortest_paths.unweighted.single_target_shortest_path_length"
  params := ["G", "target", "cutoff"]
  body :=
    .shared "G" ;;
    algorithms_shortest_paths_unweighted_single_target_shortest_path_length.call ["v"] ["G", "target", "cutoff"] ;;
    .new "_2" ;;
    .new "_3" ;;
    .new "_4" ;;
    classes__utils_vector_to_nodemap.call ["_1"] ["G", "v", "_2", "_3", "_4"] ;;
    .ret ["_1"]

/-- `all_pairs_shortest_path_length` -- nxapi/shortest_paths/unweighted.py:30-45 -/
def nxapi_shortest_paths_unweighted_all_pairs_shortest_path_length : Fn where
  name := "nxapi.shortest_paths.unweighted.all_pairs_shortest_path_length"
  params := ["G", "cutoff", "chunksize"]
  body :=
    .new "source" ;;
    .new "d" ;;
    .new "_7" ;;
    .new "_8" ;;
    .new "_9" ;;
    .new "_6" ;;
    .new "cur_nodes" ;;
    .new "_10" ;;
    .new "D" ;;
    .new "i" ;;
    .new "_12" ;;
    .new "_13" ;;
    .new "_14" ;;
    .new "_11" ;;
    .shared "G" ;;
    .new "chunksize" ;;
    .ite (.new "_1" ;;
      .new "_2" ;;
      algorithms_shortest_paths_unweighted_all_pairs_shortest_path_length.call ["D"] ["G", "cutoff", "_1", "_2"] ;;
      .new "_4" ;;
      .new "_5" ;;
      classes__utils_matrix_to_nodenodemap.call [] ["G", "D", "_4", "_5"] ;;
      .new "_3" ;;
      .yield ["_3"])
      (.ite (.loop ["D", "_10", "_11", "_12", "_13", "_14", "_6", "_7", "_8", "_9", "chunksize", "cur_nodes", "d", "i", "source"]
          (.new "source" ;;
          algorithms_shortest_paths_unweighted_single_source_shortest_path_length.call ["d"] ["G", "source", "cutoff"] ;;
          .new "_7" ;;
          .new "_8" ;;
          .new "_9" ;;
          classes__utils_vector_to_nodemap.call ["_6"] ["G", "d", "_7", "_8", "_9"] ;;
          .yield ["source", "_6"]))
        (.loop ["D", "_10", "_11", "_12", "_13", "_14", "_6", "_7", "_8", "_9", "chunksize", "cur_nodes", "d", "i", "source"]
          (.new "cur_nodes" ;;
          .new "_10" ;;
          algorithms_shortest_paths_unweighted_all_pairs_shortest_path_length.call ["D"] ["G", "cutoff", "cur_nodes", "_10"] ;;
          .loop ["D", "_10", "_11", "_12", "_13", "_14", "_6", "_7", "_8", "_9", "chunksize", "cur_nodes", "d", "i", "source"]
            (.new "i" ;;
            .new "source" ;;
            .new "d" ;;
            .new "_12" ;;
            .new "_13" ;;
            .new "_14" ;;
            classes__utils_vector_to_nodemap.call ["_11"] ["G", "d", "_12", "_13", "_14"] ;;
            .yield ["source", "_11"]))))

/-- `all_pairs_bellman_ford_path_length` -- nxapi/shortest_paths/weighted.py:16-45 -/
def nxapi_shortest_paths_weighted_all_pairs_bellman_ford_path_length : Fn where
  name := "nxapi.shortest_paths.weighted.all_pairs_bellman_ford_path_length"
  params := ["G", "weight", "chunksize"]
  body :=
    .new "source" ;;
    .new "_6" ;;
    .new "_7" ;;
    .new "d" ;;
    .new "_9" ;;
    .new "_10" ;;
    .new "_11" ;;
    .new "_8" ;;
    .new "cur_nodes" ;;
    .new "_12" ;;
    .new "D" ;;
    .new "i" ;;
    .new "_14" ;;
    .new "_15" ;;
    .new "_16" ;;
    .new "_13" ;;
    .shared "G" ;;
    .new "chunksize" ;;
    .ite ((.new "_1" ;;
      .new "_2" ;;
      algorithms_shortest_paths_weighted_bellman_ford_path_lengths.call ["D"] ["G", "_1", "_2"]) ;;
      .new "_4" ;;
      .new "_5" ;;
      classes__utils_matrix_to_nodenodemap.call [] ["G", "D", "_4", "_5"] ;;
      .new "_3" ;;
      .yield ["_3"])
      (.ite (.loop ["D", "_10", "_11", "_12", "_13", "_14", "_15", "_16", "_6", "_7", "_8", "_9", "chunksize", "cur_nodes", "d", "i", "source"]
          (.new "source" ;;
          (.new "_6" ;;
          .new "_7" ;;
          algorithms_shortest_paths_weighted_single_source_bellman_ford_path_length.call ["d"] ["G", "source", "_6", "_7"]) ;;
          .new "_9" ;;
          .new "_10" ;;
          .new "_11" ;;
          classes__utils_vector_to_nodemap.call ["_8"] ["G", "d", "_9", "_10", "_11"] ;;
          .yield ["source", "_8"]))
        (.loop ["D", "_10", "_11", "_12", "_13", "_14", "_15", "_16", "_6", "_7", "_8", "_9", "chunksize", "cur_nodes", "d", "i", "source"]
          (.new "cur_nodes" ;;
          (.new "_12" ;;
          algorithms_shortest_paths_weighted_bellman_ford_path_lengths.call ["D"] ["G", "cur_nodes", "_12"]) ;;
          .loop ["D", "_10", "_11", "_12", "_13", "_14", "_15", "_16", "_6", "_7", "_8", "_9", "chunksize", "cur_nodes", "d", "i", "source"]
            (.new "i" ;;
            .new "source" ;;
            .new "d" ;;
            .new "_14" ;;
            .new "_15" ;;
            .new "_16" ;;
            classes__utils_vector_to_nodemap.call ["_13"] ["G", "d", "_14", "_15", "_16"] ;;
            .yield ["source", "_13"]))))

/-- `single_source_bellman_ford_path_length` -- nxapi/shortest_paths/weighted.py:48-57 -/
def nxapi_shortest_paths_weighted_single_source_bellman_ford_path_length : Fn where
  name := "nxapi.shortest_paths.weighted.single_source_bellman_ford_path_length"
  params := ["G", "source", "weight"]
  body :=
    .shared "G" ;;
    (.new "_1" ;;
    .new "_2" ;;
    algorithms_shortest_paths_weighted_single_source_bellman_ford_path_length.call ["d"] ["G", "source", "_1", "_2"]) ;;
    .new "_4" ;;
    .new "_5" ;;
    .new "_6" ;;
    classes__utils_vector_to_nodemap.call ["_3"] ["G", "d", "_4", "_5", "_6"] ;;
    .ret ["_3"]

/-- `bellman_ford_path` -- nxapi/shortest_paths/weighted.py:60-66 -/
def nxapi_shortest_paths_weighted_bellman_ford_path : Fn where
  name := "nxapi.shortest_paths.weighted.bellman_ford_path"
  params := ["G", "source", "target", "weight"]
  body :=
    .shared "G" ;;
    algorithms_shortest_paths_weighted_bellman_ford_path.call ["_1"] ["G", "source", "target"] ;;
    .ret ["_1"]

/-- `bellman_ford_path_length` -- nxapi/shortest_paths/weighted.py:69-76 -/
def nxapi_shortest_paths_weighted_bellman_ford_path_length : Fn where
  name := "nxapi.shortest_paths.weighted.bellman_ford_path_length"
  params := ["G", "source", "target", "weight"]
  body :=
    .shared "G" ;;
    algorithms_shortest_paths_weighted_bellman_ford_path_length.call ["_1"] ["G", "source", "target"] ;;
    .ret ["_1"]

/-- `negative_edge_cycle` -- nxapi/shortest_paths/weighted.py:79-83 -/
def nxapi_shortest_paths_weighted_negative_edge_cycle : Fn where
  name := "nxapi.shortest_paths.weighted.negative_edge_cycle"
  params := ["G", "weight", "heuristic"]
  body :=
    .shared "G" ;;
    algorithms_shortest_paths_weighted_negative_edge_cycle.call ["_1"] ["G"] ;;
    .ret ["_1"]

/-- `bfs_layers` -- nxapi/traversal/breadth_first_search.py:12-18 -/
def nxapi_traversal_breadth_first_search_bfs_layers : Fn where
  name := "nxapi.traversal.breadth_first_search.bfs_layers"
  params := ["G", "sources"]
  body :=
    .new "layer" ;;
    .new "_3" ;;
    .new "_2" ;;
    .shared "G" ;;
    algorithms_traversal_breadth_first_search_bfs_layers.call ["_1"] ["G", "sources"] ;;
    .loop ["_1", "_2", "_3", "layer"]
      (.move "layer" "_1" ;;
      .new "_3" ;;
      classes__utils_vector_to_list.call ["_2"] ["G", "layer", "_3"] ;;
      .yield ["_2"])

/-- `descendants_at_distance` -- nxapi/traversal/breadth_first_search.py:21-27 -/
def nxapi_traversal_breadth_first_search_descendants_at_distance : Fn where
  name := "nxapi.traversal.breadth_first_search.descendants_at_distance"
  params := ["G", "source", "distance"]
  body :=
    .shared "G" ;;
    algorithms_traversal_breadth_first_search_descendants_at_distance.call ["v"] ["G", "source", "distance"] ;;
    classes__utils_vector_to_nodeset.call ["_1"] ["G", "v"] ;;
    .ret ["_1"]

/-- all of them -/
def all : List Fn :=
  [classes__utils_from_networkx,
   classes__utils_id_to_key,
   classes__utils_get_property,
   classes__utils_get_properties,
   classes__utils_dict_to_vector,
   classes__utils_list_to_vector,
   classes__utils_list_to_mask,
   classes__utils_list_to_ids,
   classes__utils_list_to_keys,
   classes__utils_set_to_vector,
   classes__utils_vector_to_dict,
   classes__utils_vector_to_list,
   classes__utils_vector_to_nodemap,
   classes__utils_vector_to_nodeset,
   classes__utils_vector_to_set,
   classes__utils_matrix_to_nodenodemap,
   classes__utils_matrix_to_vectornodemap,
   classes__utils_matrix_to_dicts,
   classes__utils_to_networkx,
   classes__utils__cacheit,
   classes__utils_renumber_key_to_id,
   classes_digraph_get_AT,
   classes_digraph_get_Up,
   classes_digraph_get_Lp,
   classes_digraph_get_Um,
   classes_digraph_get_Lm,
   classes_digraph_get_recip_degreesp,
   classes_digraph_get_recip_degreesm,
   classes_digraph_get_total_degreesp,
   classes_digraph_get_total_degreesm,
   classes_digraph_get_total_recipp,
   classes_digraph_get_total_recipm,
   classes_digraph_has_self_edges,
   classes_digraph_DiGraph_to_undirected,
   classes_digraph_DiGraph_reverse,
   classes_graph_get_A,
   classes_graph_get_AT,
   classes_graph_get_offdiag,
   classes_graph_get_Up,
   classes_graph_get_Lp,
   classes_graph_get_Um,
   classes_graph_get_Lm,
   classes_graph_get_diag,
   classes_graph_has_negative_diagonal,
   classes_graph_has_negative_edgesp,
   classes_graph_has_negative_edgesm,
   classes_graph_has_self_edges,
   classes_graph_is_iso,
   classes_graph_get_iso_value,
   algorithms__bfs__get_cutoff,
   algorithms__bfs__bfs_plain,
   algorithms__bfs__bfs_level,
   algorithms__bfs__bfs_levels,
   algorithms__bfs__bfs_parent,
   algorithms__bfs__bfs_plain_bidirectional,
   algorithms__helpers_normalize,
   algorithms__helpers_is_converged,
   algorithms_boundary_edge_boundary,
   algorithms_boundary_node_boundary,
   algorithms_cluster_single_triangle,
   algorithms_cluster_triangles,
   algorithms_cluster_total_triangles,
   algorithms_cluster_transitivity,
   algorithms_cluster_transitivity_directed,
   algorithms_cluster_clustering,
   algorithms_cluster_clustering_directed,
   algorithms_cluster_single_clustering,
   algorithms_cluster_single_clustering_directed,
   algorithms_cluster_average_clustering,
   algorithms_cluster_average_clustering_directed,
   algorithms_cluster_single_square_clustering,
   algorithms_cluster_square_clustering,
   algorithms_cluster_generalized_degree,
   algorithms_cluster_single_generalized_degree,
   algorithms_core_k_truss,
   algorithms_cuts_cut_size,
   algorithms_cuts_volume,
   algorithms_cuts_normalized_cut_size,
   algorithms_cuts_conductance,
   algorithms_cuts_edge_expansion,
   algorithms_cuts_mixing_expansion,
   algorithms_cuts_node_expansion,
   algorithms_cuts_boundary_expansion,
   algorithms_dag_descendants,
   algorithms_dag_ancestors,
   algorithms_dominating_is_dominating_set,
   algorithms_shortest_paths_unweighted_bidirectional_shortest_path_length,
   algorithms_efficiency_measures_efficiency,
   algorithms_isolate_is_isolate,
   algorithms_isolate_isolates,
   algorithms_isolate_number_of_isolates,
   algorithms_lowest_common_ancestors_lowest_common_ancestor,
   algorithms_reciprocity_reciprocity,
   algorithms_reciprocity_overall_reciprocity,
   algorithms_regular_is_regular,
   algorithms_regular_is_k_regular,
   algorithms_simple_paths_is_simple_path,
   algorithms_smetric_s_metric,
   algorithms_structuralholes_mutual_weight,
   algorithms_tournament_is_tournament,
   algorithms_tournament_score_sequence,
   algorithms_tournament_tournament_matrix,
   algorithms_triads_is_triad,
   algorithms_centrality_degree_alg__degree_centrality,
   algorithms_centrality_degree_alg_degree_centrality,
   algorithms_centrality_degree_alg_in_degree_centrality,
   algorithms_centrality_degree_alg_out_degree_centrality,
   algorithms_centrality_eigenvector_eigenvector_centrality,
   algorithms_centrality_katz_katz_centrality,
   algorithms_community_quality_intra_community_edges,
   algorithms_community_quality_inter_community_edges,
   algorithms_components_connected_is_connected,
   algorithms_components_connected_node_connected_component,
   algorithms_components_weakly_connected_is_weakly_connected,
   algorithms_isomorphism_isomorph_fast_could_be_isomorphic,
   algorithms_isomorphism_isomorph_faster_could_be_isomorphic,
   algorithms_link_analysis_hits_alg_hits,
   algorithms_link_analysis_pagerank_alg_pagerank,
   algorithms_link_analysis_pagerank_alg_google_matrix,
   algorithms_operators_binary_union,
   algorithms_operators_binary_disjoint_union,
   algorithms_operators_binary_intersection,
   algorithms_operators_binary_difference,
   algorithms_operators_binary_symmetric_difference,
   algorithms_operators_binary_compose,
   algorithms_operators_binary_full_join,
   algorithms_operators_unary_complement,
   algorithms_operators_unary_reverse,
   algorithms_shortest_paths_dense_floyd_warshall_predecessor_and_distance,
   algorithms_shortest_paths_dense_floyd_warshall,
   algorithms_shortest_paths_generic_has_path,
   algorithms_shortest_paths_unweighted_single_source_shortest_path_length,
   algorithms_shortest_paths_unweighted_single_target_shortest_path_length,
   algorithms_shortest_paths_unweighted_all_pairs_shortest_path_length,
   algorithms_shortest_paths_weighted__bellman_ford_path_length,
   algorithms_shortest_paths_weighted_single_source_bellman_ford_path_length,
   algorithms_shortest_paths_weighted_bellman_ford_path_length,
   algorithms_shortest_paths_weighted_bellman_ford_path_lengths,
   algorithms_shortest_paths_weighted__reconstruct_path_from_parents,
   algorithms_shortest_paths_weighted_bellman_ford_path,
   algorithms_shortest_paths_weighted_negative_edge_cycle,
   algorithms_traversal_breadth_first_search_bfs_layers,
   algorithms_traversal_breadth_first_search_descendants_at_distance,
   linalg_bethehessianmatrix_bethe_hessian_matrix,
   linalg_graphmatrix_adjacency_matrix,
   linalg_laplacianmatrix__laplacian_helper,
   linalg_laplacianmatrix_laplacian_matrix,
   linalg_laplacianmatrix_normalized_laplacian_matrix,
   linalg_modularitymatrix_modularity_matrix,
   linalg_modularitymatrix_directed_modularity_matrix,
   generators_ego_ego_graph,
   nxapi_boundary_edge_boundary,
   nxapi_boundary_node_boundary,
   nxapi_cluster_triangles,
   nxapi_cluster_transitivity,
   nxapi_cluster_clustering,
   nxapi_cluster_average_clustering,
   nxapi_cluster__square_clustering_split,
   nxapi_cluster_square_clustering,
   nxapi_cluster_generalized_degree,
   nxapi_core_k_truss,
   nxapi_cuts_cut_size,
   nxapi_cuts_volume,
   nxapi_cuts_normalized_cut_size,
   nxapi_cuts_conductance,
   nxapi_cuts_edge_expansion,
   nxapi_cuts_mixing_expansion,
   nxapi_cuts_node_expansion,
   nxapi_cuts_boundary_expansion,
   nxapi_dag_descendants,
   nxapi_dag_ancestors,
   nxapi_dominating_is_dominating_set,
   nxapi_efficiency_measures_efficiency,
   nxapi_isolate_is_isolate,
   nxapi_isolate_isolates,
   nxapi_isolate_number_of_isolates,
   nxapi_lowest_common_ancestors_lowest_common_ancestor,
   nxapi_reciprocity_overall_reciprocity,
   nxapi_reciprocity_reciprocity,
   nxapi_regular_is_regular,
   nxapi_regular_is_k_regular,
   nxapi_simple_paths_is_simple_path,
   nxapi_smetric_s_metric,
   nxapi_structuralholes_mutual_weight,
   nxapi_tournament_is_tournament,
   nxapi_tournament_score_sequence,
   nxapi_tournament_tournament_matrix,
   nxapi_triads_is_triad,
   nxapi_centrality_degree_alg_degree_centrality,
   nxapi_centrality_degree_alg_in_degree_centrality,
   nxapi_centrality_degree_alg_out_degree_centrality,
   nxapi_centrality_eigenvector_eigenvector_centrality,
   nxapi_centrality_katz_katz_centrality,
   nxapi_community_quality_intra_community_edges,
   nxapi_community_quality_inter_community_edges,
   nxapi_components_connected_is_connected,
   nxapi_components_connected_node_connected_component,
   nxapi_components_weakly_connected_is_weakly_connected,
   nxapi_generators_ego_ego_graph,
   nxapi_isomorphism_isomorph_fast_could_be_isomorphic,
   nxapi_isomorphism_isomorph_faster_could_be_isomorphic,
   nxapi_linalg_bethehessianmatrix_bethe_hessian_matrix,
   nxapi_linalg_graphmatrix_adjacency_matrix,
   nxapi_linalg_laplacianmatrix_laplacian_matrix,
   nxapi_linalg_laplacianmatrix_normalized_laplacian_matrix,
   nxapi_linalg_modularitymatrix_modularity_matrix,
   nxapi_linalg_modularitymatrix_directed_modularity_matrix,
   nxapi_link_analysis_hits_alg_hits,
   nxapi_link_analysis_pagerank_alg_pagerank,
   nxapi_link_analysis_pagerank_alg_google_matrix,
   nxapi_operators_binary_union,
   nxapi_operators_binary_disjoint_union,
   nxapi_operators_binary_intersection,
   nxapi_operators_binary_difference,
   nxapi_operators_binary_symmetric_difference,
   nxapi_operators_binary_compose,
   nxapi_operators_binary_full_join,
   nxapi_operators_unary_complement,
   nxapi_operators_unary_reverse,
   nxapi_shortest_paths_dense_floyd_warshall,
   nxapi_shortest_paths_dense_floyd_warshall_predecessor_and_distance,
   nxapi_shortest_paths_dense_floyd_warshall_numpy,
   nxapi_shortest_paths_generic_has_path,
   nxapi_shortest_paths_unweighted_single_source_shortest_path_length,
   nxapi_shortest_paths_unweighted_single_target_shortest_path_length,
   nxapi_shortest_paths_unweighted_all_pairs_shortest_path_length,
   nxapi_shortest_paths_weighted_all_pairs_bellman_ford_path_length,
   nxapi_shortest_paths_weighted_single_source_bellman_ford_path_length,
   nxapi_shortest_paths_weighted_bellman_ford_path,
   nxapi_shortest_paths_weighted_bellman_ford_path_length,
   nxapi_shortest_paths_weighted_negative_edge_cycle,
   nxapi_traversal_breadth_first_search_bfs_layers,
   nxapi_traversal_breadth_first_search_descendants_at_distance]

end Model.Effects.Table
