{
 "claims": [
  {
   "property": "C01",
   "status": "proved",
   "theorems": [
    "Verif.Props.C01_history_refines_multigraph"
   ],
   "note": "Simulation of the abstract multigraph along any valid history; both walking directions, memory safety (step never none)."
  },
  {
   "property": "C02",
   "status": "proved",
   "theorems": [
    "Verif.Props.C02_count",
    "Verif.Props.C02_degree_sum",
    "Verif.Props.C02_addEdge_codes"
   ],
   "note": ""
  },
  {
   "property": "C03",
   "status": "proved",
   "theorems": [
    "Verif.Props.C03_free_slots",
    "Verif.Props.C03_reuse"
   ],
   "note": "Freshness of the new slot itself is the field `fresh` of EdgePlaced in C04/C05."
  },
  {
   "property": "C04",
   "status": "proved",
   "theorems": [
    "Verif.Props.C04_addEdge_position"
   ],
   "note": ""
  },
  {
   "property": "C05",
   "status": "proved",
   "theorems": [
    "Verif.Props.C05_insertEdge_position",
    "Verif.Props.C05_insertEdge_codes"
   ],
   "note": ""
  },
  {
   "property": "C06",
   "status": "proved",
   "theorems": [
    "Verif.Props.C06_deleteEdge"
   ],
   "note": ""
  },
  {
   "property": "C07",
   "status": "proved",
   "theorems": [
    "Verif.Props.C07_add_delete"
   ],
   "note": ""
  },
  {
   "property": "C08",
   "status": "proved",
   "theorems": [
    "Verif.Props.C08_hide_restore"
   ],
   "note": ""
  },
  {
   "property": "C09",
   "status": "proved",
   "theorems": [
    "Verif.Props.C09_hide_restore_vertices",
    "Verif.Props.C09_restoreVertices"
   ],
   "note": "Any sequence of hidden vertices without self loops; precondition: room on the stack, which the macro push does not check."
  },
  {
   "property": "C10",
   "status": "partial",
   "theorems": [
    "Verif.Props.C10_identify_restore_partial",
    "Verif.Props.C10_identify_restore_false"
   ],
   "note": "False of the code (_RestoreVertex clears the previous link instead of the next link of the last moved arc). Proved: exact restoration when no arc is moved or a single one moved to the end."
  },
  {
   "property": "C11",
   "status": "partial",
   "theorems": [
    "Verif.Props.C11_contract_partial",
    "Verif.Props.C11_contract_restore_false"
   ],
   "note": "False of the code: the contracted edge stays hidden on the stack and gp_RestoreVertices returns NOTOK. Proved: the contraction itself, and what RestoreVertex brings back."
  },
  {
   "property": "C12",
   "status": "proved",
   "theorems": [
    "Verif.Props.C12_isNeighbor",
    "Verif.Props.C12_neighborEdge",
    "Verif.Props.C12_degrees"
   ],
   "note": ""
  },
  {
   "property": "C13",
   "status": "partial",
   "theorems": [
    "Verif.Props.C13_dynamicAdd_partial",
    "Verif.Props.C13_dynamicAdd_false",
    "Verif.Props.C13_capacity_two"
   ],
   "note": "False of the code for arc capacities 2 and 4 (gp_GetArcCapacity is two too small). Proved for every capacity of at least 6."
  },
  {
   "property": "C14",
   "status": "partial",
   "theorems": [
    "Verif.Props.C14_ensure_partial",
    "Verif.Props.C14_realloc_failure_false",
    "Verif.Props.C14_realloc_leak_false"
   ],
   "note": "False of the code when realloc of the edge array fails (E becomes NULL). Everything else proved, including failures of the two stack allocations."
  },
  {
   "property": "C15",
   "status": "partial",
   "theorems": [
    "Verif.Props.C15_life_partial",
    "Verif.Props.C15_first_init_partial",
    "Verif.Props.C15_init_failure_false",
    "Verif.Props.C15_second_init_false"
   ],
   "note": "False of the code: _ClearGraph leaves VI dangling, so a failure after VI leads to a double free. Proved: safe and leak-free lives for all other fault patterns, and the exact outcome of the first initialisation under every fault pattern."
  },
  {
   "property": "C16",
   "status": "proved",
   "theorems": [
    "Verif.Props.C16_copyGraph",
    "Verif.Props.C16_dupGraph",
    "Verif.Props.C16_stale_records"
   ],
   "note": "C16_stale_records shows that the restriction to the source's capacity is needed."
  },
  {
   "property": "C17",
   "status": "proved",
   "theorems": [
    "Verif.Props.C17_reinitialize"
   ],
   "note": ""
  },
  {
   "property": "C18",
   "status": "proved",
   "theorems": [
    "Verif.Props.dfs_numbers_all",
    "Verif.Props.dfs_virtual_end_undefined"
   ],
   "note": "Edges join vertices 1..N; dfs_virtual_end_undefined shows that this is needed."
  },
  {
   "property": "C19",
   "status": "proved",
   "theorems": [
    "Verif.Props.dfs_no_cross_edges"
   ],
   "note": ""
  },
  {
   "property": "C20",
   "status": "proved",
   "theorems": [
    "Verif.Props.sort_renames",
    "Verif.Props.sort_twice_restores",
    "Verif.Props.dfs_marks_all"
   ],
   "note": ""
  },
  {
   "property": "C21",
   "status": "proved",
   "theorems": [
    "Verif.Props.lowpoints_correct",
    "Verif.Props.current_after_search"
   ],
   "note": "For graphs whose numbering, if any, is current; see C61 for the rest."
  },
  {
   "property": "C22",
   "status": "partial",
   "theorems": [
    "Verif.Props.least_ancestor_partial",
    "Verif.Props.least_ancestor_stores_nothing",
    "Verif.Props.least_ancestor_false"
   ],
   "note": "False of the code: the marks left by the search are not cleared, so nothing is stored. Proved: right if the caller clears the marks of a sorted graph."
  },
  {
   "property": "C23",
   "status": "partial",
   "theorems": [
    "Verif.Props.embed_start_partial",
    "Verif.Props.embed_start_simple_partial",
    "Verif.Props.embed_start_false"
   ],
   "note": "False of the code for gp_Embed on a numbered graph with a deleted edge (reads outside the vertex information). Proved for gp_CreateDFSTree on all graphs and for gp_Embed on simple graphs not numbered before."
  },
  {
   "property": "C24",
   "status": "proved",
   "theorems": [
    "Verif.Props.subgraph_test",
    "Verif.Props.subgraph_test_names"
   ],
   "note": "Both sorted or both unsorted: by vertex; one sorted: by names. Also: the test is defined and changes at most visited marks."
  },
  {
   "property": "C25",
   "status": "proved",
   "theorems": [
    "Verif.Props.embedding_test_exact",
    "Verif.Props.embedding_test_sound",
    "Verif.Props.euler_bound",
    "Verif.Props.rootedOnce_of_forest",
    "Verif.Props.embedding_test_stale_false"
   ],
   "note": "Exact for results with one recorded root per component; sound with at least one; refuted for graphs edited after numbering (stale roots)."
  },
  {
   "property": "C26",
   "status": "proved",
   "theorems": [
    "Verif.Props.kuratowski_test_exact"
   ],
   "note": "Exact, for consistent graphs of the same order; the test is defined (terminates without undefined behaviour) and changes at most visited marks."
  },
  {
   "property": "C27",
   "status": "partial",
   "theorems": [
    "Verif.Props.outerplanar_obstruction_partial",
    "Verif.Props.outerplanar_obstruction_false"
   ],
   "note": "False of the code for results with loops (witness proved). Proved for results without loops; also all subdivisions of K4 and K2,3 are accepted, with no such hypothesis."
  },
  {
   "property": "C28",
   "status": "proved",
   "theorems": [
    "Verif.Props.kuratowski_test_exact"
   ],
   "note": "The converse direction of the same equivalence; the hypothesis covers every order of the adjacency lists. For K4 and K2,3 see outerplanar_obstruction_partial."
  },
  {
   "property": "C29",
   "status": "partial",
   "theorems": [
    "Verif.Props.embedding_excludes_obstruction_partial",
    "Verif.Props.obstruction_excludes_embedding_partial",
    "Verif.Props.certificates_stale_false"
   ],
   "note": "Proved if the embedding result has a recorded root in every component, as depth-first search leaves it. False of the code for results edited after numbering (witness: one graph accepted both ways)."
  },
  {
   "property": "C30",
   "status": "proved",
   "theorems": [
    "Verif.Props.outerplanar_test_exact"
   ],
   "note": "Exact: plane embeddings of the same adjacencies in which the face of the first arc of each root meets its whole component; hence one facial walk per component meets all its vertices."
  },
  {
   "property": "C31",
   "status": "proved",
   "theorems": [
    "Verif.Props.drawing_check_exact",
    "Verif.Props.drawing_check_sound",
    "Verif.Props.drawing_check_loops",
    "Verif.Props.drawing_range_false"
   ],
   "note": "For graphs without loops; the test is exact and changes only visited marks. With loops it is not sound (witness). Without edges it uses rows unchecked as indexes (witness)."
  },
  {
   "property": "C32",
   "status": "partial",
   "theorems": [
    "Verif.Props.rendering_partial",
    "Verif.Props.rendering_small_partial",
    "Verif.Props.short_labels_inside",
    "Verif.Props.rendering_false",
    "Verif.Props.drawing_range_false",
    "Verif.Props.rendering_overflow"
   ],
   "note": "False of the code: a label of three digits runs over its vertex and the newline (witness); accepted drawings without edges write outside the string (witness). Proved: with edges, and a size that is an int, every write is inside the string and every byte of the picture is as described by Rendition; up to 99 vertices all lines end with a newline and labels that fit are inside."
  },
  {
   "property": "C33",
   "status": "proved",
   "theorems": [
    "Verif.Props.rows_permutation",
    "Verif.Props.rows_tie"
   ],
   "note": "For every consistent graph with a depth-first forest sorted by number, as gp_Embed leaves it, and recorded ancestors' children that are vertices."
  },
  {
   "property": "C34",
   "status": "partial",
   "theorems": [
    "Verif.Props.C34_roundtrip_partial",
    "Verif.Props.C34_one_vertex_not_written",
    "Verif.Props.C34_large_overflow"
   ],
   "note": "Proved for orders 2 to 46341. False of the code for one vertex (NOTOK) and for orders above 46341 (signed overflow)."
  },
  {
   "property": "C35",
   "status": "partial",
   "theorems": [
    "Verif.Props.C35_sizes_partial",
    "Verif.Props.C35_overflow"
   ],
   "note": "Proved up to order 46341; false of the code for every order from 46342 to 100000."
  },
  {
   "property": "C36",
   "status": "partial",
   "theorems": [
    "Verif.Props.C36_iterator_rejects_partial",
    "Verif.Props.C36_always_ok",
    "Verif.Props.C36_short_text_accepted",
    "Verif.Props.C36_one_vertex_line_undefined",
    "Verif.Props.C36_second_line_accepted"
   ],
   "note": "False of the code: the read functions return OK whatever the text. Proved: the iterator functions accept a first line only if it is the text of a graph."
  },
  {
   "property": "C37",
   "status": "proved",
   "theorems": [
    "Verif.Props.graph6_detected",
    "Verif.Props.written_detected"
   ],
   "note": "Orders up to 258047 (the four-character order)."
  },
  {
   "property": "C38",
   "status": "partial",
   "theorems": [
    "Verif.Props.C38_lines_partial",
    "Verif.Props.C38_two_graphs_unreadable"
   ],
   "note": "False of the code: nothing separates graphs written through one iterator. Proved: separated lines are read back in full."
  },
  {
   "property": "C39",
   "status": "partial",
   "theorems": [
    "Verif.Props.C39_directed_graph6_written",
    "Verif.Props.directed_matrix_partial"
   ],
   "note": "False of the code for graph6, where directions are ignored. Proved for the adjacency matrix format."
  },
  {
   "property": "C40",
   "status": "proved",
   "theorems": [
    "Verif.Props.adjlist_rotation",
    "Verif.Props.adjlist_library"
   ],
   "note": ""
  },
  {
   "property": "C41",
   "status": "proved",
   "theorems": [
    "Verif.Props.adjlist_mixed"
   ],
   "note": ""
  },
  {
   "property": "C42",
   "status": "partial",
   "theorems": [
    "Verif.Props.adjmatrix_file_partial",
    "Verif.Props.adjmatrix_string_false",
    "Verif.Props.adjmatrix_spaced_string"
   ],
   "note": "False of the code for strings: a run of digits is skipped after its first flag. Proved for files, and for strings whose flags are separated."
  },
  {
   "property": "C43",
   "status": "partial",
   "theorems": [
    "Verif.Props.matrix_string_stays_partial",
    "Verif.Props.read_past_end_false",
    "Verif.Props.read_unset_false"
   ],
   "note": "False of the code: truncated adjacency lists are read past the end, and a matrix without flags uses an unset variable. Proved for matrix strings with at least one flag; for the texts of _WriteAdjList see C40 and C41."
  },
  {
   "property": "C44",
   "status": "proved",
   "theorems": [
    "Verif.Props.C44_history",
    "Verif.Props.C44_lifo",
    "Verif.Props.C44_copies",
    "Verif.Props.C44_checked",
    "Verif.Props.C44_copy_memory"
   ],
   "note": ""
  },
  {
   "property": "C45",
   "status": "proved",
   "theorems": [
    "Verif.Props.C45_history",
    "Verif.Props.C45_copy"
   ],
   "note": ""
  },
  {
   "property": "C46",
   "status": "proved",
   "theorems": [
    "Verif.Props.C46_concat_history",
    "Verif.Props.C46_concat",
    "Verif.Props.C46_concatChar",
    "Verif.Props.C46_takeString",
    "Verif.Props.C46_copies"
   ],
   "note": "Allocation failure in sb_TakeString is undefined behaviour in the code (unchecked) and excluded."
  },
  {
   "property": "C47",
   "status": "proved",
   "theorems": [
    "Verif.Props.extension_registry",
    "Verif.Props.AStep.det",
    "Verif.Props.ARun.det"
   ],
   "note": "Any number of graphs, any failing allocation of records. Copying is the subject of C49."
  },
  {
   "property": "C48",
   "status": "proved",
   "theorems": [
    "Verif.Props.overload_chains"
   ],
   "note": ""
  },
  {
   "property": "C49",
   "status": "partial",
   "theorems": [
    "Verif.Props.copied_extensions_partial",
    "Verif.Props.copy_removal_false",
    "Verif.Props.copy_removal_after_free_false"
   ],
   "note": "False of the code: records of a copy share the function table of the source's context, so removing an extension from the copy changes the source or uses freed memory. Proved for all histories without such removals."
  },
  {
   "property": "C50",
   "status": "partial",
   "theorems": [
    "Verif.Props.random_number_partial",
    "Verif.Props.random_number_onto",
    "Verif.Props.random_number_false"
   ],
   "note": "False of the code: the additions overflow int for 255 values of rand(). Proved for all others."
  },
  {
   "property": "C51",
   "status": "proved",
   "theorems": [
    "Verif.Props.random_graph",
    "Verif.Props.random_graph_safe",
    "Verif.Props.random_graph_can_end"
   ],
   "note": ""
  },
  {
   "property": "C52",
   "status": "partial",
   "theorems": [
    "Verif.Props.random_ex_ends_false",
    "Verif.Props.random_ex_never_ends",
    "Verif.Props.random_ex_tree_partial"
   ],
   "note": "False of the code: a request for more edges than the vertices allow (three vertices, nine edges) is never answered, for any random stream. Proved: a request for at most N - 1 edges with room for them always ends with OK, for every stream whose numbers do not overflow. Missing: requests between N and N(N-1)/2 edges."
  },
  {
   "property": "C53",
   "status": "proved",
   "theorems": [
    "Verif.Props.embed_moments",
    "Verif.Props.embed_edge_step",
    "Verif.Props.merge_step",
    "Verif.Props.turn_step",
    "Verif.Props.embed_stages",
    "Verif.Props.embed_oriented",
    "Verif.Props.embed_ok_plane"
   ],
   "note": "At every moment of gp_Embed between two elementary steps: before each child, before and after each round of a walk down, before and after each merging of two components and after the flip within it, after each edge embedded, each vertex oriented and each component joined. For simple graphs, as for C71. Not stated: the moments within the relinking of one list."
  },
  {
   "property": "C54",
   "status": "partial",
   "theorems": [
    "Verif.Props.drawing_stored_partial",
    "Verif.Props.drawing_stored_false"
   ],
   "note": "False of the code: the data of edges go by position in the edge array, which differs after reading (witness: a checked drawing of a path). Proved: rotation and vertex data always come back, edge data if both graphs keep the edges in the same records. Reading from a string."
  },
  {
   "property": "C55",
   "status": "partial",
   "theorems": [
    "Verif.Props.C55_setDirection_partial",
    "Verif.Props.C55_twins_opposite",
    "Verif.Props.C55_frame",
    "Verif.Props.C55_setDirection_false"
   ],
   "note": "False of the code when the opposite direction was set before (bits are OR-ed); refuted by C55_setDirection_false. The invariant that twins are opposite holds in full."
  },
  {
   "property": "C56",
   "status": "proved",
   "theorems": [
    "Verif.Props.C56_identify_apart",
    "Verif.Props.C56_identify_adjacent",
    "Verif.Props.C11_contract_partial"
   ],
   "note": ""
  },
  {
   "property": "C57",
   "status": "proved",
   "theorems": [
    "Verif.Props.C57_copyAdjacencyLists"
   ],
   "note": ""
  },
  {
   "property": "C58",
   "status": "partial",
   "theorems": [
    "Verif.Props.C58_readPos_partial",
    "Verif.Props.C58_readPos_false"
   ],
   "note": "False of the code: sb_TakeString and sb_Copy keep a stale read position, sb_ReadSkipChar passes the terminator. Proved for the other operations."
  },
  {
   "property": "C59",
   "status": "partial",
   "theorems": [
    "Verif.Props.C59_writer_conforms_partial"
   ],
   "note": "Orders 2 to 46341; one vertex and larger orders: see C34."
  },
  {
   "property": "C60",
   "status": "partial",
   "theorems": [
    "Verif.Props.C60_reader_accepts_partial"
   ],
   "note": "Orders 2 to 46341."
  },
  {
   "property": "C61",
   "status": "partial",
   "theorems": [
    "Verif.Props.lowpoints_after_edit_false",
    "Verif.Props.lowpoints_correct"
   ],
   "note": "False of the code after edits; proved for current numberings."
  },
  {
   "property": "C62",
   "status": "proved",
   "theorems": [
    "Verif.Props.dfs_preorder"
   ],
   "note": ""
  },
  {
   "property": "C63",
   "status": "proved",
   "theorems": [
    "Verif.Props.embed_names",
    "Verif.Props.nonembeddable_names",
    "Verif.Props.nonembeddable_outer_names"
   ],
   "note": "For every simple graph made with the API that was not numbered before and every run of the model of gp_Embed that ends with OK or NONEMBEDDABLE. That the graph left by the planar isolator is a subdivision of K5 or K3,3 is not claimed, only that sorting does not change whether it is."
  },
  {
   "property": "C64",
   "status": "partial",
   "theorems": [
    "Verif.Props.random_ex_exact_false",
    "Verif.Props.random_ex_fails",
    "Verif.Props.random_ex_partial",
    "Verif.Props.random_ex_tree_partial"
   ],
   "note": "False of the code: the planar phase adds two edges per round and overruns the request, or fails when the capacity is the request. Proved: whenever the result is OK the lists are consistent, the graph is connected and unmarked and has at least the requested number of edges (or all the capacity allows); a request of N - 1 edges gives exactly a tree. Missing: that the edges are distinct for larger requests."
  },
  {
   "property": "C65",
   "status": "proved",
   "theorems": [
    "Verif.Props.leda_read"
   ],
   "note": "For every text of the form given in Spec/Text.lean, read with gp_Read of a file."
  },
  {
   "property": "C66",
   "status": "proved",
   "theorems": [
    "Verif.Props.outer_embedding_excludes_obstruction",
    "Verif.Props.obstruction_excludes_outer_embedding",
    "Verif.Props.outer_excludes_minors",
    "Verif.Props.subdivision_has_minor"
   ],
   "note": "For results with exactly one recorded root in each component; the obstruction test accepts some graphs with loops that are no obstructions (C27)."
  },
  {
   "property": "C67",
   "status": "proved",
   "theorems": [
    "Verif.Props.search_result_exact",
    "Verif.Props.search_loops_false"
   ],
   "note": "Exact for K3,3 and K4, and for K2,3 for results without loops; that the hypothesis on loops is needed is proved by a witness. An OK result of a search (nothing found) is accepted by the code without being examined."
  },
  {
   "property": "C68",
   "status": "proved",
   "theorems": [
    "Verif.Props.rows_as_marked",
    "Verif.Props.rows_subtrees",
    "Verif.Props.rows_unmarked",
    "Verif.Props.rows_as_marked_root_false"
   ],
   "note": "Provided nothing is recorded for children of roots (they have no ancestor; needed, witness) and the recorded child is an ancestor of the parent."
  },
  {
   "property": "C69",
   "status": "proved",
   "theorems": [
    "Verif.Props.columns_permutation"
   ],
   "note": "For every consistent graph without loops with a depth-first forest sorted by number. With a loop at a root the code corrupts its edge list."
  },
  {
   "property": "C70",
   "status": "proved",
   "theorems": [
    "Verif.Props.drawing_computed",
    "Verif.Props.drawing_refused",
    "Verif.Props.drawing_layout",
    "Verif.Props.drawing_accepted"
   ],
   "note": "For every consistent graph without loops with a depth-first forest sorted by number. That no edge meets a third vertex, which depends on the embedding and the placements recorded by gp_Embed, is not part of the claim."
  },
  {
   "property": "C71",
   "status": "proved",
   "theorems": [
    "Verif.Props.embed_ok_plane",
    "Verif.Props.embed_ok_rooted",
    "Verif.Props.embed_ok_accepted",
    "Verif.Props.embed_ok_multi_false",
    "Verif.Props.embed_blocked_multi_false"
   ],
   "note": "For every simple graph made with the API that was not numbered before, for planar and outerplanar embedding; acceptance by the test is for planar embedding. Needed: for multigraphs the code fails (witnesses). That gp_Embed has an outcome is C73."
  },
  {
   "property": "C72",
   "status": "proved",
   "theorems": [
    "Verif.Props.embed_blocked_minor",
    "Verif.Props.embed_blocked_nonplanar",
    "Verif.Props.embed_verdict",
    "Verif.Props.embed_blocked_multi_false"
   ],
   "note": "For every simple graph made with the API that was not numbered before, planar embedding. Needed: for multigraphs the code fails (witness). That gp_Embed has an outcome is C73; about the isolation of an obstruction after the blocked walk see C76."
  },
  {
   "property": "C73",
   "status": "proved",
   "theorems": [
    "Verif.Props.embed_outcome",
    "Verif.Props.embed_decides",
    "Verif.Props.embed_ok_iff_minor"
   ],
   "note": "For every simple graph made with the API that was not numbered before. About the isolation of an obstruction after the blocked walk see C76."
  },
  {
   "property": "C74",
   "status": "proved",
   "theorems": [
    "Verif.Props.outer_blocked_minor",
    "Verif.Props.outer_blocked_no_embedding",
    "Verif.Props.outer_blocked_verdict"
   ],
   "note": "For every simple graph made with the API that was not numbered before, outerplanar embedding. About the isolation of an obstruction after the blocked walk see C76."
  },
  {
   "property": "C75",
   "status": "proved",
   "theorems": [
    "Verif.Props.outer_ok_face",
    "Verif.Props.outer_ok_accepted",
    "Verif.Props.outer_decides",
    "Verif.Props.outer_ok_iff_minor"
   ],
   "note": "For every simple graph made with the API that was not numbered before."
  },
  {
   "property": "C76",
   "status": "proved",
   "theorems": [
    "Verif.Props.nonembeddable_part",
    "Verif.Props.nonembeddable_sub",
    "Verif.Props.nonembeddable_simple",
    "Verif.Props.nonembeddable_nonplanar",
    "Verif.Props.nonembeddable_nonouterplanar",
    "Verif.Props.nonembeddable_test",
    "Verif.Props.nonembeddable_outer_test"
   ],
   "note": "For every simple graph made with the API that was not numbered before and every run of the model of gp_Embed that ends with NONEMBEDDABLE. Not proved: that every blocked run ends so, and that the graph left by the planar isolator is a subdivision of K5 or K3,3 (for the outerplanar one see C78)."
  },
  {
   "property": "C77",
   "status": "partial",
   "theorems": [
    "Verif.Props.leda_no_order_partial",
    "Verif.Props.leda_refused_false"
   ],
   "note": "Proved: a file without a positive number of nodes is refused. False of the code otherwise: an edge to a node beyond the order reads outside the vertex array or joins a virtual vertex with result OK, and a node line of more than 254 characters is read as two lines, after which an unset variable is used."
  },
  {
   "property": "C78",
   "status": "proved",
   "theorems": [
    "Verif.Props.nonembeddable_outer_subdivision",
    "Verif.Props.nonembeddable_outer_accepted"
   ],
   "note": "For every simple graph made with the API that was not numbered before and every run of the model of gp_Embed(EMBEDFLAGS_OUTERPLANAR) that ends with NONEMBEDDABLE. Not claimed: that every blocked run ends so."
  },
  {
   "property": "C79",
   "status": "partial",
   "theorems": [
    "Verif.Props.containers_alike_partial",
    "Verif.Props.containers_alike_false"
   ],
   "note": "Proved for texts without carriage return and byte 255. False of the code otherwise: sf_fgets ends a line of a string, but not of a file, after a carriage return; sf_ungetc of EOF at the end of a string overwrites its last character."
  },
  {
   "property": "C80",
   "status": "proved",
   "theorems": [
    "Verif.Props.written_string_read",
    "Verif.Props.written_file_read"
   ],
   "note": "At the level of the arrays, for every content of newly allocated memory. Allocation and files do not fail in the model; positions are not bounded by int."
  },
  {
   "property": "C81",
   "status": "partial",
   "theorems": [
    "Verif.Props.searches_keep_tests_partial",
    "Verif.Props.drawing_test_false",
    "Verif.Props.drawing_refuses_false"
   ],
   "note": "False of the code for the drawing extension, which accepts every NONEMBEDDABLE result unexamined and refuses embeddings made without a drawing (witnesses proved). Proved for all lists of the three search extensions."
  },
  {
   "property": "C82",
   "status": "partial",
   "theorems": [
    "Verif.Props.drawing_sort_partial",
    "Verif.Props.read_drawing_sort_false"
   ],
   "note": "False of the code for a drawing that was read (embedFlags 0): the vertices are moved without their drawing data (witness proved). Proved in full for embedFlags = EMBEDFLAGS_DRAWPLANAR on a DFS numbered graph."
  }
 ]
}