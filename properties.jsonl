{"id": "C01", "title": "Edge store behaves like an abstract multigraph over any history", "statement": "Starting from an initialised graph, after any sequence of gp_AddEdge, gp_InsertEdge and gp_DeleteEdge calls with valid arguments, walking any vertex's adjacency list forwards from its first arc or backwards from its last arc terminates and yields the same arcs in opposite orders; these arcs are exactly the halves of the edges that were added and not deleted, every arc's twin sits in the list of the vertex the arc points to, and no call reads or writes outside the vertex and edge arrays.", "quantifier": "all graph orders N, all arc capacities, all finite sequences of edge additions, insertions and deletions (including self loops and parallel edges), all link arguments", "why_tests_cant": "the number of operation histories is unbounded and a corrupted link may only surface many operations later", "anchors": ["c/graphLib/graphUtils.c:gp_AddEdge", "c/graphLib/graphUtils.c:gp_InsertEdge", "c/graphLib/graphUtils.c:gp_DeleteEdge", "c/graphLib/graphUtils.c:gp_AttachArc", "c/graphLib/graphUtils.c:gp_DetachArc", "c/graphLib/graphStructures.h:gp_GetNextArc"]}
{"id": "C02", "title": "Edge count and capacity accounting", "statement": "After any such history the reported number of edges M equals the number of live edges, the degrees of all vertices sum to 2M, and M never exceeds half the arc capacity. gp_AddEdge returns NOTOK exactly when an endpoint is outside the vertex range, NONEMBEDDABLE exactly when the endpoints are valid and the capacity is exhausted, and in both failure cases leaves the graph unchanged; otherwise it returns OK and M grows by one.", "quantifier": "all graphs reachable by edge additions, insertions and deletions; all integer endpoint arguments", "why_tests_cant": "must hold at every point of every history, including the boundary at which capacity is exactly exhausted after deletions", "anchors": ["c/graphLib/graphUtils.c:gp_AddEdge", "c/graphLib/graphUtils.c:gp_InsertEdge", "c/graphLib/graphUtils.c:gp_DeleteEdge", "c/graphLib/graphUtils.c:gp_GetVertexDegree"]}
{"id": "C03", "title": "Freed edge slots are reused safely", "statement": "Deleted edge slots are remembered and reused: a new edge never lands on a slot of a live edge, free slots are pairwise different and below the occupied bound, the free-slot memory never overflows, and every slot below the occupied bound is either live or free.", "quantifier": "all histories of edge additions, insertions and deletions", "why_tests_cant": "depends on the order of all earlier deletions", "anchors": ["c/graphLib/graphUtils.c:gp_AddEdge", "c/graphLib/graphUtils.c:gp_DeleteEdge", "c/graphLib/graphStructures.h:gp_EdgeInUseIndexBound", "c/graphLib/graphStructures.h:gp_GetFirstEdge"]}
{"id": "C04", "title": "Position of an added edge", "statement": "gp_AddEdge(u,ulink,v,vlink) puts exactly one new arc u->v at the front (ulink 0) or back (ulink 1) of u's list and one new arc v->u at the front/back of v's list according to vlink, and changes no other list and no relative order (for u=v both arcs go into the one list, in that order).", "quantifier": "all reachable graphs, all valid endpoints (equal or not) and links", "why_tests_cant": "rotation order is what an embedding is; every reachable list shape must be handled", "anchors": ["c/graphLib/graphUtils.c:gp_AddEdge", "c/graphLib/graphUtils.c:gp_AttachArc"]}
{"id": "C05", "title": "Position of an inserted edge", "statement": "gp_InsertEdge(u,e_u,e_ulink,v,e_v,e_vlink), where e_u (e_v) is NIL or an arc of u's (v's) list, puts the new arc immediately after (link 0) or before (link 1) the given arc, or at the front/back if NIL is given, and changes nothing else.", "quantifier": "all reachable graphs, all valid argument combinations", "why_tests_cant": "every position in every list", "anchors": ["c/graphLib/graphUtils.c:gp_InsertEdge", "c/graphLib/graphUtils.c:gp_AttachArc"]}
{"id": "C06", "title": "Deleting an edge removes exactly that edge", "statement": "gp_DeleteEdge(e,nextLink) removes exactly e and its twin from the two lists, keeps the order of all other arcs, and returns the arc that followed (nextLink 0) or preceded (nextLink 1) e, or NIL if there was none.", "quantifier": "all reachable graphs and all live arcs e", "why_tests_cant": "every position in every list and every hole pattern", "anchors": ["c/graphLib/graphUtils.c:gp_DeleteEdge", "c/graphLib/graphUtils.c:gp_DetachArc"]}
{"id": "C07", "title": "Add then delete is a round trip", "statement": "Adding an edge and then deleting the arc just added gives back a graph with identical adjacency lists, identical edge count and identical set of free slots up to representation.", "quantifier": "all reachable graphs with spare capacity, all endpoints and links", "why_tests_cant": "universally quantified over graph states", "anchors": ["c/graphLib/graphUtils.c:gp_AddEdge", "c/graphLib/graphUtils.c:gp_DeleteEdge"]}
{"id": "C08", "title": "Hidden edges can be restored in reverse order", "statement": "If any sequence of distinct live edges is hidden one after the other and then restored in the opposite order, the graph is exactly as before; in between, the adjacency lists are those of the graph without the hidden edges.", "quantifier": "all reachable graphs and all sequences of edges", "why_tests_cant": "all subsets and orders of edges", "anchors": ["c/graphLib/graphUtils.c:gp_HideEdge", "c/graphLib/graphUtils.c:gp_RestoreEdge", "c/graphLib/graphUtils.c:_HideEdge", "c/graphLib/graphUtils.c:_RestoreEdge", "c/graphLib/graphUtils.c:_RestoreHiddenEdges"]}
{"id": "C09", "title": "Hiding a vertex is reversible", "statement": "gp_HideVertex(v) leaves v isolated with all its edges hidden, and the following gp_RestoreVertex/gp_RestoreVertices gives back exactly the earlier graph and stack.", "quantifier": "all reachable graphs without self loops at v, all vertices v", "why_tests_cant": "all adjacency structures around v", "anchors": ["c/graphLib/graphUtils.c:gp_HideVertex", "c/graphLib/graphUtils.c:gp_RestoreVertex", "c/graphLib/graphUtils.c:gp_RestoreVertices"]}
{"id": "C10", "title": "Identifying two vertices is reversible", "statement": "gp_IdentifyVertices(u,v,eBefore) followed by gp_RestoreVertex gives back the graph that existed before: every adjacency list, walked in either direction, is restored.", "quantifier": "all simple graphs, all pairs of distinct vertices, all positions eBefore", "why_tests_cant": "only shows when the moved vertex has at least one remaining edge in a particular position", "anchors": ["c/graphLib/graphUtils.c:gp_IdentifyVertices", "c/graphLib/graphUtils.c:gp_RestoreVertex", "c/graphLib/graphUtils.c:_RestoreVertex"]}
{"id": "C11", "title": "Contracting an edge is reversible", "statement": "gp_ContractEdge(e) followed by gp_RestoreVertices returns OK, empties the stack, and gives back the graph that existed before, including the contracted edge.", "quantifier": "all simple graphs and all edges", "why_tests_cant": "needs agreement between what contraction records and what restoration consumes", "anchors": ["c/graphLib/graphUtils.c:gp_ContractEdge", "c/graphLib/graphUtils.c:gp_RestoreVertices"]}
{"id": "C12", "title": "Neighbour and degree queries agree with the abstract digraph", "statement": "gp_IsNeighbor(u,v) is true exactly when there is an arc usable from u to v; gp_GetNeighborEdgeRecord(u,v) returns an arc from u's list pointing to v if any exists and NIL otherwise; the degree is the number of arcs at v and equals in-degree plus out-degree minus the number of undirected arcs.", "quantifier": "all reachable graphs, all direction markings, all vertices", "why_tests_cant": "all graphs", "anchors": ["c/graphLib/graphUtils.c:gp_IsNeighbor", "c/graphLib/graphUtils.c:gp_GetNeighborEdgeRecord", "c/graphLib/graphUtils.c:gp_GetVertexDegree", "c/graphLib/graphUtils.c:gp_GetVertexInDegree", "c/graphLib/graphUtils.c:gp_GetVertexOutDegree", "c/graphLib/graphStructures.h:gp_SetDirection"]}
{"id": "C13", "title": "gp_DynamicAddEdge grows the graph on demand", "statement": "gp_DynamicAddEdge with valid endpoints succeeds whenever the graph has fewer than N(N-1)/2 edges, growing the arc capacity if necessary and otherwise acting like gp_AddEdge.", "quantifier": "all initialised graphs, all arc capacities settable by gp_EnsureArcCapacity, all endpoints, memory allocation succeeding", "why_tests_cant": "fails only for particular capacities at the exact moment the capacity is exhausted", "anchors": ["c/graphLib/graphUtils.c:gp_DynamicAddEdge", "c/graphLib/graphUtils.c:gp_GetArcCapacity", "c/graphLib/graphUtils.c:gp_EnsureArcCapacity"]}
{"id": "C14", "title": "Growing capacity preserves the graph", "statement": "gp_EnsureArcCapacity(required) returns NOTOK for non-positive or odd requests without changing anything; otherwise, if allocation succeeds, the capacity afterwards is at least the request, never smaller than before, and all edges, free slots and adjacency lists are unchanged; if an allocation fails it returns NOTOK and the graph is still intact and can be freed.", "quantifier": "all reachable graphs, all requests, every point at which allocation can fail", "why_tests_cant": "allocation-failure points are practically untestable", "anchors": ["c/graphLib/graphUtils.c:gp_EnsureArcCapacity", "c/graphLib/graphUtils.c:_EnsureArcCapacity"]}
{"id": "C15", "title": "Initialisation failure leaves a clean graph", "statement": "If gp_InitGraph fails because any of its allocations fails, it returns NOTOK with the graph as after gp_New; a later gp_InitGraph or gp_Free is safe, and no block is freed twice or leaked.", "quantifier": "every allocation at which failure can happen, every later call sequence", "why_tests_cant": "requires fault injection at each allocation", "anchors": ["c/graphLib/graphUtils.c:gp_InitGraph", "c/graphLib/graphUtils.c:_InitGraph", "c/graphLib/graphUtils.c:_ClearGraph", "c/graphLib/graphUtils.c:gp_Free"]}
{"id": "C16", "title": "A copied graph equals and then behaves like its source", "statement": "gp_CopyGraph and gp_DupGraph produce a graph with the same adjacency lists, flags, edge count and free slots, and applying the same sequence of edge operations to source and copy keeps them observably equal until the source reaches its capacity.", "quantifier": "all source graphs, all destination graphs of the same order, all later operation sequences", "why_tests_cant": "behaviour after the copy depends on data outside the copied region", "anchors": ["c/graphLib/graphUtils.c:gp_CopyGraph", "c/graphLib/graphUtils.c:gp_DupGraph", "c/graphLib/graphUtils.c:gp_CopyAdjacencyLists"]}
{"id": "C17", "title": "Reinitialisation gives a fresh graph", "statement": "gp_ReinitializeGraph makes any initialised graph observably identical to one that has just been initialised with the same order and capacity.", "quantifier": "all reachable graphs", "why_tests_cant": "leftover state of any history must be erased", "anchors": ["c/graphLib/graphUtils.c:gp_ReinitializeGraph", "c/graphLib/graphUtils.c:_ReinitializeGraph"]}
{"id": "C18", "title": "Depth-first search numbers all vertices", "statement": "gp_CreateDFSTree on a graph that has not been numbered terminates, never overflows its work stack, and assigns the vertices pairwise different numbers 1..N such that every vertex that is not a tree root has a neighbour with a smaller number recorded as its parent, and there is exactly one root per connected component.", "quantifier": "all graphs reachable through the API whose edges join vertices 1..N (edges to virtual vertices are outside, see DESIGN.md)", "why_tests_cant": "termination, stack bounds and numbering for every graph", "anchors": ["c/graphLib/graphDFSUtils.c:gp_CreateDFSTree"]}
{"id": "C19", "title": "Depth-first search leaves no cross edges", "statement": "After gp_CreateDFSTree every edge (other than a self loop) joins a vertex and one of its tree ancestors, parent/child arcs are exactly the tree edges, and forward/back arcs are exactly the other edges with forward leading from ancestor to descendant.", "quantifier": "all graphs reachable through the API whose edges join vertices 1..N (edges to virtual vertices are outside, see DESIGN.md)", "why_tests_cant": "the defining property of DFS for every graph", "anchors": ["c/graphLib/graphDFSUtils.c:gp_CreateDFSTree"]}
{"id": "C20", "title": "Sorting vertices is a relabelling and an involution", "statement": "gp_SortVertices on a numbered graph renames every vertex v to its number: adjacency lists, their order, edge types and parents are carried along unchanged up to the renaming; a second call restores the original numbering and the graph (exactly, if all vertices were marked visited as gp_CreateDFSTree leaves them; otherwise up to those marks).", "quantifier": "all numbered graphs reachable through the API whose edges join vertices 1..N (edges to virtual vertices are outside, see DESIGN.md)", "why_tests_cant": "in-place permutation by cycle chasing must be right for every permutation", "anchors": ["c/graphLib/graphDFSUtils.c:gp_SortVertices", "c/graphLib/graphDFSUtils.c:_SortVertices"]}
{"id": "C21", "title": "Lowpoints are correct", "statement": "gp_LowpointAndLeastAncestor computes for every vertex the least-numbered ancestor reachable by one back edge (or itself), and the least number reachable from any descendant by one back edge (or itself).", "quantifier": "all graphs reachable through the API whose edges join vertices 1..N (edges to virtual vertices are outside, see DESIGN.md), not numbered yet or not edited since they were numbered", "why_tests_cant": "all DFS trees", "anchors": ["c/graphLib/graphDFSUtils.c:gp_LowpointAndLeastAncestor"]}
{"id": "C22", "title": "Least ancestors are computed on demand", "statement": "gp_LeastAncestor returns OK only after having set every vertex's least ancestor to the least-numbered vertex adjacent by a back edge (or the vertex itself).", "quantifier": "all reachable graphs, whatever library calls came before", "why_tests_cant": "depends on leftover marks of the previous calls", "anchors": ["c/graphLib/graphDFSUtils.c:gp_LeastAncestor", "c/graphLib/graphDFSUtils.c:_SortVertices"]}
{"id": "C23", "title": "Embedding start-up is safe after edits", "statement": "Starting gp_Embed or gp_CreateDFSTree on any initialised graph never accesses memory outside the graph, in particular after the graph was numbered earlier and edges were deleted since.", "quantifier": "all graphs reachable by numbering and edge edits", "why_tests_cant": "needs a particular mix of numbering and deletion", "anchors": ["c/graphLib/planarityRelated/graphEmbed.c:_EmbeddingInitialize", "c/graphLib/graphDFSUtils.c:gp_CreateDFSTree", "c/graphLib/graphUtils.c:gp_DeleteEdge"]}
{"id": "C24", "title": "Subgraph test is exact", "statement": "The subgraph check used by gp_TestEmbedResultIntegrity succeeds if and only if every adjacency of the first graph is an adjacency of the second (and the first graph's edge count matches its lists).", "quantifier": "all pairs of graphs of equal order and equal numbering state", "why_tests_cant": "all pairs of graphs", "anchors": ["c/graphLib/planarityRelated/graphTests.c:_TestSubgraph"]}
{"id": "C25", "title": "Accepted embeddings satisfy Euler's formula", "statement": "If gp_TestEmbedResultIntegrity accepts an OK result, then the result has the same adjacencies as the original graph and its rotation system has exactly M-N+C+(components with edges) facial walks, i.e. it is a planar (genus zero) embedding of every component; conversely a consistent planar rotation system of the same graph is accepted.", "quantifier": "all result/original pairs of equal order in which the result's recorded DFS parents mark one root in each component (as gp_Embed leaves them); the graphs need not come from gp_Embed", "why_tests_cant": "soundness of the checker that all the project's tests rely on", "anchors": ["c/graphLib/planarityRelated/graphTests.c:gp_TestEmbedResultIntegrity", "c/graphLib/planarityRelated/graphTests.c:_CheckEmbeddingIntegrity", "c/graphLib/planarityRelated/graphTests.c:_CheckEmbeddingFacialIntegrity"]}
{"id": "C26", "title": "Accepted planarity obstructions are Kuratowski subdivisions", "statement": "If gp_TestEmbedResultIntegrity accepts a NONEMBEDDABLE result for planarity, then the result graph consists exactly of a subdivision of K5 or K3,3 plus isolated vertices, and all of its edges are edges of the original graph; the check always terminates.", "quantifier": "all result/original pairs", "why_tests_cant": "soundness and termination for every graph", "anchors": ["c/graphLib/planarityRelated/graphTests.c:_CheckObstructionIntegrity", "c/graphLib/planarityRelated/graphTests.c:_CheckKuratowskiSubgraphIntegrity", "c/graphLib/planarityRelated/graphTests.c:_TestForCompleteGraphObstruction", "c/graphLib/planarityRelated/graphTests.c:_TestForK33GraphObstruction", "c/graphLib/planarityRelated/graphTests.c:_getImageVertices", "c/graphLib/planarityRelated/graphTests.c:_TestPath"]}
{"id": "C27", "title": "Accepted outerplanarity obstructions are K4 or K2,3 subdivisions", "statement": "The same for outerplanarity: an accepted NONEMBEDDABLE result is exactly a subdivision of K4 or K2,3 plus isolated vertices.", "quantifier": "all result/original pairs", "why_tests_cant": "soundness and termination for every graph", "anchors": ["c/graphLib/planarityRelated/graphTests.c:_CheckOuterplanarObstructionIntegrity", "c/graphLib/planarityRelated/graphTests.c:_TestForK23GraphObstruction", "c/graphLib/planarityRelated/graphTests.c:_TestForCompleteGraphObstruction"]}
{"id": "C28", "title": "Genuine obstructions are accepted", "statement": "Conversely, every graph that is a subdivision of K5 or K3,3 plus isolated vertices passes the obstruction check.", "quantifier": "all graphs that are such subdivisions, in every adjacency-list order", "why_tests_cant": "completeness over all subdivisions and list orders", "anchors": ["c/graphLib/planarityRelated/graphTests.c:_CheckKuratowskiSubgraphIntegrity", "c/graphLib/planarityRelated/graphTests.c:_TestForK33GraphObstruction"]}
{"id": "C29", "title": "No graph can be certified both ways", "statement": "There is no graph for which gp_TestEmbedResultIntegrity accepts one result as a planar embedding and another result as a planarity obstruction.", "quantifier": "all graphs, all pairs of claimed results", "why_tests_cant": "a statement about all pairs of certificates; equivalent to combinatorial non-planarity of K5 and K3,3 subdivisions", "anchors": ["c/graphLib/planarityRelated/graphTests.c:gp_TestEmbedResultIntegrity"]}
{"id": "C30", "title": "Accepted outerplanar embeddings have every vertex on one face per component", "statement": "If the outerplanarity check on external faces succeeds on a graph whose embedding passed the facial check, then in every component one facial walk contains all of its vertices.", "quantifier": "all embeddings whose recorded DFS parents mark one root in each component", "why_tests_cant": "all embeddings", "anchors": ["c/graphLib/planarityRelated/graphTests.c:_CheckAllVerticesOnExternalFace", "c/graphLib/planarityRelated/graphTests.c:_MarkExternalFaceVertices"]}
{"id": "C31", "title": "Accepted drawings are visibility representations", "statement": "If the drawing check accepts, vertices occupy distinct rows, edges occupy distinct columns, each edge's vertical segment runs exactly between the rows of its two endpoints and touches a vertex's horizontal segment if and only if that vertex is an endpoint.", "quantifier": "all drawings of all loop-free graphs", "why_tests_cant": "soundness over all coordinates", "anchors": ["c/graphLib/planarityRelated/graphDrawPlanar.c:_CheckVisibilityRepresentationIntegrity"]}
{"id": "C32", "title": "Rendering stays inside its buffer and labels inside their vertices", "statement": "Rendering an accepted drawing writes only inside the allocated string, each row ends with a newline, and the label of each vertex is drawn within that vertex's horizontal segment whenever it fits.", "quantifier": "all accepted drawings", "why_tests_cant": "needs particular widths and label lengths (100 or more vertices)", "anchors": ["c/graphLib/planarityRelated/graphDrawPlanar.c:_RenderToString", "c/graphLib/planarityRelated/graphDrawPlanar.c:gp_DrawPlanar_RenderToString"]}
{"id": "C33", "title": "Computed vertex rows are a permutation", "statement": "The vertical positions computed for a drawing are pairwise different and fill 0..N-1.", "quantifier": "all DFS forests and all between/beyond markings without ties", "why_tests_cant": "all combinations of markings", "anchors": ["c/graphLib/planarityRelated/graphDrawPlanar.c:_ComputeVertexPositions", "c/graphLib/planarityRelated/graphDrawPlanar.c:_ComputeVertexPositionsInComponent", "c/graphLib/lowLevelUtils/listcoll.c:LCInsertAfter"]}
{"id": "C34", "title": "graph6 write/read round trip", "statement": "Writing a simple undirected graph in graph6 form and reading it back gives a graph of the same order with exactly the same edges.", "quantifier": "all simple graphs of every order the library accepts for this format (1 to 100000)", "why_tests_cant": "all graphs of all orders, both length encodings, all padding sizes", "anchors": ["c/graphLib/io/g6-write-iterator.c:_encodeAdjMatAsG6", "c/graphLib/io/g6-write-iterator.c:_printEncodedGraph", "c/graphLib/io/g6-read-iterator.c:_decodeGraph", "c/graphLib/io/g6-read-iterator.c:_getGraphOrder", "c/graphLib/io/g6-read-iterator.c:_validateGraphEncoding"]}
{"id": "C35", "title": "graph6 size arithmetic does not overflow", "statement": "For every order the library accepts, the number of encoding characters is ceil(N(N-1)/2/6), computed without integer overflow, and every adjacency bit is written inside the allocated buffer.", "quantifier": "all orders 1..100000 and all pairs of vertices", "why_tests_cant": "orders above 46341 need gigantic test graphs", "anchors": ["c/graphLib/io/g6-api-utilities.c:_getMaxEdgeCount", "c/graphLib/io/g6-api-utilities.c:_getNumCharsForGraphEncoding", "c/graphLib/io/g6-api-utilities.c:_getNumCharsForGraphOrder", "c/graphLib/io/g6-write-iterator.c:_precomputeColumnOffsets", "c/graphLib/io/g6-write-iterator.c:_encodeAdjMatAsG6"]}
{"id": "C36", "title": "Malformed graph6 input is rejected", "statement": "gp_Read/gp_ReadFromString return NOTOK when graph6 data has characters outside the printable range, the wrong length or non-zero padding.", "quantifier": "all malformed inputs", "why_tests_cant": "all strings", "anchors": ["c/graphLib/io/g6-read-iterator.c:_ReadGraphFromG6String", "c/graphLib/io/g6-read-iterator.c:_ReadGraphFromG6FilePath", "c/graphLib/io/g6-read-iterator.c:_validateGraphEncoding", "c/graphLib/io/g6-read-iterator.c:endG6ReadIteration"]}
{"id": "C37", "title": "Valid graph6 never looks like another format", "statement": "The format detection of gp_Read and gp_ReadFromString never mistakes a well-formed graph6 line for one of the other formats, nor output of one writer for another format.", "quantifier": "all graphs and all formats", "why_tests_cant": "all first lines", "anchors": ["c/graphLib/io/graphIO.c:gp_Read", "c/graphLib/io/graphIO.c:gp_ReadFromString", "c/graphLib/io/g6-read-iterator.c:_firstCharIsValid"]}
{"id": "C38", "title": "A file of several graph6 graphs can be read back", "statement": "Writing any list of graphs of equal order through one graph6 write iterator and reading the result through a graph6 read iterator yields the same list of graphs.", "quantifier": "all lists of graphs", "why_tests_cant": "lists of any length", "anchors": ["c/graphLib/io/g6-write-iterator.c:writeGraphUsingG6WriteIterator", "c/graphLib/io/g6-write-iterator.c:_printEncodedGraph", "c/graphLib/io/g6-read-iterator.c:readGraphUsingG6ReadIterator"]}
{"id": "C39", "title": "Directed graphs are not silently written as graph6", "statement": "Writing a graph that contains a directed edge in a format other than the adjacency list format returns an error, as documented for gp_Write.", "quantifier": "all graphs with at least one directed edge", "why_tests_cant": "all digraphs", "anchors": ["c/graphLib/io/g6-write-iterator.c:_encodeAdjMatAsG6", "c/graphLib/io/graphIO.c:gp_Write", "c/graphLib/io/graphIO.c:_WriteAdjMatrix"]}
{"id": "C40", "title": "Adjacency-list write/read round trip preserves the embedding", "statement": "Writing a simple undirected graph in adjacency-list form and reading it back reproduces every vertex's neighbours in the same rotation order.", "quantifier": "all simple graphs, zero- or one-based numbering", "why_tests_cant": "all graphs and rotation systems", "anchors": ["c/graphLib/io/graphIO.c:_WriteAdjList", "c/graphLib/io/graphIO.c:_ReadAdjList"]}
{"id": "C41", "title": "Adjacency-list round trip preserves digraphs", "statement": "Writing a simple digraph (any mixture of directed and undirected edges, at most one edge per vertex pair) in adjacency-list form and reading it back gives the same arcs with the same directions.", "quantifier": "all simple mixed graphs", "why_tests_cant": "all digraphs", "anchors": ["c/graphLib/io/graphIO.c:_WriteAdjList", "c/graphLib/io/graphIO.c:_ReadAdjList", "c/graphLib/graphStructures.h:gp_SetDirection"]}
{"id": "C42", "title": "Adjacency-matrix round trip", "statement": "Writing a simple undirected graph in adjacency-matrix form and reading the text back (from a file or from a string) gives the same edges.", "quantifier": "all simple graphs", "why_tests_cant": "all graphs", "anchors": ["c/graphLib/io/graphIO.c:_WriteAdjMatrix", "c/graphLib/io/graphIO.c:_ReadAdjMatrix", "c/graphLib/io/strbuf.c:sb_ReadSkipInteger"]}
{"id": "C43", "title": "Reading never runs past the input", "statement": "gp_ReadFromString never reads beyond the end of the given string and always terminates, whatever the string.", "quantifier": "all input strings", "why_tests_cant": "all strings, in particular truncated ones", "anchors": ["c/graphLib/io/graphIO.c:_ReadAdjList", "c/graphLib/io/graphIO.c:gp_ReadFromString", "c/graphLib/io/strbuf.c:sb_ReadSkipChar"]}
{"id": "C44", "title": "Stacks are LIFO and copies are faithful", "statement": "The integer stack returns pushed values in reverse order, never loses or reorders values, and copying it produces the same content whatever the capacities.", "quantifier": "all stacks and operation sequences within capacity", "why_tests_cant": "all histories", "anchors": ["c/graphLib/lowLevelUtils/stack.c:sp_Copy", "c/graphLib/lowLevelUtils/stack.c:sp_CopyContent", "c/graphLib/lowLevelUtils/stack.c:sp_Duplicate", "c/graphLib/lowLevelUtils/stack.h:sp_Push"]}
{"id": "C45", "title": "List collections behave like lists", "statement": "Appending, prepending, inserting and deleting nodes in a list collection acts on each list like the corresponding operation on an abstract sequence, never changes the other lists of the collection, and iteration visits each element exactly once and then stops.", "quantifier": "all collections of disjoint lists and all operation sequences", "why_tests_cant": "all histories", "anchors": ["c/graphLib/lowLevelUtils/listcoll.c:LCAppend", "c/graphLib/lowLevelUtils/listcoll.c:LCPrepend", "c/graphLib/lowLevelUtils/listcoll.c:LCInsertAfter", "c/graphLib/lowLevelUtils/listcoll.c:LCDelete", "c/graphLib/lowLevelUtils/listcoll.c:LCGetNext", "c/graphLib/lowLevelUtils/listcoll.c:LCGetPrev"]}
{"id": "C46", "title": "String buffers append exactly", "statement": "Concatenating to a string buffer appends exactly the given text, keeps the text terminated and inside the allocation, for every sequence of concatenations, and taking the string hands over exactly that text and leaves an empty buffer.", "quantifier": "all buffers and all sequences of strings", "why_tests_cant": "growth boundaries for all lengths", "anchors": ["c/graphLib/io/strbuf.c:sb_ConcatString", "c/graphLib/io/strbuf.c:sb_ConcatChar", "c/graphLib/io/strbuf.c:sb_TakeString", "c/graphLib/io/strbuf.c:sb_Copy"]}
{"id": "C47", "title": "Extension registry", "statement": "gp_FindExtension finds exactly the extensions that were added and not removed, with their own contexts; adding an extension twice fails without effect; removing one leaves all others in place.", "quantifier": "all sequences of adding and removing extensions", "why_tests_cant": "all histories", "anchors": ["c/graphLib/extensionSystem/graphExtensions.c:gp_AddExtension", "c/graphLib/extensionSystem/graphExtensions.c:gp_FindExtension", "c/graphLib/extensionSystem/graphExtensions.c:gp_RemoveExtension"]}
{"id": "C48", "title": "Function overloading is consistent under any removal order", "statement": "After any sequence of adding and removing extensions, calling any overloadable function and following the base calls runs exactly the overloads of the extensions still present, most recently added first, ending in the core function.", "quantifier": "all histories and all functions", "why_tests_cant": "removal in orders other than LIFO", "anchors": ["c/graphLib/extensionSystem/graphExtensions.c:_OverloadFunctions", "c/graphLib/extensionSystem/graphExtensions.c:_FixupFunctionTables", "c/graphLib/extensionSystem/graphExtensions.c:_FindNearestOverload"]}
{"id": "C49", "title": "Extensions of a copy are independent of the source", "statement": "After gp_CopyGraph/gp_DupGraph, adding or removing extensions on the copy (or freeing either graph) leaves the other graph's extensions and call chains as they were.", "quantifier": "all extension sets and later operations", "why_tests_cant": "shows only after particular removals on one of the two graphs", "anchors": ["c/graphLib/extensionSystem/graphExtensions.c:gp_CopyExtensions", "c/graphLib/extensionSystem/graphExtensions.c:_FixupFunctionTables", "c/graphLib/graphUtils.c:gp_CopyGraph"]}
{"id": "C50", "title": "Random numbers stay in range", "statement": "The random helper returns a value between its bounds for every value the C generator can return, without overflow.", "quantifier": "all generator outputs and all bounds", "why_tests_cant": "2^31 generator outputs", "anchors": ["c/graphLib/graphUtils.c:_GetRandomNumber"]}
{"id": "C51", "title": "Random graphs are simple and connected", "statement": "Whatever the random stream, if gp_CreateRandomGraph on an empty graph returns OK then the graph is connected, has no self loops or parallel edges, and has at least N-1 and at most N(N-1)/2 edges.", "quantifier": "all random streams and orders", "why_tests_cant": "all random streams", "anchors": ["c/graphLib/graphUtils.c:gp_CreateRandomGraph"]}
{"id": "C52", "title": "Random graph generation with a requested size terminates", "statement": "gp_CreateRandomGraphEx(numEdges) can always reach its loop exit: there is no request for which it is bound to loop forever.", "quantifier": "all orders and all requested edge counts", "why_tests_cant": "non-termination", "anchors": ["c/graphLib/graphUtils.c:gp_CreateRandomGraphEx"]}
{"id": "C53", "title": "Embedding steps keep a planar rotation system", "statement": "Each elementary embedding step (embedding a back edge on the external face, merging a child component at a cut vertex, inverting a vertex, joining components) keeps the partial embedding a consistent rotation system of genus zero: embedding puts the two arcs of the pending edge at one end of the list of the root and of the list of the vertex, merging moves the list of the root copy to one end of the list of the cut vertex, and inverting leaves the rotations.", "quantifier": "all partial embeddings that arise while gp_Embed works on a simple graph made with the API, for planar and outerplanar embedding", "why_tests_cant": "invariant over all executions of the embedder", "anchors": ["c/graphLib/planarityRelated/graphEmbed.c:_EmbedBackEdgeToDescendant", "c/graphLib/planarityRelated/graphEmbed.c:_MergeVertex", "c/graphLib/planarityRelated/graphEmbed.c:_InvertVertex", "c/graphLib/planarityRelated/graphEmbed.c:_JoinBicomps", "c/graphLib/planarityRelated/graphEmbed.c:_MergeBicomps", "c/graphLib/planarityRelated/graphEmbed.c:_OrientVerticesInBicomp"]}
{"id": "C54", "title": "Stored drawings survive write and read", "statement": "Writing an embedded graph with its drawing in adjacency-list form and reading it back into a graph with the drawing feature attached gives each vertex and each edge its own drawing data again.", "quantifier": "all embedded graphs with drawings", "why_tests_cant": "edge identity depends on construction history", "anchors": ["c/graphLib/planarityRelated/graphDrawPlanar_Extensions.c:_DrawPlanar_WritePostprocess", "c/graphLib/planarityRelated/graphDrawPlanar_Extensions.c:_DrawPlanar_ReadPostprocess", "c/graphLib/io/graphIO.c:_ReadAdjList"]}
{"id": "C55", "title": "Setting an edge's direction", "statement": "After gp_SetDirection(theGraph, e, d) on an edge of the graph, gp_GetDirection of e is d and gp_GetDirection of its twin is the opposite direction, whatever the direction was before; and at all times the two arcs of an edge carry opposite directions.", "quantifier": "all reachable graphs, all live arcs e, all directions d, all earlier directions", "why_tests_cant": "Depends on the whole history of direction settings of the edge; tests set a direction once.", "anchors": ["c/graphLib/graphStructures.h:149-166"]}
{"id": "C56", "title": "Identifying and contracting merge the adjacency lists correctly", "statement": "gp_IdentifyVertices(u,v,eBefore) on distinct vertices, u having no parallel arcs and v no self loop, returns OK and leaves v isolated; u's list is its old list with those arcs of v that do not lead to u or to a neighbour of u inserted, in their order, before eBefore (at the end for NIL; at the position of the joining edge, which disappears, if u and v are adjacent or gp_ContractEdge is used); the other edges of v are hidden from both lists, arcs that led to v lead to u, and nothing else changes.", "quantifier": "all reachable graphs, all vertex pairs meeting the documented precondition, all positions, any stack content with room", "why_tests_cant": "holds for every combination of common neighbours, list orders and insertion points, including empty prefixes and suffixes", "anchors": ["c/graphLib/graphUtils.c:gp_IdentifyVertices", "c/graphLib/graphUtils.c:gp_ContractEdge"]}
{"id": "C57", "title": "gp_CopyAdjacencyLists copies exactly the lists", "statement": "gp_CopyAdjacencyLists between initialised graphs of the same order returns OK and gives every primary vertex of the destination the source's adjacency list (both directions, same neighbours), the source's edge count and free slots, while vertex data, edge flags and graph flags of the destination stay unchanged.", "quantifier": "all pairs of reachable graphs of equal order, any capacities", "why_tests_cant": "quantifies over every leftover content and capacity of the destination", "anchors": ["c/graphLib/graphUtils.c:gp_CopyAdjacencyLists"]}
{"id": "C58", "title": "A string buffer's read position stays inside its text", "statement": "After any string buffer operation the read position lies inside the text or at its terminator, so that the rest of the text can be read; skipping whitespace or an integer stops at the first character of another kind.", "quantifier": "all buffers, texts and read positions", "why_tests_cant": "quantifies over every text, position and operation", "anchors": ["c/graphLib/io/strbuf.c:sb_TakeString", "c/graphLib/io/strbuf.c:sb_Copy", "c/graphLib/io/strbuf.c:sb_ReadSkipWhitespace", "c/graphLib/io/strbuf.c:sb_ReadSkipInteger", "c/graphLib/io/strbuf.h:sb_ReadSkipChar"]}
{"id": "C59", "title": "graph6 writer conforms to the published format", "statement": "For a simple graph the graph6 writer produces exactly the text the graph6 format definition prescribes: the order, then the upper triangle of the adjacency matrix column by column in groups of six bits.", "quantifier": "all simple graphs of every order the writer supports", "why_tests_cant": "The text depends on every pair of vertices; the bit packing, padding and order prefix change behaviour at boundaries that samples miss.", "anchors": ["c/graphLib/io/g6-write-iterator.c:_encodeAdjMatAsG6", "c/graphLib/io/g6-write-iterator.c:_precomputeColumnOffsets", "c/graphLib/io/g6-write-iterator.c:_getNextInUseEdge"]}
{"id": "C60", "title": "graph6 reader accepts every well-formed text", "statement": "Every text that the graph6 format definition prescribes for some graph, with or without the header, with any usual line end, from a string or a file, is read as exactly that graph.", "quantifier": "all adjacency matrices of every supported order, both input kinds, with or without header, all line ends, new or reused graph", "why_tests_cant": "Combines unboundedly many texts with several container and line-end variants.", "anchors": ["c/graphLib/io/g6-read-iterator.c:_beginG6ReadIteration", "c/graphLib/io/g6-read-iterator.c:readGraphUsingG6ReadIterator", "c/graphLib/io/g6-read-iterator.c:_decodeGraph", "c/graphLib/io/strOrFile.c:sf_fgets"]}
{"id": "C61", "title": "Lowpoints describe the graph as it is", "statement": "Whenever gp_LowpointAndLeastAncestor returns OK, every vertex has a lowpoint between 1 and its own number, also if edges were deleted after the graph had been numbered.", "quantifier": "all graphs reachable through the API, including graphs edited after they were numbered", "why_tests_cant": "needs a particular order of numbering, editing and computing, over all graphs", "anchors": ["c/graphLib/graphDFSUtils.c:gp_LowpointAndLeastAncestor", "c/graphLib/graphDFSUtils.c:gp_CreateDFSTree", "c/graphLib/graphUtils.c:gp_DeleteEdge"]}
{"id": "C62", "title": "Depth-first numbers are a preorder", "statement": "The numbers gp_CreateDFSTree gives to the vertices of any subtree of the search forest are consecutive, and the root of the subtree has the smallest of them.", "quantifier": "all graphs reachable through the API whose edges join vertices 1..N (edges to virtual vertices are outside, see DESIGN.md)", "why_tests_cant": "holds for every search tree of every graph, relies on the order in which stacked arcs are popped", "anchors": ["c/graphLib/graphDFSUtils.c:gp_CreateDFSTree"]}
{"id": "C63", "title": "gp_SortVertices after gp_Embed gives the certificate back under the input's vertex names", "statement": "On a simple graph, if gp_Embed(EMBEDFLAGS_PLANAR or EMBEDFLAGS_OUTERPLANAR) returns OK, gp_SortVertices after it returns OK and leaves a graph of the same order and number of edges in which every vertex has exactly the neighbours it has in the input, now in the cyclic order of a plane embedding (for outerplanar embedding one in which a face of each component meets all its vertices). If gp_Embed returns NONEMBEDDABLE, gp_SortVertices after it returns OK, every vertex then has only neighbours it has in the input, and for outerplanar embedding the graph is a subdivision of K2,3 or K4.", "quantifier": "all simple graphs the API can build that were not numbered before, both embedding flags, both results", "why_tests_cant": "all graphs and all renamings a depth-first search can produce; a name exchanged twice, or an end of an edge left with its number, shows up only for permutations that are not their own inverse", "anchors": ["c/graphLib/planarityRelated/graphEmbed.c:gp_Embed", "c/graphLib/graphDFSUtils.c:gp_SortVertices"]}
{"id": "C64", "title": "Random graph generation makes the requested number of edges", "statement": "gp_CreateRandomGraphEx(numEdges) on an empty graph, for a request between the size of a tree and that of a maximal planar graph and within the capacity, returns OK with exactly numEdges edges.", "quantifier": "all orders, capacities, requests and random streams", "why_tests_cant": "all random streams", "anchors": ["c/graphLib/graphUtils.c:gp_CreateRandomGraphEx"]}
{"id": "C68", "title": "Computed rows follow the recorded placements", "statement": "After the rows of a drawing have been computed, a vertex recorded as lying between its parent and an ancestor has a row strictly between theirs, a vertex recorded as lying beyond its parent has its parent's row strictly between its own and the ancestor's, and all descendants of a vertex lie on the same side of its parent as the vertex itself.", "quantifier": "all DFS forests and all between/beyond markings without ties that leave the children of roots unmarked", "why_tests_cant": "all forests and all combinations of markings; the computation flips whole subtrees", "anchors": ["c/graphLib/planarityRelated/graphDrawPlanar.c:_ComputeVertexPositionsInComponent"]}
{"id": "C69", "title": "Computed edge columns are a permutation", "statement": "Whenever the drawing of a graph without loops is computed successfully, the columns of its M edges are 0 to M-1, each used once, and both arcs of an edge carry the same column.", "quantifier": "all graphs without loops, all DFS forests sorted by number, all embeddings (orders of edges around vertices), all placements recorded", "why_tests_cant": "all graphs and embeddings; the columns come from a linked list grown by insertion during a sweep over the rows", "anchors": ["c/graphLib/planarityRelated/graphDrawPlanar.c:_ComputeEdgePositions"]}
{"id": "C70", "title": "What the computed drawing guarantees", "statement": "Once the placement of every vertex is known, computing the drawing of a graph without loops or free edge slots returns NOTOK exactly if with the rows computed some vertex other than a DFS root has no neighbour in a higher row; otherwise vertices and edges get rows, columns and extents that tile: each vertex spans exactly from its first to its last edge, each edge exactly from end to end. The drawing then passes the drawing check exactly if no edge meets a third vertex. With an unresolved tie or a free slot the result is NOTOK.", "quantifier": "all graphs without loops, all DFS forests sorted by number, all embeddings, all placements recorded", "why_tests_cant": "all graphs and embeddings", "anchors": ["c/graphLib/planarityRelated/graphDrawPlanar.c:_ComputeVisibilityRepresentation", "c/graphLib/planarityRelated/graphDrawPlanar.c:_ComputeVertexRanges", "c/graphLib/planarityRelated/graphDrawPlanar.c:_ComputeEdgeRanges"]}
{"id": "C71", "title": "A reported embedding is one", "statement": "If gp_Embed returns OK for a simple graph, then afterwards the graph is well formed, sorted by DFI, and the same graph as before with its vertices renamed, each vertex recording its old name as its index; its adjacency lists are the rotations of a plane embedding (Euler's formula holds in every component); exactly one vertex of every component has no parent; and gp_TestEmbedResultIntegrity accepts it.", "quantifier": "all simple graphs the API can build that were not numbered before, for planar and outerplanar embedding", "why_tests_cant": "all graphs and all orders of edges; soundness of the whole embedder", "anchors": ["c/graphLib/planarityRelated/graphEmbed.c:gp_Embed", "c/graphLib/planarityRelated/graphEmbed.c:_EmbeddingInitialize", "c/graphLib/planarityRelated/graphEmbed.c:_WalkUp", "c/graphLib/planarityRelated/graphEmbed.c:_WalkDown", "c/graphLib/planarityRelated/graphEmbed.c:_MergeBicomps", "c/graphLib/planarityRelated/graphEmbed.c:_EmbedPostprocess"]}
{"id": "C72", "title": "A graph reported not embeddable is not planar", "statement": "If the planar embedding of a simple graph by gp_Embed stops because the walk down is blocked (the situation in which it returns NONEMBEDDABLE), then the graph has K5 or K3,3 as a minor, and neither it nor any graph with more edges on the same vertices has a plane embedding. Together with C71: gp_Embed reports OK only for planar graphs and NONEMBEDDABLE only for nonplanar graphs.", "quantifier": "all simple graphs the API can build that were not numbered before", "why_tests_cant": "all graphs and all orders of edges; completeness of the edge addition method, a theorem about every state in which the walk down can stop", "anchors": ["c/graphLib/planarityRelated/graphEmbed.c:gp_Embed", "c/graphLib/planarityRelated/graphEmbed.c:_WalkUp", "c/graphLib/planarityRelated/graphEmbed.c:_WalkDown", "c/graphLib/planarityRelated/graphEmbed.c:_MergeBicomps"]}
{"id": "C73", "title": "gp_Embed decides planarity", "statement": "For a simple graph gp_Embed, planar or outerplanar, always comes to an end, never accesses memory outside the graph, never overflows its stack, and never returns NOTOK. For planar embedding it returns OK exactly if the graph is planar, that is exactly if it has neither K5 nor K3,3 as a minor, and otherwise goes on to isolate an obstruction.", "quantifier": "all simple graphs the API can build that were not numbered before", "why_tests_cant": "termination, memory safety and correctness of the whole embedder for all graphs and all orders of edges", "anchors": ["c/graphLib/planarityRelated/graphEmbed.c:gp_Embed", "c/graphLib/planarityRelated/graphEmbed.c:_EmbeddingInitialize", "c/graphLib/planarityRelated/graphEmbed.c:_WalkUp", "c/graphLib/planarityRelated/graphEmbed.c:_WalkDown", "c/graphLib/planarityRelated/graphEmbed.c:_MergeBicomps", "c/graphLib/planarityRelated/graphEmbed.c:_OrientVerticesInEmbedding", "c/graphLib/planarityRelated/graphEmbed.c:_JoinBicomps"]}
{"id": "C66", "title": "Certificates of outerplanarity and of its absence exclude each other", "statement": "For a graph without loops and results with exactly one recorded root in each component: if gp_TestEmbedResultIntegrity accepts one result as an outerplanar embedding of the graph, then it rejects every graph claimed to be an obstruction to its outerplanarity, and if it accepts one obstruction, it rejects every claimed outerplanar embedding.", "quantifier": "all graphs without loops, all claimed embeddings and obstructions", "why_tests_cant": "all pairs of claimed certificates; rests on the absence of K4 and K2,3 in plane graphs with all vertices on one face", "anchors": ["c/graphLib/planarityRelated/graphTests.c:gp_TestEmbedResultIntegrity", "c/graphLib/planarityRelated/graphTests.c:_CheckAllVerticesOnExternalFace", "c/graphLib/planarityRelated/graphTests.c:_CheckOuterplanarObstructionIntegrity"]}
{"id": "C74", "title": "A graph reported not outerplanar is not outerplanar", "statement": "If the outerplanar embedding of a simple graph by gp_Embed stops because the walk down is blocked (the situation in which it returns NONEMBEDDABLE), then the graph has K4 or K2,3 as a minor, and neither it nor any graph with more edges on the same vertices has a plane embedding with all vertices of each component on one face.", "quantifier": "all simple graphs the API can build that were not numbered before", "why_tests_cant": "all graphs and all orders of edges; completeness of the edge addition method for outerplanar embedding", "anchors": ["c/graphLib/planarityRelated/graphEmbed.c:gp_Embed", "c/graphLib/planarityRelated/graphEmbed.c:_WalkUp", "c/graphLib/planarityRelated/graphEmbed.c:_WalkDown", "c/graphLib/planarityRelated/graphEmbed.c:_MergeBicomps"]}
{"id": "C75", "title": "An outerplanar embedding has all vertices on one face; gp_Embed decides outerplanarity", "statement": "If gp_Embed with the flags of outerplanar embedding reports OK on a simple graph, the face of the first arc of each DFS root meets all vertices of its component, so gp_TestEmbedResultIntegrity with these flags accepts the result. It reports OK exactly if the graph is outerplanar, which is exactly if the graph has neither K4 nor K2,3 as a minor, and is blocked on all other graphs.", "quantifier": "all simple graphs the API can build that were not numbered before", "why_tests_cant": "all graphs and all orders of edges; that no vertex ever leaves the external face is an invariant of all merges and edge additions", "anchors": ["c/graphLib/planarityRelated/graphEmbed.c:gp_Embed", "c/graphLib/planarityRelated/graphEmbed.c:_WalkDown", "c/graphLib/planarityRelated/graphEmbed.c:_MergeBicomps", "c/graphLib/planarityRelated/graphTests.c:_CheckAllVerticesOnExternalFace"]}
{"id": "C76", "title": "The graph left by a NONEMBEDDABLE gp_Embed is a consistent part of the input", "statement": "If gp_Embed, for planar or outerplanar embedding, returns NONEMBEDDABLE on a simple graph, the graph it leaves is consistent (all links, twins, edge counts and the free list agree), numbered and sorted, has all vertices of the input and no loops or parallel edges; every edge of it joins two vertices whose recorded names are adjacent in the input. The input is then not planar (not outerplanar), and gp_TestEmbedResultIntegrity accepts the result exactly if the graph left is a subdivision of K5 or K3,3 (of K4 or K2,3).", "quantifier": "all simple graphs the API can build that were not numbered before, both kinds of embedding", "why_tests_cant": "all graphs; each of the eleven isolators rearranges, inverts, joins and extends adjacency lists and adds unembedded edges back before most edges are deleted", "anchors": ["c/graphLib/planarityRelated/graphIsolator.c:_IsolateKuratowskiSubgraph", "c/graphLib/planarityRelated/graphNonplanar.c:_ChooseTypeOfNonplanarityMinor", "c/graphLib/planarityRelated/graphOuterplanarObstruction.c:_IsolateOuterplanarObstruction", "c/graphLib/planarityRelated/graphIsolator.c:_DeleteUnmarkedVerticesAndEdges", "c/graphLib/planarityRelated/graphEmbed.c:gp_Embed"]}
{"id": "C65", "title": "gp_Read of a LEDA file makes the graph the file describes", "statement": "If a file holds a graph in LEDA format (LEDA.GRAPH, two type lines, the number n of nodes, n node lines, the number of edges, one line for each edge that starts with its two nodes, then anything), no line is longer than 253 characters and all nodes named are among 1..n, gp_Read returns OK and the graph has order n, is undirected and without loops and parallel edges, and two different vertices are adjacent exactly if an edge of the file joins them in one direction or the other.", "quantifier": "all such files, with any white space before and between the numbers, leading zeros, any node lines and any text after the numbers", "why_tests_cant": "infinitely many texts; edges given twice, in both directions or as loops in any order; the edge store grows while reading", "anchors": ["c/graphLib/io/graphIO.c:_ReadLEDAGraph", "c/graphLib/io/graphIO.c:gp_Read", "c/graphLib/graph.c:gp_DynamicAddEdge", "c/graphLib/graph.c:gp_IsNeighbor"]}
{"id": "C77", "title": "gp_Read refuses LEDA files that are not well formed", "statement": "A file that starts with LEDA.GRAPH but has no positive number of nodes, names a node that does not exist in an edge, or otherwise breaks the format makes gp_Read return NOTOK; it never causes undefined behaviour.", "quantifier": "all files that start with LEDA.GRAPH", "why_tests_cant": "infinitely many malformed files; reads outside an array or of a variable never set may go unnoticed in a test", "anchors": ["c/graphLib/io/graphIO.c:_ReadLEDAGraph", "c/graphLib/io/graphIO.c:gp_Read"]}
{"id": "C78", "title": "What gp_Embed leaves of a graph that is not outerplanar is a K2,3 or K4 obstruction", "statement": "If gp_Embed(EMBEDFLAGS_OUTERPLANAR) returns NONEMBEDDABLE on a simple graph, the edges it leaves in the graph form exactly a subdivision of K2,3 or of K4 (all other vertices are isolated), and gp_TestEmbedResultIntegrity accepts the result.", "quantifier": "all simple graphs the API can build that were not numbered before; all paths through the choice of minors A, B and E", "why_tests_cant": "all graphs and all lengths of the subdivided paths; one mark too many or too few shows up only for certain shapes of the external face, of the tree paths and of inner edges", "anchors": ["c/graphLib/planarityRelated/graphOuterplanarObstruction.c:_IsolateOuterplanarObstruction", "c/graphLib/planarityRelated/graphOuterplanarObstruction.c:_IsolateOuterplanarityObstructionA", "c/graphLib/planarityRelated/graphOuterplanarObstruction.c:_IsolateOuterplanarityObstructionB", "c/graphLib/planarityRelated/graphOuterplanarObstruction.c:_IsolateOuterplanarityObstructionE", "c/graphLib/planarityRelated/graphNonplanar.c:_MarkClosestXYPath", "c/graphLib/planarityRelated/graphIsolator.c:_DeleteUnmarkedVerticesAndEdges"]}
{"id": "C79", "title": "Strings and files are read alike", "statement": "A string-or-file container made from a string and one made from a file with the same bytes give the same results to every sequence of calls of sf_getc, of sf_getc followed by sf_ungetc of the character read, and of sf_fgets: the next character, or EOF at the end; the next line, up to a newline or one byte less than the given count, or NULL at the end.", "quantifier": "all texts without NUL, all sequences of calls, all buffers at least as long as the counts given", "why_tests_cant": "infinitely many texts and call sequences; the string variant is written by hand with strncpy and strchr where the file variant uses stdio", "anchors": ["c/graphLib/io/strOrFile.c:sf_New", "c/graphLib/io/strOrFile.c:sf_getc", "c/graphLib/io/strOrFile.c:sf_ungetc", "c/graphLib/io/strOrFile.c:sf_fgets"]}
{"id": "C80", "title": "Text written to a container is read back whole", "statement": "Strings written one after the other with sf_fputs are appended exactly, to a string as to a file; for a string each call returns the number of bytes. The string then taken with sf_takeTheStr, or the file, reads back with sf_fgets as lines that are not empty, are shorter than the count and together are exactly the text written; no byte is lost, read twice or read outside the arrays.", "quantifier": "all lists of strings, any string in the container before, all counts of at least 2, all contents of newly allocated memory", "why_tests_cant": "infinitely many texts and counts; off-by-one errors at the terminator depend on lengths and on what the memory held", "anchors": ["c/graphLib/io/strOrFile.c:sf_fputs", "c/graphLib/io/strOrFile.c:sf_takeTheStr", "c/graphLib/io/strOrFile.c:sf_fgets"]}
{"id": "C67", "title": "Accepted results of homeomorph searches are subdivisions of the graph sought", "statement": "When a search for K2,3, K3,3 or K4 reports NONEMBEDDABLE (a homeomorph was found), gp_TestEmbedResultIntegrity accepts the result exactly if the extension of that search is attached, every adjacency of the result graph is one of the original graph, and the result graph is a subdivision of the graph sought with or without isolated vertices (an accepted K2,3 is one if the result has no loops). The test always ends, stays inside its arrays and changes nothing but visited marks, whichever other searches are attached and in whichever order.", "quantifier": "all pairs of consistent graphs of the same order, all three searches, all lists of attached search extensions", "why_tests_cant": "soundness and completeness of the certificate check for every graph and every order of attaching", "anchors": ["c/graphLib/homeomorphSearch/graphK23Search_Extensions.c:_K23Search_CheckObstructionIntegrity", "c/graphLib/homeomorphSearch/graphK33Search_Extensions.c:_K33Search_CheckObstructionIntegrity", "c/graphLib/homeomorphSearch/graphK4Search_Extensions.c:_K4Search_CheckObstructionIntegrity", "c/graphLib/planarityRelated/graphTests.c:gp_TestEmbedResultIntegrity"]}
{"id": "C81", "title": "Attached extensions do not change the verdict on planar and outerplanar results", "statement": "For results of gp_Embed with EMBEDFLAGS_PLANAR or EMBEDFLAGS_OUTERPLANAR, gp_TestEmbedResultIntegrity gives the same verdict whichever extensions are attached to the result graph; in particular an accepted NONEMBEDDABLE result is a genuine obstruction.", "quantifier": "all graphs, all results, all lists of attached extensions in any order", "why_tests_cant": "the overloads chain differently for every order of attaching, and the verdict must agree on all graphs", "anchors": ["c/graphLib/planarityRelated/graphTests.c:gp_TestEmbedResultIntegrity", "c/graphLib/planarityRelated/graphDrawPlanar_Extensions.c:_DrawPlanar_CheckObstructionIntegrity", "c/graphLib/planarityRelated/graphDrawPlanar_Extensions.c:_DrawPlanar_CheckEmbeddingIntegrity", "c/graphLib/homeomorphSearch/graphK33Search_Extensions.c:_K33Search_CheckEmbeddingIntegrity"]}
{"id": "C82", "title": "Sorting the vertices carries the drawing along", "statement": "gp_SortVertices on a graph with the drawing extension gives each renumbered vertex the row, columns and marks it had, renames the vertices that the drawing data name, and leaves the data of the edges alone, so that the data are a valid drawing of the sorted graph exactly if they were one before; sorting again restores graph and data. It stays inside its arrays and always ends.", "quantifier": "all consistent graphs, all drawing data, all DFS numberings", "why_tests_cant": "the data are moved in place along the cycles of an arbitrary permutation, separately from the vertices themselves", "anchors": ["c/graphLib/planarityRelated/graphDrawPlanar_Extensions.c:_DrawPlanar_SortVertices", "c/graphLib/graphDFSUtils.c:_SortVertices"]}
