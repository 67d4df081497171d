# Formal model of the edge-addition-planarity-suite: design

Source of truth: `/repo` at the pinned commit (C code, read as text, never run).
Proof assistant: Lean 4.33.0, Lake project in `lean/`, modules under `lean/Verif/`.

## Modelling conventions

* **Configuration.** Default build: `NIL = 0`, 1-based vertices, first edge index 2
  (`graphStructures.h` 70), `SPEED_MACROS` on (so macro versions of stack and list
  collection), `OK = 1`, `NOTOK = 0`, `NONEMBEDDABLE = -1`.
* **Undefined behaviour is an outcome.** State-changing functions live in `Option`.
  `none` means undefined behaviour: an array access outside the allocated range, a NULL
  dereference, a double free, a signed overflow (where the property is about
  overflow), or a loop that did not stop within its fuel.  Every theorem of the form
  `f s = some s'` therefore contains memory safety and termination.
  Ordinary error returns (`NOTOK`, `NONEMBEDDABLE`) are values, not `none`.
* **Arrays** are total functions `Nat → Record` plus an explicit allocated size; the
  accessors check the size.
* **Loops** take fuel, an explicit bound at the call site which the theorems prove
  sufficient (exhaustion = `none`).
* **Integers** are `Nat`/`Int` unless the property is about overflow; there 32-bit
  two's complement range checks are explicit.
* Each definition cites file and lines and states simplifications.
* Specification predicates live in separate `Spec` sections or files, stated over lists,
  finite sets, or Mathlib-style relations and do not mention the model's helpers.
* Property theorems live in files of their own (`Verif/Props/*.lean`).

## Trusted base

* Lean's kernel. Theorems may depend on `propext`, `Classical.choice`, `Quot.sound`; no
  other axiom. No `sorry`, `native_decide`, `bv_decide`.
* The reading of C into the model (this document and the citations).
* Library calls (`malloc`, `calloc`, `realloc`, `rand`, `sprintf`, `fgetc`, …) are modelled by
  their documented contracts; failure of an allocation is an explicit input where the
  property is about it.
* The compiler, libc, and the machine.

## Plan per property

| id | modelled | how proved |
|----|----------|-----------|
| C01–C07 | `Graph` state: vertex records, edge records, `M`, arc capacity, free-slot stack; AddEdge, InsertEdge, DeleteEdge, AttachArc, DetachArc | refinement to an abstract state (a list of arcs per vertex); invariant by induction over operation lists |
| C08 | HideEdge / RestoreEdge | dancing-links lemma: restore ∘ hide = id on well-formed states; induction over the hidden sequence |
| C09 | HideVertex / RestoreVertex | as C08, with the edge stack |
| C10 | IdentifyVertices / RestoreVertex | false of the code (wrong link reset): negation by concrete witness; partial theorem for the case in which it is right |
| C11 | ContractEdge / RestoreVertices | false of the code (hidden edge left on the stack): negation by witness |
| C12 | IsNeighbor, GetNeighborEdgeRecord, degree functions, SetDirection | list traversal lemma on well-formed states |
| C13 | DynamicAddEdge, GetArcCapacity | false for small capacities: negation; partial theorem for capacity at least 6 |
| C14 | EnsureArcCapacity with allocation failures | success case as an invariant; failure case false (E lost): negation |
| C15 | heap-level model of InitGraph/ClearGraph/Free with failing allocation | false (double free): negation; partial: which failure points are safe |
| C16, C57 | CopyGraph / DupGraph / CopyAdjacencyLists on the edge store | simulation between source and copy along any run; witness that the capacity restriction is needed |
| C17 | ReinitializeGraph | equality with the fresh state |
| C18, C19, C62 | CreateDFSTree with its explicit stack, on top of the edge store | refinement to an abstract search with a loop invariant (ancestors, preorder intervals, pending arcs); graphs reachable by edge calls, capacity requests, reinitialisation, searching and sorting |
| C20 | SortVertices cycle chasing | permutation lemma: the loop computes the renaming by the inverse numbering |
| C21, C61 | LowpointAndLeastAncestor | invariant of post-order processing; stale numbering: negation |
| C22 | LeastAncestor | false (marks never cleared): nothing is stored, for every unsorted graph; partial when the caller clears the marks |
| C23 | all of `_EmbeddingInitialize`; CreateDFSTree | false: negation by witness; partial: CreateDFSTree is defined on all reachable graphs, `_EmbeddingInitialize` on all simple ones not numbered |
| C24 | TestSubgraph | two-pass marking lemma |
| C25 | facial walk check (Test/Model, `checkFacial`) | the rotation system as permutations of the arcs (Map/Graph); the loop counts the cycles of the face permutation; Euler's inequality by deleting edges one at a time (Map/Perm, Map/Restrict); roots = components if each component has one root |
| C26–C28 | image-vertex collection, TestPath/TryPath, K5/K33/K4/K23 tests (Test/Model) | the arcs as darts of two permutations: a path is a run of the thread permutation through vertices of degree two (Map/Path, Test/Paths); counting marked vertices shows that nothing is left over (Test/Subdiv, Test/Image, Test/Obstruct); both directions against the specification `IsSubdivision` by lists of branch vertices and inner vertices |
| C67, C81 | the overloads of fpCheckEmbeddingIntegrity and fpCheckObstructionIntegrity by the searches for K2,3, K3,3, K4 and by the drawing extension, called along the list of attached extensions, last attached first (Test/Features; that calls go so is C48) | induction over the list shows which test is called; that test is exact by the lemmas of C26–C28. The searches themselves (graphK23Search.c, graphK33Search.c, graphK4Search.c) are not modelled: their results are covered through the test |
| C82 | _DrawPlanar_SortVertices (Draw/Sort) on top of the model of _SortVertices (C20); drawing data as in C31 | the in-place moves follow each cycle of the permutation: invariant that visited positions hold their final data; a drawing is valid independently of the names of vertices. For a DFS numbered graph and embedFlags = EMBEDFLAGS_DRAWPLANAR |
| C29 | certificates | combinatorial maps: the arcs of the obstruction inside the plane map (Map/Count, Test/NonPlanar): Euler's formula gives 7 resp. 5 faces, each with at least 3 resp. 4 of the 20 resp. 18 arcs at branch vertices |
| C30 | external face marking (`checkExternal`) | the loop marks the owners of one cycle of the face permutation |
| C31 | `_CheckVisibilityRepresentationIntegrity` (Draw/Model, `check`) | the marks as sets of rows and columns; acceptance equals the conditions of a visibility representation |
| C32 | `_RenderToString` on a buffer of bytes (`render`) | the rendition is a list of writes; the last write to each place by injectivity of row·(M+1)+column; label and newline claim false: negation |
| C33, C68 | `_ComputeVertexPositions` with the order list (Draw/Model, `computeRows`) | invariant of the loop: the list holds an upper part of the tree, each subtree on one side of its parent (Draw/Order, Draw/Rows); the components one after the other (Draw/Place) |
| C69, C70 | `_ComputeVisibilityRepresentation`, `_ComputeEdgePositions`, `_ComputeVertexRanges`, `_ComputeEdgeRanges` (Draw/Model) | sweep invariant: the edge list holds exactly the edges going down from the rows done, in the list each once, and the generator edge of a vertex is in it once a higher row is adjacent (Draw/Sweep, Draw/Columns); folds for the ranges (Draw/Ranges); Draw/Whole. The visitedInfo used as generator edge is kept apart (`Sweep.gen`); allocation failures and leaks are not modelled |
| C34–C39 | graph6 encoder/decoder at byte level | codec round trip; negations where the code misbehaves |
| C37, C40–C43 | graphIO.c: gp_Read, gp_ReadFromString, _ReadAdjList, _ReadAdjMatrix, _ReadLEDAGraph, _WriteAdjList, _WriteAdjMatrix at character level; scanf/printf of `%d` and `%1d` | reader invariant over the edge store with the arcs set aside in a circular list; one proof for files and strings through an abstract source of numbers; negations where the code misbehaves |
| C44–C46, C58 | stack, list collection, string buffer | refinement to lists; read position: negation and partial |
| C79, C80 | strOrFile.c: sf_New, sf_getc, sf_ungetc, sf_fgets, sf_fputs, sf_takeTheStr (Util/StrOrFile), arrays byte by byte; stdio as a list of bytes to come with one character that may be pushed back, a list of bytes written. sf_closeFile and sf_Free are not modelled | an independent reader of texts (Spec/Reader), whose replies are unique; each call refines it; negation for carriage returns and EOF put back |
| C47–C49 | graphExtensions.c: AddExtension, FindExtension, RemoveExtension, CopyExtensions, FreeExtensions; contexts on a heap; the attach pattern of the modules | refinement to a list of extensions per graph with an invariant of the function tables, for all histories on all graphs; negation for removal from copies |
| C50–C52 | graphUtils.c 1073-1351: _GetRandomNumber, gp_CreateRandomGraph, gp_CreateRandomGraphEx, rand() a stream of numbers | range arithmetic with int overflow; invariants for all random streams; negations |
| C53, C71 | all of graphEmbed.c for planar and outerplanar embedding without extensions (Embed/Model, Embed/Init): `_EmbeddingInitialize`, `_WalkUp`, `_WalkDown`, `_MergeBicomps`, `_MergeVertex`, `_InvertVertex`, `_EmbedBackEdgeToDescendant`, `_AdvanceFwdArcList`, `_OrientVerticesInEmbedding`, `_JoinBicomps`; the isolation of obstructions is under C76 | a ghost plane map (Embed/Ideal, Map/Join): σ with α satisfies Euler's formula; each list of the code is a cycle of σ, read backwards for vertices with a pending inversion; the external face of each bicomp is a list of vertices; each step of the code is a join of two cycles of σ on one face, a join of two components, or a mirror image of a component; then transport to the graph read with the API (Embed/Sound). C53 follows the run through its loops (Props/EmbedSteps: `Before`, `Round`, `Merging`, `TurningIn`, `Joins`) and gives the lists before and after each elementary step (Embed/Moments) |
| C72 | the same model; the result `blocked` of `_WalkDown` | a blocked walk down is a vertex with no pertinent or active way on (Embed/Down), or a pertinent vertex left between two active vertices of the component of the child (Embed/DownEnd); from the boundary of the component as it was when the walk started, the tree paths up, the paths down to pending back edges and the frames on the stack, connected disjoint sets are built that form K5 or K3,3 (Embed/Obstacle, Embed/Frames, Embed/Final); `Origin`, `Walk` relate the present state to the state at the start of the walk; the ends of every component left by earlier steps are active or the only active vertex (`EndsOK`); minors do not exist in plane maps by contraction of edges (Map/Minor) |
| C73 | the same model | every step of the proof of C71/C72 gives the existence of the next state: bounds of all array accesses from the representation (`Rep`), room on the stack from `6 * N ≤ stackCap` and `2 * arcCap ≤ stackCap`, fuel of every loop bounded by the length of the list walked, the number of vertices not yet visited or the length of the boundary of the component; with C71, C72 and the absence of K5 and K3,3 in plane maps this is the theorem of Wagner for the graphs of the library |
| C74 | the same model with `outer = true` | in outerplanar embedding every vertex counts as externally active, as if one more vertex 0 were adjacent to all others (`Base.ap`); with it the proof of C72 gives K5 or K3,3 in the graph with the additional vertex, and without the set that contains it K4 or K2,3 in the graph (Embed/NoOuter); these do not exist in plane maps with a face that meets all vertices (Map/Outer, Map/Minor) |
| C75 | the same model with `outer = true` | invariant of the main loop (`St.all`): with `Base.ap`, every vertex of a component stays on the ring of its root, because no vertex is ever inactive and so none is passed over by the walk down; `_JoinBicomps` keeps the heads of all lists of a component on one face (`Joining.face`, Embed/JoinAll); with C30, C73 and C74 the rest follows |
| C76 | all of graphNonplanar.c, graphIsolator.c and graphOuterplanarObstruction.c (Embed/Isolate): choice of the minor, marking of paths, all isolators, `_JoinBicomps`, `_AddAndMarkEdge`, `_DeleteUnmarkedVerticesAndEdges`; gp_Embed with its result codes | partial correctness (`Ens`, `Ok`: what holds of every state the code reaches with OK): marks, types and stack are a frame (Embed/IsoFrame, IsoWalk, IsoPath); the adjacency lists and the lists of arcs not yet embedded together hold every arc of the input once (`Part`, Embed/IsoPart), which inverting lists, joining components and adding edges keep (IsoInit, IsoEnds, IsoJoin, IsoAdd); after all arcs have been put back the graph is the input with permuted lists, and each deletion keeps the invariant of reachable graphs (IsoDelete) |
| C78 | graphOuterplanarObstruction.c, `_MarkClosestXYPath`, `_ClearAllVisitedFlagsInGraph`, `_MarkPathAlongBicompExtFace`, `_MarkDFSPath`, `_JoinBicomps`, `_AddAndMarkEdge`, `_DeleteUnmarkedVerticesAndEdges` as under C76 | partial correctness as under C76. Every arc of the input has, or has not, its mark at each point (`Tag`, Embed/IsoMark, IsoKeep). The blocked component is a cycle of vertices because no vertex is inside an outer face (`Rings`, Embed/IsoRing, IsoStage); the tree paths are described by their child vertices (`Climb`, IsoOuter). A and B mark the cycle, tree paths and one or two edges: the marks are those of a subdivision of K2,3 (IsoMinor, IsoSub). For E the search along the faces is followed with the stack of vertices it holds (Embed/IsoVeil, IsoChord): in a component without inner vertices the only path it can mark is one edge between the two sides, and the marks are a subdivision of K4. All marked edges and no other stay (IsoKeep) |
| C63 | `gp_Embed` and `gp_SortVertices` as under C71, C76, C78 and C20 | the result of C71, C76 or C78 and the renaming of C20 put together. Renaming the vertices keeps facial walks, components and neighbour lists, so plane embeddings, common faces and subdivisions (Embed/Names) |
| C65, C77 | graphIO.c: `_ReadLEDAGraph`, with fgets into a buffer of 255 characters and sscanf of `%d` (IO/ReadAny) | the text is given by its lines (Spec/Text: `LedaText`); fgets gives one line each, sscanf the numerals; the graph has each edge of the file once, an invariant over the loop of edges; witnesses for the files that are not refused |
| C66 | the model of gp_TestEmbedResultIntegrity (C27, C30) | an accepted embedding is plane with one face per component that meets all vertices, an accepted obstruction is a subdivision of K4 or K2,3 and so has it as a minor; by the exclusion in Map/Minor both are impossible (Embed/NoOuter) |
| C54 | `_DrawPlanar_WritePostprocess`, `_DrawPlanar_ReadPostprocess`, gp_WriteToString and gp_ReadFromString with the drawing feature (Draw/Store), at character level | loops over the lines; negation by witness; partial: vertices always, edges kept in the same records |

## Disagreements between the code and the properties

Each is proved as a negation with a concrete witness; the part that does hold is a
`_partial` theorem.

* **C10.** `_RestoreVertex` (graphUtils.c, undo of an identification) clears the *previous*
  link of the last moved arc where the *next* link has to be cleared, so
  identify-then-restore does not give the list back when two or more arcs were moved or
  the arcs were moved to another place than the end.
* **C11.** `gp_ContractEdge` pushes the contracted edge under the frame of the
  identification; `gp_RestoreVertices` takes that edge for another frame and returns
  `NOTOK`, for every graph.
* **C55.** `gp_SetDirection` followed by the reverse setting on the twin is not idempotent:
  see `C55_setDirection_false`.
* **C13.** `gp_GetArcCapacity` returns the capacity minus 2, so `gp_DynamicAddEdge` computes a
  request that is not larger than the present capacity when that is 2 or 4: NOTOK or
  NONEMBEDDABLE instead of growth.
* **C14.** `_EnsureArcCapacity` assigns the result of `realloc` to `theGraph->E` before testing
  it; after a failure the edge array is lost.
* **C16.** Holds as stated. Beyond the source's capacity source and copy may differ
  (`C16_stale_records`): records of a larger destination are not cleared.
* **C15.** `_ClearGraph` frees `VI` but then sets `V` (not `VI`) to NULL (graphUtils.c 845), so
  after any initialisation failure later than `VI` a `gp_Free` frees `VI` twice.
* **C58.** `sb_TakeString` and `sb_Copy` do not reset `readPos`, and `sb_ReadSkipChar` moves it past
  the terminator; the next read is outside the array.
* **C34, C35, C59.** One vertex: the order byte is never set (g6-write-iterator.c 317-328), the
  output is empty and the write fails. Orders above 46341: `N*(N-1)` overflows int.
* **C36.** `_ReadGraphFromG6String` and its file variants overwrite the code of a failed read by
  that of `endG6ReadIteration`: they return OK for every text. "@" and a newline reads
  `graphBuff[-1]`. A second line may start with a four-character order that is counted as
  adjacency bits.
* **C38.** The write iterator puts nothing between two graphs; the result cannot be read.
* **C39.** graph6 output ignores edge directions. The adjacency matrix writer returns NOTOK
  (`directed_matrix_partial`; it also leaks its row buffer, which is not modelled).
* **C40, C41.** Hold for orders below 2^31 (the numbers written have to be read as int). The growth of the
  edge array is not limited in the model; in C the doubled capacity overflows int above 2^30 arcs.
* **C42.** `sb_ReadSkipInteger` skips the whole run of digits after one flag has been scanned, so
  of each row of a matrix in a string only the first flag counts and the rows slide
  (`adjmatrix_string_false`). Files are read right, and so are strings with separated flags
  (`adjmatrix_spaced_string`).
* **C43.** `_ReadAdjList` skips the character after a vertex number without looking whether it is the
  terminator: "N=1\n1" is read outside the buffer (`read_past_end_false`). A matrix string without any flag
  uses an uninitialised variable (`read_unset_false`); so does gp_Read of an empty file.
* **C22.** `gp_LeastAncestor` does not clear the visited marks, which the search and the sort leave
  set on every vertex: it stores nothing (`least_ancestor_stores_nothing`).
* **C61.** The numbering flags survive edge edits. After deleting a tree edge
  `gp_LowpointAndLeastAncestor` advances its start vertex by the number of vertices visited in the
  first tree and skips vertices: their lowpoint stays 0.
* **C18–C21, scope.** `gp_AddEdge` accepts the virtual vertices N+1..2N as ends; with such an edge
  `gp_CreateDFSTree` writes outside the vertex information (`dfs_virtual_end_undefined`). The
  theorems are about graphs whose edges join vertices 1..N.
* **C20.** The `leastAncestor` and `lowpoint` fields, which hold vertex names, are carried along but
  not renamed by `_SortVertices`.
* **C23.** `_EmbeddingInitialize` clears the visited marks but not the parents left by an earlier
  numbering, and its start loop skips every vertex that has a parent. After numbering, deleting
  the tree edge and starting `gp_Embed`, the child is skipped and the loop runs past the end of
  the vertex information (`embed_start_false`, graphEmbed.c 188-193).
* **C71.** gp_Embed is sound for simple graphs only. An edge parallel to a tree edge, and a loop, is dropped silently though
  the result is OK (`embed_ok_multi_false`); of parallel back edges the later overwrites the pertinent edge of the
  earlier, and a planar graph may be reported as not embeddable (`embed_blocked_multi_false`). gp_AddEdge accepts all of these.
* **C54.** The data of edges are written in the order of the edge array and read into the edge array of the new graph, where the
  edges are in the order of the adjacency lists (`drawing_stored_false`). The text read from a file is not terminated by the
  code (graphIO.c 430-433) before strstr and sscanf are used on it; only strings are modelled. A text without enough lines makes
  `strchr(...) + 1` start from NULL.
* **C49.** `gp_CopyExtensions` sets `newNext->functions = next->functions`, the table inside the
  *source's* context. `gp_RemoveExtension` on the copy then edits the source's tables
  (`copy_removal_false`), or freed memory once the source is gone
  (`copy_removal_after_free_false`). Failure of `dupContext` is not modelled; the code does not
  check for it and stores a NULL context.
* **C50.** `_GetRandomNumber` adds two bytes of the number to itself as `int`; the sum overflows for
  exactly the values 0x7FFF7F02..0x7FFF8000 of rand() (`random_number_false`). For all others the
  result is in range.
* **C51.** `N*(N-1)` overflows int above 46341 vertices; the theorems are about smaller graphs and
  random values outside the range just named.
* **C52.** `gp_CreateRandomGraphEx` draws pairs until there are `numEdges` edges; three vertices and
  nine edges (half the default capacity) never end (`random_ex_never_ends`).
* **C64.** The planar phase tests `M` once per round but adds up to two edges (more while climbing):
  seven edges requested on six vertices give eight, or NOTOK if the capacity is seven edges. What OK does
  mean is `random_ex_partial`; requests for at most a tree are met exactly (`random_ex_tree_partial`).
* **C79.** sf_fgets takes a carriage return in a string as the end of a line if no newline follows within the count; stdio does
  not. sf_getc at the end of a string leaves the position, but sf_ungetc of the EOF it gave steps back and overwrites the last
  character with 255; ungetc of stdio refuses EOF (`containers_alike_false`). A byte 255 in a file cannot be told from EOF.
* **C77.** `_ReadLEDAGraph` does not look whether the nodes of an edge exist and does not test what fgets and sscanf
  return: `leda_refused_false` gives an edge to node 7 of 2 (read outside the vertex array), an edge to node 4 of 2 (joined
  to a virtual vertex, result OK) and a node line of 260 characters (read as two lines; the number of edges is then never set).
* **C25.** `_CheckEmbeddingFacialIntegrity` takes the number of components from the recorded DFS parents. For a
  graph edited after numbering these are stale, and the test can accept a rotation system that is not plane:
  `embedding_test_stale_false` (K5 attached to its root by an edge that is then deleted with gp_DeleteEdge). The exact
  theorems therefore require one recorded root per component, which is what depth-first search leaves
  (`rootedOnce_of_forest`); soundness needs at least one per component.
* **C27.** `_TestForK23GraphObstruction` does not test that the three neighbours of the first image vertex are
  different from it and from one another. Two vertices with a loop each, joined by a path of two edges, and a further
  vertex with a loop are accepted as a K2,3 (`outerplanar_obstruction_false`): the image vertex itself is marked and
  counted in place of the vertex of degree two that was not met. Without loops the test is exact.
  The same holds of the search for K2,3 (`search_loops_false`, C67).
* **C29.** For the reason given for C25 one graph can be accepted both as an embedding and as an obstruction
  (`certificates_stale_false`). With a recorded root in every component this is excluded.
* **C31.** The drawing test is exact for graphs without loops. It accepts drawings in which a
  loop runs from the row of its vertex to another row. For graphs without edges it does not
  look whether rows are in range and uses them as indexes: undefined for rows read from a
  file.
* **C32.** A label of three or more digits starts in the middle column, so it may run over the
  end of its vertex, and of the line, though the vertex is wide enough; the newline is then
  lost. Accepted drawings of graphs without edges may be written outside of the string. The
  size of the string is computed as an int and overflows for large graphs.
* **C81.** `_DrawPlanar_CheckObstructionIntegrity` returns OK without looking at anything, so that with the drawing
  extension attached every NONEMBEDDABLE result is accepted, whatever the flags (`drawing_test_false`: the prism, as an
  obstruction in a graph without edges). `_DrawPlanar_CheckEmbeddingIntegrity` tests the drawing even if the embedding
  was made with EMBEDFLAGS_PLANAR and no drawing was computed, and refuses it (`drawing_refuses_false`). The searches
  do not change the verdict (`searches_keep_tests_partial`). An OK result of a search, which claims that there is no
  homeomorph, is accepted without being examined.
* **C82.** `_DrawPlanar_SortVertices` moves the drawing data only if embedFlags is EMBEDFLAGS_DRAWPLANAR. After reading a
  graph with a drawing from a file embedFlags is 0, so gp_SortVertices moves the vertices and leaves the drawing data
  where they were; an accepted drawing is refused afterwards (`read_drawing_sort_false`).

## Note on seeded/LOG.jsonl

Each edit replaced the first place in the file that matched. Of the last 13 edits one matched twice and hit another definition
than meant (`afterClimb` for `planarBody`); its entry is corrected and the edit meant was made as well. Since then an edit that
matches more than once is refused. Of all edits, the 215 whose text could be recovered were checked again against the present
model: one more matches twice today (`orientBicomp`), but the theorem that failed shows that it hit the definition meant. The
other entries of the log were not checked for this.
