# Formal model of LLNL/conduit in Lean 4

## How the work is laid out

* `lean/Verif/Model/*.lean` - executable model. Every definition cites the
  file and lines of `/repo` it models and says where it simplifies.
* `lean/Verif/Spec/*.lean` - small, model-independent specifications
  (what the English property says), where the statement needs one.
* `lean/Verif/Lemmas/*.lean` - helper lemmas, no property statements.
* `lean/Verif/Props/*.lean` - the property theorems only, each with an
  `example` showing that its hypotheses are met by a concrete non-trivial case.
* `properties.jsonl`, `MANIFEST.json`, `seeded/LOG.jsonl` - the property list,
  the claim table and the record of attempts to break the theorems.

## General modelling decisions

* `index_t` and sizes are unbounded `Int`/`Nat` unless the property is about
  overflow (MPI tag probe, integer coercion, value_fits, int casts of sizes).
* `std::string` is `List Char` (one `Char` per byte; bytes >= 128 are just
  other characters). Names cannot hold NUL where the code goes through C strings.
* Memory is byte addressed. An access outside an allocation, use of a dangling
  pointer, or an index past the end of a vector is a distinct outcome
  (`none`/`.ub`), never a default value.
* `CONDUIT_ERROR` throws with the default handler; it is the outcome `.error`.
  `CONDUIT_WARN`/`CONDUIT_INFO` are ignored unless the property is about them.
* Floating point values are opaque unless a property says otherwise.

## Plan per property

| id | model | proof |
|----|-------|-------|
| C01 | split/rsplit/join on `List Char` | induction on the string |
| C02 | escape/unescape as list functions | induction; strong induction for unescape |
| C03 | escape + RFC 8259 string decoder (rapidjson, trusted) + second unescape | round trip for the json protocol on strings without raw control chars; negation witness for conduit_json; `_partial` for strings where the second unescape is the identity |
| C04 | json_sanitize automaton | identity on every JSON text of an object or array without literals that end in a backslash (induction over the value); exact result on relaxed documents; negation witnesses for the rest |
| C05,C06 | libb64 state machines over a byte buffer with write extent | induction over input in groups of 3 / 4 characters; witness for the decoder overrun |
| C07-C10 | DataType record | arithmetic; finite table for ids; witnesses for is_compact |
| C11-C15 | Schema tree with children vector, order vector and name map, as in the code | invariant by induction over operation histories; refinement to an ordered association list |
| C16-C19 | same tree, layout functions | mutual induction over trees; witnesses |
| C20 | JSON value AST, printer and generator walk | induction over trees; witnesses for reserved names |
| C21-C32 | Node tree over a byte memory | induction over trees, frame lemmas for disjoint ranges |
| C33-C35 | heap of node and schema objects with pointers, child vectors, parent pointers, ownership flags and byte blocks (Model/NodeSync); every mutating Node call as an `Op`, histories in Spec/NodeHistory | the heap holds a forest of trees `Inv`; each call shown to keep it (steps on one subtree, frame for the rest), induction over the history; progress for calls that touch no elements; witnesses for add_child on a list, swap of siblings, parent pointers after swap, empty schemas |
| C36 | is_contiguous, contiguous_with (3 forms), contiguous_data_ptr, find_first_data_ptr (Model/Contiguous): each block of the memory has a base address, NULL is 0 | the recursion is one pass over the list of leaf ranges (mutual induction); refuted for trees that begin with an empty child (the code resets the expected address), and on the byte level for strided leaves; byte-level equivalence for dense leaves and contents at contiguous_data_ptr |
| C37 | iterator index machine | induction over calls |
| C38,C55 | array functions over element lists read through strides | induction over the element list |
| C39,C62 | the three generator walks (Schema, copying, external) over the JSON AST and the byte memory (Model/Generator, Model/GenNode) | mutual induction over the document: per-document claim relating the Schema walk to the Node walk, threaded through the member loops; witnesses where it is false |
| C63 | Node::to_json_generic (detailed), DataArray/DataType JSON texts, the preprocessor, the JSON reader and the copying walk with inline values (Model/GenNode) | one mutual induction over the node: its text is a JSON text (`Rep`) of a value on which the walk builds the same values in fresh memory; the preprocessor is the identity on such texts (C04); floating point decimal conversion is a parameter (`Lib`), used only through the hypothesis `FloatOK` |
| C64 | walk_pure_json_schema, check_homogenous_json_array, to_json_generic (plain) (Model/GenNode) | mutual induction over the document against `pureVal` (Spec/PureJson); the type of an array is characterised by `allOf`; printing against `docOf`; composed with the preprocessor theorem of C04 |
| C40 | base64 document walk | exact condition for out-of-bounds access |
| C41,C42 | integer types as bounded Int ranges | case analysis and omega |
| C43 | trial division loop | well-founded induction |
| C44 | extension lookup | list lemmas |
| C45 | binary search over Int with overflow as UB | induction on interval width |
| C46 | send_using_schema / recv_using_schema: schema text, message node, update (Model/Relay) | composition of the schema JSON round trip (C20), the message layout and the update theorem (C26) on the compacted tree (Lemmas/UpdateCompact); MPI delivers the bytes unchanged; witnesses for the layouts that are not received correctly |
| C47 | read_csv and write_csv for one table (Model/Csv) over the heap of node objects of C33-C35: getline, the splitting loops, add_column(s) with fetch/append/add_child/init, the cell stores, write_header, write_row_based | the values tree is followed by the paths of its columns (`Cols`), `fetch`/`add_child`/`init` at the end of a path are steps on the tree (`graft`), column blocks are lists of cells (`Vals`); total outcome of reading against `check` (Spec/Csv); the written text is split back by lemmas on `splitOn`; counterexamples proved for all long rows and all files without header |
| C65 | blueprint::table::verify (Model/Csv) | induction over the columns with the loop's flags; uses C53 |
| C48-C50 | O2M index/iterator state machines | induction; witnesses |
| C51 | NDIndex arithmetic | induction on dimensions |
| C52 | `to_contiguous`, `to_interleaved` over `Node` and `Mem` (Model/McarrayConv): schema built by `RSchema.fetchAt`, then `set(schema)`, then `update` | `update` agrees with `update_compatible` on a node with the same components, C27 gives the values; layout by list arithmetic; witnesses for lists, "/" in names, no components, in place |
| C53 | mcarray verify | list arithmetic |
| C54 | log::validation | induction over calls |
| C56 | allocator registry state machine | invariant over histories |
| C57 | split_file_path on `List Char` | list lemmas |
| C58 | set_node over the byte memory with aliasing | witnesses; positive theorem for operator= |
| C59 | info trees, remove_tree | mutual induction over trees |
| C60 | set_schema, set_data_using_schema, walk_schema | schema induction, memcpy lemma |
| C61 | to_base64_json, Generator::walk with conduit_base64_json (parse_base64) | composition of C05, C20, C21 and C60 lemmas |
| C66,C67 | the twelve conversions of conduit_blueprint_mesh_matset_xforms.cpp and their dispatch (Model/Matset); values are opaque with a zero and a test "above epsilon" | each flavour's meaning is a relation (element, material, value) (Spec/Matset); the nested loops are rewritten as one pass over the list of entries (`items`, `places`, `kept`), string-keyed maps as sorted association lists; witnesses for gaps in element ids, material dominant uni-buffers, missing offsets, duplicates, field order |
| C68 | detail::to_silo (Model/Silo): the per-zone std::maps, the matlist/mix_* arrays and their linked lists; `wrap` is the conversion to the matset's integer type; the uni-buffer loops have fuel | what a Silo reader finds by following matlist and mix_next (Spec/Silo: Chain, SiloClean, SiloMix) is compared with the relations of C66; witnesses: endless loop on an empty group, empty zone, scattered groups, narrow integers, negative numbers |
| C69 | specset::to_silo (Model/Specset): positions of the materials, species_mf, the zone loop and the loop over mix_next (fuel) | reader of speclist/mix_spec/species_mf (Spec/Specset) compared with the relation (element, material, species, value); the arrays are concatenated blocks (`flatMap_get`); composed with C68 |
| C70,C71,C72 | mesh trees with typed leaves (Model/MeshTree: `BNode`; floats abstract with the operations used), find_widest_dtype, coordset axes and length, the conversions of coordsets and topologies (Model/MeshConvert); the referenced coordset is an argument | grids described by their axes, points numbered in mixed radix (Spec/Mesh); the nested write loops become one list of writes each of which puts the value its place asks for (Lemmas/MeshLoop); connectivity is a concatenation of blocks (Lemmas/MeshTopo); witnesses: integer coordinates in float32, int8 dims, strided structured, int8 origin |
| C73,C74,C75 | adjsets: is_pairwise, is_maxshare, to_pairwise, to_maxshare, find_domain_id (results of mesh::verify given), canonicalize, is_canonical (Model/Adjset); std::map and std::set as key-ordered lists | an adjset is a list of groups, `Shares d v` says what it tells (Spec/Adjset); the maps are characterised by lookup (Lemmas/AdjsetBase, Adjset2); sorted name lists of two domains restricted to shared groups are equal, so values match by position; a class of entities is listed in the order of one group (Lemmas/Adjset4); witnesses: maxshare order, detached destination, repeated neighbor, swapped names |
| C76,C77 | the kd-tree (Model/KdTree: extents, cuts, construction, descent, lookup; coordinates are abstract with the operations used, std::sort is any sorting function), PointQuery's choice of search, HilbertSort2D/3D and hilbert_ordering (Model/Hilbert; std::partition is any partition, centers given) | invariant of the tree: a child's range is the part of its parent's range on its side of the cut (Lemmas/KdTree); descent keeps the queried point's id in the range; Hilbert recursion by induction on the number of points; witnesses: near point across a cut, absorbed enlargement (explicit float32/float64 rounding), inverse convention |
| C78 | topology::unstructured::reorder, slice_array, slice_field, ShapeType's tables (Model/MeshReorder); destinations are new nodes, leaves are integer or float arrays | a topology is a list of elements (lists of points) read through sizes and offsets (Spec/MeshReorder: HasElems); loop invariant: numbers, map and connectivity are functions of the points seen so far (Lemmas/MeshReorder: Seen); new point numbers fit since the place of a number in a list without repetitions is at most one of its members; witnesses: narrow offsets, in place uniform coordset, units, material values, mixed |
| C79 | topology::unstructured::generate_offsets (three forms), points (Model/MeshPoints); streams left out | Spec/MeshPoints: Cells/OffsetCells/Polyhedra say which lists of points a topology holds, starts says where each begins; the running sums are those starts; the widest type is computed by the model of find_widest_dtype; polyhedra through the model of the relation iterator; witnesses: 44 int8 triangles, one destination |
| C80 | TopologyBuilder (Model/MeshBuilder) | Spec/MeshBuilder: SelectedMesh says which mesh results by a list of old points; invariant BSeen: map, connectivity and next number are functions of the points seen so far; offsets by C79; witnesses: rectilinear and uniform coordsets |
| C81 | topology::search from the query results on, topology_iterate_elements, conduit::utils::hash of index_t (Model/Hash) | an element is found just if its translated sorted points have the hash of an element of the first topology (search_ok); sorted lists are equal just if they are permutations; witness: two edges with one hash |
| C82 | generate_lines of faces and generate_faces of cells of fixed shapes (Model/TopoMeta): hashing and sorting of sides, renumbering, the maps between elements and sides | Spec/TopoMeta: ListsSides, MapsDown, MapsUp, FirstUse, Covers, Oriented; relabel gives equal numbers to equal labels (induction along the sorted list); the emitting loop is a function of the numbers seen; the map back by grouping a list sorted by child; witnesses: hash collision, wedges, 8 bits |
| C83 | generate_lines of polygons (Model/TopoPoly): the loop over polygons with its room for 32 points, labels, renumbering, the maps | Spec/TopoMeta with the lines of a polygon (ring) in place of a table; the loop as a sequence of writes (Lemmas/MeshLoop), the rest shared with C82; witnesses: 33 points, gaps, order of offsets, hash collision |
| C84 | mesh::verify with all the verify functions under it and their helpers, writing the report (Model/MeshVerify) | Spec/MeshVerify: what conforms, on the tree alone, entry by entry with references; program logic for functions that write a report (Lemmas/MeshVerify: what a call decides, how it changes the verdict in the report, that it answers), lemma for each function, loops over collections with what the report already says of the entries; witnesses for nodes that raise errors, for lax rules and for reports that contradict the answer. |
| C85 | mesh::generate_index, mesh::index::verify with the index verify functions of the parts, coordset::coordsys, Node::update (Model/MeshIndex) | Spec/MeshIndex: what an index must look like, what it says of an entry and of several domains; the program logic of C84 for the checks; each entry made conforms and describes its source; update keeps what conforms and unites axes, materials, species; invariant of the loop over domains; witnesses for accepted meshes whose index is rejected or raises an error. |
| C86 | gen_domain_to_file_map (Model/MeshFiles) | Closed form of the prefix sums; the file index is where the domain lies between two offsets, by induction on the domains; also the case of more files than domains. |
| C87 | the N domains to M files loop of write_mesh with its books on every rank, the root_only turns, the division of domains in read_mesh, mpi generate_domain_ids (Model/MeshFiles) | The state of all ranks is described by one number per file, the ranks below which have still to write; a round takes it to the rank that had the baton; so each file sees the ranks in descending order. Interleavings of a round restricted to a file are one rank's writes. Failure: the round in which a domain fails raises on all ranks. |
| C88 | BasicHandle, write_mesh/save_mesh, read_mesh/load_mesh without MPI: options, clean_mesh, file plan, the three ways to write, root file, path generators (Model/MeshIO); a disk is a map from names to trees | Writing: each file is a fold of updates at paths, which for distinct first names keep each other (`built`); the index by C85. Both sides are tied by `Stored`: where each domain is, that the partition pattern formats to that place, and the index. Reading: `readDomain_eq` over the children of the index. Two disks that agree on the files of a root file load the same, which gives the series of cycles. |
| C89 | `Expand` and the legacy path generator (Model/MeshIO) | the first `%` is found, the width is the only one that matches; the place is the one of C88; the root file without the partition is read by the same lemma |
| C90 | `Selection::partition` of the four kinds of selection (Model/Partition) | boxes: appending two ranges of indices along an axis permutes the flat list; ranges: the cut is at the index found, take and drop; fields: the positions of the different values are disjoint and cover |
| C91 | `count_targets`, `get_largest_selection`, `split_selections` with fuel | induction on the number still wanted: with enough elements some selection has two, so each turn adds one; with boxes of one cell the turn changes nothing |
| C92 | `initialize`, `map_chunks` and `execute` up to the list of chunks of each output domain | invariant of the grouping loop: as many chunks left as domains still wanted, the last group never closes; the whole is recognised only if it is (a box is a sublist of all elements); chunks filtered by destination permute |
| C93 | `extract`, `get_vertex_ids_for_element_ids`, `unstructured_topo_from_unstructured`, `create_new_explicit_coordset`, `copy_fields` (Model/Extract) | the arrays read as lists of elements; the place of a point in the ascending list of points used is its new number; grids by C70/C71; fields by the slicing lemmas of C80 |
| C94 | `SelectionLogical::get_vertex_ids`, `create_new_uniform/rectilinear/structured` coordset and topology (Model/Extract) | the flat list of a box by blocks of constant length; each axis by itself; results stated with the grid specifications of C70/C71 |
| C95 | `point_merge::execute` with its kd-tree, `coordset::extents`, `iterate_coordinates` (Model/PointMerge) | the box of every tree node has its points, so a stored point in reach is found; by induction over the points no new point is in reach of one before; the arithmetic is any with the laws stated (Spec/PointMerge) |
| C96 | `combine`, `combine_as_unstructured`, `build_unstructured_output`, `build_polygonal_output`, `group_topologies`, `group_coordsets`, `recommended_topology`, `fields::combine`, `map_vertex_field`, `map_element_field`, `iterate_elements` (Model/Combine) | the buckets are an invariant of the walk over the elements: each bucket has the corners of the elements its map names; the fields follow the map, and the last write to a point is that of the last chunk with it; points from C95 |
| C97 | `map_back_fields`, `total_storage_size`, `determine_schema`, `map_vertex_field`, `map_element_field` into nodes that are there (Model/MapBack) | the selections of each new domain and the numbers its elements had are the same filter of one list; their concatenation is a permutation of the numbers of the domain, so the table has each element once; the last write to a point is that of the last domain with it; the fold over fields and domains leaves the others alone |
| C98 | `gather_using_schema`, `all_gather_using_schema` (Model/Gather) | each rank's part is the text of its compacted schema with a 0 and the compacted data; `MPI_Gatherv` with the displacements concatenates them; each text is found again at its displacement (no 0 in it) and read back (C20); the list schema lays the parts one behind the other, so each view is that of its own bytes |
| C99 | `broadcast_using_schema` (Model/Bcast) | the bytes sent from the node's own memory are those of the compacted node; a receiver's new buffer shows them (as in C98), a leaf of the same type gets them where it is, by one store if it is compact and by `update` (C26) otherwise |
| C100 | `send`, `recv`, the message of `isend`, `broadcast` (Model/PlainMsg) | a compact node that is contiguous in one block is one run, whose bytes are the flattened value (induction over the tree); otherwise the compacted node's bytes are sent (C25) and a buffer of the compacted schema is copied out by `update` (C26); a value is determined by its tree without bytes and its bytes in order |
| C101 | `list_of`, `list_of_external` (Model/ListOf; the latter also on node and schema objects) | the bytes of `k` entries are `k` runs one behind the other (induction over `k`, C16 for each entry); the witness runs the object model of C33 |
| C102 | `gather`, `all_gather` (Model/ListOf) | each part is the message of C100; equal sizes make the displacements those of the concatenation (C98), which are the runs of the entries of C101; a value is its tree without bytes and its bytes in order (C100) |
| C103 | `reduce`, `all_reduce` (Model/Reduce) | an MPI operation is any function of the ranks' bytes of one element; a leaf whose elements follow each other is one run, else it is compacted (C100), so what is sent is the list of its elements; results put at the start of a compact leaf change just its first elements, results in a buffer are updated into the node (C14) |
| C104 | `irecv`, `wait`, `wait_all` for receives (Model/Irecv) | a request's target is the node itself or a compact copy in new memory; targets of several requests are apart, so each message changes just its target; the copy out (C14) makes the node's value that of the target; all of this keeps under memory allocated between; each block `irecv` allocates is the buffer of one request, whose `reset` frees it |
| C105 | `communicate_using_schema` (Model/CommSchema) | each rank's messages are a queue per sender; taking the first wanted message leaves the queues of all other keys, so by induction the k-th receive of a key gets the k-th message of this key; messages carry values (C46); building a node changes just its own memory, so the others stay as they were |
| C106 | `isend`, `wait` for sends (Model/Irecv) | what is sent is one run, the node's own or that of a compact copy in new memory; bytes that stay are read as they were; the copy is one block, which `reset` frees |
| C107 | `reset`, `set`, `set_external`, `compact_to`, `update`, `update_compatible`, `load`, `list_of` (Model/Node, NodeIO, ListOf) | `release` frees all that a clean tree owns; stores and copies make no block live; an allocation makes one, which the node then owns; the relation composes, and clean nodes stay clean |
| C108 | `recv`, `irecv`, `isend`, `wait`, `recv_using_schema`, `broadcast_using_schema` (Model/PlainMsg, Irecv, Relay, Bcast) | the buffer is all that is allocated beside the node; `update` leaks nothing (C107), and the release afterwards frees the buffer |

## Trusted base

* **Kernel and axioms.** The Lean 4.33.0 kernel. Theorems use at most `propext`,
  `Classical.choice` and `Quot.sound`; AXIOMS.md gives the list for every theorem of the manifest.
  There is no axiom of our own, no `sorry`, no `native_decide`, no `bv_decide`.
* **The reading of the C++.** Each definition under lean/Verif/Model cites the file and lines it was
  read from; COVERAGE.md lists those citations by source file. Nothing checks the reading mechanically.
* **Libraries.** The C++ standard library (including iostream/printf formatting of numbers, `strtod`,
  `std::map` order, `std::sort`), rapidjson and libyaml, the filesystem, and the MPI transport are taken
  to behave as documented. Where a theorem depends on one of them it appears as a parameter with
  hypotheses (the `Lib`-style structures), never as an axiom.
* **Simplifications used in many places.**
  Integers are unbounded unless the definition says otherwise (`wrap`, `cast`, bit-vector types).
  Pointer alignment and `malloc` failure are ignored.
  Undefined behaviour is the result `Res.ub`; a raised conduit::Error is `Res.error`.
  Loops which may not end run on fuel and give `none` when it runs out.
  Matset and specset values are opaque (an abstract number type with the operations used), material names
  contain no `/`, and the arrays are plain ones (offset and stride are covered by the DataArray properties).
  The Silo model does not narrow floats.
* **Code not modelled** (no claim is made about it):
  of partition: the extraction of matsets and of stream topologies, the combination of polyhedra and of structured meshes as such, adjsets and MPI; flatten, generate_points, generate_lines of cells and polyhedra, generate_faces of polyhedra,
  generate_sides, generate_corners, generate_centroids, examples;
  relay HDF5, Silo, ADIOS and SIDRE file backends and their io handles, the web server;
  the MPI build of write_mesh and read_mesh except the sharing out of domains (C87), the loss of types in json and yaml mesh files;
  YAML output and parsing; C, Fortran and Python bindings;
  MPI collectives other than those cited in COVERAGE.md;
  rapidjson's `\u` escapes and its double parsing.
