{"id": "C01", "title": "Path split and join are inverse", "statement": "split_path(p) returns the text before the first '/' and the text after it; join_path of the two parts gives p back whenever both parts are non-empty, and splitting a joined path gives the two parts back when the left part is non-empty and has no '/'. rsplit_path is the mirror image at the last '/'. The same-named parts never lose or invent characters.", "quantifier": "every string path, every pair of strings", "why_tests_cant": "paths are arbitrary strings; the boundary cases (leading, trailing, repeated separators) combine without limit", "anchors": ["src/libs/conduit/conduit_utils.cpp:split_string", "src/libs/conduit/conduit_utils.cpp:rsplit_string", "src/libs/conduit/conduit_utils.cpp:join_path", "src/libs/conduit/conduit_utils.cpp:split_path", "src/libs/conduit/conduit_utils.cpp:rsplit_path"]}
{"id": "C02", "title": "Escaping special characters round-trips", "statement": "unescape_special_chars(escape_special_chars(s)) == s for every string, and the escaped text never contains an unescaped double quote or a raw newline, tab, backspace, formfeed or carriage return.", "quantifier": "every string", "why_tests_cant": "infinitely many interleavings of backslashes and escapes", "anchors": ["src/libs/conduit/conduit_utils.cpp:escape_special_chars", "src/libs/conduit/conduit_utils.cpp:unescape_special_chars"]}
{"id": "C03", "title": "A string leaf survives JSON output and JSON parsing", "statement": "Writing a string leaf with to_json and parsing the document back yields the same string: for the 'json' protocol (one unescape, by the JSON reader) and for 'conduit_json' (the JSON reader unescapes and the generator unescapes again).", "quantifier": "every string value", "why_tests_cant": "the failing strings are those holding particular two-character sequences; no sample of strings settles the general claim", "anchors": ["src/libs/conduit/conduit_node.cpp:Node::to_json_generic", "src/libs/conduit/conduit_generator.cpp:parse_inline_leaf", "src/libs/conduit/conduit_generator.cpp:parse_inline_value", "src/libs/conduit/conduit_utils.cpp:escape_special_chars", "src/libs/conduit/conduit_utils.cpp:unescape_special_chars"]}
{"id": "C04", "title": "json_sanitize leaves valid JSON unchanged in meaning", "statement": "The relaxed-JSON preprocessor run before every JSON parse copies the contents of string literals unchanged and does not touch documents that are already valid JSON.", "quantifier": "every JSON text", "why_tests_cant": "the scanner is a stateful character automaton; wrong tracking appears only for particular character sequences", "anchors": ["src/libs/conduit/conduit_utils.cpp:json_sanitize"]}
{"id": "C05", "title": "Base64 encode/decode round-trips", "statement": "base64_decode(base64_encode(b)) recovers exactly the bytes b, for every byte sequence.", "quantifier": "every byte sequence of every length", "why_tests_cant": "byte content and length are unbounded; the coder is a resumable state machine", "anchors": ["src/libs/conduit/conduit_utils.cpp:base64_encode", "src/libs/conduit/conduit_utils.cpp:base64_decode", "src/thirdparty_builtin/libb64-1.2.1/src/cencode.cpp", "src/thirdparty_builtin/libb64-1.2.1/src/cdecode.cpp"]}
{"id": "C06", "title": "Base64 buffer size functions are sufficient", "statement": "base64_encode never writes past base64_encode_buffer_size(n) bytes and base64_decode never writes past base64_decode_buffer_size(n) bytes, for every input.", "quantifier": "every input length and content, including malformed base64 text", "why_tests_cant": "an overrun by one or two bytes shows only for particular lengths mod 4 and skipped characters, and may not crash", "anchors": ["src/libs/conduit/conduit_utils.cpp:base64_encode_buffer_size", "src/libs/conduit/conduit_utils.cpp:base64_decode_buffer_size", "src/thirdparty_builtin/libb64-1.2.1/src/cdecode.cpp:base64_decode_block", "src/libs/conduit/conduit_generator.cpp:parse_base64"]}
{"id": "C07", "title": "DataType ids and names are in bijection", "statement": "name_to_id(id_to_name(i)) == i for every valid type id, distinct ids have distinct names, and every string that is not a type name maps to the empty id.", "quantifier": "every type id and every string", "why_tests_cant": "unknown names range over all strings", "anchors": ["src/libs/conduit/conduit_data_type.cpp:DataType::name_to_id", "src/libs/conduit/conduit_data_type.cpp:DataType::id_to_name"]}
{"id": "C08", "title": "spanned_bytes bounds every element access", "statement": "For a leaf description with non-negative stride, each element i < number_of_elements occupies bytes element_index(i) .. element_index(i)+element_bytes-1, all below spanned_bytes and at or above offset, and spanned_bytes is the least such bound; elements do not overlap when stride >= element_bytes.", "quantifier": "every offset, stride, element size and count", "why_tests_cant": "four unbounded integers; edge cases n=0, n=1, stride=0", "anchors": ["src/libs/conduit/conduit_data_type.cpp:DataType::spanned_bytes", "src/libs/conduit/conduit_data_type.cpp:DataType::strided_bytes", "src/libs/conduit/conduit_data_type.cpp:DataType::element_index"]}
{"id": "C09", "title": "DataType::is_compact means packed from offset zero", "statement": "is_compact() is true exactly when the elements occupy bytes_compact() consecutive bytes starting at offset 0 with no gap or overlap.", "quantifier": "every leaf description", "why_tests_cant": "the test compares two totals, which can agree by cancellation for rare parameter choices", "anchors": ["src/libs/conduit/conduit_data_type.cpp:DataType::is_compact", "src/libs/conduit/conduit_data_type.cpp:DataType::bytes_compact"]}
{"id": "C10", "title": "Compacting a DataType keeps its logical content", "statement": "compact_to keeps the type id, the element count, the element size of the type and the byte order, and yields a compact description of bytes_compact bytes; compacting twice is the same as once.", "quantifier": "every leaf description with a bitwidth type", "why_tests_cant": "unbounded field values", "anchors": ["src/libs/conduit/conduit_data_type.cpp:DataType::compact_to", "src/libs/conduit/conduit_data_type.cpp:DataType::default_bytes"]}
{"id": "C11", "title": "Schema behaves as an ordered map under any operation history", "statement": "After any sequence of add_child, fetch of a path, remove, rename_child, append, set and reset, an object schema's children are uniquely named, child_index/child_name/child agree with each other, and lookups give what a plain ordered map subjected to the same operations would give.", "quantifier": "every finite history of Schema operations", "why_tests_cant": "index maps are patched in place on remove and rename; a stale index appears only after particular histories", "anchors": ["src/libs/conduit/conduit_schema.cpp:Schema::add_child", "src/libs/conduit/conduit_schema.cpp:Schema::remove", "src/libs/conduit/conduit_schema.cpp:Schema::remove_child", "src/libs/conduit/conduit_schema.cpp:Schema::rename_child", "src/libs/conduit/conduit_schema.cpp:Schema::append", "src/libs/conduit/conduit_schema.cpp:Schema::child_index"]}
{"id": "C12", "title": "Renaming a child changes only its name", "statement": "rename_child(a,b) keeps the position and content of the child, leaves every other child as it was, and is rejected when a is absent or b already exists.", "quantifier": "every object schema and pair of names", "why_tests_cant": "quantifies over all schemas", "anchors": ["src/libs/conduit/conduit_schema.cpp:Schema::rename_child"]}
{"id": "C13", "title": "Removing a child keeps the others, in order", "statement": "remove(idx)/remove_child(name) delete exactly that child; the remaining children keep their relative order, names and content and are found by name at their new index.", "quantifier": "every object or list schema, every index or name", "why_tests_cant": "requires re-indexing all later entries", "anchors": ["src/libs/conduit/conduit_schema.cpp:Schema::remove", "src/libs/conduit/conduit_schema.cpp:Schema::remove_child"]}
{"id": "C14", "title": "fetch makes a path exist and nothing else changes", "statement": "After fetch(p), has_path(p) holds and fetch_existing(p) gives the same entry; every path that existed before and is not a prefix of p keeps its content, and fetching twice is the same as once.", "quantifier": "every schema tree and every path of proper names", "why_tests_cant": "depth and names unbounded", "anchors": ["src/libs/conduit/conduit_schema.cpp:Schema::fetch", "src/libs/conduit/conduit_schema.cpp:Schema::has_path", "src/libs/conduit/conduit_schema.cpp:Schema::fetch_existing"]}
{"id": "C15", "title": "has_path(p) and fetch_existing(p) agree", "statement": "fetch_existing(p) succeeds exactly when has_path(p) is true, and always terminates.", "quantifier": "every tree and every string p, including empty, doubled, leading and trailing slashes and '..'", "why_tests_cant": "the two functions parse the path independently; the disagreement is on odd strings", "anchors": ["src/libs/conduit/conduit_node.cpp:Node::fetch_existing", "src/libs/conduit/conduit_node.cpp:Node::has_path", "src/libs/conduit/conduit_schema.cpp:Schema::has_path", "src/libs/conduit/conduit_schema.cpp:Schema::fetch_existing"]}
{"id": "C16", "title": "Schema::compact_to lays leaves out contiguously", "statement": "In the compacted schema the leaves, in depth-first order, occupy consecutive disjoint byte ranges beginning at offset 0 with total length total_bytes_compact(); tree shape, names, types and counts are kept.", "quantifier": "every schema tree", "why_tests_cant": "arbitrary nesting and counts", "anchors": ["src/libs/conduit/conduit_schema.cpp:Schema::compact_to", "src/libs/conduit/conduit_schema.cpp:Schema::total_bytes_compact", "src/libs/conduit/conduit_schema.cpp:Schema::spanned_bytes"]}
{"id": "C17", "title": "Schema::is_compact means no padding", "statement": "is_compact() holds exactly when every leaf's elements are stored without gaps or overlap.", "quantifier": "every schema tree", "why_tests_cant": "the test compares totals over the tree; errors of opposite sign cancel", "anchors": ["src/libs/conduit/conduit_schema.cpp:Schema::is_compact", "src/libs/conduit/conduit_schema.cpp:Schema::total_strided_bytes"]}
{"id": "C18", "title": "Schema::equals is an equivalence relation", "statement": "equals is reflexive, symmetric and transitive, and equal schemas describe the same children with the same types.", "quantifier": "every schema tree with any legal child names", "why_tests_cant": "names are arbitrary strings, including ones with '/'", "anchors": ["src/libs/conduit/conduit_schema.cpp:Schema::equals"]}
{"id": "C19", "title": "Schema::compatible is a preorder", "statement": "compatible is reflexive and transitive, and a.compatible(b) guarantees every leaf of b at a shared path can be stored in the corresponding leaf of a.", "quantifier": "every schema tree", "why_tests_cant": "arbitrary pairs and triples of trees", "anchors": ["src/libs/conduit/conduit_schema.cpp:Schema::compatible", "src/libs/conduit/conduit_data_type.cpp:DataType::compatible"]}
{"id": "C20", "title": "A schema survives its JSON form", "statement": "Parsing to_json() of a schema with the Schema generator gives a schema describing the same layout.", "quantifier": "every schema tree and child names", "why_tests_cant": "object members are interpreted by name, so some user trees collide with the format's own keys", "anchors": ["src/libs/conduit/conduit_schema.cpp:Schema::to_json_stream", "src/libs/conduit/conduit_generator.cpp:walk_json_schema", "src/libs/conduit/conduit_data_type.cpp:DataType::to_json_stream"]}
{"id": "C21", "title": "Node::compact_to preserves every value", "statement": "After compact_to(dest), dest has the same tree shape and every leaf element has the same value; dest's data is one contiguous block of total_bytes_compact bytes and shares no memory with the source.", "quantifier": "every node tree, over any strided, offset, external or interleaved memory, and every destination whose own buffers hold none of the source's elements", "why_tests_cant": "all layouts and depths", "anchors": ["src/libs/conduit/conduit_node.cpp:Node::compact_to", "src/libs/conduit/conduit_node.cpp:Node::compact_elements_to"]}
{"id": "C22", "title": "serialize yields exactly the compacted bytes", "statement": "serialize(buffer) produces total_bytes_compact() bytes, equal to the bytes of the compacted node, and never writes outside the buffer.", "quantifier": "every node tree and layout", "why_tests_cant": "only strided leaves followed by other leaves reveal a misplaced offset", "anchors": ["src/libs/conduit/conduit_node.cpp:Node::serialize"]}
{"id": "C23", "title": "Binary save/load round-trips", "statement": "Saving a node as conduit_bin (data file plus schema) and loading it back yields the same tree and values.", "quantifier": "every node tree", "why_tests_cant": "all trees and layouts", "anchors": ["src/libs/conduit/conduit_node.cpp:Node::save", "src/libs/conduit/conduit_node.cpp:Node::load", "src/libs/conduit/conduit_node.cpp:Node::serialize"]}
{"id": "C24", "title": "Node::set(Node) is a deep copy", "statement": "After a.set(b), a has the same tree and values as b, and no later write through a is seen through b or the reverse.", "quantifier": "every pair of nodes in disjoint memory", "why_tests_cant": "independence is a statement about all later writes", "anchors": ["src/libs/conduit/conduit_node.cpp:Node::set_node", "src/libs/conduit/conduit_node.cpp:Node::init", "src/libs/conduit/conduit_node.cpp:Node::compact_to"]}
{"id": "C25", "title": "set_external aliases the caller's memory", "statement": "After set_external(schema, ptr), each leaf element reads the bytes of the caller's buffer at its offset; writes through the node change exactly those bytes, and no byte outside the described elements.", "quantifier": "every schema and buffer", "why_tests_cant": "all layouts and writes", "anchors": ["src/libs/conduit/conduit_node.cpp:Node::set_external", "src/libs/conduit/conduit_node.cpp:Node::walk_schema"]}
{"id": "C26", "title": "update overwrites matching leaves and keeps the rest", "statement": "After a.update(b): every leaf of b has its value in a at the same path, every path of a not mentioned by b is unchanged, and update is idempotent.", "quantifier": "every pair of trees", "why_tests_cant": "arbitrary overlap of the two trees", "anchors": ["src/libs/conduit/conduit_node.cpp:Node::update"]}
{"id": "C27", "title": "update_compatible writes only into existing compatible leaves", "statement": "a.update_compatible(b) never adds or removes paths of a and changes only leaf elements that correspond to an element of b with the same type.", "quantifier": "every pair of trees", "why_tests_cant": "arbitrary overlap of trees and lengths", "anchors": ["src/libs/conduit/conduit_node.cpp:Node::update_compatible"]}
{"id": "C28", "title": "diff is reflexive and detects differences", "statement": "n.diff(n) reports no difference; if a.diff(b) reports none with epsilon 0 then a and b have the same tree and leaf values; diff(a,b) reports a difference exactly when diff(b,a) does.", "quantifier": "every pair of trees and epsilon", "why_tests_cant": "all trees, plus special values such as NaN", "anchors": ["src/libs/conduit/conduit_node.cpp:Node::diff", "src/libs/conduit/conduit_data_array.cpp:DataArray::diff"]}
{"id": "C29", "title": "diff_compatible is implied by diff", "statement": "If a.diff(b) reports no difference then a.diff_compatible(b) reports none; diff_compatible reports no difference exactly when b carries everything a carries, with a's elements as a prefix.", "quantifier": "every pair of trees", "why_tests_cant": "all trees", "anchors": ["src/libs/conduit/conduit_node.cpp:Node::diff_compatible", "src/libs/conduit/conduit_data_array.cpp:DataArray::diff_compatible"]}
{"id": "C30", "title": "Setting a value replaces the old value", "statement": "After n.set(v) for a scalar, vector, array or string v, n holds exactly v: same type, same number of elements and the same elements, whatever n held before.", "quantifier": "every previous state of n and every v", "why_tests_cant": "depends on history: leaves are reused in place when the old description is 'compatible'", "anchors": ["src/libs/conduit/conduit_node.cpp:Node::set_int8_vector", "src/libs/conduit/conduit_node.cpp:Node::set_string", "src/libs/conduit/conduit_node.cpp:Node::init", "src/libs/conduit/conduit_data_type.cpp:DataType::compatible"]}
{"id": "C31", "title": "Element writes are local", "statement": "Writing element i of a leaf changes the bytes of that element only: other elements of the leaf and other leaves interleaved in the same memory keep their values.", "quantifier": "every layout with stride >= element size, every index, every interleaving", "why_tests_cant": "interleaved layouts and bulk writes through strides", "anchors": ["src/libs/conduit/conduit_data_array.hpp:DataArray::element", "src/libs/conduit/conduit_data_array.cpp:DataArray::set", "src/libs/conduit/conduit_node.cpp:Node::set_int8_vector"]}
{"id": "C32", "title": "endian_swap is an involution that preserves values", "statement": "Swapping to the other byte order and back restores every byte; after endian_swap each leaf, read in its declared order, has the same value.", "quantifier": "every tree, layout and byte order", "why_tests_cant": "all values and widths", "anchors": ["src/libs/conduit/conduit_node.cpp:Node::endian_swap", "src/libs/conduit/conduit_endianness.cpp:Endianness::swap16"]}
{"id": "C33", "title": "Node and Schema trees stay in lock-step", "statement": "After any history of Node operations, a node has exactly one child per child of its schema, in the same order.", "quantifier": "every history of node operations", "why_tests_cant": "two parallel trees are edited separately by each operation", "anchors": ["src/libs/conduit/conduit_node.cpp:Node::add_child", "src/libs/conduit/conduit_node.cpp:Node::fetch", "src/libs/conduit/conduit_node.cpp:Node::remove", "src/libs/conduit/conduit_node.cpp:Node::append", "src/libs/conduit/conduit_node.cpp:Node::set_node", "src/libs/conduit/conduit_node.cpp:Node::swap"]}
{"id": "C34", "title": "swap exchanges and move transfers", "statement": "a.swap(b) exchanges the contents of a and b, keeping each one's place and name in its own tree, and leaves every parent/child link consistent; a.move(b) gives a the contents of b and empties b.", "quantifier": "every pair of nodes not one inside the other, siblings included", "why_tests_cant": "pointer surgery on four link fields per object; the failing pairs are particular relative positions", "anchors": ["src/libs/conduit/conduit_node.cpp:Node::swap", "src/libs/conduit/conduit_node.cpp:Node::move"]}
{"id": "C35", "title": "Memory is released exactly once", "statement": "Over any history of node operations no allocation is freed twice, none is freed while a live leaf still reads it through the owning tree, and destroying the root frees all of them.", "quantifier": "every history", "why_tests_cant": "aliasing and ownership depend on the history", "anchors": ["src/libs/conduit/conduit_node.cpp:Node::release", "src/libs/conduit/conduit_node.cpp:Node::allocate", "src/libs/conduit/conduit_node.cpp:Node::init", "src/libs/conduit/conduit_node.cpp:Node::set_external"]}
{"id": "C36", "title": "Contiguity queries are correct", "statement": "is_contiguous() holds exactly when the leaves' bytes form one gap-free range in depth-first order, and contiguous_with(p) exactly when that range begins at p.", "quantifier": "every tree and address assignment", "why_tests_cant": "all address layouts, including trees with empty leaves", "anchors": ["src/libs/conduit/conduit_node.cpp:Node::is_contiguous", "src/libs/conduit/conduit_node.cpp:Node::contiguous_with", "src/libs/conduit/conduit_node.cpp:Node::contiguous_data_ptr"]}
{"id": "C37", "title": "NodeIterator visits each child once, in order", "statement": "A loop while(has_next()) next() returns children 0..n-1 once each; previous() undoes next(); peek_next()/peek_previous() return what next()/previous() would return without moving.", "quantifier": "every child count and every interleaving of iterator calls", "why_tests_cant": "arbitrary call sequences", "anchors": ["src/libs/conduit/conduit_node_iterator.cpp:NodeIterator::next", "src/libs/conduit/conduit_node_iterator.cpp:NodeIterator::previous", "src/libs/conduit/conduit_node_iterator.cpp:NodeIterator::peek_previous"]}
{"id": "C38", "title": "Array reductions are exact", "statement": "min, max, sum and count over a strided array of integers return the minimum, maximum, sum and number of occurrences over exactly its elements.", "quantifier": "every integer array and stride", "why_tests_cant": "unbounded lengths and values", "anchors": ["src/libs/conduit/conduit_data_array.cpp:DataArray::min", "src/libs/conduit/conduit_data_array.cpp:DataArray::max", "src/libs/conduit/conduit_data_array.cpp:DataArray::sum", "src/libs/conduit/conduit_data_array.cpp:DataArray::count"]}
{"id": "C39", "title": "Generators compute the same layout for the same text", "statement": "For one JSON schema text, parsing into a Schema, into a Node that copies data, and into a Node that aliases data put every leaf on the same bytes of the caller's buffer.", "quantifier": "every schema text, including strided leaves without explicit offsets", "why_tests_cant": "three separate recursive walks compute running offsets", "anchors": ["src/libs/conduit/conduit_generator.cpp:walk_json_schema", "src/libs/conduit/conduit_generator.cpp:walk_json_schema_external"]}
{"id": "C40", "title": "Parsing untrusted conduit_base64_json stays in bounds", "statement": "Loading a base64 JSON document never reads past the decoded data, whatever schema and data the document carries.", "quantifier": "every document", "why_tests_cant": "mismatched schema/data sizes read adjacent memory silently", "anchors": ["src/libs/conduit/conduit_generator.cpp:parse_base64", "src/libs/conduit/conduit_node.cpp:Node::set_data_using_schema"]}
{"id": "C41", "title": "value_fits decides representability", "statement": "value_fits<Src,Dst>(v) is true exactly when v can be converted to Dst without changing its value.", "quantifier": "every pair of integer types and every value", "why_tests_cant": "64-bit ranges at type boundaries", "anchors": ["src/libs/conduit/conduit_utils.hpp:value_fits"]}
{"id": "C42", "title": "Integer coercion preserves representable values", "statement": "Reading an integer leaf as another integer type (to_int64, to_uint8, accessors) returns the same number whenever it fits the target, and the C++ modular value otherwise.", "quantifier": "every stored value and type pair", "why_tests_cant": "full 64-bit domains", "anchors": ["src/libs/conduit/conduit_node.cpp:Node::to_int64", "src/libs/conduit/conduit_data_accessor.cpp:DataAccessor::element"]}
{"id": "C43", "title": "factor returns the prime factorisation", "statement": "factor(n) returns primes, in non-decreasing order, whose product is n.", "quantifier": "every n >= 1", "why_tests_cant": "unbounded n", "anchors": ["src/libs/conduit/conduit_utils.cpp:factor"]}
{"id": "C44", "title": "Protocol detection by file extension is a function of the last extension", "statement": "identify_protocol gives the protocol of the file name's final extension, and the default protocol when the file name has no known extension, whatever the directory part contains.", "quantifier": "every path string", "why_tests_cant": "arbitrary strings with dots, slashes and colons", "anchors": ["src/libs/relay/conduit_relay_io_identify_protocol.cpp:identify_protocol", "src/libs/conduit/conduit_node.cpp:Node::identify_protocol"]}
{"id": "C45", "title": "MPI tag probing finds the largest usable tag", "statement": "The tag limit probe returns the largest valid tag for every MPI library limit, without arithmetic overflow, and safe_tag always returns a valid tag.", "quantifier": "every tag upper bound", "why_tests_cant": "the limit depends on the MPI library; overflow appears only for large limits", "anchors": ["src/libs/relay/conduit_relay_mpi.cpp:TagLimits", "src/libs/relay/conduit_relay_mpi.cpp:safe_tag"]}
{"id": "C46", "title": "A node sent with send_using_schema is received unchanged", "statement": "recv_using_schema produces on the receiver the same tree and values the sender had.", "quantifier": "every node, including sub-nodes of larger trees and strided or external nodes", "why_tests_cant": "the wire image depends on the sender's memory layout", "anchors": ["src/libs/relay/conduit_relay_mpi.cpp:send_using_schema", "src/libs/relay/conduit_relay_mpi.cpp:recv_using_schema"]}
{"id": "C47", "title": "CSV reading never indexes outside its columns", "statement": "read_csv handles every text file without reading outside its column list, and a table of rows written by write_csv is read back with the same columns and rows.", "quantifier": "every file content and table", "why_tests_cant": "row lengths vary per line", "anchors": ["src/libs/relay/conduit_relay_io_csv.cpp:read_csv", "src/libs/relay/conduit_relay_io_csv.cpp:write_csv"]}
{"id": "C48", "title": "One-to-many index and iterator agree", "statement": "For every relation the iterator's DATA traversal visits exactly the entries (one, many) of the relation in order, once each, and gives the index O2MIndex gives.", "quantifier": "every sizes/offsets/indices arrays, including zero-size groups", "why_tests_cant": "group sizes are arbitrary", "anchors": ["src/libs/blueprint/conduit_blueprint_o2mrelation_iterator.cpp:O2MIterator::next", "src/libs/blueprint/conduit_blueprint_o2mrelation_iterator.cpp:O2MIterator::index", "src/libs/blueprint/conduit_blueprint_o2mrelation_index.cpp:O2MIndex::index"]}
{"id": "C49", "title": "generate_offsets partitions the data", "statement": "The generated offsets are the exclusive prefix sums of the sizes: the groups are disjoint, consecutive and cover the data.", "quantifier": "every sizes array", "why_tests_cant": "unbounded length", "anchors": ["src/libs/blueprint/conduit_blueprint_o2mrelation.cpp:generate_offsets"]}
{"id": "C50", "title": "o2mrelation compact_to terminates and gathers each group", "statement": "compact_to terminates for every valid relation and copies each group's values in order into the compacted arrays.", "quantifier": "every valid relation with any number of value arrays", "why_tests_cant": "zero-size groups and several value arrays are rare in tests", "anchors": ["src/libs/blueprint/conduit_blueprint_o2mrelation.cpp:compact_to"]}
{"id": "C51", "title": "NDIndex maps index tuples to distinct in-range elements", "statement": "For shape, offset and stride given, index(...) is the sum of (offset + index) * stride; in-shape tuples map to distinct positions when strides nest, and with default strides (first dimension fastest) cover 0..size-1.", "quantifier": "every shape and tuple", "why_tests_cant": "unbounded extents", "anchors": ["src/libs/blueprint/conduit_blueprint_ndarray_index.hpp:NDIndex::index"]}
{"id": "C52", "title": "mcarray layout conversions keep values", "statement": "to_contiguous and to_interleaved produce components with the same values, stored in one block respectively component after component, and element-interleaved, without overlap.", "quantifier": "every multi-component array and source layout", "why_tests_cant": "arbitrary component counts, types and strides", "anchors": ["src/libs/blueprint/conduit_blueprint_mcarray.cpp:to_contiguous", "src/libs/blueprint/conduit_blueprint_mcarray.cpp:to_interleaved"]}
{"id": "C53", "title": "mcarray::verify accepts exactly equal-length components", "statement": "verify succeeds exactly when all components are numeric and have the same number of elements, independent of their order.", "quantifier": "every component list", "why_tests_cant": "order-dependence shows only with zero-length components", "anchors": ["src/libs/blueprint/conduit_blueprint_mcarray.cpp:verify"]}
{"id": "C54", "title": "Verification verdicts are monotone", "statement": "Once a check writes a failing validation into an info node, later passing checks do not turn it into success.", "quantifier": "every sequence of log::validation calls", "why_tests_cant": "sequences of checks are unbounded", "anchors": ["src/libs/conduit/conduit_log.cpp:validation"]}
{"id": "C55", "title": "Summary strings show the right elements", "statement": "to_summary_string with threshold t prints all elements (children) when there are at most t or t is zero or negative, and otherwise the first ceil(t/2) and last floor(t/2) elements (children) with one ellipsis.", "quantifier": "every array length and threshold", "why_tests_cant": "both are unbounded integers", "anchors": ["src/libs/conduit/conduit_data_array.cpp:DataArray::to_summary_string_stream"]}
{"id": "C56", "title": "Allocator registration gives fresh ids and conduit allocates with the chosen one", "statement": "register_allocator returns ids never given out before; allocation and free of a block use the functions registered under the same id.", "quantifier": "every sequence of registrations and allocations", "why_tests_cant": "sequences are unbounded", "anchors": ["src/libs/conduit/conduit_utils.cpp:AllocManager", "src/libs/conduit/conduit_utils.cpp:register_allocator"]}
{"id": "C57", "title": "File path splitting with drive letters loses nothing", "statement": "split_file_path(path, sep) and rsplit_file_path(path, sep) return two parts which, put around one separator, give the path back (or no split happened); the colon of a Windows drive letter is never a split point.", "quantifier": "every path and separator", "why_tests_cant": "drive-letter special cases interact with separators at the boundary", "anchors": ["src/libs/conduit/conduit_utils.cpp:split_file_path", "src/libs/conduit/conduit_utils.cpp:rsplit_file_path"]}
{"id": "C58", "title": "Copying a node to itself keeps its value", "statement": "n.set(n), n = n, and n.set(v) for a node v that views n's memory leave n with the value the source had.", "quantifier": "every node and every aliasing between source and destination", "why_tests_cant": "which memory a node shares with another depends on the history", "anchors": ["src/libs/conduit/conduit_node.cpp:Node::set_node", "src/libs/conduit/conduit_node.cpp:Node::operator=", "src/libs/conduit/conduit_node.cpp:Node::compact_to"]}
{"id": "C59", "title": "Pruning an info tree keeps what it promises", "statement": "After log::remove_valid, remove_invalid or remove_optional no removable entry is left below the root, entries of the other verdict stay, and nothing else changes.", "quantifier": "every info tree", "why_tests_cant": "trees nest without bound and removal happens while iterating", "anchors": ["src/libs/conduit/conduit_log.cpp:remove_tree", "src/libs/conduit/conduit_log.cpp:remove_valid"]}
{"id": "C60", "title": "Setting a node from a schema", "statement": "After n.set(schema, data) n has exactly that schema, holds in memory of its own the values the schema describes at data, and is not affected by later changes at data; after n.set(schema) every element is 0. Nothing but n's old buffers changes.", "quantifier": "every schema with forward layout that spans a non-negative number of bytes, every caller's buffer, every previous state of n", "why_tests_cant": "all layouts (offsets, strides, gaps) and histories", "anchors": ["src/libs/conduit/conduit_node.cpp:Node::set_data_using_schema", "src/libs/conduit/conduit_node.cpp:Node::set_schema", "src/libs/conduit/conduit_node.cpp:Node::walk_schema", "src/libs/conduit/conduit_schema.cpp:Schema::spanned_bytes"]}
{"id": "C61", "title": "conduit_base64_json round trip", "statement": "Loading the text of n.to_json(\"conduit_base64_json\") gives a node with the same tree, names, types and values as n, in memory of its own, whatever indentation is used.", "quantifier": "every readable node (strided, external, empty leaves and zero-size arrays included), every indentation of white space, every previous state of the node loaded into", "why_tests_cant": "all trees, layouts, byte values and lengths modulo 3", "anchors": ["src/libs/conduit/conduit_node.cpp:Node::to_base64_json", "src/libs/conduit/conduit_generator.cpp:Generator::Parser::JSON::parse_base64", "src/libs/conduit/conduit_generator.cpp:Generator::walk"]}
{"id": "C62", "title": "Generated nodes own their data", "statement": "The node Generator::walk makes from a JSON schema and a buffer copies every leaf into memory it owns: later changes of the buffer do not show in the node. Without a buffer every element is 0.", "quantifier": "every schema document, every buffer, every previous state of the node", "why_tests_cant": "needs all documents, including leaves given by a type name only, and later writes to the caller's buffer", "anchors": ["src/libs/conduit/conduit_generator.cpp:Generator::walk", "src/libs/conduit/conduit_generator.cpp:walk_json_schema"]}
{"id": "C63", "title": "Detailed JSON output is read back as the same values", "statement": "For every node, parsing the text of to_json(\"conduit_json\") yields a node with the same tree, the same types, element counts and element bytes (the layout may be compacted and the default byte order is named), independent of indentation and padding; the new node owns its data.", "quantifier": "every tree of leaves, objects and lists with any strides and offsets, any indent/pad/eoe whitespace, any previous state of the node parsed into", "why_tests_cant": "tests compare a few trees; the text passes through string surgery on the dtype text, a comment/quote preprocessor, an external parser and a second unescape, whose composition has to be right for every tree", "anchors": ["src/libs/conduit/conduit_node.cpp:Node::to_json_generic", "src/libs/conduit/conduit_data_array.cpp:DataArray::to_json_stream", "src/libs/conduit/conduit_data_type.cpp:DataType::to_json_stream", "src/libs/conduit/conduit_generator.cpp:parse_inline_value"]}
{"id": "C64", "title": "Plain JSON: reading and printing", "statement": "parse(text, \"json\") of any JSON object or array builds exactly the tree the document stands for (integers int64/uint64, integer arrays int64, number arrays float64, booleans uint8, null empty, other arrays lists), in memory the node owns; to_json(\"json\") followed by parse gives what the value's document stands for, and integers keep their value.", "quantifier": "every JSON document and whitespace, every tree, every previous state of the node parsed into", "why_tests_cant": "the type of an array depends on all its elements in order, and the text passes the preprocessor, parser and memory allocation; tests fix a handful of documents", "anchors": ["src/libs/conduit/conduit_generator.cpp:walk_pure_json_schema", "src/libs/conduit/conduit_generator.cpp:check_homogenous_json_array", "src/libs/conduit/conduit_node.cpp:Node::to_json_generic"]}
{"id": "C65", "title": "table::verify decides whether columns have one length", "statement": "blueprint::table::verify of any node gives a verdict; it accepts exactly the values whose columns are arrays, or objects/lists of numeric components, all of the same length.", "quantifier": "every values node: objects and lists of any number of columns, columns with and without components", "why_tests_cant": "the verdict depends on all columns and components and on flags carried from column to column; tests fix a few tables", "anchors": ["src/libs/blueprint/conduit_blueprint_table.cpp:verify_table_values", "src/libs/blueprint/conduit_blueprint_table.cpp:verify_single_table"]}
{"id": "C66", "title": "Matset conversions keep every volume fraction", "statement": "Converting a material set between its flavours (full multi-buffer, sparse by element, sparse by material) keeps, for every element and material, exactly the volume fraction that was there: entries not above epsilon may be dropped when going sparse, and come back as zero in the full form; nothing else is added, lost or moved to another element or material, and the result is well formed.", "quantifier": "every well formed matset of each flavour over any number of elements and materials, any values, any material numbers, any one-to-many layout (sizes, offsets, indices)", "why_tests_cant": "tests convert a handful of small fixed matsets; the conversions walk one-to-many relations, reverse maps and string-keyed maps whose interplay depends on all of the arrays", "anchors": ["src/libs/blueprint/conduit_blueprint_mesh_matset_xforms.cpp:to_multi_buffer_full", "src/libs/blueprint/conduit_blueprint_mesh_matset_xforms.cpp:to_sparse_by_element", "src/libs/blueprint/conduit_blueprint_mesh_matset_xforms.cpp:to_multi_buffer_by_material"]}
{"id": "C67", "title": "Material dependent fields follow their matset", "statement": "Converting a material dependent field along with its matset keeps, for every element and material, the field value next to the volume fraction it belonged to: the new field's values line up entry by entry with the converted matset.", "quantifier": "every well formed matset and field over it of each flavour, any number of elements and materials, any values", "why_tests_cant": "the field and its matset are converted by separate functions that must drop and order the same entries for all inputs; tests compare a few fixed cases", "anchors": ["src/libs/blueprint/conduit_blueprint_mesh_matset_xforms.cpp:multi_buffer_by_element_to_uni_buffer_by_element_field", "src/libs/blueprint/conduit_blueprint_mesh_matset_xforms.cpp:uni_buffer_by_element_to_multi_buffer_by_element_field", "src/libs/blueprint/conduit_blueprint_mesh_matset_xforms.cpp:multi_buffer_by_material_to_uni_buffer_by_element_field"]}
{"id": "C68", "title": "The Silo form of a matset lists every element's materials", "statement": "matset::to_silo and field::to_silo produce arrays from which a Silo reader (matlist, and mix_next followed from the position it gives) recovers, for every element, exactly the materials above epsilon: a clean element names its one material, a mixed element's list ends and contains each of its materials once, with its volume fraction and its field value.", "quantifier": "every well formed matset of each flavour in which every element has a material above epsilon, any number of elements and materials, any values", "why_tests_cant": "the arrays encode linked lists whose termination and coverage must hold for every mixture; tests compare the arrays of one or two fixed matsets", "anchors": ["src/libs/blueprint/conduit_blueprint_mesh_matset_xforms.cpp:detail::to_silo", "src/libs/blueprint/conduit_blueprint_mesh_matset_xforms.cpp:matset::to_silo", "src/libs/blueprint/conduit_blueprint_mesh_matset_xforms.cpp:field::to_silo"]}
{"id": "C69", "title": "The Silo form of a species set gives the mass fractions of the materials in each element", "statement": "From the arrays of specset::to_silo (speclist, mix_spec, species_mf, nmatspec, specnames), read together with the silo form of the matset, a reader recovers for every element, every material in it and every species of that material the mass fraction the species set holds, and nothing for materials that are not in the element.", "quantifier": "every readable silo matset and every species set over the same materials, any number of elements, materials and species", "why_tests_cant": "positions are computed from sums over materials and lists followed through mix_next; tests compare the arrays of one example mesh", "anchors": ["src/libs/blueprint/conduit_blueprint_mesh_matset_xforms.cpp:specset::to_silo"]}
{"id": "C70", "title": "Converting a coordinate set keeps every grid point", "statement": "Converting a uniform coordset to rectilinear or explicit form, or a rectilinear one to explicit form, keeps the grid: the explicit form lists for every grid point (i,j,k), at position i + ni*(j + nj*k), its coordinate along each axis; coordinates keep their value (up to the float type of the result); uniform to explicit equals uniform to rectilinear to explicit; coordset::length is the same for all forms.", "quantifier": "all coordsets with any number of axes and points, all coordinate systems, all float types and values", "why_tests_cant": "any grid shape, any axis naming and order, any mix of leaf types; the type of the result depends on every leaf of the coordset", "anchors": ["src/libs/blueprint/conduit_blueprint_mesh.cpp: convert_coordset_to_rectilinear, convert_coordset_to_explicit", "src/libs/blueprint/conduit_blueprint_mesh_utils.cpp: get_coordset_info, coordset::length"]}
{"id": "C71", "title": "Converting a grid to an unstructured mesh keeps its elements", "statement": "to_unstructured on a uniform, rectilinear or structured topology gives one element per grid cell, in grid order; each element lists the point numbers of the cell's corners in the blueprint order for lines, quads and hexes, so that each corner has the coordinates the grid gives it; to_structured gives one element less than points along each axis.", "quantifier": "all grids of one to three axes, any number of points, any integer type of the topology's leaves", "why_tests_cant": "the numbering has to be right for all grid sizes and the integer type is chosen from unrelated leaves of the topology", "anchors": ["src/libs/blueprint/conduit_blueprint_mesh.cpp: convert_topology_to_unstructured, convert_topology_to_structured, grid_ijk_to_id, grid_id_to_ijk"]}
{"id": "C72", "title": "find_widest_dtype returns the widest matching leaf type", "statement": "utils::find_widest_dtype(node, defaults) returns the element type of a leaf below node whose class (floating point, signed integer, unsigned integer, string) is the class of one of the defaults, and no such leaf has wider elements; if there is no such leaf it returns the first default.", "quantifier": "all trees of any depth and all lists of default types", "why_tests_cant": "holds for trees of any shape; tests only look at a few small meshes", "anchors": ["src/libs/blueprint/conduit_blueprint_mesh_utils.cpp: find_widest_dtype"]}
{"id": "C73", "title": "Converting an adjset keeps which entities are shared with which domains", "statement": "adjset::to_pairwise gives one group per neighbor and adjset::to_maxshare one group per set of neighbors, with each entity once; in both an entity is shared with a domain just if it was in the source. Everything but the groups is kept. is_pairwise and is_maxshare tell whether each group has one neighbor, and whether no entity is listed twice.", "quantifier": "all adjsets with integer groups of any number, size and overlap, whose numbers fit the widest integer type of the adjset", "why_tests_cant": "groups can overlap in any way; tests use the generated braid and grid adjsets", "anchors": ["src/libs/blueprint/conduit_blueprint_mesh.cpp: adjset::to_pairwise, to_maxshare, is_pairwise, is_maxshare"]}
{"id": "C74", "title": "After conversion two domains still list shared entities in the same order", "statement": "If two domains list their shared groups under the same names with entities in the same order, then after to_pairwise on each the group of a for b and the group of b for a have the same name and list corresponding entities in the same order. The same holds for to_maxshare if groups are pairwise and sorted by a global id and both domains know all domains that share an entity.", "quantifier": "all pairs of domains, all overlapping groups, all orders of the groups in the trees", "why_tests_cant": "matching is by position across domains that never see each other's data; wrong order is silent", "anchors": ["src/libs/blueprint/conduit_blueprint_mesh.cpp: adjset::to_pairwise, to_maxshare; src/libs/blueprint/conduit_blueprint_mesh_utils.cpp: find_domain_id, adjset::canonicalize"]}
{"id": "C75", "title": "canonicalize names groups after their domains and keeps their content", "statement": "adjset::canonicalize renames each group to group_ followed by the ascending ids of all its domains, the own one included, and keeps neighbors, values and order; equal names mean equal sets of domains; is_canonical accepts such a name just if the group has a neighbor and all its domains are distinct.", "quantifier": "all adjsets with distinct neighbor lists, all domain ids, negative ones included", "why_tests_cant": "renaming in place while iterating depends on the names that are there already", "anchors": ["src/libs/blueprint/conduit_blueprint_mesh_utils.cpp: adjset::canonicalize, adjset::is_canonical"]}
{"id": "C76", "title": "A point query finds every point at its own coordinates", "statement": "PointQuery (and the kd-tree below it) answers a query at the coordinates of a point of the coordset with a point that lies within the tolerance, and answers a query with 'not found' only if no point lies within the tolerance; below the size at which the kd-tree is used it answers with the lowest such id.", "quantifier": "all coordsets of 1 to 3 axes and any size, all queries and tolerances, any order std::sort gives to equal elements", "why_tests_cant": "the tree only exists from 15625 points on, and its cuts depend on rounding and on ties between coordinates", "anchors": ["src/libs/blueprint/conduit_blueprint_mesh_kdtree.hpp: kdtree", "src/libs/blueprint/conduit_blueprint_mesh_utils.cpp: query::PointQuery"]}
{"id": "C77", "title": "Spatial orders list every element exactly once", "statement": "topology::spatial_ordering and topology::hilbert_ordering end and return a permutation of the elements, also with equal centers or centers that are not numbers; the Hilbert order leaves a quarter of the extents only after all its elements.", "quantifier": "all numbers of elements, all centers, 1 to 3 axes, any std::partition and std::sort", "why_tests_cant": "recursion over splits that depend on comparisons of floating point centers; a bad split would recurse without end or lose elements", "anchors": ["src/libs/blueprint/conduit_blueprint_mesh_utils.cpp: topology::spatial_ordering, topology::hilbert_ordering, HilbertSort2D, HilbertSort3D"]}
{"id": "C78", "title": "Reordering or selecting elements keeps the mesh", "statement": "topology::unstructured::reorder, given any list of element ids, yields a topology whose j-th element is the listed one, corner by corner at the same coordinates; corners share a point in the result just if they did before; no point is unused; vertex and element fields of the topology have the same value at each point and element; old2NewPoints maps the points.", "quantifier": "all unstructured topologies of any shape or sizes, all element lists (permutations, subsets, repetitions), all kinds of coordsets, all fields", "why_tests_cant": "the renumbering composes three index maps and narrows to the source's integer types; a slip still yields a valid-looking mesh", "anchors": ["src/libs/blueprint/conduit_blueprint_mesh_utils.cpp: topology::unstructured::reorder, slice_array, slice_field"]}
{"id": "C79", "title": "Offsets of elements and points of an element", "statement": "generate_offsets_inline adds offsets that say where in the connectivity each element (and each face of a polyhedron) begins, keeping offsets that exist and everything else; generate_offsets hands out the same; points() then lists exactly the points of the element asked for, in connectivity order (unique: each once, ascending), for polyhedra exactly the points of its faces.", "quantifier": "all unstructured topologies of fixed shapes, polygons and polyhedra, with or without offsets, all elements, all integer types", "why_tests_cant": "the offsets are stored in a type derived from the widest integer leaf found in the tree; tests use few elements, so overflow in narrow types and gaps in given offsets never show", "anchors": ["src/libs/blueprint/conduit_blueprint_mesh_utils.cpp: topology::unstructured::generate_offsets, generate_offsets_inline, points"]}
{"id": "C80", "title": "A built topology has the selected elements", "statement": "TopologyBuilder: after add() of any elements, execute() yields a mesh whose j-th element is the j-th added, corner by corner at the coordinates it had; corners share a point just if they did, no point is unused; add() returns the number of the element; the builder is empty again.", "quantifier": "all lists of elements over all coordsets, all shapes", "why_tests_cant": "the renumbering depends on the order of first use through a map; a slip shows only with shared points in unusual orders, and the coordset types besides explicit are not tried", "anchors": ["src/libs/blueprint/conduit_blueprint_mesh_utils.cpp: TopologyBuilder::newPointId, add, execute, clear"]}
{"id": "C81", "title": "Searching elements in another topology", "statement": "topology::search reports 1 for an element of the second topology just if its points, translated by the point query, are those of an element of the first, in any order; 0 otherwise.", "quantifier": "all pairs of unstructured topologies without subelements, all point query results", "why_tests_cant": "elements are compared by a 64 bit hash: no feasible set of tests rules out or finds collisions", "anchors": ["src/libs/blueprint/conduit_blueprint_mesh_utils.cpp: topology::search, topology_iterate_elements", "src/libs/conduit/conduit_utils.cpp: hash"]}
{"id": "C82", "title": "Sides of elements: each once, mapped to and from the elements", "statement": "For an unstructured topology of triangles, quads, tets, hexes, wedges or pyramids, generate_lines (2D) and generate_faces (3D) give a topology on the same coordset that lists each side of the elements exactly once, whichever and however many elements share it and in whatever order they list its points. Sides are numbered in the order they are first met and have the order of points of the first element. The map from elements to sides gives for each element its sides in the order of the shape's table; the map back gives for each side the elements it belongs to, ascending. The tables list the facets of the shapes, for tets and hexes with one orientation, for wedges and pyramids cut into triangles. False: sides of different points with the same hash are merged; the triangles of wedges and pyramids have no common orientation, and neighbours that share a quad may share no triangle; 8-bit topologies overflow their offsets.", "quantifier": "all topologies of these shapes with any number of elements, any sharing, any integer types that hold the numbers, with or without sizes and offsets, without hash collisions among the sides", "why_tests_cant": "Tests compare counts for a few generated meshes; they cannot try all ways elements share sides or number their points, and no mesh in the tests has a hash collision or a wedge neighbour along a quad.", "anchors": ["src/libs/blueprint/conduit_blueprint_mesh.cpp:4674-4736", "src/libs/blueprint/conduit_blueprint_mesh_topology_metadata.cpp:887-1110", "src/libs/blueprint/conduit_blueprint_mesh_topology_metadata.cpp:1775-1801", "src/libs/blueprint/conduit_blueprint_mesh_topology_metadata.cpp:2418-2516", "src/libs/blueprint/conduit_blueprint_mesh_utils.hpp:116-168"]}
{"id": "C83", "title": "Lines of polygons: each once, mapped to and from the polygons", "statement": "For an unstructured topology of polygons of up to 32 points each, with or without offsets, generate_lines gives a topology of lines on the same coordset that lists each line between neighbouring points of a polygon (the last and the first included) exactly once, whichever and however many polygons share it and in whatever direction. Lines are numbered in the order they are first met and have the direction of the first polygon. The map from polygons to lines gives for each polygon its lines in order; the map back gives for each line its polygons, ascending. False: a polygon of more than 32 points is undefined behaviour; offsets with gaps write past an array; offsets in another order give a wrong map back; lines with the same hash are merged.", "quantifier": "all topologies of polygons of any number and any sizes up to 32, any sharing, any integer types that hold the numbers, without hash collisions among the lines", "why_tests_cant": "Tests use a few polygonal meshes with small polygons and offsets one after the other; they cannot try all ways polygons share lines, and no test has a polygon of 33 points, offsets with gaps or in another order, or a collision.", "anchors": ["src/libs/blueprint/conduit_blueprint_mesh.cpp:4674-4705", "src/libs/blueprint/conduit_blueprint_mesh_topology_metadata.cpp:1118-1298", "src/libs/blueprint/conduit_blueprint_mesh_topology_metadata.cpp:2418-2516"]}
{"id": "C84", "title": "What mesh verify accepts, rejects and reports", "statement": "blueprint::mesh::verify answers true just if the mesh conforms: one domain, or any number of them in an object or a list; every coordset, topology, matset, specset, field, adjset and nestset is sound by the rules of its kind and the entries it names exist and are sound, grid functions included. The report's root says the same; the report on each entry says whether that entry is sound and refers to sound ones, and the report on each domain whether the domain conforms. What the report held before makes no difference. The verify functions of the parts, called alone, do the same for the part. Where nothing is named valid and the few nodes read unchecked have the expected type, verify answers. False: verify raises an error for an entry named valid, for shape numbers that are not int32, shapes without shape_map, faces whose shape is not a string, a material without species; adjset windows of differing dimensions, adjset groups without values, empty volume fractions, text in multi-level arrays are accepted; the report calls a group valid that makes its adjset invalid; the report on a domain named info is lost.", "quantifier": "all trees (any nesting, any names but valid, distinct within an object), any previous report, no bound on the number of entries or domains", "why_tests_cant": "Tests verify a few handwritten trees for each rule and never look at the report of each entry; they cannot cover all combinations of missing, mistyped and misreferring entries, and none has an entry named valid or info, int64 shape maps or windows of differing dimensions.", "anchors": ["src/libs/blueprint/conduit_blueprint_mesh.cpp:197-925", "src/libs/blueprint/conduit_blueprint_mesh.cpp:1936-1955", "src/libs/blueprint/conduit_blueprint_mesh.cpp:3703-3931", "src/libs/blueprint/conduit_blueprint_mesh.cpp:4146-4515", "src/libs/blueprint/conduit_blueprint_mesh.cpp:6108-6817", "src/libs/blueprint/conduit_blueprint_mesh.cpp:7097-7199", "src/libs/blueprint/conduit_blueprint_mcarray.cpp:63-139", "src/libs/blueprint/conduit_blueprint_mcarray.cpp:319-437", "src/libs/blueprint/conduit_blueprint_o2mrelation.cpp:69-152"]}
{"id": "C85", "title": "The index of a mesh: made, conforming, and true to the mesh", "statement": "For a mesh of one domain that mesh::verify accepts, generate_index makes an index that mesh::index::verify accepts. The index lists each coordset, topology, matset, specset, field, adjset and nestset under its name and no other, with its path below the reference path, its type, its coordinate system and axes, its references, its materials (numbered in order where only volume fractions are given), its species, its number of components and association, and the state with cycle, time and the number of domains. For several domains the index has an entry for each name some domain lists, with the axes, materials and species of all of them, and otherwise what the last such domain has. mesh::index::verify answers true just if the index conforms, and its report says so of the index and of every entry. False for some meshes that verify accepts: an origin not named by axes or not an object, explicit values without an axis, dimensions named by other axes, a matset without volume fractions give an index that is rejected; a field with only a leaf of matset_values and a volume_dependent that is not a string raise an error; domains whose coordsets of one name are in different coordinate systems give one entry mixing the two, which is rejected; a mesh without domains gives an index that is rejected.", "quantifier": "all trees of distinct names other than valid, any number of entries and domains, any reference path; coordsets with axes of one system, matsets with a material", "why_tests_cant": "Tests make indices of the example meshes and look at a few fields; they cannot cover all combinations of entries and of domains that differ, nor what the report says of every entry, and none merges coordsets of two systems.", "anchors": ["src/libs/blueprint/conduit_blueprint_mesh.cpp:2105-2487", "src/libs/blueprint/conduit_blueprint_mesh.cpp:4055-4140", "src/libs/blueprint/conduit_blueprint_mesh.cpp:6058-6080", "src/libs/blueprint/conduit_blueprint_mesh.cpp:7206-7412", "src/libs/conduit/conduit_node.cpp:8510-8585"]}
{"id": "C86", "title": "gen_domain_to_file_map shares out domains evenly, in order, each to exactly one file", "statement": "For every number of domains and every positive number of files, gen_domain_to_file_map sets global_domain_to_file to a file for every domain, and global_domain_offsets and global_domains_per_file so that the domains of a file are exactly those from its offset on, as many as it has; the counts sum to the number of domains and differ by at most one; no file is empty if there are no more files than domains. With no files there is a division by zero.", "quantifier": "all numbers of domains and files", "why_tests_cant": "Tests try a few pairs of counts; an off-by-one in the prefix sum or in the stepping of the file index shows only for some remainders and for more files than domains.", "anchors": ["src/libs/relay/conduit_relay_io_blueprint.cpp:78-123"]}
{"id": "C87", "title": "Writing N domains to M files from several ranks writes each domain once, without collision or deadlock; reading covers each domain once", "statement": "For every distribution of domains over ranks (ranks without domains included), the baton loop of write_mesh ends on every rank after at most ranks + 1 rounds, no two ranks write to one file in one round, and in whatever order the writes of a round happen each file finally holds what it held before (nothing when truncating) and exactly the domains mapped to it, each once. If some domain cannot be opened or written every rank raises an error in the same round and none waits. With file_style root_only the root file holds all domains in order, truncated on first touch only. read_mesh gives every domain to exactly one rank, evenly.", "quantifier": "all rank counts, domain distributions, file counts, failing sets, truncation modes and interleavings within rounds", "why_tests_cant": "MPI tests run with two or three ranks and one distribution; deadlock, double truncation and lost domains depend on the distribution and on timing.", "anchors": ["src/libs/relay/conduit_relay_io_blueprint.cpp:1209-1283", "src/libs/relay/conduit_relay_io_blueprint.cpp:1313-1560", "src/libs/relay/conduit_relay_io_blueprint.cpp:2142-2172", "src/libs/blueprint/conduit_blueprint_mpi_mesh.cpp:2713-2741"]}
{"id": "C88", "title": "A mesh that is saved is loaded back, domain by domain, and other files are left alone", "statement": "relay::io::blueprint::save_mesh (write_mesh with truncate, or where there are no files yet) of a mesh of one or several domains to a path, followed by load_mesh of the root file it names, gives back every domain, in order, named domain_000000 on: every entry of the seven collections with its content, the state with domain_id set to the position, and nothing else. This holds in every file style (root_only, one file per domain, N domains in M files), for every mesh name and suffix option. Files other than the root file and those in the directory of the same name are unchanged; so meshes of different cycles saved to one path can each be loaded afterwards. The numbers in names have six digits or more and are distinct.", "quantifier": "all meshes that conform and can be indexed, all domain counts, file counts, options, paths without : { } and prior contents of the disk", "why_tests_cant": "Tests write a few braid examples with one or two styles; the place of each domain depends on the number of domains and files, and on what was written before.", "anchors": ["src/libs/relay/conduit_relay_io_blueprint.cpp:651-714", "src/libs/relay/conduit_relay_io_blueprint.cpp:788-811", "src/libs/relay/conduit_relay_io_blueprint.cpp:888-1790", "src/libs/relay/conduit_relay_io_blueprint.cpp:1862-2266", "src/libs/relay/conduit_relay_io_handle.cpp:405-588"]}
{"id": "C89", "title": "The file and tree patterns lead a reader without partition maps to the same domains", "statement": "The root file also holds file_pattern, tree_pattern, number_of_files and number_of_trees. With the partition pattern and map taken out of the index, load_mesh finds and gives back the same domains. The pattern expansion puts the number in place of %02d to %09d, padded with zeros to that width, and keeps the text around it.", "quantifier": "all meshes as for C88, paths and protocols without %, all widths and numbers", "why_tests_cant": "The fallback is only taken for files written by old versions, of which the tests hold a few; whether both descriptions of the layout agree depends on the number of domains and files.", "anchors": ["src/libs/relay/conduit_relay_io_blueprint.cpp:140-262", "src/libs/relay/conduit_relay_io_blueprint.cpp:1620-1760", "src/libs/relay/conduit_relay_io_blueprint.cpp:2062-2140"]}
{"id": "C90", "title": "Splitting a selection of elements keeps its elements", "statement": "Selection::partition(), by which mesh::partition divides its work, gives for a selection of a logical box, of element numbers or of ranges two selections that together have the same elements, none lost and none twice, on the same domain and topology, neither taken for the whole. A selection by a field gives one selection for each value, with just the elements that have it; together they are all elements, each once. A selection by a value is divided in two like numbers.", "quantifier": "all meshes, boxes, lists, ranges and fields", "why_tests_cant": "Tests split a few boxes; off-by-one cuts depend on the parity and the longest axis, and on where ranges begin.", "anchors": ["src/libs/blueprint/conduit_blueprint_mesh_partition.cpp:546-600", "src/libs/blueprint/conduit_blueprint_mesh_partition.cpp:839-887", "src/libs/blueprint/conduit_blueprint_mesh_partition.cpp:1113-1191", "src/libs/blueprint/conduit_blueprint_mesh_partition.cpp:1503-1627"]}
{"id": "C91", "title": "Splitting towards the target ends when there are enough elements, with just as many selections", "statement": "split_selections() turns any selections of existing elements (boxes, numbers, one range each) into exactly the target number of selections, none empty, with the same elements, if the target is no more than the number of elements. For any target it keeps the elements of selections without a field. If all selections are boxes and the target is more than the number of elements it never ends.", "quantifier": "all selections, meshes and targets", "why_tests_cant": "Termination and the count depend on how the largest selection is chosen at each turn; the endless loop cannot be seen by a test that ends.", "anchors": ["src/libs/blueprint/conduit_blueprint_mesh_partition.cpp:2043-2150"]}
{"id": "C92", "title": "Partitioning puts each element in one output domain and gives as many domains as asked", "statement": "mesh::partition without selections puts each element of the first topology of every domain in just one output domain; the output domains are numbered 0 to target-1 (the number of domains if there is no target, one if it is 0 or negative), and none is empty, provided there are as many elements and every domain has some. The same holds for the elements of selections of existing elements. A selection by a field of all domains gives for each value a domain of that number with all elements of the value. Chunks with a domain of their own go there, others elsewhere. A selection of numbers or ranges applies to the first domain with its id, which is state/domain_id or else the position.", "quantifier": "all meshes of any number of domains, all targets, selections and field values from 0 to 2^31-1", "why_tests_cant": "Tests check a few targets on braid meshes by comparing with baselines; the grouping depends on the sizes of all chunks.", "anchors": ["src/libs/blueprint/conduit_blueprint_mesh_partition.cpp:1741-2038", "src/libs/blueprint/conduit_blueprint_mesh_partition.cpp:4267-4413", "src/libs/blueprint/conduit_blueprint_mesh_partition.cpp:4459-4627"]}
{"id": "C93", "title": "Extracting elements keeps their corners, coordinates and field values", "statement": "Selection of elements by number, range or field value in mesh::partition: the extracted mesh has the elements asked for in the order asked for, corner by corner; its points are the points these elements use, each once, in the old order, with their coordinates; grids become unstructured. Fields of the topology that are wanted have the values of these elements and points in their types and there are no others; the mapping fields tell the domain and the numbers the elements and points had; the state is kept and domain_id set to the destination.", "quantifier": "all meshes with elements of one shape, polygons or grids of two or three dimensions; all lists of existing elements; any fields and options", "why_tests_cant": "Tests compare a few braid meshes with stored baselines; renumbering mistakes depend on which points are shared and on offsets that are not in order.", "anchors": ["src/libs/blueprint/conduit_blueprint_mesh_partition.cpp:2684-2792", "src/libs/blueprint/conduit_blueprint_mesh_partition.cpp:2798-3100", "src/libs/blueprint/conduit_blueprint_mesh_partition.cpp:3154-3200", "src/libs/blueprint/conduit_blueprint_mesh_partition.cpp:3275-3647"]}
{"id": "C94", "title": "A logical box of a grid is extracted as a grid of the same kind with the same points", "statement": "A logical selection in mesh::partition of a uniform, rectilinear or structured mesh gives a mesh of the same kind with the elements of the box along each axis. Element x of the new grid is element start+x of the old one, and its points are where they were (uniform: the origin is moved by start spacings). Fields and mapping have the values and numbers of these elements and points in the order of the new grid; the origin of the elements is moved; the state is kept.", "quantifier": "all grids of two or three dimensions and all boxes inside them", "why_tests_cant": "Tests extract a few boxes; off-by-one sizes and strides depend on box, grid and dimension.", "anchors": ["src/libs/blueprint/conduit_blueprint_mesh_partition.cpp:601-636", "src/libs/blueprint/conduit_blueprint_mesh_partition.cpp:3005-3151", "src/libs/blueprint/conduit_blueprint_mesh_partition.cpp:3203-3272"]}
{"id": "C95", "title": "Merging coordsets makes shared points one and moves no point further than the tolerance", "statement": "When mesh::partition (or the point merge it uses) combines several coordsets, the result has for each coordset a map which gives every point the number of a point of the result; that point is the same one or no further away than the merge tolerance, and every point of the result is a point of one of the coordsets. If points nearer than the tolerance have the same coordinates, points of different coordsets become one exactly if their coordinates are the same, however many points there are and however the search tree is split. With exact arithmetic no two points of a result with shared points are within the tolerance.", "quantifier": "all lists of two or more cartesian coordsets of one to three dimensions, all numbers of points and orders of insertion, all tolerances", "why_tests_cant": "The tree splits at 32 points and searches one or two sides by bounding boxes with a tolerance; whether a shared point is missed depends on the order and place of all points before it.", "anchors": ["src/libs/blueprint/conduit_blueprint_mesh_partition.cpp:4667-5300", "src/libs/blueprint/conduit_blueprint_mesh_partition.cpp:5537-6092", "src/libs/blueprint/conduit_blueprint_mesh_utils.cpp:1420-1515"]}
{"id": "C96", "title": "Combining chunks keeps every element once, with its corners and the values of its fields", "statement": "When mesh::partition combines the chunks of an output domain into an unstructured mesh, every element of every chunk is in the result exactly once, with its shape and its corners in their order; a field that all chunks have is in the result, with each element's value and, for each point, the value it has in the last chunk that has the point; the state of the first chunk is kept with the number of the new domain. Fields that say from which domain and with which number elements and points came are added unless they are there already, in which case they are combined like other fields. If points nearer than the merge tolerance have the same coordinates, corners of different chunks are one point in the result exactly if they have the same coordinates. If a chunk has polygons, all elements become polygons. A single chunk is left as it is but for its domain number.", "quantifier": "all lists of chunks, all numbers of elements, points, fields and components, all shapes with a fixed number of points and packed polygons, all contents of fields", "why_tests_cant": "Tests combine a few fixed meshes and compare them with baseline files; how elements of several shapes are put in buckets, how the element map and the point maps are followed for every field and component, and that nothing is lost or given twice for any number of chunks is a statement over all inputs.", "anchors": ["src/libs/blueprint/conduit_blueprint_mesh_partition.cpp:6226-6390", "src/libs/blueprint/conduit_blueprint_mesh_partition.cpp:8640-9085", "src/libs/blueprint/conduit_blueprint_mesh_partition.cpp:9450-10057", "src/libs/blueprint/conduit_blueprint_mesh_partition.cpp:10360-10500", "src/libs/blueprint/conduit_blueprint_mesh_utils_iterate_elements.hpp:263-677"]}
{"id": "C97", "title": "Mapping fields back gives each element and point of the original mesh its value", "statement": "mesh::partition_map_back brings the fields asked for from a partitioned mesh to the mesh it was made from. Every original domain that has an element in the partitioned mesh has these fields afterwards, with the association and topology they have there and one value per element or point; each element has the value of the element it became, in whatever new domain that is; each point has the value of the point with its global number in the last new domain that has one and has elements of the original domain, and keeps the value it had if there is none. If the new domains agree on the points they share, it is the value of any of them; fields that were not changed come back as they were. Other fields, everything that is not a field, and original domains without elements in the partitioned mesh are as they were.", "quantifier": "all numbers of original and new domains, all distributions of the elements with each element of a domain in one place, all global numberings, all lists of different field names, all numbers and types of components, all contents", "why_tests_cant": "Tests map back one or two fields for a few fixed partitions; that the element table, the selections and the point maps fit together for any distribution of the elements over any number of domains, and that nothing else is touched, is a statement over all of them.", "anchors": ["conduit_blueprint_mesh_partition.cpp:10060-10347", "conduit_blueprint_mesh_partition.cpp:8640-9034"]}
{"id": "C98", "title": "gather_using_schema gives the root the nodes of all ranks", "statement": "relay::mpi::gather_using_schema makes the receive node of the root a list with one child per rank, in the order of the ranks; each child has the tree that rank passed, of whatever shape and layout, with the same names, types and values (childless objects and lists included), and the default byte order has become the machine's. all_gather_using_schema gives every rank that list. The list is in one new buffer of its own, and memory other than the old buffers of the receive node is unchanged.", "quantifier": "all numbers of ranks, all nodes (strided, external, compact, empty, sub-nodes) with names that can be printed, all receive nodes, all texts together and all data together below 2 GiB", "why_tests_cant": "Tests gather a few small nodes of similar shape on two ranks; that displacements, schema texts and buffers fit together for all shapes on any number of ranks is a statement over all of them.", "anchors": ["conduit_relay_mpi.cpp:1460-1607", "conduit_relay_mpi.cpp:1611-1741"]}
{"id": "C99", "title": "broadcast_using_schema gives every rank the root's node", "statement": "After relay::mpi::broadcast_using_schema the node of every other rank shows the tree and the values of the root's node, whatever it held before, provided the root's node is not a part of a larger contiguous tree and no rank has a leaf of the sent type with more elements. A leaf that has the sent type and length is filled where it is, also if it is strided or external, and keeps its declared byte order; any other node gets a new buffer. Memory other than that of the old node is unchanged on every rank.", "quantifier": "all numbers of ranks, all nodes of the root (strided, external, compact in one buffer, empty) with names that can be printed, all nodes of the other ranks, all sizes below 2 GiB", "why_tests_cant": "Tests broadcast a few nodes into new nodes or nodes of the same shape; which of the paths (own memory or buffer, at the root and at each receiver) is taken depends on layout and addresses, and tests see few of the combinations.", "anchors": ["conduit_relay_mpi.cpp:1812-1940"]}
{"id": "C100", "title": "send, recv and broadcast move the elements between nodes of any layout", "statement": "relay::mpi::send makes a message of the bytes of a node's elements in order, and recv puts a message into the elements of a node of the same total size in order, whatever the strides, offsets, owners and buffers of the two nodes are; isend and the root of broadcast make the same message. If the receiver's node has the tree, names, types, byte orders and numbers of elements of the sender's, it has the sender's values afterwards. The receiver's tree and types stay as they are, and bytes of its memory that belong to no element are unchanged. The same holds for every rank of broadcast.", "quantifier": "all nodes of sender and receivers that are readable (strided, external, sub-nodes, scattered over blocks), all addresses of blocks, all numbers of ranks, all sizes below 2 GiB", "why_tests_cant": "Tests send a few nodes between processes of the same build; whether the node's own memory or a buffer is used depends on layout and on addresses, separately on both sides, and tests see few of the combinations.", "anchors": ["conduit_relay_mpi.cpp:684-819", "conduit_relay_mpi.cpp:1098-1145", "conduit_relay_mpi.cpp:1745-1808"]}
{"id": "C101", "title": "list_of and list_of_external lay entries of one schema side by side", "statement": "After Node::list_of(schema, n) the node is a list of n entries of the compacted schema, whatever it was before. All elements of all entries are, in order and without gap, the bytes of one new buffer, which are zero; memory other than the node's old buffers is unchanged. Node::list_of_external(data, schema, n), on a node that is not a list with entries, does the same with the bytes at data: nothing is copied or owned, and no byte is changed.", "quantifier": "all schemas (also strided or with offsets), all numbers of entries, all nodes before the call, all memory", "why_tests_cant": "Tests make lists of a few simple entries in new nodes; that no entry overlaps another for any schema and number, and that reuse of a node is safe, cannot be seen from samples. On a list with entries list_of_external leaves the old schemas in place.", "anchors": ["conduit_node.cpp:14705-14766"]}
{"id": "C102", "title": "gather and all_gather give the list of the nodes of all ranks", "statement": "After relay::mpi::all_gather the recv_node of every rank is the list of the nodes that the ranks sent, in the order of the ranks, provided all nodes have the same total size: the elements have the same bytes, and the same values if the nodes have the same tree, names, types, byte orders and numbers of elements, however each lies in memory. The list is in one new buffer; other memory is unchanged. relay::mpi::gather does this on the root if every node that is compact and contiguous begins at its own data pointer.", "quantifier": "all numbers of ranks, all roots, all readable nodes of one total size below 2 GiB (strided, external, sub-nodes, scattered), all addresses of blocks, all recv_nodes", "why_tests_cant": "Tests gather a few nodes of one layout; which memory is sent depends on layout and addresses on each rank. gather takes data_ptr() where all_gather takes contiguous_data_ptr(), which differ for objects with one leaf, for leaves with an offset and for sub-nodes.", "anchors": ["conduit_relay_mpi.cpp:1347-1456", "conduit_node.cpp:14705-14728"]}
{"id": "C103", "title": "Reductions combine the elements of all ranks place by place", "statement": "When every rank calls mpi::all_reduce (or mpi::reduce) with a leaf of one type and number of elements, each receiver (the root) gets at every place what the MPI operation makes of the elements of all ranks at this place, in the order of the ranks, whether the sent leaves are compact or strided. A receiving leaf of the type with at least as many elements has the results at its start and keeps its other elements and its byte order; any other receiving node becomes a leaf with the results. No memory but that of the receiving node is changed. A compact leaf has to begin at its data pointer: one at an offset (a leaf of a compact tree) is reduced from wrong bytes.", "quantifier": "all MPI operations (as functions of the ranks' elements), all element types, all numbers of ranks and elements below 2^31, all strided or compact leaves, all receiving nodes, all memories", "why_tests_cant": "Tests reduce one or two fresh compact arrays into fresh or equal nodes on two ranks; they do not try layouts, longer receivers, receivers with other trees or the untouched memory.", "anchors": ["src/libs/relay/conduit_relay_mpi.cpp:80-145", "src/libs/relay/conduit_relay_mpi.cpp:821-897", "src/libs/relay/conduit_relay_mpi.cpp:899-975"]}
{"id": "C104", "title": "irecv with wait or wait_all gives each node the bytes of its message", "statement": "After mpi::irecv into a node and mpi::wait, or irecv into several nodes and mpi::wait_all, every node has the bytes of its message in the order of its elements, whether the node is compact (MPI writes into it) or not (MPI writes into the request's buffer, which is copied out). Its tree, names, types, byte orders and numbers of elements stay; elements after the end of a short message stay; memory allocated between irecv and wait does not matter, and no memory but that of the nodes is changed; the buffers of the requests are freed. If the message is of a value of the same layout the node has that value. The nodes have to be apart in memory, and must not be written between irecv and wait.", "quantifier": "all trees, layouts, numbers of requests, messages no longer than the node, all memories and all memory allocated between", "why_tests_cant": "Tests receive one or two fixed arrays; they do not mix compact and strided nodes in one wait_all, try short messages, or look at memory beside the elements.", "anchors": ["src/libs/relay/conduit_relay_mpi.cpp:1147-1246", "src/libs/relay/conduit_relay_mpi.cpp:1250-1271", "src/libs/relay/conduit_relay_mpi.cpp:1292-1327"]}
{"id": "C105", "title": "communicate_using_schema gives each receive the node of its send", "statement": "When all ranks call communicate_using_schema::execute, each node given to add_irecv has afterwards the value that the node of the matching add_isend had before, merged into what it had (as Node::update); into a new node the tree arrives as it was sent. The k-th receive from a rank with a tag is of the k-th node that rank sends to the receiver with this tag, in whatever order receives and sends of other ranks and tags were added, and the receives may be added before the sends. A node can be sent and received into at once: its old value is sent. No memory but that of the received nodes is changed. Tags have to be within MPI's limit (larger ones are all the same tag) and each receive needs a send, else execute waits for ever.", "quantifier": "all numbers of ranks, lists of operations, trees, tags up to the limit, receiving nodes and memories", "why_tests_cant": "Tests have two ranks with a few fixed operations; they do not try all interleavings of tags and ranks, nodes both sent and received, or tags beyond the limit.", "anchors": ["src/libs/relay/conduit_relay_mpi.cpp:1943-2285", "src/libs/relay/conduit_relay_mpi.hpp:280-363"]}
{"id": "C106", "title": "isend sends what the node had, from a copy if it is not compact", "statement": "The message of mpi::isend is the bytes of the node's elements in order, as they were when isend was called, whenever MPI reads them before wait returns, provided that the program does not write the elements of a compact contiguous node meanwhile; a node that is not compact may be written at once since a copy is sent. Neither isend nor wait changes the program's memory and all that isend allocated is freed by wait. Received with irecv into a node of the same tree, types and numbers of elements, however both lie in memory, the value arrives.", "quantifier": "all trees and layouts that are one run when compact and contiguous, sizes below 2^31, all memories and all that the program does to other memory between isend and wait", "why_tests_cant": "Tests send a few fixed arrays and wait at once; they do not try writes in between, layouts, or freed memory.", "anchors": ["src/libs/relay/conduit_relay_mpi.cpp:1098-1145", "src/libs/relay/conduit_relay_mpi.cpp:1250-1271"]}
{"id": "C107", "title": "Replacing what a node holds leaks no memory", "statement": "After Node::reset, set (of a node, scalar, array, vector, string or schema), set_external, set_data_using_schema, compact_to, update, update_compatible, load and list_of, every block of memory that is live either belongs to the node (it is freed with it) or was live before and did not belong to it. So whatever sequence of these a program does with a new node, once the node is reset or destroyed nothing is live that was not live before. The node must not have been set to the empty schema: then it owns an allocation of no bytes that is never freed.", "quantifier": "all nodes, sources, schemas, layouts, all memories and all sequences of these calls", "why_tests_cant": "Leaks are not seen by assertions; a leak checker sees just the sequences that tests run.", "anchors": ["src/libs/conduit/conduit_node.cpp:17306-17340", "src/libs/conduit/conduit_node.cpp:122-127", "src/libs/conduit/conduit_node.cpp:468-574", "src/libs/conduit/conduit_node.cpp:8485-8648", "src/libs/conduit/conduit_node.cpp:17248-17290"]}
{"id": "C108", "title": "Receiving and sending with MPI leaks no memory", "statement": "After mpi::recv, irecv with wait, recv_using_schema and (on ranks other than the root) broadcast_using_schema, every live block of memory belongs to the node received into, or was live before and did not belong to it: the buffers used for nodes that are not compact, and those for messages, are freed, and so are buffers the node had and lost. After isend and wait nothing is live that was not before. For recv the node must not be empty.", "quantifier": "all nodes, layouts, messages and memories", "why_tests_cant": "Tests compare values; a leaked message buffer has no effect on them.", "anchors": ["src/libs/relay/conduit_relay_mpi.cpp:586-681", "src/libs/relay/conduit_relay_mpi.cpp:721-819", "src/libs/relay/conduit_relay_mpi.cpp:1098-1271", "src/libs/relay/conduit_relay_mpi.cpp:1881-1938"]}
