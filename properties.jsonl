{"id": "C01", "title": "Scalar write/read round trip", "statement": "emplace_scalar followed by read_scalar / read_scalar_at of the same type at the same place returns exactly the value written (bit for bit, floats included), writes little-endian bytes, and changes no byte outside the size_of::<T>() bytes written.", "quantifier": "every scalar type, every value of it, every byte slice and every position with room for it", "why_tests_cant": "2^64 values times all buffer contents and positions", "anchors": ["butte/src/endian_scalar.rs: emplace_scalar, read_scalar, read_scalar_at, EndianScalar", "butte/src/primitives.rs: impl_follow_for_endian_scalar"]}
{"id": "C02", "title": "Scalar reads are bounds checked", "statement": "read_scalar_at::<T>(buf, loc) returns Ok exactly when loc + size_of::<T>() <= buf.len() and Err(OutOfBounds) otherwise, and never panics in a release build whatever loc is; in a debug build it panics only if loc + size_of::<T>() overflows usize.", "quantifier": "every byte buffer, every usize location, every scalar type, both build profiles", "why_tests_cant": "the location space is 2^64 and includes the wrap-around points", "anchors": ["butte/src/endian_scalar.rs: read_scalar_at, read_scalar"]}
{"id": "C03", "title": "Readers never panic on untrusted bytes (release)", "statement": "In a release build, following any typed reference (scalar, bool, string, vector, slice, table, file identifier, enum, any nesting of forward offsets) at any location of any byte buffer, and reading any slot of any table, returns Ok or Err and never panics.", "quantifier": "every byte sequence, every location, every slot number, every follow type, release profile", "why_tests_cant": "the input space is all byte strings", "anchors": ["butte/src/primitives.rs: Follow impls", "butte/src/table.rs: Table::get", "butte/src/vtable.rs: VTable", "butte/src/vector.rs"]}
{"id": "C04", "title": "String reads are exactly validated", "statement": "Reading a string at loc returns Ok(s) if and only if the 4-byte length, the len bytes and the terminator are inside the buffer, the terminator is 0 and the bytes are valid UTF-8, and s is then exactly those bytes; the three failures give OutOfBounds, NonNullTerminatedString and NonUtf8String respectively.", "quantifier": "every byte buffer and location", "why_tests_cant": "all buffers, including lengths near 2^32 and truncated ones", "anchors": ["butte/src/vector.rs: impl Follow for &str"]}
{"id": "C05", "title": "Vector iteration equals indexed access", "statement": "Iterating a vector of declared length n yields exactly n items and the i-th equals get(i); an unreadable length gives an empty iteration.", "quantifier": "every buffer, location, element type with non-zero size", "why_tests_cant": "all lengths and contents", "anchors": ["butte/src/vector.rs: Vector::iter, Vector::get, VectorIter::next"]}
{"id": "C06", "title": "Vector iterator is a faithful double-ended sequence", "statement": "For every interleaving of next, next_back, nth(k), nth_back(k) and len/size_hint calls, the iterator answers exactly as a double-ended queue holding the elements get(0..n) would, and after returning None it keeps returning None.", "quantifier": "every vector, every finite sequence of iterator calls with every k (k large enough to overflow only excluded in debug builds)", "why_tests_cant": "the call histories are unbounded", "anchors": ["butte/src/vector.rs: VectorIter, Iterator, DoubleEndedIterator, ExactSizeIterator, FusedIterator"]}
{"id": "C07", "title": "Builder output does not depend on its initial capacity or growth", "statement": "Running the same sequence of builder calls on builders created with any two capacities gives the same return values and the same written data, whenever both runs complete.", "quantifier": "every pair of capacities up to the 2 GiB limit, every finite sequence of builder calls, both build profiles", "why_tests_cant": "growth happens at data-dependent points of unbounded histories", "anchors": ["butte/src/builder.rs: new_with_capacity, grow_owned_buf, ensure_capacity, make_space"]}
{"id": "C08", "title": "Written data is never overwritten", "statement": "After any builder call other than reset, the previously written data is a suffix of the new data: bytes already returned a WIPOffset for are never changed, moved relative to the end or dropped, through any number of buffer growths and vtable de-duplications.", "quantifier": "every builder state reachable by any call history, every next call; buffers below 4 GiB", "why_tests_cant": "unbounded histories and growth points", "anchors": ["butte/src/builder.rs: FlatBufferBuilder (all public methods), write_vtable, grow_owned_buf"]}
{"id": "C09", "title": "Unused space is always zero, so padding is zero", "statement": "At every point of every history the not-yet-used front part of the builder's buffer is all zero bytes, hence all padding emitted is zero and output bytes are fully determined by the calls.", "quantifier": "every history of builder calls including reset", "why_tests_cant": "stale bytes would show only after particular growth/reset/dedup histories", "anchors": ["butte/src/builder.rs: reset, grow_owned_buf, write_vtable (clear), make_space"]}
{"id": "C10", "title": "reset after finish gives a builder that behaves like a new one", "statement": "After a finished build and reset, every further sequence of calls gives the same return values and data as on a brand-new builder.", "quantifier": "every history ending in a finish (debug profile: properly nested), every continuation", "why_tests_cant": "pairs of unbounded histories", "anchors": ["butte/src/builder.rs: reset"]}
{"id": "C11", "title": "reset at any moment gives a fresh builder", "statement": "Stronger reading of reset's documentation ('the only way to reset the finished state and start again'): calling reset at any point, including with a table under construction, restores a fresh state.", "quantifier": "every history, reset anywhere", "why_tests_cant": "needs a history that abandons a table half-way", "anchors": ["butte/src/builder.rs: reset (field_locs is not cleared)"]}
{"id": "C12", "title": "Padding arithmetic", "statement": "For a power-of-two alignment a, the padding inserted before len bytes when s bytes are used is the least p with (s + p + len) divisible by a.", "quantifier": "all sizes below 2^63 and all power-of-two alignments", "why_tests_cant": "64-bit arithmetic over the full range", "anchors": ["butte/src/builder.rs: padding_bytes, align"]}
{"id": "C13", "title": "Everything written is aligned", "statement": "In a finished buffer, relative to its first byte: every scalar and offset pushed lies at a multiple of its size, vector and string length prefixes at multiples of 4 with vector elements at multiples of the element size, table starts at multiples of 4, and the total length is a multiple of the largest alignment used.", "quantifier": "every history of calls ending in finish / finish_size_prefixed with or without identifier", "why_tests_cant": "alignment depends on the whole history of sizes", "anchors": ["butte/src/builder.rs: align, push, start_vector, create_vector, finish_with_opts"]}
{"id": "C14", "title": "String round trip", "statement": "After create_string(s) (or create_byte_string), and after any further builder calls except reset, following the returned offset in the written data reads back exactly s.", "quantifier": "every string (embedded NULs included), every reachable builder state, every continuation", "why_tests_cant": "unbounded strings and histories", "anchors": ["butte/src/builder.rs: create_string, create_byte_string", "butte/src/vector.rs: Follow for &str"]}
{"id": "C15", "title": "Scalar vector round trip", "statement": "After create_vector(items) of any scalar type, and any further calls except reset, the vector at the returned offset has length items.len() and get(i) = items[i] for all i; iteration and slice access give the same items.", "quantifier": "every list of scalars of every type, every builder state and continuation", "why_tests_cant": "unbounded lists and histories", "anchors": ["butte/src/builder.rs: create_vector", "butte/src/vector.rs: Vector"]}
{"id": "C16", "title": "create_vector_direct and manual vectors agree with create_vector", "statement": "create_vector_direct(items) leaves the same bytes and returns the same offset as create_vector(items); so does start_vector(n), pushing the items in reverse, end_vector(n).", "quantifier": "every list of scalars, every non-nested builder state", "why_tests_cant": "unbounded lists", "anchors": ["butte/src/builder.rs: create_vector_direct, start_vector, end_vector, create_vector"]}
{"id": "C17", "title": "Vector of strings round trip", "statement": "After create_vector_of_strings(xs), and any further calls except reset, the vector has length xs.len() and element i reads back as xs[i].", "quantifier": "every list of strings, every state and continuation", "why_tests_cant": "unbounded lists", "anchors": ["butte/src/builder.rs: create_vector_of_strings"]}
{"id": "C18", "title": "Table round trip", "statement": "A table built by start_table, any pushes of values into distinct slots in any order, end_table, then finish: get_root finds it and every pushed slot reads back exactly the value pushed; slots never pushed read as the supplied default.", "quantifier": "every set of slots and values, every order, every prior history of the builder", "why_tests_cant": "combinatorial slot orders and arbitrary earlier content", "anchors": ["butte/src/builder.rs: start_table, push_slot, push_slot_always, end_table, write_vtable, finish", "butte/src/table.rs: Table::get, get_root"]}
{"id": "C19", "title": "Default elision is invisible to readers", "statement": "push_slot(slot, x, default) then reading that slot with the same default yields a value equal (by the type's ==) to x whether or not the field was stored; and the field is stored exactly when x != default.", "quantifier": "every scalar type, value, default and history", "why_tests_cant": "value pairs are 2^128", "anchors": ["butte/src/builder.rs: push_slot", "butte/src/table.rs: Table::get"]}
{"id": "C20", "title": "Default elision is bit exact", "statement": "Stronger: the value read back is bit-identical to the value pushed.", "quantifier": "every scalar type including floats", "why_tests_cant": "needs the signed-zero case", "anchors": ["butte/src/builder.rs: push_slot (PartialEq on floats)"]}
{"id": "C21", "title": "VTable de-duplication", "statement": "Finishing a table whose vtable bytes equal an earlier table's vtable in the same buffer adds no new vtable and leaves num_written_vtables unchanged; otherwise it increases by one; all recorded vtables are pairwise different.", "quantifier": "every history of tables", "why_tests_cant": "needs all histories of layouts", "anchors": ["butte/src/builder.rs: write_vtable, find_duplicate_stored_vtable_revloc, num_written_vtables", "butte/src/vtable.rs: PartialEq for VTable"]}
{"id": "C22", "title": "Sharing a vtable does not change what is read", "statement": "Slots of a table read the same whether its vtable was newly written or shared with an earlier table.", "quantifier": "every history, every table", "why_tests_cant": "needs all histories of layouts", "anchors": ["butte/src/builder.rs: write_vtable", "butte/src/table.rs: Table::get"]}
{"id": "C23", "title": "File identifier", "statement": "After finish with a 4-byte identifier, buffer_has_identifier returns Ok(true) for that identifier and Ok(false) for any other 4-byte one (with the matching size_prefixed flag), and the root is still found.", "quantifier": "every identifier pair, every build history in which a table, vector, string or a value of at least 4 bytes was written since the last reset (so every history whose root is a table), size prefixed or not", "why_tests_cant": "all identifiers and histories", "anchors": ["butte/src/builder.rs: finish_with_opts", "butte/src/table.rs: buffer_has_identifier"]}
{"id": "C24", "title": "Size prefix", "statement": "After finish_size_prefixed, the first four bytes are the little-endian number of bytes that follow them, and get_size_prefixed_root reads the same root object as get_root does on the rest.", "quantifier": "every build history below 4 GiB", "why_tests_cant": "all histories", "anchors": ["butte/src/builder.rs: finish_size_prefixed", "butte/src/table.rs: get_size_prefixed_root", "butte/src/primitives.rs: SkipSizePrefix"]}
{"id": "C25", "title": "required() is an exact presence check", "statement": "required(table, slot, name) returns normally if and only if the just-built table stores that slot.", "quantifier": "every table and slot, every history", "why_tests_cant": "all layouts", "anchors": ["butte/src/builder.rs: required"]}
{"id": "C26", "title": "Nesting and finishing protocol (debug)", "statement": "In a debug build start_table/start_vector/create_string/create_byte_string/create_vector_direct/create_vector_of_strings/finish panic when something is under construction and otherwise (below the size limit) go through, push_slot*/end_table/end_vector panic when nothing is, finish panics when already finished and finished_data panics exactly when not finished. create_vector is not checked.", "quantifier": "every reachable state and call", "why_tests_cant": "state machine over unbounded histories", "anchors": ["butte/src/builder.rs: assert_nested, assert_not_nested, assert_finished, assert_not_finished"]}
{"id": "C27", "title": "2 GiB limit", "statement": "The builder never holds more than FLATBUFFERS_MAX_BUFFER_SIZE bytes of data: growing past it panics.", "quantifier": "every history", "why_tests_cant": "would need multi-gigabyte runs", "anchors": ["butte/src/builder.rs: ensure_capacity (checks the request, not the total)", "butte/src/primitives.rs: FLATBUFFERS_MAX_BUFFER_SIZE"]}
{"id": "C28", "title": "Building never panics under the size limit", "statement": "A sequence of calls that follows the protocol (objects nested one at a time, offsets only passed on if the builder returned them, distinct usable slots per table, required only on stored slots, one finish per build) never panics, in either profile and for every initial capacity, as long as before each call the used space plus the size of what the call writes is at most 2^31 - 2^17 bytes and tables fit 16-bit offsets.", "quantifier": "every well-formed history", "why_tests_cant": "unbounded histories", "anchors": ["butte/src/builder.rs"]}
{"id": "C29", "title": "collapse returns the finished data", "statement": "collapse() returns (buf, head) with buf[head..] equal to what finished_data / unfinished_data returned.", "quantifier": "every history", "why_tests_cant": "all histories", "anchors": ["butte/src/builder.rs: collapse, finished_data, unfinished_data"]}
{"id": "C30", "title": "Field offsets are distinct and stable", "statement": "field_index_to_field_offset is injective, order preserving, even and at least 4 for every field index below 32766, and field_offset_to_field_index inverts it.", "quantifier": "every u16 field index below the overflow bound", "why_tests_cant": "full u16 domain; overflow differs per profile", "anchors": ["butte/src/vtable.rs: field_index_to_field_offset, field_offset_to_field_index"]}
{"id": "C31", "title": "VTable::get_field respects num_fields", "statement": "get_field(idx) returns None for every idx >= num_fields().", "quantifier": "every vtable and index", "why_tests_cant": "off-by-one shows only at idx = num_fields", "anchors": ["butte/src/vtable.rs: VTable::get_field (idx > num_fields)"]}
{"id": "C32", "title": "Out-of-range vector index", "statement": "Vector::get(idx) with idx >= len never returns Ok.", "quantifier": "every vector and index, both profiles", "why_tests_cant": "release profile has no check", "anchors": ["butte/src/vector.rs: Vector::get (debug_assert only)"]}
{"id": "C33", "title": "Generated table create/read round trip", "statement": "For every table schema, creating a table with the generated create(args), finishing and reading with get_root and the generated accessors returns every argument: scalars equal to the argument, strings/vectors/tables/unions at the offset given, None for absent optional fields.", "quantifier": "every table definition, every argument record, every earlier builder history", "why_tests_cant": "schemas and arguments are unbounded", "anchors": ["butte-build/src/codegen.rs: impl ToTokens for ir::Table"]}
{"id": "C34", "title": "Generated default args read back as defaults", "statement": "A table created from the generated Default args reads, through every accessor, as the schema's default (explicit, implicit zero, or first enum variant) or None.", "quantifier": "every table definition that gets a Default impl", "why_tests_cant": "all schemas", "anchors": ["butte-build/src/codegen.rs: args_default_impl, field_accessors"]}
{"id": "C35", "title": "Required fields never make create panic", "statement": "create(args) on a table with required fields never panics, since the argument type makes every required field present.", "quantifier": "every table definition and argument", "why_tests_cant": "needs a required scalar equal to its default", "anchors": ["butte-build/src/codegen.rs: required_fields, builder_field_methods", "butte/src/builder.rs: required"]}
{"id": "C36", "title": "Missing required fields are reported", "statement": "Reading a required field that the buffer does not store returns Err(RequiredFieldMissing(name)) when the field has no default, and the default otherwise.", "quantifier": "every buffer and schema", "why_tests_cant": "all buffers", "anchors": ["butte-build/src/codegen.rs: field_accessors"]}
{"id": "C37", "title": "Schema evolution", "statement": "Appending fields to a table leaves all earlier slots unchanged: data written with the old schema reads with the new one as the same old values and defaults/None for the new fields, and data written with the new schema reads with the old one as the same old values.", "quantifier": "every table definition, every list of appended optional fields, every data", "why_tests_cant": "pairs of schemas and all data", "anchors": ["butte-build/src/codegen.rs: field_offset_constants", "butte-build/src/ir/transform.rs: new_table"]}
{"id": "C38", "title": "Slots of generated tables do not collide", "statement": "Each field of a table (including union type companions) has its own slot, the i-th expanded field getting 4 + 2*i.", "quantifier": "every table with fewer than 32766 expanded fields", "why_tests_cant": "all schemas", "anchors": ["butte-build/src/codegen.rs: field_offset_constants", "butte-build/src/ir/transform.rs: new_table"]}
{"id": "C39", "title": "Enum conversion round trip", "statement": "For an enum whose variant values are distinct, try_from(value as base) returns that variant and any other integer gives Err(UnknownEnumVariant); enum fields survive write/read.", "quantifier": "every enum definition and base integer", "why_tests_cant": "all enums and integers", "anchors": ["butte-build/src/codegen.rs: impl ToTokens for ir::Enum"]}
{"id": "C40", "title": "Implicit enum values continue from the previous one", "statement": "A variant without an explicit value gets the previous variant's value plus one (the FlatBuffers rule).", "quantifier": "every enum", "why_tests_cant": "needs an explicit value before an implicit one", "anchors": ["butte-build/src/codegen.rs: variants_and_scalars (uses the index)"]}
{"id": "C41", "title": "Union round trip", "statement": "A union field created with variant k and a value offset reads back as variant k holding that value; type None reads as None (or RequiredFieldMissing when required); an unknown tag gives UnknownEnumVariant.", "quantifier": "every union definition, variant and value", "why_tests_cant": "all unions", "anchors": ["butte-build/src/codegen.rs: field_accessors (union)", "butte-build/src/ir/transform.rs: generate_enum_for_union"]}
{"id": "C42", "title": "Keyword escaping", "statement": "An identifier taken from a schema never reaches the generated code as a reserved word of Rust 2018.", "quantifier": "every identifier", "why_tests_cant": "needs the complete list of reserved words", "anchors": ["butte-build/src/ir/keywords.rs: substitute_keyword", "butte-build/src/ir/types.rs: Ident::fix_identifier"]}
{"id": "C43", "title": "Escaping keeps distinct names distinct", "statement": "Two different schema identifiers in the same scope become different Rust identifiers.", "quantifier": "every pair of identifiers", "why_tests_cant": "collisions only at particular pairs", "anchors": ["butte-build/src/ir/keywords.rs: substitute_keyword"]}
{"id": "C44", "title": "Relative paths denote the intended item", "statement": "The path emitted for a reference to an item from inside a namespace, resolved by Rust's super/child rules from that namespace's module, is exactly the item's fully qualified name.", "quantifier": "every pair of item and referencing namespace", "why_tests_cant": "all namespace nestings", "anchors": ["butte-build/src/ir/types.rs: QualifiedIdent::relative"]}
{"id": "C45", "title": "Semantic analysis terminates", "statement": "Building the IR terminates for every schema: each retry pass resolves at least one definition or the analysis stops with an error.", "quantifier": "every schema", "why_tests_cant": "all schemas, including cyclic ones", "anchors": ["butte-build/src/ir/transform.rs: Builder::build"]}
{"id": "C46", "title": "Accepted schemas are fully resolved", "statement": "If building succeeds, every declaration of the schema appears exactly once in the output, every type reference in it names a declared type, and every root/rpc type is a table.", "quantifier": "every schema", "why_tests_cant": "all schemas", "anchors": ["butte-build/src/ir/transform.rs: new_table, new_struct, new_union, new_enum, new_rpc, new_root"]}
{"id": "C47", "title": "Duplicate definitions are rejected", "statement": "A schema defining the same fully qualified name twice is rejected.", "quantifier": "every schema", "why_tests_cant": "all schemas and orders", "anchors": ["butte-build/src/ir/transform.rs: new_table, new_enum, new_struct, new_union"]}
{"id": "C48", "title": "Declarations live in the namespace they were written in", "statement": "Every accepted declaration is emitted under the namespace declared most recently before it in the file.", "quantifier": "every schema", "why_tests_cant": "needs a forward reference across a namespace change", "anchors": ["butte-build/src/ir/transform.rs: Builder::build (retries use the last namespace)"]}
{"id": "C49", "title": "Acceptance does not depend on declaration order", "statement": "Within one namespace, reordering declarations does not change whether a schema is accepted.", "quantifier": "every schema and permutation", "why_tests_cant": "needs mutually recursive declarations in particular orders", "anchors": ["butte-build/src/ir/transform.rs: Builder::build (progress test), new_union"]}
{"id": "C50", "title": "Namespace tree holds every item exactly once, in its place", "statement": "The output tree lists each declared item exactly once, inside the nested modules spelling its namespace, and top-level items at the root.", "quantifier": "every set of items with namespaces", "why_tests_cant": "all namespace shapes", "anchors": ["butte-build/src/ir/transform.rs: Builder::build (namespace stacking), NamespaceBuf"]}
{"id": "C51", "title": "Parsing a printed schema gives the schema back", "statement": "For every syntactically valid schema AST (without free-standing objects), parsing its canonical text succeeds, consumes everything and returns the same AST.", "quantifier": "every AST of the supported grammar", "why_tests_cant": "unbounded ASTs", "anchors": ["butte-build/src/ast/parser.rs: schema_decl and below"]}
{"id": "C52", "title": "Parsers consume a prefix", "statement": "Whenever a grammar rule succeeds, the remaining input is a suffix of the input, so nothing is invented, duplicated or reordered, and repeated rules always make progress (parsing terminates).", "quantifier": "every rule and input", "why_tests_cant": "all inputs", "anchors": ["butte-build/src/ast/parser.rs"]}
{"id": "C53", "title": "Whitespace and comments do not matter", "statement": "Extra whitespace or // comments between tokens where the grammar allows them do not change the parsed AST.", "quantifier": "every amount of white space and comments", "why_tests_cant": "unbounded trivia", "anchors": ["butte-build/src/ast/parser.rs: comment_or_space0, comment, multispace"]}
{"id": "C54", "title": "Integer constants", "statement": "Decimal and hexadecimal integer constants in the i128 range parse to their mathematical value, with sign; those outside are rejected.", "quantifier": "every integer and spelling", "why_tests_cant": "2^128 values", "anchors": ["butte-build/src/ast/parser.rs: dec_integer_constant, hex_integer_constant, integer_constant"]}
{"id": "C55", "title": "User type names parse as themselves", "statement": "A field type that is an identifier other than a builtin type name parses as a reference to that identifier.", "quantifier": "every identifier", "why_tests_cant": "needs identifiers that start with a builtin name", "anchors": ["butte-build/src/ast/parser.rs: type_ (prefix tags)"]}
{"id": "C56", "title": "Invalid schemas give an error, not a panic", "statement": "compile_fbs_generic returns Err for any text that is not a complete schema.", "quantifier": "every input text", "why_tests_cant": "all texts; the bad ones are short leftovers", "anchors": ["butte-build/src/compile.rs: compile_fbs_generic (&rest[..30])"]}
{"id": "C57", "title": "nan and inf defaults", "statement": "A field default of nan or inf is accepted and does not affect the rest of the file.", "quantifier": "every schema with such a default", "why_tests_cant": "depends on the whole rest of the file", "anchors": ["butte-build/src/ast/parser.rs: nan, inf_or_infinity (re_match)"]}
{"id": "C58", "title": "File identifier in any history whatsoever", "statement": "As C23, but also when only 1- or 2-byte values have been written before finish: buffer_has_identifier returns Ok(true) for the identifier given to finish.", "quantifier": "every build history, also one that wrote only bool/i8/u8/i16/u16 values", "why_tests_cant": "The position of the identifier depends on min_align, i.e. on the largest alignment in the whole history; tests build tables, where it is always at least 4.", "anchors": ["butte/src/builder.rs:562-605", "butte/src/table.rs:102-120"]}
{"id": "C59", "title": "Exactly the well-formed schemas are accepted", "statement": "With all declarations in one namespace, the analysis succeeds if and only if type names are distinct, every element is of an implemented kind, struct members have fixed size, enums are over integers, root and rpc types are tables, streaming modes are known, no struct or union is circular, and some declaration can be resolved at once.", "quantifier": "every schema in one namespace", "why_tests_cant": "An equivalence over all schemas: tests show single acceptances and rejections, not that nothing else is accepted or rejected.", "anchors": ["butte-build/src/ir/transform.rs:533-576", "butte-build/src/ir/transform.rs:65-370"]}
{"id": "C60", "title": "The analysis panics only over unimplemented elements", "statement": "Building the IR never reaches a panic (unimplemented!, unwrap, expect) unless the schema has a file_extension, file_identifier, attribute or object element; and no schema with such an element is accepted.", "quantifier": "every schema", "why_tests_cant": "The unwraps rely on an invariant of the type table that holds over all retry orders.", "anchors": ["butte-build/src/ir/transform.rs:65-87", "butte-build/src/ir/transform.rs:89-200"]}
{"id": "C61", "title": "Nothing but schemas is accepted", "statement": "If schema_decl consumes a whole text and returns a tree, then the text is a way of writing that tree according to the grammar: its tokens are those of the tree, in order, with nothing but white space and comments between them. In particular identifiers are identifiers, enums, unions and services are not empty, file identifiers have four bytes, integers are i128.", "quantifier": "every text, every tree returned", "why_tests_cant": "Tests show single rejections; a universally quantified converse of acceptance needs an inversion of the whole grammar.", "anchors": ["butte-build/src/ast/parser.rs:200-271", "butte-build/src/ast/parser.rs:904-929", "butte-build/src/ast/parser.rs:2415-2452"]}
{"id": "C62", "title": "Floating-point literals denote the nearest double", "statement": "A decimal or hexadecimal fraction is read to its end, as the double nearest to the number written (an infinity only if the number is beyond the largest double by half a unit).", "quantifier": "every floating-point literal, every number of digits and exponent, in front of anything that may follow", "why_tests_cant": "Unbounded digits and exponents; the alternatives (special, hexadecimal, decimal, integer) compete for the same text.", "anchors": ["butte-build/src/ast/parser.rs:2047-2088", "butte-build/src/ast/parser.rs:2141-2177"]}
{"id": "C63", "title": "What was read can be written and read again", "statement": "Every tree returned for some text can be printed, and reading the printed text returns the same tree.", "quantifier": "every text that is accepted", "why_tests_cant": "Needs both directions of the grammar for all trees that parsing can produce, including extreme floats, empty metadata and quoted attributes.", "anchors": ["butte-build/src/ast/parser.rs:200-271"]}
{"id": "C64", "title": "Whole object graphs read back", "statement": "Whatever was written bottom up by calls of the builder and of the generated create functions, in any order and with any sharing of offsets, is read back as a whole through the generated accessors, to any depth: the same strings, vectors, tables, enum and union values (scalars up to the sign of a floating-point zero); also from the root of a finished buffer.", "quantifier": "every schema, every object graph of any depth and size below 2 GiB, every order of writing, every later call but reset", "why_tests_cant": "Unbounded depth, sharing and interleaving; each accessor follows offsets through data written by other calls.", "anchors": ["butte-build/src/codegen.rs:570-708", "butte-build/src/codegen.rs:740-760", "butte/src/builder.rs:120-420"]}
{"id": "C65", "title": "Every tree of the schema can be written and read", "statement": "Every tree that conforms to the schema, in which no required scalar or enum equals its default (see C35) and for which there is room, can be written children first with the generated code without a panic, finish completes, and reading the finished buffer from its root returns the tree; so different trees give different buffers.", "quantifier": "every schema whose tables compile and fit 64 KiB, every conforming tree, every initial capacity, identifier, size prefix and build profile", "why_tests_cant": "Needs that no assertion, overflow or bounds check fires for any tree, and the round trip for all of them.", "anchors": ["butte-build/src/codegen.rs:366-560", "butte-build/src/codegen.rs:710-824", "butte/src/builder.rs:120-620"]}
{"id": "C66", "title": "Whole object graphs across schema versions", "statement": "Data written with code generated from one version of a schema is read as a whole with code generated from another version whose tables have more or fewer fields at the end: on everything both versions know the two agree, to any depth; fields only the reader knows (not required) have their schema default or are absent; fields only the writer knows are left out; no read fails.", "quantifier": "every two schemas that differ by appended fields (also in opposite directions for different tables), every object graph written by any calls in any order with any sharing, any later calls, every build profile", "why_tests_cant": "A property of every pair of schemas and every graph; needs that slots, vtable lengths, defaults and union tags agree between two generated programs at every level.", "anchors": ["butte-build/src/codegen.rs:562-708", "butte/src/table.rs:50-70", "butte/src/vtable.rs:58-63"]}
{"id": "C67", "title": "More variants of enums and unions", "statement": "Data written with code generated from a schema is, byte for byte, data of every schema that has more variants at the end of its enums and unions, so that a reader of the later schema (also with more or fewer fields at the end of tables) reads the whole graph. The other way round a variant the reader does not know is reported as UnknownEnumVariant by the accessor of the enum field and by that of the union field; it is never taken for another variant.", "quantifier": "every two schemas that differ by appended variants, every object graph, any later calls, every build profile; every unknown variant", "why_tests_cant": "A property of every pair of schemas; needs that the numbering of variants, the default elision and the tags agree between two generated programs.", "anchors": ["butte-build/src/codegen.rs:826-960", "butte-build/src/codegen.rs:562-708"]}
{"id": "C68", "title": "Unions and their tags", "statement": "In the output of the analysis of any schema every union field stands right behind a field of the union's own enum (None, then the members in order), required exactly when the union field is, and that enum is part of the output. The accessor of a union field calls the accessor of that tag field, whatever the name of the field; get_type of the value it returns is what the tag accessor returns.", "quantifier": "every schema the analysis accepts, every table, every union field and field name, every union value in every buffer", "why_tests_cant": "Field names are unbounded and pass through keyword substitution and case conversion on two different paths which have to meet.", "anchors": ["butte-build/src/ir/transform.rs:180-330", "butte-build/src/codegen.rs:562-708", "butte-build/src/codegen.rs:1029-1092"]}
{"id": "C69", "title": "Generated code on untrusted bytes", "statement": "Whatever bytes it is given, code generated from a schema never panics in a release build: every accessor of every table at every place returns a value or an error, and a caller that reads a whole graph from the root down (all fields, vector elements and union values) comes to an end with a value or an error after entering at most length + 2 levels: no offsets can make it go round in a circle.", "quantifier": "every schema for which code can be generated, recursive tables included, every byte string, every location", "why_tests_cant": "Hostile buffers are unbounded in number; absence of cycles is a property of all chains of offsets, vtables and vectors in any buffer.", "anchors": ["butte-build/src/codegen.rs:562-708", "butte/src/primitives.rs:169-182", "butte/src/table.rs:50-70", "butte/src/vector.rs:57-73"]}
{"id": "C70", "title": "Paths in the generated program", "statement": "In the program generated for an accepted schema every path by which one item refers to another (types of fields, arguments and accessors, members and enums of unions) leads, by Rust's rules for relative paths and starting in the module the code is in, to the item generated for the type that the schema names there; that item and all modules on the way are in the program.", "quantifier": "every schema the analysis accepts (any namespaces, any number of items), every item, every path in its code", "why_tests_cant": "Combinations of namespaces, their spelling and the places of use are unbounded; tests compile a handful of schemas.", "anchors": ["butte-build/src/ir/types.rs:513-544", "butte-build/src/codegen.rs:76-172", "butte-build/src/codegen.rs:1104-1152"]}
{"id": "C71", "title": "Names in the generated program", "statement": "In the program generated for an accepted schema no module introduces a name twice (structs, enums and modules share one name space, functions have another): the types of the schema, the argument and builder types derived from tables, the functions derived from enums and the modules for namespaces never collide.", "quantifier": "every schema the analysis accepts, every pair of items", "why_tests_cant": "Names are unbounded, and case conversion and suffixes make different names equal; a test compiles a few schemas.", "anchors": ["butte-build/src/codegen.rs:359-825", "butte-build/src/codegen.rs:880-1028", "butte-build/src/codegen.rs:1112-1152", "butte-build/src/ir/transform.rs:230-330"]}
{"id": "C72", "title": "Accepted tables have working code", "statement": "For every table of an accepted schema the generated code compiles and works; more precisely, exactly those tables for which the fields have supported types and fitting defaults and whose (converted) names are usable, distinct and do not clash with the generated methods.", "quantifier": "every schema the analysis accepts, every table declared in it", "why_tests_cant": "Schemas, types, defaults and names are unbounded, and whether there is working code depends on their combination; a test compiles a handful of schemas.", "anchors": ["butte-build/src/codegen.rs:276-825", "butte-build/src/ir/transform.rs:140-470"]}
{"id": "C73", "title": "From the text of a schema to data and back", "statement": "From any schema text written according to the grammar, with resolvable names and supported tables, the compiler produces a program in which every table declared in the text is present under its qualified name, whose generated code reads arbitrary bytes without a panic (release builds), and whose generated code writes any object graph of that table and reads the same graph back.", "quantifier": "every schema text, every table declared in it, every byte string, every object graph, every initial capacity, with and without identifier or size prefix", "why_tests_cant": "Spans parser, analysis, generator and runtime, each with an unbounded set of inputs; tests sample single schemas and single buffers.", "anchors": ["butte-build/src/compile.rs:20-75", "butte-build/src/ast/parser.rs:1-700", "butte-build/src/ir/transform.rs:1-470", "butte-build/src/codegen.rs:359-825", "butte/src/builder.rs:1-700", "butte/src/table.rs:1-110"]}
{"id": "C74", "title": "The emitted program does what the generated interface promises", "statement": "The functions in the text that the generator emits - create, every accessor, get_root, follow, follow_buf, from and default of a table, default, try_from, from, push, follow and the name function of an enum, get_type of a union - evaluated as Rust code, behave as the interface of the generated code says for every argument, table position and byte string: they never get stuck on an unknown name, a missing implementation or an unmatched pattern, and what the emitted create writes is read back by the emitted get_root and accessors.", "quantifier": "every accepted schema whose names neither clash nor capture, every table, enum and union in it, every argument record, every builder state, every byte string and position, debug and release builds of both generator and user", "why_tests_cant": "The emitted text depends on the whole schema (types, defaults, names, namespaces), and each emitted function has unboundedly many inputs; tests compare or compile the text of a few schemas.", "anchors": ["butte-build/src/codegen.rs:98-260", "butte-build/src/codegen.rs:276-825", "butte-build/src/codegen.rs:827-1100"]}
{"id": "C75", "title": "Names in the emitted program mean what the generator intended", "statement": "Every path that generated code uses for something outside the schema (primitive types, Option, Result, Default, From, std::convert::TryFrom, items of the butte crate) resolves to that thing in the module where it is emitted, and every path to a type of the schema resolves to that type, whatever names the schema declares.", "quantifier": "every accepted schema, every module of the emitted program, every path emitted in it", "why_tests_cant": "Capture depends on an arbitrary user-chosen name coinciding with a name used by the templates, in the right module; tests use harmless names.", "anchors": ["butte-build/src/codegen.rs:98-140", "butte-build/src/codegen.rs:359-826", "butte-build/src/codegen.rs:836-858", "butte-build/src/codegen.rs:960-1025", "butte-build/src/codegen.rs:1073-1090"]}
{"id": "C76", "title": "The code generator gets through every accepted schema", "statement": "Once the analysis accepts a schema, generating code for it ends without a panic.", "quantifier": "every accepted schema, generator built in debug or release mode", "why_tests_cant": "The generator panics through format_ident!, syn::parse_str and unreachable branches that depend on names, paths between namespaces, and on pairs of a default value and a field type; the tests use a few schemas.", "anchors": ["butte-build/src/codegen.rs:30-62", "butte-build/src/codegen.rs:98-140", "butte-build/src/codegen.rs:200-356", "butte-build/src/codegen.rs:359-826", "butte-build/src/codegen.rs:930-1150"]}
{"id": "C77", "title": "From a schema text to a working program", "statement": "For a schema text that the compiler accepts, a program is generated, and with the functions of that program, run as Rust runs them, reading any bytes as any declared table never panics (release mode), and every tree of data for which there is room can be written, finished and read back.", "quantifier": "every schema text, every declared table, every byte string, every tree of data, every builder capacity, file identifier and size prefix", "why_tests_cant": "It composes parser, analysis, generator, emitted code and runtime over unbounded texts, schemas, data and bytes.", "anchors": ["butte-build/src/compile.rs:20-79", "butte-build/src/ast/parser.rs:100-900", "butte-build/src/codegen.rs:359-1150", "butte/src/builder.rs:1-500", "butte/src/table.rs:1-120"]}
{"id": "C78", "title": "The Rust compiler accepts the generated code", "statement": "The program generated for an accepted schema is well-typed by the rules of Rust: every expression has the type that its place asks for, every trait implementation has the function with the signature the trait asks for, every name is declared once and is no keyword, enum values are different and in range.", "quantifier": "every accepted schema text, generator built in debug or release mode", "why_tests_cant": "The tests compile the code of a handful of schemas; names of variants, members and namespaces, values of enums, and combinations of defaults and required fields are unbounded.", "anchors": ["butte-build/src/codegen.rs:98-172", "butte-build/src/codegen.rs:200-356", "butte-build/src/codegen.rs:359-826", "butte-build/src/codegen.rs:830-1027", "butte-build/src/codegen.rs:1030-1150", "butte-build/src/ir/keywords.rs:1-58"]}
{"id": "C79", "title": "The generated tokens are Rust source of the program that was reasoned about", "statement": "The tokens that the generator writes, read by the grammar of Rust, are a source file; without lifetimes, attributes, visibility, bounds and associated types that file is the program of C74-C78. The generator panics exactly where C76 says.", "quantifier": "every accepted schema text, every list of nodes that the generator can be given, generator built in debug or release mode", "why_tests_cant": "The tokens are put together from some sixty templates with names, types, defaults and repetitions from the schema; whether brackets, commas, turbofish and precedence come out right for every combination cannot be seen from the handful of schemas that are compiled.", "anchors": ["butte-build/src/codegen.rs:65-172", "butte-build/src/codegen.rs:175-356", "butte-build/src/codegen.rs:359-826", "butte-build/src/codegen.rs:830-1027", "butte-build/src/codegen.rs:1030-1150"]}
{"id": "C80", "title": "The generated source keeps Rust's rules for lifetimes", "statement": "In the generated source file every lifetime is declared once and before it is used, none is left out where it has to be written, every result that leaves one out has a parameter to borrow from, every struct and enum uses the lifetimes it declares, every path is given as many lifetimes as the item it leads to is declared with, and an associated type only has lifetimes of its impl.", "quantifier": "every accepted schema text; in general exactly when every union has a member that borrows; generator built in debug or release mode", "why_tests_cant": "Whether a table's arguments have a lifetime, where `'a`, `'b`, `'_` or nothing is written, and how many lifetimes a type takes depends on the kinds of all fields, through vectors and unions and across modules; a test compiles a few combinations.", "anchors": ["butte-build/src/codegen.rs:65-172", "butte-build/src/codegen.rs:394-450", "butte-build/src/codegen.rs:512-560", "butte-build/src/codegen.rs:720-826", "butte-build/src/codegen.rs:960-1092"]}
{"id": "C81", "title": "Services reach the RPC generator", "statement": "Every `rpc_service` of a schema is handed to the user's RPC generator exactly once, in the order of its module, with its name, documentation and methods in order and the tables they are about; what the generator appends ends up in the module of the service's namespace, the other code is as without it, and without a generator services leave no trace.", "quantifier": "every accepted schema, every generator (any state, any tokens appended), generator built in debug or release mode", "why_tests_cant": "The generator is user code with state of its own; which module it writes to and how often it is called depends on the nesting of namespaces.", "anchors": ["butte-build/src/codegen.rs:28-37", "butte-build/src/codegen.rs:1095-1160"]}
{"id": "C82", "title": "The compiler reads one file and writes one file", "statement": "`compile_fbs` of `dir/name.fbs` succeeds exactly when the schema can be read, accepted and formatted; then the file that `include_fbs!(\"name\")` includes holds the code of that schema, and no other file has changed. A failure changes no file; a build script that compiles several schemas leaves the code of each in its place. The command line does the same with the files it is given, or standard input and output.", "quantifier": "every schema text, path, output directory, state of the file system and behaviour of rustfmt; any number of schemas", "why_tests_cant": "The outcome depends on what is in the file system already, on whether input and output are the same file, on names shared by schemas of different directories, and on how rustfmt fails.", "anchors": ["butte-build/src/compile.rs:14-78", "butte-build/src/main.rs:30-49", "butte/src/macros.rs:11-16", "butte-examples/build.rs:3-12"]}
{"id": "C83", "title": "The text of the output file is the generated program", "statement": "The characters that are written to the output, with any white space between tokens and any of Rust's escapes in strings, are read by Rust's lexer as the tokens that the generator made: no two tokens run together, no name, number, lifetime or documentation string is read as something else, and no text stands for two different programs. So running the command line with `--ugly` on an accepted schema leaves a file that is the source of a well-typed program that works.", "quantifier": "every schema that meets the conditions of C79 and has names in ASCII, every default value, every documentation comment, every way to space and escape tokens, every file system", "why_tests_cant": "Whether text is read back as meant depends on every pair of neighbouring tokens, on every character of documentation comments and on every number that can be a default.", "anchors": ["butte-build/src/compile.rs:34-56", "butte-build/src/codegen.rs:1-1200"]}
{"id": "C84", "title": "The generated code keeps Rust's rules for traits", "statement": "Every `derive` in the generated source names a trait whose derive macro can be used: all the fields and members have the trait. Every `impl` of a trait has the associated types and the one function that the trait asks for, taking its parameters in the same way, and is allowed by the orphan rule. The traits that called functions ask for (`PartialEq` for `push_slot`, `AsRef<[u8]>` where a buffer is read) are there. So the types of a schema have the traits that users rely on: tables and unions can be copied, compared and shown, enums can also be ordered and hashed.", "quantifier": "every schema that meets the conditions of C79", "why_tests_cant": "Whether a trait can be derived for a union depends on what it holds, and for what it holds on what that holds; whether a path in an `impl` means the trait depends on all names of the schema.", "anchors": ["butte-build/src/codegen.rs:320-420", "butte-build/src/codegen.rs:456-508", "butte-build/src/codegen.rs:945-1027", "butte-build/src/codegen.rs:1060-1092", "butte/src/builder.rs:140-170"]}
{"id": "C85", "title": "The generated code keeps Rust's rules for ownership", "statement": "No function of the generated source uses a variable after it was moved or moves something out of a reference; a value is used twice only if its type is `Copy`, which for the schema's types means that it is derived. Methods that take `&mut self` are called on places that may be changed: variables declared `mut`, or what is reached through `&mut` references only. Private fields and methods (the fields of the structs, `add_*`) are only used in the module they belong to.", "quantifier": "every schema that meets the conditions of C79, every field type, every order in which fields are written", "why_tests_cant": "Whether an argument can be used twice depends on the types that paths in it lead to, and these on all names of the schema; `create` touches the fields in an order that depends on all their sizes.", "anchors": ["butte-build/src/codegen.rs:508-700", "butte-build/src/codegen.rs:712-850", "butte-build/src/codegen.rs:945-1092", "butte/src/builder.rs:140-200"]}
{"id": "C86", "title": "The generated code offers what the schema declares, with its documentation", "statement": "All modules and types of the generated source are public, and so are, for each table, the fields of its arguments, `create`, `get_root`, an accessor of each field, and `new` and `finish` of its builder; for each enum the function that names its values; for each union `get_type`. The documentation comments of tables, enums, unions, fields and variants are, line by line, the documentation of the items, methods and variants made for them.", "quantifier": "every schema that meets the conditions of C79, every documentation comment", "why_tests_cant": "Which item a field or variant ends up as depends on namespaces, keywords, and on whether its type is a union; tests compare a few schemas.", "anchors": ["butte-build/src/codegen.rs:230-260", "butte-build/src/codegen.rs:640-700", "butte-build/src/codegen.rs:712-850", "butte-build/src/codegen.rs:945-1092", "butte-build/src/codegen.rs:1127-1145"]}
{"id": "C87", "title": "The generated code keeps Rust's type rules with references and lifetimes", "statement": "Every item of the generated source is well-typed when `&T` is told apart from `T` and types carry their lifetimes: each function's body has the type that its signature says, arguments of calls (of generated functions, and of the runtime crate's, with the lifetimes that their signatures ask for) have the types of the parameters or can be shortened to them, nothing that is returned lives longer than what it was made from, no loan of the builder outlives the call it is made for, lifetimes behind `&mut` are not changed, functions of `impl`s have exactly the signatures of their traits, and elided lifetimes are filled in by Rust's rules.", "quantifier": "every schema that meets the conditions of C78 (exactly those whose code is well-typed without references), every field type, nesting of vectors, order of fields", "why_tests_cant": "The lifetimes in an accessor's result depend on the type at any depth, and the code of a table is checked against the declarations of all types it mentions; tests compile a few schemas.", "anchors": ["butte-build/src/codegen.rs:76-240", "butte-build/src/codegen.rs:430-850", "butte-build/src/codegen.rs:945-1092", "butte/src/table.rs:26-57", "butte/src/builder.rs:140-361", "butte/src/follow.rs:33-42"]}
{"id": "C88", "title": "Every FlatBuffers message is read correctly, whoever wrote it", "statement": "For a buffer that is a message in the FlatBuffers binary format (root offset, optional size prefix and identifier; tables with vtables anywhere, before or after; fields in any order; vectors, strings, unions) with the value v at its root, the generated code finds the root, all accessors succeed, and what they return, to any depth, is v; the file identifier is recognized and no other. In particular a message holds one value only.", "quantifier": "every schema the generator accepts, every buffer below 2 GiB with such a message, whatever the layout, both build profiles", "why_tests_cant": "Tests read buffers that butte's own builder made, which has one way of laying things out; other writers place vtables, strings and padding differently.", "anchors": ["butte/src/table.rs:26-112", "butte/src/vtable.rs:34-70", "butte/src/vector.rs:47-80", "butte/src/primitives.rs:60-160", "butte-build/src/codegen.rs:712-850"]}
{"id": "C89", "title": "What generated code writes is a FlatBuffers message", "statement": "Whatever is written bottom up with the builder and the generated create functions, in any order and with any sharing, and finished (with or without size prefix and identifier) is a message in the FlatBuffers binary format: root offset, identifier and size prefix in their places; every table, vector, string, field and vtable aligned for its type from the start of the buffer; vtable and table sizes right; every offset forward and inside; strings ended by NUL; absent fields exactly those with their default. The message holds the value that was written, so that any reader of the format gets it.", "quantifier": "every schema the generator accepts, every tree and every order of writing it, every builder history without reset since, data below 2 GiB, both build profiles", "why_tests_cant": "Tests read back with butte itself, which does not look at alignment, table sizes or terminators; whether other implementations accept the bytes depends on the sizes and order of all that was written before.", "anchors": ["butte/src/builder.rs:177-330", "butte/src/builder.rs:367-384", "butte/src/builder.rs:394-512", "butte/src/builder.rs:562-606", "butte-build/src/codegen.rs:386-720"]}
{"id": "C90", "title": "The unsafe code keeps to Rust's rules for memory", "statement": "Every use of a raw pointer by the runtime (reading scalars, slices over vectors, writing scalars, clearing memory) stays inside its block of memory, is aligned for the type that is read or written, and reads only values of that type, so that no behaviour is undefined: when reading any bytes at all with the generated accessors, vectors, iterators and slices, and when building with any calls of the builder and of the generated create functions.", "quantifier": "every buffer however malformed, every position and type followed, every schema and depth, every list of builder calls in any order, every capacity, both build profiles; alignment: every message in the FlatBuffers format and every caller that follows the protocol, at addresses that are multiples of 8", "why_tests_cant": "Undefined behaviour does not show as a failing assertion; on common machines misaligned or slightly out-of-bounds accesses give plausible values, and whether one happens depends on the bytes, the address of the buffer and the history of the builder.", "anchors": ["butte/src/endian_scalar.rs:155-182", "butte/src/vector.rs:80-180", "butte/src/primitives.rs:80-340", "butte/src/table.rs:30-100", "butte/src/vtable.rs:30-91", "butte/src/vtable_writer.rs:30-87", "butte/src/builder.rs:90-130", "butte/src/builder.rs:260-330", "butte/src/builder.rs:394-606", "butte-build/src/codegen.rs:700-821"]}
{"id": "C91", "title": "Messages survive changes of the schema, whoever wrote them", "statement": "The very bytes that are a FlatBuffers message of one version of a schema are a message of every other version that differs by fields at the end of tables or variants at the end of enums and unions. The generated code of the other version finds the root and reads, to any depth, the value that agrees with the message in all that both versions know and has the reader's defaults for the rest; a reader that knows fewer fields does not even mind data from still later versions.", "quantifier": "every pair of schemas related in this way, table by table in either direction, every message below 2 GiB however it is laid out, every nesting depth, both build profiles", "why_tests_cant": "Old and new programs are different builds; a test would need every pair of versions, every layout another implementation may choose and every message.", "anchors": ["butte/src/vtable.rs:34-70", "butte/src/table.rs:26-112", "butte-build/src/codegen.rs:386-720", "butte-build/src/codegen.rs:712-850"]}
{"id": "C92", "title": "The program emitted for a schema text can talk to all others", "statement": "From the text of a schema: the program that the compiler emits has every declared table under its name, reads every message in the FlatBuffers format that holds one, whoever wrote it, and makes every tree of values into such a message, which any other implementation reads as that tree; it reads messages of other versions of the schema, and two programs emitted for two versions of a text understand each other.", "quantifier": "every schema text with one namespace, or several declared before use, that meets the conditions of C77; every message and every tree below 2 GiB; both build profiles for generator and runtime", "why_tests_cant": "It joins parser, schema builder, generator, the emitted source text and the runtime, for every text and every message of foreign origin; tests exercise single schemas against themselves.", "anchors": ["butte-build/src/ast/parser.rs:1-1200", "butte-build/src/ir/transform.rs:1-900", "butte-build/src/codegen.rs:386-850", "butte/src/builder.rs:177-606", "butte/src/table.rs:26-112"]}
{"id": "C93", "title": "The builder's memory is proportional to its data", "statement": "Whatever calls are made, the buffer of the builder is no larger than the capacity it was created with, or else than twice the data it had to hold at some time plus room for one more vtable; a sufficient capacity is never exceeded; the buffer's size is that capacity doubled some number of times; and all the buffers the builder ever had between calls are together at most twice as large as the last one.", "quantifier": "every capacity, every sequence of builder calls with any arguments, in any order, with resets; both build profiles", "why_tests_cant": "Growth happens inside alignment, padding, vtable writing and de-duplication and depends on the whole history of calls; a test sees a few sizes of a few histories, not a bound on all.", "anchors": ["butte/src/builder.rs:527-558", "butte/src/builder.rs:628-648", "butte/src/builder.rs:400-509", "butte/src/builder.rs:102-119"]}
{"id": "C94", "title": "What reading costs in memory accesses", "statement": "On any bytes, however wrong, every generated accessor makes at most 9 raw memory accesses, each a read of one value; finding the root takes at most 1, an element of a vector at most 3. To read a whole value takes at least as many accesses as it has fields, vectors and elements, and at most nine times as many. There is no bound in terms of the size of the message: for every n there is a correct message of 20 + 12 n bytes that takes more than 2^n accesses to read in full.", "quantifier": "every schema, every buffer, table and index; every value read to any depth; for the lower bound every n below the 2 GiB limit; both build profiles", "why_tests_cant": "A test measures single messages; the bound holds for every schema and all bytes, and the blow-up is a statement about a family of messages of every size, most of which no machine can read to the end.", "anchors": ["butte/src/table.rs:26-112", "butte/src/vtable.rs:23-59", "butte/src/vector.rs:30-120", "butte-build/src/codegen.rs:607-708"]}
{"id": "C95", "title": "Reading with 32-bit pointers", "statement": "On machines with 32-bit pointers reading is as on machines with 64-bit pointers: whatever the bytes, all raw memory accesses are inside the buffer, a release build does not panic, and what the generated code reads from bytes with 64-bit pointers, valid messages in particular, it reads from them with 32-bit pointers.", "quantifier": "every pointer width from 32 to 64 bits, every byte sequence that fits into memory, every follow type, location, slot and index, every schema, to any depth; both build profiles", "why_tests_cant": "The differences are in sums and products that wrap around for hostile lengths and offsets only, and only on targets the tests do not run on.", "anchors": ["butte/src/vector.rs:86-98", "butte/src/vector.rs:137-174", "butte/src/endian_scalar.rs:167-170", "butte/src/primitives.rs: Follow impls", "butte/src/table.rs:42-112", "butte/src/vtable.rs:28-69"]}
{"id": "C96", "title": "The byte order of the machine does not matter", "statement": "Scalars are stored as the same bytes and read as the same values on little-endian and on big-endian machines, so that what is written on one is read on the other; slices without copying are offered for exactly the types, other than bool, whose items in memory are those of a message on the machine.", "quantifier": "both byte orders, every scalar type, every value (NaN bit patterns included), every byte sequence, every location and length", "why_tests_cant": "The tests run on little-endian machines, where every conversion is the identity.", "anchors": ["butte/src/endian_scalar.rs:31-182", "butte/src/vector.rs:84-119", "butte/src/builder.rs:257-283"]}
{"id": "C97", "title": "No memory is read before it is written", "statement": "create_vector_of_strings, which sets the length of a vector before it writes its items, has a defined result whatever the builder and the strings: the length is within the capacity, and every item is written before it is read.", "quantifier": "every builder state, every list of strings of any length, both build profiles", "why_tests_cant": "Reading memory that was not written usually goes unnoticed, and the outcome of a test says nothing about it.", "anchors": ["butte/src/builder.rs:290-326"]}
{"id": "C98", "title": "Writing with 32-bit pointers", "statement": "On machines with 32-bit pointers the builder does what it does with 64-bit pointers: any calls return the same offsets and leave the same bytes, or fail alike, unless the buffer would have to be longer than isize::MAX bytes, in which case they panic.", "quantifier": "every pointer width from 32 to 64 bits, every list of calls in any order with any arguments that fit into memory (wrong ones included), every initial capacity, both build profiles", "why_tests_cant": "The differences are in sums and products that wrap around for large buffers or wrong offsets only, and only on targets the tests do not run on.", "anchors": ["butte/src/builder.rs:67-89", "butte/src/builder.rs:132-386", "butte/src/builder.rs:400-648", "butte/src/builder.rs:690-693", "butte/src/primitives.rs:137-142"]}
{"id": "C99", "title": "Parsing takes polynomial time", "statement": "Parsing a text of n characters takes at most 349011 * (n + 1) ^ 6 steps, whether it is accepted or not and however deeply values and types are nested in it: backtracking never becomes exponential. It is not linear: there are accepted texts of any length with a number of steps that is at least quadratic, as every number in a value makes the parser search the rest of the text for `nan`.", "quantifier": "every text of any length, every classification of letters beyond ASCII", "why_tests_cant": "Tests time a few texts; a text on which alternatives are tried again and again at every level of nesting has to be found, and no number of texts shows that there is none.", "anchors": ["butte-build/src/ast/parser.rs:140-199", "butte-build/src/ast/parser.rs:200-271", "butte-build/src/ast/parser.rs:1275-1581", "butte-build/src/ast/parser.rs:2178-2240"]}
{"id": "C100", "title": "The analysis takes polynomial time", "statement": "The semantic analysis of a schema takes a number of steps, and gives a result of a size, bounded by a polynomial in the length of the schema's text. As stated this is false: definitions are copied with everything in them wherever they are named, so structs that each have two fields of the struct before give a result that doubles with every struct. What holds: a polynomial of degree d + 3 if structs and unions lie in d + 1 layers, in particular one of fixed degree for schemas whose structs are nested at most so deep; for every schema the number of its structs and unions takes the place of d.", "quantifier": "every schema, accepted or not, of any number of declarations in any order; for the refutation every polynomial", "why_tests_cant": "Tests use schemas with a few declarations; the growth shows with the depth of nesting only, and a bound for all schemas is no test.", "anchors": ["butte-build/src/ir/transform.rs:519-531", "butte-build/src/ir/transform.rs:533-575", "butte-build/src/ir/transform.rs:173-232", "butte-build/src/ir/transform.rs:275-325", "butte-build/src/ir/types.rs:258-277"]}
{"id": "C101", "title": "Compiling a schema again gives the same", "statement": "The compiler is deterministic: all runs on the same schema give the same code or the same error message, in whatever order the entries of its hash maps come (every map has random hash keys). As stated this is false of the messages: declarations that are never resolved are printed with their metadata, which is a hash map. What holds: if one run gives code, all runs give the same code; if one fails, all fail; and messages can differ exactly if an unresolved declaration has a metadata list with two different names.", "quantifier": "every text, every order of every hash map after every operation, every RPC generator that is itself a function", "why_tests_cant": "A test sees the orders that came up in its runs; that no order of any map changes the output, for any schema, is a statement about all of them.", "anchors": ["butte-build/src/ir/transform.rs:577-643", "butte-build/src/ir/transform.rs:564", "butte-build/src/ast/types.rs:298-309", "butte-build/src/compile.rs:22-36"]}
{"id": "C102", "title": "What building a buffer costs", "statement": "The number of memory cells that building a buffer goes over through raw pointers is proportional to the calls, the items passed to them and the data written. As stated this is false: ending a table compares its vtable with all recorded ones, so 2^s tables with different sets of s fields take the square of their number. What holds: if there are never more than d different vtables, slots up to k and u bytes of data, it is at most 2(u + k + 2), for growing, and for each call a number that depends on d, k and its items only (2d + k + 7 for ending a table, 3 for a field, 1 for a value, 2 for a string; clearing the data for a reset).", "quantifier": "every sequence of calls that completes, in any order, every capacity, both build profiles; for the refutation every s up to 20", "why_tests_cant": "Tests build small buffers with one or two kinds of tables, where nothing of the growth shows; a bound for all sequences of calls is no test.", "anchors": ["butte/src/builder.rs:400-525", "butte/src/builder.rs:527-560", "butte/src/builder.rs:620-648", "butte/src/vtable.rs:28-32"]}
{"id": "C103", "title": "How deep the stack of the parser gets", "statement": "The parser needs a bounded stack, whatever text it is given. As stated this is false: rules for types and values call themselves for what is inside brackets, without limit, so for every n there is an accepted text of 2n + 6 characters that needs n frames. What holds: nothing but nesting makes the stack grow. On every text, accepted or not, it is at most 76 frames and 12 for each opening bracket; on an accepted text it lies between d and 76 + 12 d, where d is the deepest nesting of vector types, lists and objects in the schema; without objects and vectors of vectors 88 frames are enough for any number of declarations.", "quantifier": "every text; every schema read from it; for the refutation every size of the stack", "why_tests_cant": "Tests parse texts that nest two or three levels; that length, number of declarations, comments and names never matter, and that brackets always do, is a statement about all texts.", "anchors": ["butte-build/src/ast/parser.rs:1275-1307", "butte-build/src/ast/parser.rs:1437-1461", "butte-build/src/ast/parser.rs:1533-1581", "butte-build/src/ast/parser.rs:259-271"]}
{"id": "C104", "title": "The default is the number that is written", "statement": "For every field of a builtin type with a number as its default in the text, the default of the generated code is the value of the type that is meant: for integer types the number itself, for floating types the nearest float. As stated this is false: every number with a point or an exponent becomes a double first, so 9223372036854775808.0 for a ulong makes 9223372036854776000, 0.99999999999999999999 for an int makes 1, and a float can be rounded twice. What holds: for every integer, decimal or hexadecimal, and every type; for every decimal number and double; for float if the number is a double; for integer types if the number is whole and below 2^53, which is taken exactly if it is in range (an unsigned type takes no sign, not even for zero). Any other default of an integer type is the same double as the number written.", "quantifier": "every number in every spelling the grammar allows, every builtin type, every text that follows", "why_tests_cant": "Tests have a few small defaults; the rounding and printing of all numbers in between is not sampled, and the cases that go wrong are found by no random search.", "anchors": ["butte-build/src/ast/parser.rs:1428-1434", "butte-build/src/ast/parser.rs:2052-2067", "butte-build/src/codegen.rs:182-202"]}
{"id": "C105", "title": "A vtable describes its table", "statement": "The vtable found from a built table says what is there: num_fields is one more than the largest stored field index, num_bytes is what these entries take, object_inline_num_bytes is the number of bytes written between start_table and the table's offset to its vtable, that offset included. get_field and get agree on every index below num_fields; they give 0 exactly for the fields that are not stored, and otherwise the place of the value, which lies behind the vtable offset and inside of the table. No two stored fields share a byte. This stays so whatever is written afterwards, whether the vtable is new or shared.", "quantifier": "every reachable idle builder state, every sequence of field pushes on distinct slots, every sequence of later calls without reset, debug and release", "why_tests_cant": "object_inline_num_bytes and num_fields are read by no test; the padding between fields depends on the sizes, the order and everything written before.", "anchors": ["butte/src/vtable.rs:38-69", "butte/src/vtable_writer.rs:39-60", "butte/src/builder.rs:400-510", "butte/src/builder.rs:681-687"]}
{"id": "C106", "title": "The generated code is as large as the schema", "statement": "The number of tokens of the generated code is at most a constant times the length of the schema text: structs nested in structs, unions, long namespaces and comments do not multiply.", "quantifier": "every schema text that is read and accepted and for which code is generated, debug and release", "why_tests_cant": "The schemas in the tests are short; how the size of the output grows needs schemas of every length and shape.", "anchors": ["butte-build/src/codegen.rs:76-172", "butte-build/src/codegen.rs:280-830", "butte-build/src/ir/types.rs:523-540"]}
{"id": "C107", "title": "Attributes and includes have their FlatBuffers effect", "statement": "The attributes of a schema do what FlatBuffers says: `id` fixes the slot of a field, `bit_flags` makes the values of an enum powers of two, `deprecated` removes the accessor of a field, `required` and `streaming` mark fields and methods; the types of included files can be used; an attribute or include that is not supported is refused and not dropped.", "quantifier": "every schema, every attribute at every declaration, field and method, every include", "why_tests_cant": "That something is ignored everywhere, or that field numbers agree with the ids, is a statement about all schemas and all attributes.", "anchors": ["butte-build/src/ir/transform.rs:95-150", "butte-build/src/ir/transform.rs:180-215", "butte-build/src/ir/transform.rs:400-430", "butte-build/src/ast/types.rs:297-302", "butte-build/src/ast/types.rs:5-30"]}
{"id": "C108", "title": "Release builds do what debug builds do", "statement": "Whatever a debug build computes without a panic a release build computes as well, with the same result: building, reading, iterating, values written and read by generated code, any function of an emitted program, and the compiler itself with the files it leaves. (Unchecked arithmetic and dropped assertions take away panics, and nothing else.)", "quantifier": "every builder and history of calls, every buffer and place, every type that can be read, every iterator state, every schema and value, every program in the language of the emitted code, every input of the compiler", "why_tests_cant": "Tests are run in one build; that an overflow or an assertion with an effect makes the two builds differ shows for particular values only.", "anchors": ["butte/src/vector.rs:68-74", "butte/src/builder.rs:100-560", "butte/src/vtable.rs:20-84", "butte/src/primitives.rs:169-333", "butte-build/src/codegen.rs:562-568"]}
{"id": "C109", "title": "Offsets that are not from this builder are noticed", "statement": "An offset given to a builder (pushed, put into a field, or given to `finish` as the root) that was not returned by this builder since it was created or last reset makes the call panic, or an error is returned where the offset is followed; no other object is read in its place.", "quantifier": "every history of calls, every offset, debug and release builds, every later call, every type read through the offset", "why_tests_cant": "A WIPOffset carries no mark of the builder it is from; which wrong offsets are noticed depends on their value, the fill of the builder and the build.", "anchors": ["butte/src/primitives.rs:64-160", "butte/src/primitives.rs:169-182", "butte/src/builder.rs:102-141", "butte/src/builder.rs:562-605"]}
{"id": "C110", "title": "Error messages of the analysis are true", "statement": "When the analysis refuses a schema, the fault that its message speaks of is in the schema: a name said to be already defined is declared at two places; a struct said to have illegal members has a member that is a string, a vector, a table or a union; an enum said to have a bad base is not over an integer; a name said not to be a table is asked for as a root, request or response and is declared as something else; a streaming mode said to be unknown is written and unknown; and every definition listed as referring to items not found does name something that is not declared or cannot be resolved.", "quantifier": "every schema, every message", "why_tests_cant": "Which message comes first, and under which namespace a declaration is read, depends on the order of all declarations and on how many passes the loop needs.", "anchors": ["butte-build/src/ir/transform.rs:89-103", "butte-build/src/ir/transform.rs:173-232", "butte-build/src/ir/transform.rs:234-273", "butte-build/src/ir/transform.rs:376-441", "butte-build/src/ir/transform.rs:545-573"]}
{"id": "C111", "title": "References made by follow_cast_ref may be used", "statement": "follow_cast_ref, given any buffer and any location, returns a reference that is inside the buffer and aligned for its type, or an error.", "quantifier": "every type (size and alignment), buffer, address of the buffer, location, pointer width and build", "why_tests_cant": "Alignment depends on where the allocator puts a buffer, and a misaligned reference mostly goes unnoticed; sums of locations and sizes wrap only near the end of the address space.", "anchors": ["butte/src/vector.rs:118-134"]}
{"id": "C112", "title": "Comparing tables compares their contents", "statement": "Two tables that were read, or two values of a union, compare equal with == exactly if the same can be read from them; in particular if the same calls wrote them. Builders compare equal exactly if they behave alike.", "quantifier": "all pairs of tables, messages, builders and histories of calls", "why_tests_cant": "The derived comparison looks at whole buffers and positions; whether that agrees with the contents depends on every message and every history, not on a few pairs.", "anchors": ["butte/src/table.rs:25-29", "butte/src/builder.rs:41-57", "butte-build/src/codegen.rs:722-726", "butte-build/src/codegen.rs:1074-1078"]}
{"id": "C113", "title": "How deep the stack of the analysis gets", "statement": "The stack of the semantic analysis is bounded by how deeply the text is nested, so a text that the parser can take does not overflow it later. As stated this is false: the type of a field holds the whole definition of the struct it names, and `find_custom_type` and `new_struct` copy definitions with a `clone` that calls itself for every level, so for every n there is a text without nested brackets, of at most (n + 1)(2n + 22) characters, that the parser takes with 76 frames, that is accepted, and for which the analysis needs 5n + 6 frames. What holds of every schema, accepted or not: the stack is at most 8 frames, 5 for each struct or union, one for each level of the deepest vector and 2 for each part of the longest namespace; and if structs and unions can be put into layers, each above the types its members name, 5 for each layer instead.", "quantifier": "every schema, accepted or not; for the refutation every size of the stack", "why_tests_cant": "Tests have structs inside structs two deep. That the stack grows with the number of structs, and that nothing else than structs, unions, vectors and namespaces makes it grow, is a statement about all schemas.", "anchors": ["butte-build/src/ir/types.rs:258-277", "butte-build/src/ir/transform.rs:173-232", "butte-build/src/ir/transform.rs:480-531", "butte-build/src/ir/transform.rs:49-62"]}
{"id": "C114", "title": "Copying a message", "statement": "What the generated accessors read in full, from any bytes, can be written again with the generated `create` functions by passing on what was read, and the copy reads the same. As stated this is false: an enum field without default (also the tag of a union) that is not stored reads as `None`, but `create` takes a plain value, so every message it writes has the field set; and a required scalar stored with its default reads well, but writing it panics. What holds, for schemas without required scalars that have a default: the copy can be written and reads as what was read with the `Default` of the type for each unset scalar or enum; nothing changes if all of them have defaults; and copying the copy changes nothing more.", "quantifier": "every schema, all bytes, every table in them that can be read in full, both build modes", "why_tests_cant": "Tests write messages and read them back. That every readable message, from whatever writer, can be written again is a statement about all bytes.", "anchors": ["butte-build/src/codegen.rs:373-391", "butte-build/src/codegen.rs:456-496", "butte-build/src/codegen.rs:570-708", "butte/src/builder.rs:257-300"]}
{"id": "C115", "title": "Messages that are cut off", "statement": "A message of which only a first part has arrived is never misread: every read either fails with OutOfBounds or does what it does on the whole message; and bytes that come after a message change nothing. As stated this is false for `Vector::iter`, which hands out nothing, without an error, when the length of the vector is not there. It holds for everything else: following any type, vtables, `Table::get`, `Vector::len`, `get` and `safe_slice`, identifiers, generated accessors and reading in full; and for iterating if the length is there.", "quantifier": "all bytes, every place to cut, anything appended, every schema, both build modes", "why_tests_cant": "There are as many truncated messages as there are messages and places to cut, and which bytes a read depends on is up to the offsets in the message.", "anchors": ["butte/src/vector.rs:57-98", "butte/src/vector.rs:137-191", "butte/src/table.rs:42-112", "butte/src/vtable.rs:38-69", "butte/src/primitives.rs:169-333", "butte-build/src/codegen.rs:570-708"]}
{"id": "C116", "title": "Streams of messages", "statement": "Messages finished with `finish_size_prefixed` and put one after the other are read back one by one by a caller who takes the length from the first four bytes: all trees are read and nothing else, whichever builders and identifiers were used; reading a message in place, without cutting the stream, gives the same; and a stream that is cut off inside a message gives the trees before it and then OutOfBounds.", "quantifier": "every schema, every number of messages and trees (below 2 GiB each), every place to cut, both build modes", "why_tests_cant": "all sequences of all messages", "anchors": ["butte/src/builder.rs:362-369", "butte/src/builder.rs:560-612", "butte/src/table.rs:46-48", "butte/src/primitives.rs:265-284"]}
{"id": "C117", "title": "How large a message is", "statement": "Every call of the builder adds at least the bytes of the values it is given, and at most these, seven bytes of padding and (at the end of a table) a vtable as long as the last slot in use requires; so the data after any calls lies between the two sums, and the buffer is not larger than the capacity asked for or twice the data and one vtable. A whole tree written with the generated `create` functions and finished is at most 19 bytes longer than a count that can be made from the tree and the schema: each string its length and 16 bytes, each vector its elements and 16 bytes, each table what its fields take, two bytes for each field of the schema, and 16 bytes.", "quantifier": "every sequence of calls without reset, every schema and tree, every capacity, identifier and size prefix, both build modes, below 2 GiB", "why_tests_cant": "padding depends on everything written before, vtables on which were written before", "anchors": ["butte/src/builder.rs:132-162", "butte/src/builder.rs:190-326", "butte/src/builder.rs:400-509", "butte/src/builder.rs:527-648"]}
{"id": "C118", "title": "Names are not part of messages", "statement": "Two schemas that differ in names only (of tables, namespaces, fields, enums and their variants, unions and their members; each union keeping its tag) are interchangeable: the generated code writes the same bytes for the same tree, a message of the one is a message of the other with the same value, and reading anything from any bytes has the same outcome but for the name in the error for a missing required field. The tags matter: if the names of two tags are exchanged, the same bytes read differently.", "quantifier": "all pairs of accepted schemas that differ in names only, all trees, builders, bytes, depths and build modes", "why_tests_cant": "ranges over all schemas and all ways to rename, and over all bytes", "anchors": ["butte-build/src/codegen.rs:217-220", "butte-build/src/codegen.rs:359-826", "butte-build/src/codegen.rs:883-1027", "butte/src/table.rs:42-112"]}
{"id": "C119", "title": "What equal bytes mean", "statement": "If two finished messages of the same schema and root type have the same bytes, the trees that were written are equal (up to the sign of floating-point zeros in fields), however and by whatever builders, build modes and identifiers they were written: bytes can be compared, hashed and used as keys in place of values. The other way round, a tree that is written in the same way gives the same bytes, whatever the capacity of the new builder, and also with a builder used again after finish and reset. In the same way is needed: if the strings of a table are written in another order, the same value has other bytes.", "quantifier": "all accepted schemas, all trees, all ways to write them, all capacities and earlier uses of the builder, all build modes", "why_tests_cant": "ranges over all pairs of messages and all histories of the builders", "anchors": ["butte/src/builder.rs:67-121", "butte/src/builder.rs:132-330", "butte/src/builder.rs:337-390", "butte-build/src/codegen.rs:696-826"]}
{"id": "C120", "title": "Slices are the items", "statement": "For any bytes whatsoever, Vector::safe_slice succeeds exactly if the length can be read and get succeeds for every index below it, and then the slice holds exactly what get returns, in order; a loop over the vector sees the same items. If the length can be read, safe_slice never panics and fails exactly if some get fails, with OutOfBounds in both cases; if it cannot be read, safe_slice fails as reading the length does.", "quantifier": "all byte buffers, all locations, all scalar types, lengths and build modes", "why_tests_cant": "ranges over all bytes and all lengths, including vectors cut off anywhere", "anchors": ["butte/src/vector.rs:57-63", "butte/src/vector.rs:66-82", "butte/src/vector.rs:86-98", "butte/src/vector.rs:193-291"]}
{"id": "C121", "title": "Messages inside messages", "statement": "A message that is stored in a field of type [ubyte] of another message comes out again, whoever wrote the two, by whatever schemas, with or without size prefixes and identifiers: the generated accessor and safe_slice give exactly its bytes, its root is found in them, and reading it in full gives its value. In particular any tree written and finished by one builder and stored as bytes in a tree written by another is read back.", "quantifier": "all pairs of accepted schemas, all messages and trees, all ways to write them, all build modes", "why_tests_cant": "ranges over all pairs of schemas and messages and all call histories", "anchors": ["butte/src/vector.rs:86-98", "butte/src/table.rs:42-70", "butte/src/table.rs:86-100", "butte-build/src/codegen.rs:570-708"]}
