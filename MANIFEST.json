{
 "claims": [
  {
   "property": "C01",
   "status": "proved",
   "theorems": [
    "Butte.C01_scalar_round_trip",
    "Butte.C01_read_value"
   ],
   "note": ""
  },
  {
   "property": "C02",
   "status": "proved",
   "theorems": [
    "Butte.C02_bounds_checked"
   ],
   "note": ""
  },
  {
   "property": "C03",
   "status": "proved",
   "theorems": [
    "Butte.C03_readers_never_panic",
    "Butte.C03_debug_panics"
   ],
   "note": "Release builds; C03_debug_panics shows why debug builds are excluded."
  },
  {
   "property": "C04",
   "status": "proved",
   "theorems": [
    "Butte.C04_string_ok",
    "Butte.C04_string_errors"
   ],
   "note": ""
  },
  {
   "property": "C05",
   "status": "proved",
   "theorems": [
    "Butte.C05_iteration_is_get",
    "Butte.C05_unreadable_length",
    "Butte.C05_is_empty"
   ],
   "note": ""
  },
  {
   "property": "C06",
   "status": "proved",
   "theorems": [
    "Butte.C06_iterator_is_queue",
    "Butte.C06_fused"
   ],
   "note": ""
  },
  {
   "property": "C07",
   "status": "proved",
   "theorems": [
    "Butte.C07_capacity_independence",
    "Butte.C07_same_output"
   ],
   "note": "Any two builders created with any capacities are indistinguishable by any call sequence; also completion transfers between them below 2 GiB - 128 KiB."
  },
  {
   "property": "C08",
   "status": "proved",
   "theorems": [
    "Butte.C08_never_overwritten",
    "Butte.C08_never_overwritten_run"
   ],
   "note": "For resulting data below 4 GiB (beyond it 32-bit offsets wrap in release builds)."
  },
  {
   "property": "C09",
   "status": "proved",
   "theorems": [
    "Butte.C09_unused_zero",
    "Butte.C09_padding_zero"
   ],
   "note": ""
  },
  {
   "property": "C10",
   "status": "proved",
   "theorems": [
    "Butte.C10_reset_after_finish"
   ],
   "note": ""
  },
  {
   "property": "C100",
   "status": "partial",
   "theorems": [
    "Butte.C100_result",
    "Butte.C100_output",
    "Butte.C100_refuted",
    "Butte.C100_layers_partial",
    "Butte.C100_text_partial",
    "Butte.C100_any_partial"
   ],
   "note": "False as stated (C100_refuted, for every polynomial). The partial theorems bound the steps by the nesting of structs and unions. What a step is: DESIGN.md, simplifications. C100_text_partial has the assumption HexfPrefix of C61."
  },
  {
   "property": "C101",
   "status": "partial",
   "theorems": [
    "Butte.Hash.C101_runs",
    "Butte.Hash.C101_code",
    "Butte.Hash.C101_same_partial",
    "Butte.Hash.C101_iff",
    "Butte.Hash.C101_refuted"
   ],
   "note": "False as stated of one message (C101_refuted). C101_iff says exactly when runs agree; code and failure never depend on the order of hash maps. Which characters Debug escapes is a parameter."
  },
  {
   "property": "C102",
   "status": "partial",
   "theorems": [
    "Butte.Mem.C102_cells_partial",
    "Butte.Mem.C102_cost_partial",
    "Butte.Mem.C102_any_partial",
    "Butte.Mem.C102_quadratic",
    "Butte.Mem.C102_refuted"
   ],
   "note": "False as stated (C102_quadratic, C102_refuted): vtables are searched one by one. The partial theorems bound the cells by the number of different vtables. Counted are the accesses recorded in Mem/Model; copies and comparisons of safe code are not, see DESIGN.md."
  },
  {
   "property": "C103",
   "status": "partial",
   "theorems": [
    "Butte.C103_result",
    "Butte.C103_refuted",
    "Butte.C103_bound_partial",
    "Butte.C103_accepted_partial",
    "Butte.C103_flat_partial"
   ],
   "note": "False as stated (C103_refuted). C103_accepted_partial says exactly what the stack depends on. What a frame is: DESIGN.md, simplifications; only the parser is looked at."
  },
  {
   "property": "C104",
   "status": "partial",
   "theorems": [
    "Butte.C104_integer",
    "Butte.C104_double",
    "Butte.C104_float_partial",
    "Butte.C104_double_integer_partial",
    "Butte.C104_whole_partial",
    "Butte.C104_refuted"
   ],
   "note": "refuted for decimal numbers that are no doubles; proved for all integers, for double, for float where the number is a double, for integer types where it is whole and below 2^53"
  },
  {
   "property": "C105",
   "status": "proved",
   "theorems": [
    "Butte.C105_vtable",
    "Butte.C105_equality"
   ],
   "note": "All accessors of the vtable of a built table, after any later calls without reset; sizes below 2 GiB, table data below 64 KiB in release mode (debug asserts it)."
  },
  {
   "property": "C106",
   "status": "partial",
   "theorems": [
    "Butte.C106_refuted",
    "Butte.C106_members_partial",
    "Butte.C106_any_partial"
   ],
   "note": "refuted (a path is written for every use, so the product of the number of fields and the depth of the namespace counts); proved: at most quadratic in the text, times the number of members of the largest union, hence at most cubic for every schema"
  },
  {
   "property": "C107",
   "status": "partial",
   "theorems": [
    "Butte.C107_id_refuted",
    "Butte.C107_bit_flags_refuted",
    "Butte.C107_deprecated_refuted",
    "Butte.C107_include_refuted",
    "Butte.C107_ignored_partial",
    "Butte.C107_kept",
    "Butte.C107_id_partial"
   ],
   "note": "refuted for id, bit_flags, deprecated and include; proved: schemas that differ only in includes and in attributes other than required and streaming give the same, so nothing unsupported is refused; and the ids of a table are respected exactly if they are the positions, counting one more for each union"
  },
  {
   "property": "C108",
   "status": "partial",
   "theorems": [
    "Butte.C108_refuted",
    "Butte.C108_get_partial",
    "Butte.C108_build",
    "Butte.C108_read",
    "Butte.C108_iterate",
    "Butte.C108_values",
    "Butte.C108_program",
    "Butte.C108_compiler"
   ],
   "note": "refuted for Vector::get on a vector whose length cannot be read (the read with ? is inside a debug_assert!); proved for get with a readable length, and for everything else: builder calls, following, table and vtable reads, iterators, values written and read by generated code, any function of an emitted program, the compiler"
  },
  {
   "property": "C109",
   "status": "partial",
   "theorems": [
    "Butte.C109_refuted",
    "Butte.C109_push_partial",
    "Butte.C109_field_partial",
    "Butte.C109_root_partial",
    "Butte.C109_behind",
    "Butte.C109_debug"
   ],
   "note": "refuted by an offset kept over reset, which then reads as another string; proved exactly what is noticed: an offset not behind the place where it is stored leads to its place counted from the end, whatever is there; any other is refused by a debug build, and stored by a release build as a number that leads behind the end, where every read is an error"
  },
  {
   "property": "C11",
   "status": "partial",
   "theorems": [
    "Butte.C11_refuted",
    "Butte.C11_partial"
   ],
   "note": "False of the code (reset leaves pending field locations); proved for histories with no pending field."
  },
  {
   "property": "C110",
   "status": "partial",
   "theorems": [
    "Butte.Ir.C110_refuted",
    "Butte.Ir.C110_found_refuted",
    "Butte.Ir.C110_partial",
    "Butte.Ir.C110_moved_partial",
    "Butte.Ir.C110_found_partial",
    "Butte.Ir.C110_found_order",
    "Butte.Ir.C110_listed"
   ],
   "note": "refuted: a declaration that waits is read in the last namespace of the file, so a name declared once is reported as declared twice; and a first pass that only announces tables reports names as not found that are declared. Proved for schemas in one namespace and for schemas that declare before they use: the fault of the message is in the declaration it names; for every schema with names read in the written or the last namespace; the list of items not found is a nonempty sublist of the schema, and each has an unresolvable name if some declaration can be resolved at once"
  },
  {
   "property": "C111",
   "status": "partial",
   "theorems": [
    "Butte.C111_exact",
    "Butte.C111_inside",
    "Butte.C111_scalar",
    "Butte.C111_refuted",
    "Butte.C111_partial",
    "Butte.C111_aligned_partial",
    "Butte.C111_contract"
   ],
   "note": "refuted for every type that needs alignment: one of any two neighbouring locations gives a misaligned reference; proved that references are inside the buffer for all types, pointer widths and builds, and exactly which are aligned: all of them iff the alignment is 1"
  },
  {
   "property": "C112",
   "status": "partial",
   "theorems": [
    "Butte.C112_equal_reads",
    "Butte.C112_equal_trees",
    "Butte.C112_union_equal",
    "Butte.C112_same_calls",
    "Butte.C112_builder_equal",
    "Butte.C112_copies_differ",
    "Butte.C112_refuted",
    "Butte.C112_builder_refuted"
   ],
   "note": "False as stated: two tables of one buffer never compare equal, even if the same calls wrote them (C112_copies_differ, C112_refuted), and builders of different capacity compare unequal although no calls tell them apart. Proved: what compares equal reads the same and stands for the same tree; roots of messages that the same calls wrote compare equal, whatever the capacity."
  },
  {
   "property": "C113",
   "status": "partial",
   "theorems": [
    "Butte.C113_result",
    "Butte.C113_refuted",
    "Butte.C113_bound_partial",
    "Butte.C113_layered_partial"
   ],
   "note": "refuted: chains of structs need 5 frames of the analysis for each struct, on texts the parser takes with 76; proved for every schema, accepted or not: at most 8 + 5 per struct or union + vector nesting + 2 per part of the longest namespace, and per layer instead of per struct for layered schemas"
  },
  {
   "property": "C114",
   "status": "partial",
   "theorems": [
    "Butte.C114_refuted",
    "Butte.C114_required_refuted",
    "Butte.C114_partial",
    "Butte.C114_defaulted_partial",
    "Butte.C114_again"
   ],
   "note": "refuted: unset enums and union tags cannot be left unset by create, and required scalars that store their default cannot be written; proved for all bytes and all schemas without required scalars that have defaults (and with unions of strings, vectors and tables, and tables of less than 64 KiB): the copy can be written and reads as what was read with unset scalars and enums set to the default of the type, and a copy of a copy is the same"
  },
  {
   "property": "C115",
   "status": "partial",
   "theorems": [
    "Butte.C115_refuted",
    "Butte.C115_follow",
    "Butte.C115_vtable",
    "Butte.C115_table_get",
    "Butte.C115_vector",
    "Butte.C115_safe_slice",
    "Butte.C115_identifier",
    "Butte.C115_accessor",
    "Butte.C115_message_partial",
    "Butte.C115_more",
    "Butte.C115_iterate_partial",
    "Butte.C115_iterate_short"
   ],
   "note": "refuted for Vector::iter, which takes an unreadable length for zero; proved for all bytes and all other reads, for reading in full with the generated accessors, and for iterating where the length can be read"
  },
  {
   "property": "C116",
   "status": "proved",
   "theorems": [
    "Butte.C116_stream",
    "Butte.C116_cut",
    "Butte.C116_in_place",
    "Butte.C116_writes"
   ],
   "note": "for messages written with the generated code (SizedMessage) in the build mode in which they are read; that every tree with room has one is C116_writes. The caller that splits the stream is ours (readStream); the runtime has no such function."
  },
  {
   "property": "C117",
   "status": "proved",
   "theorems": [
    "Butte.C117_call",
    "Butte.C117_calls",
    "Butte.C117_buffer",
    "Butte.C117_message"
   ],
   "note": "for data below 4 GiB (single calls) and trees below 2 GiB, identifiers of four bytes; the count for trees is the number in the relation Conforms, which takes one vtable for each table although equal ones are shared."
  },
  {
   "property": "C118",
   "status": "proved",
   "theorems": [
    "Butte.C118_writes",
    "Butte.C118_reads",
    "Butte.C118_message",
    "Butte.C118_tree",
    "Butte.C118_tags_needed"
   ],
   "note": "at the level of the intermediate representation, for accepted schemas without struct fields (which have no working code); the caller that writes or reads a whole tree is ours (writeVal, readVal). C118_tags_needed shows that the condition on tags cannot be left out."
  },
  {
   "property": "C119",
   "status": "proved",
   "theorems": [
    "Butte.C119_equal_bytes",
    "Butte.C119_same_way",
    "Butte.C119_used_again",
    "Butte.C119_order_matters"
   ],
   "note": "C119_equal_bytes is for messages below 2^31 bytes whose trees are written by any calls that the relation Written describes; C119_same_way is for writeVal, the caller that writes depth first (ours), and C119_used_again for any type and whenever both writes complete. C119_order_matters is the witness that equal values can have different bytes."
  },
  {
   "property": "C12",
   "status": "proved",
   "theorems": [
    "Butte.C12_padding",
    "Butte.C12_push_padding"
   ],
   "note": ""
  },
  {
   "property": "C120",
   "status": "proved",
   "theorems": [
    "Butte.C120_slice_get",
    "Butte.C120_slice_fails",
    "Butte.C120_slice_unreadable",
    "Butte.C120_slice_iter"
   ],
   "note": "for buffers of at most isize::MAX bytes, as every Rust slice is. The model of safe_slice is for little-endian targets (C96 is about others) and also answers for bool, which is no SafeSliceAccess; alignment of the reference is C90."
  },
  {
   "property": "C121",
   "status": "proved",
   "theorems": [
    "Butte.C121_nested",
    "Butte.C121_passed_on",
    "Butte.C121_written"
   ],
   "note": "for messages below 2^31 bytes, with numbers and defaults understood as the generated code does (C88). Reading in full is ours (readVal). The bytes are looked at as such; that a slice of a wider type inside the inner message may be misaligned is C90."
  },
  {
   "property": "C13",
   "status": "proved",
   "theorems": [
    "Butte.C13_pushed_values_aligned",
    "Butte.C13_strings_and_vectors_aligned",
    "Butte.C13_end_vector_aligned",
    "Butte.C13_tables_aligned"
   ],
   "note": "Every pushed value, string, vector and table of every history ending in finish, relative to the first byte of finished_data."
  },
  {
   "property": "C14",
   "status": "proved",
   "theorems": [
    "Butte.C14_string_round_trip",
    "Butte.C14_byte_string_round_trip"
   ],
   "note": "For every string and byte sequence, any history before and any calls without reset after, data below 2 GiB."
  },
  {
   "property": "C15",
   "status": "proved",
   "theorems": [
    "Butte.C15_scalar_vector_round_trip"
   ],
   "note": "All scalar element types and lengths."
  },
  {
   "property": "C16",
   "status": "proved",
   "theorems": [
    "Butte.C16_vector_constructors_agree",
    "Butte.C16_vector_constructors_complete"
   ],
   "note": "Same location, bytes and later behaviour for create_vector, create_vector_direct and start/push/end; and each completes when the others do away from the 2 GiB limit."
  },
  {
   "property": "C17",
   "status": "proved",
   "theorems": [
    "Butte.C17_string_vector_round_trip"
   ],
   "note": "All lists of strings."
  },
  {
   "property": "C18",
   "status": "proved",
   "theorems": [
    "Butte.C18_table_round_trip",
    "Butte.C18_root",
    "Butte.C18_finished_table"
   ],
   "note": "Every table built from distinct usable slots in any idle state, followed by any calls without reset; offsets may point at anything written before the table; data below 2 GiB."
  },
  {
   "property": "C19",
   "status": "proved",
   "theorems": [
    "Butte.C19_default_elision_invisible"
   ],
   "note": ""
  },
  {
   "property": "C20",
   "status": "partial",
   "theorems": [
    "Butte.C20_refuted",
    "Butte.C20_partial"
   ],
   "note": "False of the code for -0.0 against +0.0; proved in all other cases."
  },
  {
   "property": "C21",
   "status": "proved",
   "theorems": [
    "Butte.C21_dedup",
    "Butte.C21_equal_vtables_shared",
    "Butte.C21_recorded_distinct"
   ],
   "note": "finish and reset forget the recorded vtables, so sharing is between tables not separated by either."
  },
  {
   "property": "C22",
   "status": "proved",
   "theorems": [
    "Butte.C22_same_calls_same_reads",
    "Butte.C22_same_buffer_same_reads"
   ],
   "note": ""
  },
  {
   "property": "C23",
   "status": "proved",
   "theorems": [
    "Butte.C23_identifier",
    "Butte.C18_root"
   ],
   "note": ""
  },
  {
   "property": "C24",
   "status": "proved",
   "theorems": [
    "Butte.C24_size_prefix",
    "Butte.C24_reads_agree"
   ],
   "note": ""
  },
  {
   "property": "C25",
   "status": "proved",
   "theorems": [
    "Butte.C25_required_exact"
   ],
   "note": ""
  },
  {
   "property": "C26",
   "status": "proved",
   "theorems": [
    "Butte.C26_out_of_place_panics",
    "Butte.C26_finish_twice_panics",
    "Butte.C26_finished_data",
    "Butte.C26_in_place_completes",
    "Butte.C26_start_table_iff",
    "Butte.C26_release_unchecked",
    "Butte.C26_create_vector_unchecked"
   ],
   "note": ""
  },
  {
   "property": "C27",
   "status": "partial",
   "theorems": [
    "Butte.C27_refuted",
    "Butte.C27_unbounded",
    "Butte.C27_partial"
   ],
   "note": "False of the code for totals; capacity and single-request checks proved."
  },
  {
   "property": "C28",
   "status": "proved",
   "theorems": [
    "Butte.C28_no_panic",
    "Butte.C28_new"
   ],
   "note": ""
  },
  {
   "property": "C29",
   "status": "proved",
   "theorems": [
    "Butte.C29_collapse"
   ],
   "note": ""
  },
  {
   "property": "C30",
   "status": "proved",
   "theorems": [
    "Butte.C30_field_offsets",
    "Butte.C30_bound_tight"
   ],
   "note": ""
  },
  {
   "property": "C31",
   "status": "partial",
   "theorems": [
    "Butte.C31_refuted",
    "Butte.C31_partial"
   ],
   "note": "False of the code (off by one); proved for indices strictly above num_fields."
  },
  {
   "property": "C32",
   "status": "partial",
   "theorems": [
    "Butte.C32_refuted",
    "Butte.C32_partial"
   ],
   "note": "False in release builds; proved for debug builds."
  },
  {
   "property": "C33",
   "status": "proved",
   "theorems": [
    "Butte.C33_create_read",
    "Butte.C33_finished"
   ],
   "note": ""
  },
  {
   "property": "C34",
   "status": "proved",
   "theorems": [
    "Butte.C34_default_args",
    "Butte.C34_default_exists",
    "Butte.C34_implicit_zero",
    "Butte.C34_explicit_integer",
    "Butte.C34_integer_range",
    "Butte.C34_bool_default",
    "Butte.C34_integer_double",
    "Butte.C34_integer_float",
    "Butte.C34_decimal_double",
    "Butte.C34_decimal_float"
   ],
   "note": ""
  },
  {
   "property": "C35",
   "status": "partial",
   "theorems": [
    "Butte.C35_refuted",
    "Butte.C35_create_exact_partial"
   ],
   "note": "False of the code: a required scalar or enum given its default value is not stored, and create then panics. The partial theorem says exactly when create panics for a caller that follows the protocol."
  },
  {
   "property": "C36",
   "status": "proved",
   "theorems": [
    "Butte.C36_missing",
    "Butte.C36_missing_union",
    "Butte.C36_required_some"
   ],
   "note": ""
  },
  {
   "property": "C37",
   "status": "proved",
   "theorems": [
    "Butte.C37_same_accessors",
    "Butte.C37_old_data_new_schema",
    "Butte.C37_new_data_old_schema"
   ],
   "note": ""
  },
  {
   "property": "C38",
   "status": "proved",
   "theorems": [
    "Butte.C38_slots",
    "Butte.C38_limit",
    "Butte.C38_release_wraps"
   ],
   "note": ""
  },
  {
   "property": "C39",
   "status": "proved",
   "theorems": [
    "Butte.C39_enum_conversion",
    "Butte.C39_distinct",
    "Butte.C33_create_read"
   ],
   "note": ""
  },
  {
   "property": "C40",
   "status": "partial",
   "theorems": [
    "Butte.C40_refuted",
    "Butte.C40_position_partial",
    "Butte.C40_base_type",
    "Butte.C40_values_range"
   ],
   "note": "False of the code: a variant without a value gets its position in the list, not the previous value plus one. The partial theorem gives the exact condition."
  },
  {
   "property": "C41",
   "status": "proved",
   "theorems": [
    "Butte.C41_union_round_trip",
    "Butte.C41_unknown_tag"
   ],
   "note": ""
  },
  {
   "property": "C42",
   "status": "partial",
   "theorems": [
    "Butte.C42_refuted",
    "Butte.C42_only_try_partial",
    "Butte.C42_accessors_refuted",
    "Butte.Ir.C42_schema_partial"
   ],
   "note": "False of the code: `try` is not substituted, and snake-casing the accessor name removes the underscore again. The partial theorem: no other identifier leaves the substitution as a reserved word, and all names of items, fields, variants and methods in the output of the analysis have been through it (C42_schema_partial)."
  },
  {
   "property": "C43",
   "status": "partial",
   "theorems": [
    "Butte.C43_refuted",
    "Butte.C43_collisions_partial",
    "Butte.C43_injective_partial"
   ],
   "note": "False of the code (type/ty, for/for_). The partial theorems give all collisions."
  },
  {
   "property": "C44",
   "status": "partial",
   "theorems": [
    "Butte.C44_names",
    "Butte.C44_no_super",
    "Butte.C44_refuted",
    "Butte.C44_prefix_refuted",
    "Butte.C44_generated_partial"
   ],
   "note": "Holds for schema names; false of the generated modules, which are named in snake case while paths are not, and when the item name is a prefix of the namespace. The partial theorem gives the conditions."
  },
  {
   "property": "C45",
   "status": "proved",
   "theorems": [
    "Butte.Ir.C45_terminates",
    "Butte.Ir.C45_progress"
   ],
   "note": ""
  },
  {
   "property": "C46",
   "status": "partial",
   "theorems": [
    "Butte.Ir.C46_refuted",
    "Butte.Ir.C46_resolved_partial",
    "Butte.Ir.C46_any_partial"
   ],
   "note": "False of the code: a declaration that is retried moves to the last namespace of the file, and references to it dangle. Proved for one namespace and for declare-before-use; for any schema with the moved names accounted for."
  },
  {
   "property": "C47",
   "status": "partial",
   "theorems": [
    "Butte.Ir.C47_refuted",
    "Butte.Ir.C47_types_refuted",
    "Butte.Ir.C47_partial",
    "Butte.Ir.C47_output_partial"
   ],
   "note": "False of the code: services are not checked, and moved declarations escape the check. Proved for types in one namespace or declared before use; outputs never define a type twice."
  },
  {
   "property": "C48",
   "status": "partial",
   "theorems": [
    "Butte.Ir.C48_refuted",
    "Butte.Ir.C48_partial",
    "Butte.Ir.C48_any_partial"
   ],
   "note": "False of the code (retried declarations). Proved for one namespace and for declare-before-use; in general the namespace is that one or the last."
  },
  {
   "property": "C49",
   "status": "partial",
   "theorems": [
    "Butte.Ir.C49_refuted",
    "Butte.Ir.C49_partial",
    "Butte.Ir.C49_plain_partial"
   ],
   "note": "False of the code when no declaration can be resolved at once; proved otherwise."
  },
  {
   "property": "C50",
   "status": "proved",
   "theorems": [
    "Butte.Ir.C50_tree",
    "Butte.Ir.C50_output"
   ],
   "note": ""
  },
  {
   "property": "C51",
   "status": "partial",
   "theorems": [
    "Butte.Parse.C51_partial",
    "Butte.Parse.C51_any_partial",
    "Butte.Parse.C51_exact_partial",
    "Butte.Parse.C51_refuted"
   ],
   "note": "False as stated: type names that begin with a builtin name, the words nan/inf/infinity anywhere after a number, and variant defaults that begin with true/false are not read back (C51_refuted). Proved for every tree without these, from the canonical text and from every other way of writing it; and exactly: a tree is read back iff it is read from any text at all, so the trees that fail cannot be written in any way (C51_exact_partial)."
  },
  {
   "property": "C52",
   "status": "proved",
   "theorems": [
    "Butte.Parse.C52_suffix",
    "Butte.Parse.C52_loops",
    "Butte.Parse.C52_nesting",
    "Butte.Parse.C52_schema"
   ],
   "note": ""
  },
  {
   "property": "C53",
   "status": "partial",
   "theorems": [
    "Butte.Parse.C53_partial",
    "Butte.Parse.C53_gap",
    "Butte.Parse.C53_leading",
    "Butte.Parse.C53_refuted",
    "Butte.Parse.C53_places_refuted"
   ],
   "note": "False as stated: a comment containing the word nan makes a table with a default unreadable; no white space is allowed before enum metadata and inside list brackets; a file of comments only is not an empty schema. Proved: all writings of a schema in texts without the words nan/inf/infinity are read as the same tree."
  },
  {
   "property": "C54",
   "status": "partial",
   "theorems": [
    "Butte.Parse.C54_decimal",
    "Butte.Parse.C54_hex_partial",
    "Butte.Parse.C54_hex_overflow",
    "Butte.Parse.C54_case",
    "Butte.Parse.C54_refuted"
   ],
   "note": "Decimal: proved in full. Hexadecimal: proved for digits below 2^127; -0x80000000000000000000000000000000 is an i128 but is not read (C54_refuted), larger ones leave an unreadable rest."
  },
  {
   "property": "C55",
   "status": "partial",
   "theorems": [
    "Butte.Parse.C55_partial",
    "Butte.Parse.C55_qualified_partial",
    "Butte.Parse.C55_builtin",
    "Butte.Parse.C55_field",
    "Butte.Parse.C55_refuted"
   ],
   "note": "False as stated (boolean is read as bool). Proved: holds exactly for the names that begin with no builtin name; no field with another name as type is read."
  },
  {
   "property": "C56",
   "status": "partial",
   "theorems": [
    "Butte.Parse.C56_exact_partial",
    "Butte.Parse.C56_ascii_partial",
    "Butte.Parse.C56_never_parseFailed",
    "Butte.Parse.C56_refuted"
   ],
   "note": "False as stated (the text } panics). Proved: an error is returned exactly when the first 30 bytes of the leftover text are whole characters, otherwise there is a panic."
  },
  {
   "property": "C57",
   "status": "partial",
   "theorems": [
    "Butte.Parse.C57_exact_partial",
    "Butte.Parse.C57_swallow",
    "Butte.Parse.C57_no_nan",
    "Butte.Parse.C57_refuted"
   ],
   "note": "False as stated: nan and inf defaults are never accepted and unrelated words later in the file make fields with defaults unreadable. Proved: a field with a default is read exactly when none of the words follows up to the end of the file; no schema read has a NaN default."
  },
  {
   "property": "C58",
   "status": "partial",
   "theorems": [
    "Butte.C58_refuted",
    "Butte.C58_partial"
   ],
   "note": "False of the code: with only 1- or 2-byte values written, padding separates the identifier from the root offset. C23 is the part that holds."
  },
  {
   "property": "C59",
   "status": "proved",
   "theorems": [
    "Butte.Ir.C59_accepted_iff"
   ],
   "note": ""
  },
  {
   "property": "C60",
   "status": "proved",
   "theorems": [
    "Butte.Ir.C60_no_panic"
   ],
   "note": ""
  },
  {
   "property": "C61",
   "status": "proved",
   "theorems": [
    "Butte.Parse.C61_sound",
    "Butte.Parse.C61_element",
    "Butte.Parse.C61_exact",
    "Butte.Parse.C61_unambiguous"
   ],
   "note": "Assumes of the crate hexf-parse only that it refuses texts without 0x (HexfPrefix)."
  },
  {
   "property": "C62",
   "status": "partial",
   "theorems": [
    "Butte.Parse.C62_partial",
    "Butte.Parse.C62_hex_never",
    "Butte.Parse.C62_only_decimal",
    "Butte.Parse.C62_refuted"
   ],
   "note": "Decimal: proved, in texts without the words nan/inf/infinity after the literal. Hexadecimal fractions: false, they are never accepted (C62_hex_never, C62_refuted)."
  },
  {
   "property": "C63",
   "status": "proved",
   "theorems": [
    "Butte.Parse.C63_reprint",
    "Butte.Parse.C63_print",
    "Butte.Parse.C63_normal",
    "Butte.Parse.C63_trees"
   ],
   "note": "For every accepted text. HexfPrefix (parse_hexf64 refuses a text without 0x) is the only assumption about a library, as in C61 and C62."
  },
  {
   "property": "C64",
   "status": "proved",
   "theorems": [
    "Butte.C64_tree_round_trip",
    "Butte.C64_finished",
    "Butte.C64_finish_calls"
   ],
   "note": "Trees and the relation Written are in Gen/Tree; reading with readVal, a caller that visits every accessor and every vector element."
  },
  {
   "property": "C65",
   "status": "proved",
   "theorems": [
    "Butte.C65_write_read",
    "Butte.C65_injective"
   ],
   "note": "Conforms (Gen/Write) gives the trees of a schema with a bound of their size; 200 KiB below the 2 GiB limit are kept free. Required scalars equal to their default are excluded (C35 is false of the code)."
  },
  {
   "property": "C66",
   "status": "proved",
   "theorems": [
    "Butte.C66_other_version",
    "Butte.C66_finished"
   ],
   "note": "Compatible and Evolved are in Gen/Evolve. Both directions (reader newer or older), per table. New fields of the reader must not be required: the accessor of such a field fails on old data, C36/C37."
  },
  {
   "property": "C67",
   "status": "proved",
   "theorems": [
    "Butte.C67_more_variants",
    "Butte.C67_finished",
    "Butte.C67_unknown_variant",
    "Butte.C67_unknown_member"
   ],
   "note": "Widens and MoreVariants are in Gen/Evolve. Unknown variants inside vectors of enums are not covered here (C38)."
  },
  {
   "property": "C68",
   "status": "partial",
   "theorems": [
    "Butte.Gen.C68_companion",
    "Butte.Gen.C68_refuted",
    "Butte.Gen.C68_names",
    "Butte.Gen.C68_tag_partial",
    "Butte.Gen.C68_compiles_partial",
    "Butte.Gen.C68_enum",
    "Butte.Gen.C68_get_type",
    "Butte.Gen.C68_get_type_accessor"
   ],
   "note": "False for a union field named `type` (the accessor calls ty_type, the tag field is type_type) and for names made of underscores only; C68_names gives the exact condition. All else is proved in full."
  },
  {
   "property": "C69",
   "status": "proved",
   "theorems": [
    "Butte.Gen.C69_accessors",
    "Butte.Gen.C69_whole_graph",
    "Butte.Gen.C69_bound_irrelevant"
   ],
   "note": "Release builds; in debug builds arithmetic checks can panic on hostile bytes (C03_debug_panics). The number of values read is not bounded by the length: parts of a buffer can be shared."
  },
  {
   "property": "C70",
   "status": "partial",
   "theorems": [
    "Butte.Gen.C70_refuted",
    "Butte.Gen.C70_prefix_refuted",
    "Butte.Gen.C70_one_namespace_partial",
    "Butte.Gen.C70_partial"
   ],
   "note": "False with several namespaces: modules are named in snake case but paths are not, and a type named like the namespace that uses it gets an empty path. Holds without conditions in one namespace; with several, if neither of the two happens and types are declared before use (C46)."
  },
  {
   "property": "C71",
   "status": "partial",
   "theorems": [
    "Butte.Gen.C71_refuted",
    "Butte.Gen.C71_iff_partial",
    "Butte.Gen.C71_one_namespace_partial"
   ],
   "note": "False in four ways (T with TArgs or TBuilder; enums whose names agree in snake case; a type named butte_gen next to a union; namespaces that agree in snake case). C71_iff_partial gives the exact condition for every accepted schema, C71_one_namespace_partial in terms of the schema text for one namespace. Rpc code is up to the user's RpcGenerator."
  },
  {
   "property": "C72",
   "status": "partial",
   "theorems": [
    "Butte.Gen.C72_refuted",
    "Butte.Gen.C72_exact_partial",
    "Butte.Gen.C72_all_partial"
   ],
   "note": "False in nine ways (C72_refuted). C72_exact_partial gives the exact condition in terms of the declarations, for schemas in one namespace or declared before use (C46). `Compiles` is the model of Gen/Compile."
  },
  {
   "property": "C73",
   "status": "partial",
   "theorems": [
    "Butte.Gen.C73_accepted_partial",
    "Butte.Gen.C73_written_partial"
   ],
   "note": "Composes C53, C59, C46, C72, C69 and C65. Missing: several namespaces with forward references (false, C46), tables without working code (C72), texts with special number words (C57)."
  },
  {
   "property": "C74",
   "status": "partial",
   "theorems": [
    "Butte.Rs.C74_create_partial",
    "Butte.Rs.C74_accessor_partial",
    "Butte.Rs.C74_default_partial",
    "Butte.Rs.C74_root_partial",
    "Butte.Rs.C74_enum_partial",
    "Butte.Rs.C74_get_type_partial",
    "Butte.Rs.C74_round_trip_partial"
   ],
   "note": "Under `Setting`: the analysis placed every declaration (C46), names are distinct (C71) and paths lead to their types (C70), no name is captured (C75) - each false in general. setting_one derives it for one namespace from the declarations. Evaluation is untyped: type errors that do not make evaluation go wrong are not seen."
  },
  {
   "property": "C75",
   "status": "partial",
   "theorems": [
    "Butte.Rs.C75_refuted",
    "Butte.Rs.C75_parameter_refuted",
    "Butte.Rs.C75_outside_iff_partial",
    "Butte.Rs.C75_partial",
    "Butte.Rs.C75_one_namespace_partial"
   ],
   "note": "False: a table Option, Result, From, Default or u8, a namespace butte or std, or a table B (the type parameter of every create) is accepted and changes what names mean. C75_outside_iff_partial gives the condition for paths to the outside; C75_one_namespace_partial states it on the declarations."
  },
  {
   "property": "C76",
   "status": "partial",
   "theorems": [
    "Butte.Rs.C76_exact",
    "Butte.Rs.C76_refuted",
    "Butte.Rs.C76_declared_partial",
    "Butte.Rs.C76_several_partial"
   ],
   "note": "False: C76_refuted gives nine accepted schemas on which the generator panics. C76_exact says for every accepted schema exactly when it gets through; the partial theorems give conditions on the declarations."
  },
  {
   "property": "C77",
   "status": "partial",
   "theorems": [
    "Butte.Rs.C77_accepted_partial",
    "Butte.Rs.C77_several_partial",
    "Butte.Rs.C77_written_partial"
   ],
   "note": "Composes C61, C59, C46, C70-C76, C69 and C65. Missing, because false: schemas that the generator panics on (C76), whose names clash (C71) or are captured (C75), whose paths do not lead to their types (C70), forward references between namespaces (C46), tables without working code (C72)."
  },
  {
   "property": "C78",
   "status": "partial",
   "theorems": [
    "Butte.Rs.C78_refuted",
    "Butte.Rs.C78_iff_partial",
    "Butte.Rs.C78_accepted_partial",
    "Butte.Rs.C78_several_partial",
    "Butte.Rs.C78_written_partial"
   ],
   "note": "False: C78_refuted gives seven accepted schemas whose code is refused. C78_iff_partial says exactly when the program is well-typed, given C70, C71 and C75; the others derive it from the declarations, together with C77. Moves, borrows, lifetimes, mutability, visibility and derives are outside the typing rules (see C80, C84, C85)."
  },
  {
   "property": "C79",
   "status": "partial",
   "theorems": [
    "Butte.Src.C79_defined",
    "Butte.Src.C79_partial",
    "Butte.Src.C79_refuted",
    "Butte.Src.C79_accepted_partial",
    "Butte.Src.C79_several_partial",
    "Butte.Src.C79_written_partial"
   ],
   "note": "C79_defined is for all lists of nodes. C79_partial asks that the names can be read back; C79_refuted: two accepted schemas whose tokens are not Rust, because a module or a variant is named by a keyword. The others derive it from the conditions of C78, and give C77 and C78 of the same program. Not covered: the text of the tokens (spacing, escapes) and how floats are printed."
  },
  {
   "property": "C80",
   "status": "partial",
   "theorems": [
    "Butte.Src.C80_iff",
    "Butte.Src.C80_refuted",
    "Butte.Src.C80_accepted_partial",
    "Butte.Src.C80_several_partial"
   ],
   "note": "C80_iff: of any file whose names can be read back, exactly when every union has a member that borrows; C80_refuted: a union of enums declares a lifetime that nothing uses. The others derive it from the conditions of C78, and give C77-C79 of the same program. Whether references live long enough (borrow checking) is not looked at."
  },
  {
   "property": "C81",
   "status": "partial",
   "theorems": [
    "Butte.Src.C81_declared_partial",
    "Butte.Src.C81_calls",
    "Butte.Src.C81_none",
    "Butte.Src.C81_woven_partial",
    "Butte.Src.C81_again_refuted",
    "Butte.Src.C81_accepted_partial",
    "Butte.Src.C81_several_partial"
   ],
   "note": "C81_calls and C81_none are for all trees and generators. C81_declared_partial needs one namespace or declaration before use (C48), C81_woven_partial names that can be read back (C79). C81_again_refuted: a second build_tokens writes no services."
  },
  {
   "property": "C82",
   "status": "partial",
   "theorems": [
    "Butte.Cli.C82_ok",
    "Butte.Cli.C82_fails",
    "Butte.Cli.C82_included",
    "Butte.Cli.C82_all",
    "Butte.Cli.C82_main",
    "Butte.Cli.C82_in_place",
    "Butte.Cli.C82_keeps_refuted",
    "Butte.Cli.C82_rustfmt_refuted",
    "Butte.Cli.C82_same_name_refuted"
   ],
   "note": "C82_ok, C82_fails, C82_main say exactly what happens. Three parts of the statement are false: a failure empties the output (C82_keeps_refuted), a failing rustfmt is not noticed (C82_rustfmt_refuted), schemas of the same name overwrite each other's code (C82_same_name_refuted; C82_all is for different names); with the same file as input and output the schema is lost (C82_in_place). The text of tokens is a parameter."
  },
  {
   "property": "C83",
   "status": "partial",
   "theorems": [
    "Butte.Src.C83_lawful",
    "Butte.Src.C83_read",
    "Butte.Src.C83_unique",
    "Butte.Src.C83_makes_partial",
    "Butte.Src.C83_several_partial",
    "Butte.Src.C83_main_partial",
    "Butte.Src.C83_number"
   ],
   "note": "C83_read and C83_unique are for all tokens. The theorems about schemas need names in ASCII, the conditions of C79, and that `Display for TokenStream` writes tokens in one of the ways of Src/Spell (class LawfulRender; C83_lawful: there is one). rustfmt is left out."
  },
  {
   "property": "C84",
   "status": "partial",
   "theorems": [
    "Butte.Src.C84_partial",
    "Butte.Src.C84_accepted_partial",
    "Butte.Src.C84_several_partial"
   ],
   "note": "C84_partial is for every generated file whose names can be read back, do not clash, lead where they should and hide nothing the code relies on; the other two derive that from the schema text, with C80 and C78. Without those conditions it is false (names may be hidden, C77). Rules: Src/Traits; left out: traits other than those that the code derives, implements or asks for."
  },
  {
   "property": "C85",
   "status": "partial",
   "theorems": [
    "Butte.Src.C85_partial",
    "Butte.Src.C85_accepted_partial",
    "Butte.Src.C85_several_partial"
   ],
   "note": "C85_partial is for every generated file whose tables compile (C68, C72), whose names can be read back, do not clash, lead where they should and hide nothing the code relies on; the other two derive that from the schema text, with C84 and C78. Rules: Src/Own; left out: how long references live and whether two of them get in each other's way."
  },
  {
   "property": "C86",
   "status": "partial",
   "theorems": [
    "Butte.Src.C86_partial",
    "Butte.Src.C86_docs_refuted",
    "Butte.Src.C86_accepted_partial",
    "Butte.Src.C86_several_partial"
   ],
   "note": "C86_partial is for every generated file whose names can be read back, do not clash, lead where they should and hide nothing the code relies on; the others derive that from the schema text, with C85 and C78. C86_docs_refuted: the accessor of a union field has no documentation, only that of its tag field has. Also shown: a builder offers new and finish only, its add methods are private."
  },
  {
   "property": "C87",
   "status": "partial",
   "theorems": [
    "Butte.Src.C87_partial",
    "Butte.Src.C87_wellTyped_partial",
    "Butte.Src.C87_accepted_partial",
    "Butte.Src.C87_several_partial"
   ],
   "note": "C87_partial is for every generated file whose names can be read back, do not clash, lead where they should and hide nothing the code relies on, and whose schema keeps to Acceptable, which by C78 is needed even without references (C87_wellTyped_partial); the other two derive that from the schema text, with C85 and C78. Rules: Src/Check; left out: implied bounds of types."
  },
  {
   "property": "C88",
   "status": "partial",
   "theorems": [
    "Butte.C88_reads",
    "Butte.C88_identifier",
    "Butte.C88_unique",
    "Butte.C88_flatbuffers_partial",
    "Butte.C88_defaulted",
    "Butte.C88_refuted"
   ],
   "note": "C88_reads and C88_unique are the full statement with numbers and defaults understood as the generated code does. By FlatBuffers' own rules an absent scalar without default is 0 and variants count on: C88_flatbuffers_partial says what is read then (nothing instead of 0, for enums whose numbers agree), C88_defaulted is the exact case, C88_refuted the counterexample. The format is Gen/Format, which models no code."
  },
  {
   "property": "C89",
   "status": "partial",
   "theorems": [
    "Butte.C89_writes",
    "Butte.C89_flatbuffers_partial",
    "Butte.C89_tree",
    "Butte.C89_tree_flatbuffers_partial",
    "Butte.C89_refuted"
   ],
   "note": "C89_writes and C89_tree are the full statement with the numbers of enum variants that the generated code gives them; by FlatBuffers' own rules this holds for enums whose numbers agree (the partial ones), and C89_refuted is the counterexample. Hypotheses: a Regular history (C21), below 2 GiB, in release mode not finished before. Scalars up to the sign of a zero that equals its default (C20)."
  },
  {
   "property": "C90",
   "status": "partial",
   "theorems": [
    "Butte.C90_same",
    "Butte.C90_follow_inside",
    "Butte.C90_parts_inside",
    "Butte.C90_slice_inside",
    "Butte.C90_read_inside",
    "Butte.C90_build_inside",
    "Butte.C90_create_inside",
    "Butte.C90_message_partial",
    "Butte.C90_flatbuffers_partial",
    "Butte.C90_build_partial",
    "Butte.C90_build_any_partial",
    "Butte.C90_create_partial",
    "Butte.C90_refuted_address",
    "Butte.C90_refuted_capacity",
    "Butte.C90_refuted_bool"
   ],
   "note": "Inside the buffer: proved for all bytes, all calls and all create functions. Alignment fails for buffers at addresses that are no multiples of 4 and for builders with capacities that are none (C90_refuted_address, C90_refuted_capacity); it holds at addresses that are multiples of 8, for messages in the format and for callers that follow the protocol (the partial ones). Slices of bool take any byte for a bool (C90_refuted_bool); generated accessors do not. Accesses are recorded by Mem/Model, which computes the same as the other models (C90_same)."
  },
  {
   "property": "C91",
   "status": "partial",
   "theorems": [
    "Butte.C91_later_reader",
    "Butte.C91_earlier_reader",
    "Butte.C91_more_variants",
    "Butte.C91_both",
    "Butte.C91_flatbuffers_partial"
   ],
   "note": "The first four are the full statement with numbers and defaults understood as the generated code does, for fields at the end that are not required and for new variants at the end. By FlatBuffers' own rules as far as C88 goes (C91_flatbuffers_partial; C88_refuted is the counterexample)."
  },
  {
   "property": "C92",
   "status": "partial",
   "theorems": [
    "Butte.Rs.C92_accepted_partial",
    "Butte.Rs.C92_several_partial",
    "Butte.Rs.C92_written_partial",
    "Butte.Rs.C92_versions_partial",
    "Butte.Rs.C92_exchange_partial"
   ],
   "note": "Composes C61, C59, C77, C88, C89 and C91. Missing, because false: the accepted schemas that C70-C78 and C88, C89 refute (no working code, clashing names, numbers of variants and defaults other than FlatBuffers'). At most 32765 fields in a table."
  },
  {
   "property": "C93",
   "status": "proved",
   "theorems": [
    "Butte.C93_memory",
    "Butte.C93_memory_any",
    "Butte.C93_capacity",
    "Butte.C93_doubling",
    "Butte.C93_allocation",
    "Butte.C93_refuted"
   ],
   "note": "C93_refuted shows that the room for one more vtable in C93_memory cannot be left out. What is bounded is the length of the buffer; what the allocator reserves beyond the length of a Vec is not modelled."
  },
  {
   "property": "C94",
   "status": "proved",
   "theorems": [
    "Butte.C94_accessor",
    "Butte.C94_root",
    "Butte.C94_element",
    "Butte.C94_value",
    "Butte.C94_refuted"
   ],
   "note": "C94_refuted is the part of the statement that says there is no bound by the size of the message. Counted are the uses of raw pointers that Mem/Model records; checking that strings are UTF-8 is safe code, linear in the string, and not counted."
  },
  {
   "property": "C95",
   "status": "partial",
   "theorems": [
    "Butte.C95_same",
    "Butte.C95_same_rest",
    "Butte.C95_inside_partial",
    "Butte.C95_generated_inside",
    "Butte.C95_release_partial",
    "Butte.C95_str_panics",
    "Butte.C95_reads_partial",
    "Butte.C95_message_partial",
    "Butte.C95_refuted_slice",
    "Butte.C95_refuted_str",
    "Butte.C95_refuted_debug"
   ],
   "note": "False of the code, and refuted, with 32-bit pointers: in release builds slices of types of more than one byte reach out of the buffer if their length wraps around (C95_refuted_slice), a string whose end wraps around to a zero byte panics (C95_refuted_str; C95_str_panics says exactly when); in debug builds the offset of a table without fields may overflow (C95_refuted_debug). Everything else is proved, with no bound on sizes or depth. Writing is C98."
  },
  {
   "property": "C96",
   "status": "proved",
   "theorems": [
    "Butte.C96_emplace",
    "Butte.C96_read",
    "Butte.C96_portable",
    "Butte.C96_swap_back",
    "Butte.C96_slice",
    "Butte.C96_direct",
    "Butte.C96_exactly"
   ],
   "note": "C96_emplace and C96_read make every other theorem about the bytes stored and the values read hold on machines of either order, as far as the functions used exist there: `<&[T]>::follow` exists on little-endian machines only. `SafeSliceAccess` has no implementation for `bool`, for which a comment in builder.rs says that create_vector_direct is always safe."
  },
  {
   "property": "C97",
   "status": "proved",
   "theorems": [
    "Butte.C97_defined",
    "Butte.C97_cells_matter"
   ],
   "note": "C97_defined says both that nothing is read before it is written and that the result is that of the model the other properties are about. The buffer of the builder itself is filled with zeros whenever it grows and so needs no such argument."
  },
  {
   "property": "C98",
   "status": "proved",
   "theorems": [
    "Butte.C98_same",
    "Butte.C98_run",
    "Butte.C98_fits",
    "Butte.C98_exactly",
    "Butte.C98_wider",
    "Butte.C98_room"
   ],
   "note": "Arguments that fit into memory: no slice handed over, and no vector started, of more than isize::MAX bytes (Word.Holds). Reading what was written is C95."
  },
  {
   "property": "C99",
   "status": "proved",
   "theorems": [
    "Butte.C99_result",
    "Butte.C99_bound",
    "Butte.C99_reads",
    "Butte.C99_quadratic",
    "Butte.C99_linear_false"
   ],
   "note": "What a step is: DESIGN.md, simplifications. C99_result and C99_reads tie the counting parser to the parser and to the text it reads. The exponent 6 is not claimed to be the best."
  }
 ]
}