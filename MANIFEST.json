{
 "claims": [
  {
   "property": "C01",
   "status": "partial",
   "theorems": [
    "Commsdsl.Props.C01_intmax_exact",
    "Commsdsl.Props.C01_intmax_rejects",
    "Commsdsl.Props.C01_uintmax_exact",
    "Commsdsl.Props.C01_unsigned_exact_partial",
    "Commsdsl.Props.C01_unsigned_wraps",
    "Commsdsl.Props.C01_unsigned_wraps_witness",
    "Commsdsl.Props.C01_trailing_text_witness",
    "Commsdsl.Props.C01_intmax_sound",
    "Commsdsl.Props.C01_uintmax_sound"
   ],
   "note": "Exact for all three readers on texts that are numbers in range; the code violates the full claim: the 32-bit reader wraps modulo 2^32 and trailing text is ignored (witness theorems)."
  },
  {
   "property": "C02",
   "status": "proved",
   "theorems": [
    "Commsdsl.Props.C02_name_iff",
    "Commsdsl.Props.C02_field_names"
   ],
   "note": ""
  },
  {
   "property": "C03",
   "status": "partial",
   "theorems": [
    "Commsdsl.Props.C03_refname_exact",
    "Commsdsl.Props.C03_paths_accepted_partial",
    "Commsdsl.Props.C03_digit_component_witness",
    "Commsdsl.Props.C03_dots",
    "Commsdsl.Props.C03_external"
   ],
   "note": "The exact accepted language is proved; the intended iff is false in the code: components after the first may start with a digit."
  },
  {
   "property": "C04",
   "status": "proved",
   "theorems": [
    "Commsdsl.Props.C04_trim_exact",
    "Commsdsl.Props.C04_trim_unique",
    "Commsdsl.Props.C04_trim_idempotent",
    "Commsdsl.Props.C04_normalise_char",
    "Commsdsl.Props.C04_normalise_run",
    "Commsdsl.Props.C04_normalise_nil",
    "Commsdsl.Props.C04_normalise_content",
    "Commsdsl.Props.C04_normalise_idempotent"
   ],
   "note": ""
  },
  {
   "property": "C05",
   "status": "proved",
   "theorems": [
    "Commsdsl.Props.C05_range_iff",
    "Commsdsl.Props.C05_range_no_ub"
   ],
   "note": ""
  },
  {
   "property": "C06",
   "status": "proved",
   "theorems": [
    "Commsdsl.Props.C06_bool_iff"
   ],
   "note": ""
  },
  {
   "property": "C07",
   "status": "proved",
   "theorems": [
    "Commsdsl.Props.C07_units_iff",
    "Commsdsl.Props.C07_unambiguous",
    "Commsdsl.Props.C07_reachable"
   ],
   "note": ""
  },
  {
   "property": "C08",
   "status": "proved",
   "theorems": [
    "Commsdsl.Props.C08_string_value",
    "Commsdsl.Props.C08_every_literal_expressible",
    "Commsdsl.Props.C08_unsupported_literal"
   ],
   "note": "The referenced value itself (parseStrToString on another field) is a parameter."
  },
  {
   "property": "C09",
   "status": "partial",
   "theorems": [
    "Commsdsl.Props.C09_bounds_exact",
    "Commsdsl.Props.C09_type_bounds",
    "Commsdsl.Props.C09_accepted_length",
    "Commsdsl.Props.C09_accepted_bounds",
    "Commsdsl.Props.C09_zero_bits_undefined",
    "Commsdsl.Props.C09_zero_bits_accepted_witness"
   ],
   "note": "Exact for every positive number of wire bits; bitLength=\"0\" reaches an undefined shift (witness)."
  },
  {
   "property": "C10",
   "status": "partial",
   "theorems": [
    "Commsdsl.Props.C10_default_exact",
    "Commsdsl.Props.C10_default_specials_of_type_partial",
    "Commsdsl.Props.C10_length_witness"
   ],
   "note": "Values are exactly those denoted by the text and representable in the type; that they fit the declared length is false in the code (only a warning), see the witness."
  },
  {
   "property": "C100",
   "status": "partial",
   "theorems": [
    "Commsdsl.Props.C100_int_partial",
    "Commsdsl.Props.C100_enum",
    "Commsdsl.Props.C100_set",
    "Commsdsl.Props.C100_offset_partial",
    "Commsdsl.Props.C100_display_partial",
    "Commsdsl.Props.C100_scaling_partial",
    "Commsdsl.Props.C100_default_partial",
    "Commsdsl.Props.C100_enum_default_partial",
    "Commsdsl.Props.C100_order",
    "Commsdsl.Props.C100_ref_partial",
    "Commsdsl.Props.C100_ref_witness",
    "Commsdsl.Props.C100_smallest_witness"
   ],
   "note": "Not for unsigned fields with an offset above the largest wire value (C13). A reference in a bitfield to a field with signExt=\"false\" is extended with its sign; texts of -2^63 are computed with undefined behaviour (witnesses). The meaning of the options is that of the documentation of the COMMS library."
  },
  {
   "property": "C101",
   "status": "partial",
   "theorems": [
    "Commsdsl.Props.C101_bundle",
    "Commsdsl.Props.C101_message_ok",
    "Commsdsl.Props.C101_message_partial",
    "Commsdsl.Props.C101_prepared_partial",
    "Commsdsl.Props.C101_message_prepared_partial",
    "Commsdsl.Props.C101_status_witness",
    "Commsdsl.Props.C101_ref_witness"
   ],
   "note": "The order is proved for all members and readers. A message that fails on invalid values reports invalid data when there is not enough data; a reference to an optional field with a condition is not prepared (witnesses). What is prepared is characterised for bundles without reuse and messages without reuse and copyFieldsFrom."
  },
  {
   "property": "C102",
   "status": "partial",
   "theorems": [
    "Commsdsl.Props.C102_key_wire",
    "Commsdsl.Props.C102_keys_partial",
    "Commsdsl.Props.C102_last_partial",
    "Commsdsl.Props.C102_other_witness",
    "Commsdsl.Props.C102_invalid_witness",
    "Commsdsl.Props.C102_fallback_witness",
    "Commsdsl.Props.C102_prepared_witness",
    "Commsdsl.Props.C102_enum_witness"
   ],
   "note": "Proved for all variants of keyed bundles, and for a last member without key whose first field is read like the keys and takes every value. Otherwise the generated function differs from reading in order (witnesses): the first field of the last member is not compared with the keys in type or length, its valid values are not checked, an input that starts with a key is not left to the last member, the read function of a bundle itself is bypassed, and a last member that starts with an enum is taken for one with an integer (wrong cast)."
  },
  {
   "property": "C103",
   "status": "partial",
   "theorems": [
    "Commsdsl.Props.C103_int_ranges",
    "Commsdsl.Props.C103_float_ranges",
    "Commsdsl.Props.C103_float_generated_partial",
    "Commsdsl.Props.C103_int_specials",
    "Commsdsl.Props.C103_float_specials",
    "Commsdsl.Props.C103_accepted_specials",
    "Commsdsl.Props.C103_float_values",
    "Commsdsl.Props.C103_set_versions",
    "Commsdsl.Props.C103_names",
    "Commsdsl.Props.C103_sequences",
    "Commsdsl.Props.C103_messages",
    "Commsdsl.Props.C103_generated_messages",
    "Commsdsl.Props.C103_enum_ranges",
    "Commsdsl.Props.C103_enum_values_partial",
    "Commsdsl.Props.C103_enum_witness",
    "Commsdsl.Props.C103_nan_witness"
   ],
   "note": "A valid range of a float from -inf to a special value that is nan makes the comparator of the generator no strict weak order (undefined behaviour of std::sort); the order of two names of one value of a 64 bit enum is left open (witnesses)."
  },
  {
   "property": "C104",
   "status": "partial",
   "theorems": [
    "Commsdsl.Props.C104_read",
    "Commsdsl.Props.C104_total",
    "Commsdsl.Props.C104_asked",
    "Commsdsl.Props.C104_asked_other",
    "Commsdsl.Props.C104_programs",
    "Commsdsl.Props.C104_queried",
    "Commsdsl.Props.C104_example",
    "Commsdsl.Props.C104_empty_witness",
    "Commsdsl.Props.C104_names",
    "Commsdsl.Props.C104_removed",
    "Commsdsl.Props.C104_without"
   ],
   "note": "Proved for command lines without empty texts. An empty text is skipped even where the value of an option is expected, and the next text becomes the value (witness)."
  },
  {
   "property": "C105",
   "status": "proved",
   "theorems": [
    "Commsdsl.Props.C105_inputs",
    "Commsdsl.Props.C105_number",
    "Commsdsl.Props.C105_number_witness",
    "Commsdsl.Props.C105_versions",
    "Commsdsl.Props.C105_code_version",
    "Commsdsl.Props.C105_bundle",
    "Commsdsl.Props.C105_plugin",
    "Commsdsl.Props.C105_plugins",
    "Commsdsl.Props.C105_number_plus"
   ],
   "note": "A text that is no decimal number below 2^32 is taken as some number without an error (witness). File access is a parameter of the model."
  },
  {
   "property": "C106",
   "status": "partial",
   "theorems": [
    "Commsdsl.Props.C106_stack_partial",
    "Commsdsl.Props.C106_unique",
    "Commsdsl.Props.C106_witness",
    "Commsdsl.Props.C106_before_witness",
    "Commsdsl.Props.C106_custom_witness",
    "Commsdsl.Props.C106_endless_witness",
    "Commsdsl.Props.C106_inside_witness"
   ],
   "note": "Proved for all accepted frames with different layer names, where checksums without `until` are behind the payload and no custom layer is a checksum without `until`: the loops end, with an error exactly if a layer is misplaced, else with the wire order of the schema, and each suffix layer covers exactly the layers from the one it names. Otherwise it fails (witnesses): a checksum with `from` before the payload makes the loop run out of the list, two custom checksums with the same `checksumFrom` make the generator loop for ever, a custom checksum behind a checksum is written before it; a checksum that begins behind the payload covers the payload."
  },
  {
   "property": "C107",
   "status": "proved",
   "theorems": [
    "Commsdsl.Props.C107_definitions",
    "Commsdsl.Props.C107_stack"
   ],
   "note": "For every list of layers."
  },
  {
   "property": "C108",
   "status": "partial",
   "theorems": [
    "Commsdsl.Props.C108_fields",
    "Commsdsl.Props.C108_messages",
    "Commsdsl.Props.C108_layers_partial",
    "Commsdsl.Props.C108_extension_partial",
    "Commsdsl.Props.C108_sides",
    "Commsdsl.Props.C108_factories",
    "Commsdsl.Props.C108_sequences",
    "Commsdsl.Props.C108_layer_witness",
    "Commsdsl.Props.C108_interface_witness",
    "Commsdsl.Props.C108_payload_witness"
   ],
   "note": "Full for global fields, messages and layers themselves. The options of fields defined in a layer and of the fields of interfaces are referred to but never declared (witnesses; the generated code does not compile when they are used). With the main namespace among the options, the data view and bare metal options of payload fields name a base that does not exist (witness)."
  },
  {
   "property": "C109",
   "status": "partial",
   "theorems": [
    "Commsdsl.Props.C109_message",
    "Commsdsl.Props.C109_interface",
    "Commsdsl.Props.C109_field",
    "Commsdsl.Props.C109_content_partial",
    "Commsdsl.Props.C109_float_endian"
   ],
   "note": "Full for attributes of messages, interfaces and fields and for the content of all kinds of fields but one: a float that reuses another one loses its endian (witness): ParseFloatFieldImpl.cpp:315-329 does not look at what it has. Valid ranges of the copy are normalised once more (same values by C11)."
  },
  {
   "property": "C11",
   "status": "partial",
   "theorems": [
    "Commsdsl.Props.C11_declared",
    "Commsdsl.Props.C11_field",
    "Commsdsl.Props.C11_declared_valid_partial",
    "Commsdsl.Props.C11_valid_set_kept_partial",
    "Commsdsl.Props.C11_no_undefined_partial",
    "Commsdsl.Props.C11_unsigned_ranges_lost_witness",
    "Commsdsl.Props.C11_overflow_witness"
   ],
   "note": "Collection from the text is exact for all fields; the valid set is kept for ranges within the signed 64-bit span; false for uint64/uintvar ranges above it (witness), overflow at INT64_MAX (witness)."
  },
  {
   "property": "C110",
   "status": "partial",
   "theorems": [
    "Commsdsl.Props.C110_least_partial",
    "Commsdsl.Props.C110_least_reached_partial",
    "Commsdsl.Props.C110_most_partial",
    "Commsdsl.Props.C110_most_reached_partial",
    "Commsdsl.Props.C110_none",
    "Commsdsl.Props.C110_pseudo_witness",
    "Commsdsl.Props.C110_list_witness",
    "Commsdsl.Props.C110_limit_witness"
   ],
   "note": "Both bounds hold and are reached for messages without pseudo fields whose prefixes and list elements are always there in full; false for pseudo fields, list elements with later members and prefixes limited by the available length: the generated assertion fails (witnesses)."
  },
  {
   "property": "C111",
   "status": "partial",
   "theorems": [
    "Commsdsl.Props.C111_one_text",
    "Commsdsl.Props.C111_plain_partial",
    "Commsdsl.Props.C111_backslash",
    "Commsdsl.Props.C111_names_partial",
    "Commsdsl.Props.C111_witness",
    "Commsdsl.Props.C111_description_witness"
   ],
   "note": "Texts without backslashes are set as they are; texts with one never are (proved for all of them); descriptions in value tables are not escaped (witness)."
  },
  {
   "property": "C112",
   "status": "partial",
   "theorems": [
    "Commsdsl.Props.C112_labels",
    "Commsdsl.Props.C112_parts_partial",
    "Commsdsl.Props.C112_part_witness"
   ],
   "note": "Labels of elements are unique; labels of parts are, unless a name ends like a part: two labels clash (witness)."
  },
  {
   "property": "C113",
   "status": "partial",
   "theorems": [
    "Commsdsl.Props.C113_rows_partial",
    "Commsdsl.Props.C113_text",
    "Commsdsl.Props.C113_inherited_witness",
    "Commsdsl.Props.C113_shift_witness"
   ],
   "note": "Holds for sets of at most eight bytes up to the last named bit; a member of a bitfield with inherited bits beyond its length lists these, and a uintvar set may shift by 64 or more (witnesses)."
  },
  {
   "property": "C114",
   "status": "partial",
   "theorems": [
    "Commsdsl.Props.C114_number",
    "Commsdsl.Props.C114_unsigned",
    "Commsdsl.Props.C114_ranges",
    "Commsdsl.Props.C114_row_text",
    "Commsdsl.Props.C114_enum_partial",
    "Commsdsl.Props.C114_specials",
    "Commsdsl.Props.C114_order_witness"
   ],
   "note": "Numbers, ranges, rows and special values hold in full; enum rows are not in order for 64 bit unsigned types (witness)."
  },
  {
   "property": "C115",
   "status": "partial",
   "theorems": [
    "Commsdsl.Props.C115_field_partial",
    "Commsdsl.Props.C115_message_partial",
    "Commsdsl.Props.C115_pseudo_witness"
   ],
   "note": "Holds where the parser lengths bound the serialisations (C23, C24) and stay below 2^64-1; a bundle with a pseudo member is said to be longer than it is (witness)."
  },
  {
   "property": "C116",
   "status": "partial",
   "theorems": [
    "Commsdsl.Props.C116_prepare_partial",
    "Commsdsl.Props.C116_only",
    "Commsdsl.Props.C116_called",
    "Commsdsl.Props.C116_negative_witness"
   ],
   "note": "Proved for prefixes that are numbers reached through members, references and optional fields. A negative number of a signed prefix becomes a huge length (witness). Not for bitfields with the meaning of a length and for paths through a variant, which the generated code cannot access."
  },
  {
   "property": "C117",
   "status": "partial",
   "theorems": [
    "Commsdsl.Props.C117_count",
    "Commsdsl.Props.C117_length_partial",
    "Commsdsl.Props.C117_length_fits",
    "Commsdsl.Props.C117_element_unchecked",
    "Commsdsl.Props.C117_element_witness",
    "Commsdsl.Props.C117_length_witness",
    "Commsdsl.Props.C117_width_witness",
    "Commsdsl.Props.C117_shared_witness"
   ],
   "note": "Counts, lengths of texts, data and lists of elements without own lengths hold in full. For element lengths the generated assertion fails for every non-empty list whose prefix has to change; for lists of elements with own lengths the function may take the last element of an empty list; the limit is that of the C++ type, not of the bytes written; two sequences with the same prefix never become stable (witnesses)."
  },
  {
   "property": "C118",
   "status": "partial",
   "theorems": [
    "Commsdsl.Props.C118_string_partial",
    "Commsdsl.Props.C118_string_exact",
    "Commsdsl.Props.C118_data",
    "Commsdsl.Props.C118_name_partial",
    "Commsdsl.Props.C118_own_name",
    "Commsdsl.Props.C118_escape_witness"
   ],
   "note": "Data: in full. Texts: exactly if they have no quotation mark, backslash or newline; texts are not escaped (witness: code that does not compile, and code with another value)."
  },
  {
   "property": "C119",
   "status": "partial",
   "theorems": [
    "Commsdsl.Props.C119_string_partial",
    "Commsdsl.Props.C119_data_partial",
    "Commsdsl.Props.C119_all_gone",
    "Commsdsl.Props.C119_code_witness"
   ],
   "note": "Holds if some supported version has a value, texts are plain and sequences of bytes not empty; otherwise an array without elements is generated, which is not C++ (witnesses)."
  },
  {
   "property": "C12",
   "status": "partial",
   "theorems": [
    "Commsdsl.Props.C12_sorted_minimal_partial",
    "Commsdsl.Props.C12_sorted_full",
    "Commsdsl.Props.C12_order_irrelevant"
   ],
   "note": "Sorting and order independence for all types; minimality with the restriction of C11."
  },
  {
   "property": "C120",
   "status": "proved",
   "theorems": [
    "Commsdsl.Props.C120_field",
    "Commsdsl.Props.C120_c",
    "Commsdsl.Props.C120_wrapped",
    "Commsdsl.Props.C120_global",
    "Commsdsl.Props.C120_layer"
   ],
   "note": "In full, for elements with names (an interface without a name is referred to as Message; the options are not involved there)."
  },
  {
   "property": "C121",
   "status": "partial",
   "theorems": [
    "Commsdsl.Props.C121_used",
    "Commsdsl.Props.C121_generated_partial",
    "Commsdsl.Props.C121_layered",
    "Commsdsl.Props.C121_escape"
   ],
   "note": "The closure is proved in full; the header of every reference is generated except that of the escape field of a sync layer which is a reference to a global field in use nowhere else (witness)."
  },
  {
   "property": "C122",
   "status": "proved",
   "theorems": [
    "Commsdsl.Props.C122_order"
   ],
   "note": "In full for elements as the preparation of C121 leaves them (conditions SwigOk, met by a sample); lines that do not matter for the order are left out."
  },
  {
   "property": "C123",
   "status": "partial",
   "theorems": [
    "Commsdsl.Props.C123_read_partial",
    "Commsdsl.Props.C123_unconditional",
    "Commsdsl.Props.C123_fields_witness",
    "Commsdsl.Props.C123_optional_witness"
   ],
   "note": "Proved for the conditions of C88, of which IfaceOf is the image. False for the comparison of two interface fields (a cast to a type that does not exist) and for fields in an <optional> (no check is generated), see the witnesses. Assumed: fields of the same name are the same in all interfaces of the schema (the generator takes the first one)."
  },
  {
   "property": "C124",
   "status": "partial",
   "theorems": [
    "Commsdsl.Props.C124_construct_partial",
    "Commsdsl.Props.C124_read_own_partial",
    "Commsdsl.Props.C124_unconditional",
    "Commsdsl.Props.C124_fields_witness",
    "Commsdsl.Props.C124_text_witness",
    "Commsdsl.Props.C124_nothing_witness"
   ],
   "note": "Proved for bits and numbers. False for values that are other fields and for texts (the code does not compile), for fields in an <optional> and sizes (nothing is generated), see the witnesses. Left out: floats, data, existence."
  },
  {
   "property": "C125",
   "status": "partial",
   "theorems": [
    "Commsdsl.Props.C125_partial",
    "Commsdsl.Props.C125_top",
    "Commsdsl.Props.C125_total",
    "Commsdsl.Props.C125_forced",
    "Commsdsl.Props.C125_nested_witness",
    "Commsdsl.Props.C125_only_nested_witness"
   ],
   "note": "Proved for schemas without interfaces in nested namespaces, and for a requested interface. False for interfaces in namespaces that are in other ones, which are never used unless requested: only namespaces at the top are visited (GenSchema.cpp:461-466), see the witnesses. C125_top says what is used in general."
  },
  {
   "property": "C126",
   "status": "partial",
   "theorems": [
    "Commsdsl.Props.C126_messages",
    "Commsdsl.Props.C126_handlers",
    "Commsdsl.Props.C126_typed_partial",
    "Commsdsl.Props.C126_typed_forced",
    "Commsdsl.Props.C126_sources_partial",
    "Commsdsl.Props.C126_typed_witness",
    "Commsdsl.Props.C126_listed_witness",
    "Commsdsl.Props.C126_unlisted_witness"
   ],
   "note": "Proved for the functions of a handler. The type is proved unless the handler is the one of a global namespace without messages, for which it is false (witness). The list of source files is proved for the last schema with interfaces in namespaces that are not nested; otherwise it may list files not written and leave out files written (witnesses)."
  },
  {
   "property": "C127",
   "status": "partial",
   "theorems": [
    "Commsdsl.Props.C127_success_partial",
    "Commsdsl.Props.C127_failure",
    "Commsdsl.Props.C127_order",
    "Commsdsl.Props.C127_untouched",
    "Commsdsl.Props.C127_told",
    "Commsdsl.Props.C127_witness"
   ],
   "note": "Proved but for warnings while the code is written, which are not treated as errors (witness; EmscriptenEnumField.cpp:174-180 has one). Steps report and succeed independently of each other; exceptions are left out."
  },
  {
   "property": "C128",
   "status": "partial",
   "theorems": [
    "Commsdsl.Props.C128_partial",
    "Commsdsl.Props.C128_declared_partial",
    "Commsdsl.Props.C128_types_partial"
   ],
   "note": "Exact agreement is proved for fields without <optional> and without a version window, at any depth. In general everything declared is defined but for: the functions _isTentative and _setTentative of optional fields, spelt Tenative in the source (CField.cpp:887-933, COptionalField.cpp:133-195), and the _name function of the field inside of a version-optional one, whose parameter has the wrong type (SUFFX, CField.cpp:788). The types are known unless a number with special values may be missing because of its versions: its functions for special values have no suffix (CIntField.cpp:125-170); witnesses for all."
  },
  {
   "property": "C129",
   "status": "partial",
   "theorems": [
    "Commsdsl.Props.C129_at",
    "Commsdsl.Props.C129_remove",
    "Commsdsl.Props.C129_append_partial",
    "Commsdsl.Props.C129_insert_partial"
   ],
   "note": "Access and removal are proved. Inserting is right at the end only: with an index inside, the new element goes to the end and the pointer leads to the old element (CListField.cpp:167-176; example); appending and inserting need room for two (capacity() <= nextSize). The capacity of a std::vector is taken as given; what resize constructs is a parameter."
  },
  {
   "property": "C13",
   "status": "partial",
   "theorems": [
    "Commsdsl.Props.C13_wire_value_fits_partial",
    "Commsdsl.Props.C13_accepted_partial",
    "Commsdsl.Props.C13_no_undefined_partial",
    "Commsdsl.Props.C13_offset_wraps_witness",
    "Commsdsl.Props.C13_offset_undefined_witness"
   ],
   "note": "Proved for signed types and unsigned types with offset up to the largest wire value; false otherwise (witness)."
  },
  {
   "property": "C130",
   "status": "partial",
   "theorems": [
    "Commsdsl.Props.C130_message_partial",
    "Commsdsl.Props.C130_interface_partial",
    "Commsdsl.Props.C130_frame_partial",
    "Commsdsl.Props.C130_message_declared_partial",
    "Commsdsl.Props.C130_interface_declared_partial",
    "Commsdsl.Props.C130_frame_declared_partial",
    "Commsdsl.Props.C130_message_types_partial",
    "Commsdsl.Props.C130_interface_types_partial",
    "Commsdsl.Props.C130_frame_types_partial",
    "Commsdsl.Props.C130_values"
   ],
   "note": "The values of frames are proved in full. What is declared and what is defined are the same for messages and frames with the fields of C128_partial, and for interfaces without fields; in general everything declared is defined but for what C128 leaves out for the fields, and the access to fields of an interface: NAME_transportField_X is declared, NAME_field_X defined (CInterface.cpp:357-428, 470-482; example). The order of the layers and the tuple of all fields of COMMS are taken as given."
  },
  {
   "property": "C131",
   "status": "partial",
   "theorems": [
    "Commsdsl.Props.C131_partial",
    "Commsdsl.Props.C131_clash_witness",
    "Commsdsl.Props.C131_limit_witness"
   ],
   "note": "Proved for everything but: numbers left out by C79 (the least 64 bit number, and 2^63-1 in an unsigned enum); the names are distinct unless a value is called TypeValuesLimit (false then, witness: CEnumField.cpp:188-192 does not adjust this name); the greatest number of the type is right for types of up to 32 bits and shorter fields of up to four bytes except uint64, for others it is 2^31-1, which can be below declared values (witness). Limits of C on enumeration types are not modelled."
  },
  {
   "property": "C132",
   "status": "partial",
   "theorems": [
    "Commsdsl.Props.C132_messages",
    "Commsdsl.Props.C132_field_partial",
    "Commsdsl.Props.C132_names_partial",
    "Commsdsl.Props.C132_prefix_partial",
    "Commsdsl.Props.C132_prefix_witness"
   ],
   "note": "Proved in full for the ids of messages. With one field for the ids as C131 (the least 64 bit number and 2^63-1 in an unsigned enum are left out; a value called TypeValuesLimit gives a name twice). Names of messages are distinct without underscores and names that differ in the case of the first letter only, as in C87. The C name of the namespace is the prefix and the path joined by underscores (C132_prefix_partial) unless a name ends with an underscore: it is lost, so that the enumerations for namespaces A and A_ have the same name (witness)."
  },
  {
   "property": "C14",
   "status": "partial",
   "theorems": [
    "Commsdsl.Props.C14_names_unique",
    "Commsdsl.Props.C14_values_unique_partial",
    "Commsdsl.Props.C14_inherited_value_witness",
    "Commsdsl.Props.C14_names_valid"
   ],
   "note": "Names: full. Values: new definitions; inherited values are not compared by the code (witness)."
  },
  {
   "property": "C15",
   "status": "proved",
   "theorems": [
    "Commsdsl.Props.C15_nonzero",
    "Commsdsl.Props.C15_ratio_exact",
    "Commsdsl.Props.C15_default"
   ],
   "note": ""
  },
  {
   "property": "C16",
   "status": "partial",
   "theorems": [
    "Commsdsl.Props.C16_names_unique",
    "Commsdsl.Props.C16_values_unique",
    "Commsdsl.Props.C16_values_of_type_partial",
    "Commsdsl.Props.C16_length_witness",
    "Commsdsl.Props.C16_withdrawn_permission_witness",
    "Commsdsl.Props.C16_names_valid",
    "Commsdsl.Props.C16_accepted_length"
   ],
   "note": "Names and (unless non-unique values were ever permitted) values are unique; values fit the type but not always the declared length (witness); the permission can be withdrawn while duplicates are kept (witness)."
  },
  {
   "property": "C17",
   "status": "partial",
   "theorems": [
    "Commsdsl.Props.C17_reverse_table",
    "Commsdsl.Props.C17_value_order_partial",
    "Commsdsl.Props.C17_unique_iff",
    "Commsdsl.Props.C17_unsigned_order_witness"
   ],
   "note": "The reverse table holds exactly the pairs; order by value except 64-bit unsigned values above the signed span (witness)."
  },
  {
   "property": "C18",
   "status": "partial",
   "theorems": [
    "Commsdsl.Props.C18_names_unique",
    "Commsdsl.Props.C18_indices_unique",
    "Commsdsl.Props.C18_indices_in_bytes",
    "Commsdsl.Props.C18_indices_below_bit_length_partial",
    "Commsdsl.Props.C18_reverse_table",
    "Commsdsl.Props.C18_inherited_bit_witness",
    "Commsdsl.Props.C18_type_table_witness",
    "Commsdsl.Props.C18_no_undefined_partial",
    "Commsdsl.Props.C18_names_valid"
   ],
   "note": "Indices are always within the bytes; within the bit length except inherited bits (witness). Out-of-table access reachable (witness)."
  },
  {
   "property": "C19",
   "status": "partial",
   "theorems": [
    "Commsdsl.Props.C19_whole_bytes_partial",
    "Commsdsl.Props.C19_length",
    "Commsdsl.Props.C19_replace_witness",
    "Commsdsl.Props.C19_wrap_witness",
    "Commsdsl.Props.C19_no_members_witness"
   ],
   "note": "Proved for definitions without member replacement and sums below 2^64; false otherwise (witnesses)."
  },
  {
   "property": "C20",
   "status": "proved",
   "theorems": [
    "Commsdsl.Props.C20_add_saturates",
    "Commsdsl.Props.C20_mul_saturates",
    "Commsdsl.Props.C20_unlimited_absorbs",
    "Commsdsl.Props.C21_mul_undefined_iff"
   ],
   "note": "Multiplication for every non-zero factor; a zero factor is undefined, see C21."
  },
  {
   "property": "C21",
   "status": "partial",
   "theorems": [
    "Commsdsl.Props.C21_min_defined",
    "Commsdsl.Props.C21_max_defined_partial",
    "Commsdsl.Props.C21_zero_count_witness",
    "Commsdsl.Props.C21_count_kind_witness"
   ],
   "note": "Minimal length: always defined. Maximal length: defined unless a count prefix cannot be positive or is not an <int>; both are accepted and undefined (witnesses)."
  },
  {
   "property": "C22",
   "status": "proved",
   "theorems": [
    "Commsdsl.Props.C22_min_le_max",
    "Commsdsl.Props.C22_length_member"
   ],
   "note": ""
  },
  {
   "property": "C23",
   "status": "partial",
   "theorems": [
    "Commsdsl.Props.C23_lower_partial",
    "Commsdsl.Props.C23_upper_partial",
    "Commsdsl.Props.C23_pseudo_witness",
    "Commsdsl.Props.C23_later_member_witness"
   ],
   "note": "Upper bound: all values and versions (bit sums below 2^64). Lower bound: fields without pseudo fields and with all members existing; otherwise false in the code (witnesses)."
  },
  {
   "property": "C24",
   "status": "partial",
   "theorems": [
    "Commsdsl.Props.C24_min_sum",
    "Commsdsl.Props.C24_max_sum",
    "Commsdsl.Props.C24_min_counts_existing_partial",
    "Commsdsl.Props.C24_reuse_witness",
    "Commsdsl.Props.C24_wrap_witness",
    "Commsdsl.Props.C24_lower_partial",
    "Commsdsl.Props.C24_upper_partial"
   ],
   "note": "Message lengths are the sums of those of the fields and bound every serialisation; the minimum wraps at 2^64 and counts fields of later versions when reused (witnesses)."
  },
  {
   "property": "C25",
   "status": "partial",
   "theorems": [
    "Commsdsl.Props.C25_field_partial",
    "Commsdsl.Props.C25_witness",
    "Commsdsl.Props.C25_message_partial",
    "Commsdsl.Props.C25_message_witness"
   ],
   "note": "Proved for requested values below 2^31 and lengths below 2^31; false otherwise (witness)."
  },
  {
   "property": "C26",
   "status": "partial",
   "theorems": [
    "Commsdsl.Props.C26_check_iff",
    "Commsdsl.Props.C26_accepted",
    "Commsdsl.Props.C26_complete",
    "Commsdsl.Props.C26_field_in_parent",
    "Commsdsl.Props.C26_bitfield_members_partial",
    "Commsdsl.Props.C26_bitfield_reuse_witness"
   ],
   "note": "The version checks are exact for every field and its parent. Members of bitfields have the versions of the bitfield unless copied by reuse (witness)."
  },
  {
   "property": "C27",
   "status": "partial",
   "theorems": [
    "Commsdsl.Props.C27_message_nested_partial",
    "Commsdsl.Props.C27_field_nested_partial",
    "Commsdsl.Props.C27_member_since",
    "Commsdsl.Props.C27_reuse_witness",
    "Commsdsl.Props.C27_message_since_partial",
    "Commsdsl.Props.C27_first_member"
   ],
   "note": "Trees without reuse of composite fields; false with reuse (witness)."
  },
  {
   "property": "C28",
   "status": "partial",
   "theorems": [
    "Commsdsl.Props.C28_property_monotone",
    "Commsdsl.Props.C28_zero_supports_all",
    "Commsdsl.Props.C28_feature_monotone",
    "Commsdsl.Props.C28_property_exact",
    "Commsdsl.Props.C28_unknown_deprecated_witness",
    "Commsdsl.Props.C28_deprecated_partial"
   ],
   "note": "Full for supported properties/features; the deprecation query answers true for unknown names (witness)."
  },
  {
   "property": "C29",
   "status": "partial",
   "theorems": [
    "Commsdsl.Props.C29_reuse_members",
    "Commsdsl.Props.C29_message_copy",
    "Commsdsl.Props.C29_message_reuse_witness"
   ],
   "note": "Bundles and copyFieldsFrom of messages: exact. The reuse attribute of messages drops nothing and lifts nothing (witness)."
  },
  {
   "property": "C30",
   "status": "partial",
   "theorems": [
    "Commsdsl.Props.C30_check_iff",
    "Commsdsl.Props.C30_unique_ids_partial",
    "Commsdsl.Props.C30_namespaces_witness",
    "Commsdsl.Props.C30_nested_witness"
   ],
   "note": "Within a top-level namespace and the namespaces directly in it; false across top-level namespaces and deeper (witnesses)."
  },
  {
   "property": "C31",
   "status": "partial",
   "theorems": [
    "Commsdsl.Props.C31_messages_sorted_partial",
    "Commsdsl.Props.C31_messages_all",
    "Commsdsl.Props.C30_nested_witness"
   ],
   "note": "Sorted permutation of the messages of top-level namespaces; messages nested deeper are left out (witness)."
  },
  {
   "property": "C32",
   "status": "proved",
   "theorems": [
    "Commsdsl.Props.C32_field",
    "Commsdsl.Props.C32_message",
    "Commsdsl.Props.C32_interface"
   ],
   "note": "For elements of schemas not later than the current one, which is the last one unless a document continues an earlier schema."
  },
  {
   "property": "C33",
   "status": "partial",
   "theorems": [
    "Commsdsl.Props.C33_field_iff",
    "Commsdsl.Props.C33_message_iff",
    "Commsdsl.Props.C33_interface_iff",
    "Commsdsl.Props.C33_value_witness"
   ],
   "note": "References to fields, messages and interfaces, characterised exactly. False for references to values (witness)."
  },
  {
   "property": "C34",
   "status": "proved",
   "theorems": [
    "Commsdsl.Props.C34_references_end",
    "Commsdsl.Props.C34_recorded_accepted"
   ],
   "note": ""
  },
  {
   "property": "C35",
   "status": "proved",
   "theorems": [
    "Commsdsl.Props.C35_frozen",
    "Commsdsl.Props.C35_parse",
    "Commsdsl.Props.C35_validate"
   ],
   "note": ""
  },
  {
   "property": "C36",
   "status": "proved",
   "theorems": [
    "Commsdsl.Props.C36_comparison_iff",
    "Commsdsl.Props.C36_single_iff",
    "Commsdsl.Props.C36_no_ub",
    "Commsdsl.Props.C36_comparison_roundtrip",
    "Commsdsl.Props.C36_single_roundtrip"
   ],
   "note": ""
  },
  {
   "property": "C37",
   "status": "proved",
   "theorems": [
    "Commsdsl.Props.C37_list_iff",
    "Commsdsl.Props.C37_two_and_in_order"
   ],
   "note": ""
  },
  {
   "property": "C38",
   "status": "proved",
   "theorems": [
    "Commsdsl.Props.C38_frame_wellformed"
   ],
   "note": ""
  },
  {
   "property": "C39",
   "status": "proved",
   "theorems": [
    "Commsdsl.Props.C39_checksum_bounds",
    "Commsdsl.Props.C39_suffix_nesting",
    "Commsdsl.Props.C39_witness",
    "Commsdsl.Props.C39_custom_witness"
   ],
   "note": "Checksum, custom checksum (bounds) and synchronisation layers. Custom layers use checksumFrom and are not compared with others (witness)."
  },
  {
   "property": "C40",
   "status": "partial",
   "theorems": [
    "Commsdsl.Props.C40_reference_partial",
    "Commsdsl.Props.C40_duplicate_witness"
   ],
   "note": "False in the code: a duplicate layer name is only reported (witness); references denote the first layer of the name."
  },
  {
   "property": "C41",
   "status": "partial",
   "theorems": [
    "Commsdsl.Props.C41_undefined_iff",
    "Commsdsl.Props.C41_supported_partial",
    "Commsdsl.Props.C41_null_witness",
    "Commsdsl.Props.C41_verify",
    "Commsdsl.Props.C41_empty_field_witness"
   ],
   "note": "False for DSL versions 1 to 7 (witness); exact characterisation proved; none for others."
  },
  {
   "property": "C42",
   "status": "partial",
   "theorems": [
    "Commsdsl.Props.C42_resolvable",
    "Commsdsl.Props.C42_unambiguous_partial",
    "Commsdsl.Props.C42_ambiguous_witness",
    "Commsdsl.Props.C42_interface_resolvable",
    "Commsdsl.Props.C42_message_resolvable_partial",
    "Commsdsl.Props.C42_message_dangling_witness",
    "Commsdsl.Props.C42_message_unambiguous_partial",
    "Commsdsl.Props.C42_interface_unambiguous_partial",
    "Commsdsl.Props.C42_message_ambiguous_witness"
   ],
   "note": "Bundle and interface aliases: always resolvable; unambiguous for definitions without reuse; false with reuse (witnesses). Message aliases: resolvable unless fields are replaced and copying the aliases is switched off (witness)."
  },
  {
   "property": "C43",
   "status": "partial",
   "theorems": [
    "Commsdsl.Props.C43_kept_partial",
    "Commsdsl.Props.C43_dotted_witness",
    "Commsdsl.Props.C43_message_partial",
    "Commsdsl.Props.C43_message_declined",
    "Commsdsl.Props.C43_message_dotted_witness"
   ],
   "note": "Single-component aliases are kept, none if declined; dotted ones are lost (witness)."
  },
  {
   "property": "C44",
   "status": "partial",
   "theorems": [
    "Commsdsl.Props.C44_designated_partial",
    "Commsdsl.Props.C44_stale_index_witness",
    "Commsdsl.Props.C44_wrong_member_witness"
   ],
   "note": "Proved when the definition does not reuse another variant; an inherited index is not adjusted for dropped members (witnesses)."
  },
  {
   "property": "C45",
   "status": "partial",
   "theorems": [
    "Commsdsl.Props.C45_clone_eq_partial",
    "Commsdsl.Props.C45_kept",
    "Commsdsl.Props.C45_lost_witness"
   ],
   "note": "Cloning loses aliases and validity conditions (witness); everything else is kept."
  },
  {
   "property": "C46",
   "status": "proved",
   "theorems": [
    "Commsdsl.Props.C46_replace_exact",
    "Commsdsl.Props.C46_unknown_rejected",
    "Commsdsl.Props.C46_message_replace",
    "Commsdsl.Props.C46_message_two_witness"
   ],
   "note": "Replacement in fields (bitfield, bundle, variant) and in messages, where exactly one field can be replaced at a time."
  },
  {
   "property": "C47",
   "status": "partial",
   "theorems": [
    "Commsdsl.Props.C47_plus",
    "Commsdsl.Props.C47_minus_partial",
    "Commsdsl.Props.C47_other",
    "Commsdsl.Props.C47_witness",
    "Commsdsl.Props.C47_reuse_witness",
    "Commsdsl.Props.C47_declared_sorted"
   ],
   "note": "Exact for the plus form; the minus form is exact without reuse; false with reuse (witness)."
  },
  {
   "property": "C48",
   "status": "proved",
   "theorems": [
    "Commsdsl.Props.C48_field_members_unique",
    "Commsdsl.Props.C48_message_fields_unique",
    "Commsdsl.Props.C48_interface_fields_unique"
   ],
   "note": "Members of bitfields, bundles and variants, fields of messages and interfaces."
  },
  {
   "property": "C49",
   "status": "proved",
   "theorems": [
    "Commsdsl.Props.C49_replace_exact",
    "Commsdsl.Props.C49_strReplace",
    "Commsdsl.Props.C49_empty_pattern_diverges"
   ],
   "note": "for every pattern that is not empty; with an empty pattern the loop never ends (proved), no caller passes one"
  },
  {
   "property": "C50",
   "status": "proved",
   "theorems": [
    "Commsdsl.Props.C50_split_any",
    "Commsdsl.Props.C50_pieces_unique",
    "Commsdsl.Props.C50_split_join",
    "Commsdsl.Props.C50_split_str"
   ],
   "note": "the trailing empty piece is dropped by the code, as stated in the theorem"
  },
  {
   "property": "C51",
   "status": "partial",
   "theorems": [
    "Commsdsl.Props.C51_unsigned",
    "Commsdsl.Props.C51_signed_partial",
    "Commsdsl.Props.C51_comment_partial",
    "Commsdsl.Props.C51_min_undefined"
   ],
   "note": "all values but the smallest signed one, for which negation is undefined (C51_min_undefined)"
  },
  {
   "property": "C52",
   "status": "proved",
   "theorems": [
    "Commsdsl.Props.C52_multiline",
    "Commsdsl.Props.C52_short",
    "Commsdsl.Props.C52_terminates"
   ],
   "note": ""
  },
  {
   "property": "C53",
   "status": "proved",
   "theorems": [
    "Commsdsl.Props.C53_template_exact",
    "Commsdsl.Props.C53_template_total",
    "Commsdsl.Props.C53_no_placeholder"
   ],
   "note": "debug assertions about malformed templates are not modelled"
  },
  {
   "property": "C54",
   "status": "proved",
   "theorems": [
    "Commsdsl.Props.C54_lines",
    "Commsdsl.Props.C54_only_removes",
    "Commsdsl.Props.C54_no_triple",
    "Commsdsl.Props.C54_assertion"
   ],
   "note": ""
  },
  {
   "property": "C55",
   "status": "partial",
   "theorems": [
    "Commsdsl.Props.C55_same_file_iff",
    "Commsdsl.Props.C55_same_common_file_iff",
    "Commsdsl.Props.C55_common_file_iff",
    "Commsdsl.Props.C55_files_differ_partial",
    "Commsdsl.Props.C55_case_witness",
    "Commsdsl.Props.C55_common_witness",
    "Commsdsl.Props.C55_namespace_witness",
    "Commsdsl.Props.C55_reserved_witness",
    "Commsdsl.Props.C55_member_witness"
   ],
   "note": "Exact characterisation of colliding headers; no collision when names of siblings still differ after the first letter is capitalised and do not end in Common; false otherwise (witnesses)."
  },
  {
   "property": "C56",
   "status": "proved",
   "theorems": [
    "Commsdsl.Props.C56_balanced",
    "Commsdsl.Props.C56_namespaces"
   ],
   "note": ""
  },
  {
   "property": "C57",
   "status": "partial",
   "theorems": [
    "Commsdsl.Props.C57_exists_partial",
    "Commsdsl.Props.C57_min_remote_witness",
    "Commsdsl.Props.C57_optional_complete",
    "Commsdsl.Props.C57_optional_iff",
    "Commsdsl.Props.C57_version_optional_iff",
    "Commsdsl.Props.C57_place",
    "Commsdsl.Props.C57_forced",
    "Commsdsl.Props.C57_forced_witness"
   ],
   "note": "Existence is exact whenever some version is supported at all; the minimal remote version is not compared with the schema version (witness). Optional whenever some supported version lacks the element; exactly then unless a smaller version is forced (witness)."
  },
  {
   "property": "C58",
   "status": "partial",
   "theorems": [
    "Commsdsl.Props.C58_storage_fits_partial",
    "Commsdsl.Props.C58_fixed_values",
    "Commsdsl.Props.C58_enum_values",
    "Commsdsl.Props.C58_offset_witness",
    "Commsdsl.Props.C58_default_witness"
   ],
   "note": "Holds for the values a field of the given length can hold; a serialisation offset or a default of a variable length field may not fit (witnesses)."
  },
  {
   "property": "C59",
   "status": "proved",
   "theorems": [
    "Commsdsl.Props.C59_order_irrelevant",
    "Commsdsl.Props.C59_exactly_once",
    "Commsdsl.Props.C59_directives"
   ],
   "note": ""
  },
  {
   "property": "C60",
   "status": "partial",
   "theorems": [
    "Commsdsl.Props.C60_platform",
    "Commsdsl.Props.C60_all_partial",
    "Commsdsl.Props.C60_nested_witness",
    "Commsdsl.Props.C60_list_partial",
    "Commsdsl.Props.C60_list_witness",
    "Commsdsl.Props.C60_both"
   ],
   "note": "Exact for platforms. Without a request, messages in nested namespaces are left out (witness); a list with an unknown message makes the program use a null pointer (witness)."
  },
  {
   "property": "C61",
   "status": "proved",
   "theorems": [
    "Commsdsl.Props.C61_same_index_agree"
   ],
   "note": ""
  },
  {
   "property": "C62",
   "status": "partial",
   "theorems": [
    "Commsdsl.Props.C62_attribute_or_child_partial",
    "Commsdsl.Props.C62_attribute_order",
    "Commsdsl.Props.C62_repeated_partial",
    "Commsdsl.Props.C62_name",
    "Commsdsl.Props.C62_direct_witness",
    "Commsdsl.Props.C62_repeated_witness"
   ],
   "note": "Fields. Not beside fields given directly as children (the parser then requires <members>, as its error message says; witness) and not for the properties that add up (validRange and the like). Twice is rejected for the common properties; not for the default of a set (witness)."
  },
  {
   "property": "C63",
   "status": "proved",
   "theorems": [
    "Commsdsl.Props.C63_exact",
    "Commsdsl.Props.C63_bytes",
    "Commsdsl.Props.C63_writable"
   ],
   "note": ""
  },
  {
   "property": "C64",
   "status": "proved",
   "theorems": [
    "Commsdsl.Props.C64_string_sorted",
    "Commsdsl.Props.C64_data_sorted",
    "Commsdsl.Props.C64_string_declared",
    "Commsdsl.Props.C64_data_declared"
   ],
   "note": ""
  },
  {
   "property": "C65",
   "status": "partial",
   "theorems": [
    "Commsdsl.Props.C65_string_partial",
    "Commsdsl.Props.C65_data_partial",
    "Commsdsl.Props.C65_list",
    "Commsdsl.Props.C65_detached_witness",
    "Commsdsl.Props.C65_fixed_elements"
   ],
   "note": "Lists fully. For strings and data detached prefixes are not compared with a fixed length or a zero termination by the code (witness)."
  },
  {
   "property": "C66",
   "status": "partial",
   "theorems": [
    "Commsdsl.Props.C66_member_partial",
    "Commsdsl.Props.C66_message_partial",
    "Commsdsl.Props.C66_term_witness"
   ],
   "note": "Members of bundles and fields of messages defined without reuse, copyFieldsFrom and replace; detached termination suffixes are not checked by the code at all (witness)."
  },
  {
   "property": "C67",
   "status": "proved",
   "theorems": [
    "Commsdsl.Props.C67_value_field",
    "Commsdsl.Props.C67_witness"
   ],
   "note": ""
  },
  {
   "property": "C68",
   "status": "proved",
   "theorems": [
    "Commsdsl.Props.C68_field",
    "Commsdsl.Props.C68_message",
    "Commsdsl.Props.C68_frame",
    "Commsdsl.Props.C68_interface",
    "Commsdsl.Props.C68_message_only"
   ],
   "note": ""
  },
  {
   "property": "C69",
   "status": "partial",
   "theorems": [
    "Commsdsl.Props.C69_deprecated_partial",
    "Commsdsl.Props.C69_same_version_witness"
   ],
   "note": "False for elements deprecated in the schema version itself (witness)."
  },
  {
   "property": "C70",
   "status": "partial",
   "theorems": [
    "Commsdsl.Props.C70_field_partial",
    "Commsdsl.Props.C70_member_partial",
    "Commsdsl.Props.C70_message_member_partial",
    "Commsdsl.Props.C70_message_partial",
    "Commsdsl.Props.C70_copied",
    "Commsdsl.Props.C70_resolves",
    "Commsdsl.Props.C70_comparable",
    "Commsdsl.Props.C70_number_witness",
    "Commsdsl.Props.C70_reuse_witness",
    "Commsdsl.Props.C70_null_witness"
   ],
   "note": "Definitions without reuse; with reuse conditions can outlive the members they are about, a number may be followed by any text, and a reference into an optional field with an external field follows a null pointer (witnesses)."
  },
  {
   "property": "C71",
   "status": "proved",
   "theorems": [
    "Commsdsl.Props.C71_semantic_types",
    "Commsdsl.Props.C71_exact",
    "Commsdsl.Props.C71_accepted"
   ],
   "note": ""
  },
  {
   "property": "C72",
   "status": "partial",
   "theorems": [
    "Commsdsl.Props.C72_field_number",
    "Commsdsl.Props.C72_field_truth",
    "Commsdsl.Props.C72_field_text",
    "Commsdsl.Props.C72_field_bytes",
    "Commsdsl.Props.C72_field_fp",
    "Commsdsl.Props.C72_old_dsl",
    "Commsdsl.Props.C72_number",
    "Commsdsl.Props.C72_others",
    "Commsdsl.Props.C72_int",
    "Commsdsl.Props.C72_shadow_witness"
   ],
   "note": "Exact, with the condition that no namespace has the name of the field: a namespace of that name hides the values of the field (witness)."
  },
  {
   "property": "C73",
   "status": "proved",
   "theorems": [
    "Commsdsl.Props.C73_depth_suffices",
    "Commsdsl.Props.C73_unbounded"
   ],
   "note": ""
  },
  {
   "property": "C74",
   "status": "partial",
   "theorems": [
    "Commsdsl.Props.C74_of_type",
    "Commsdsl.Props.C74_names",
    "Commsdsl.Props.C74_text_unique",
    "Commsdsl.Props.C74_default",
    "Commsdsl.Props.C74_default_zero",
    "Commsdsl.Props.C74_specials",
    "Commsdsl.Props.C74_values_unique_partial",
    "Commsdsl.Props.C74_has_non_unique",
    "Commsdsl.Props.C74_inherited_witness",
    "Commsdsl.Props.C74_trailing_witness"
   ],
   "note": "Uniqueness of values in new definitions; special values of the reused field are not compared (witness). What follows a number in a text is ignored (witness)."
  },
  {
   "property": "C75",
   "status": "partial",
   "theorems": [
    "Commsdsl.Props.C75_valid_set_kept",
    "Commsdsl.Props.C75_sorted",
    "Commsdsl.Props.C75_disjoint_partial",
    "Commsdsl.Props.C75_order_irrelevant",
    "Commsdsl.Props.C75_declared",
    "Commsdsl.Props.C75_declared_valid",
    "Commsdsl.Props.C75_type_limit_witness",
    "Commsdsl.Props.C75_infinite_witness"
   ],
   "note": "The valid set is exact for all ranges. Disjoint with finite bounds; ranges with infinite bounds are never merged, and bounds of validRange are not compared with the type (witnesses)."
  },
  {
   "property": "C76",
   "status": "partial",
   "theorems": [
    "Commsdsl.Props.C76_unversioned_partial",
    "Commsdsl.Props.C76_no_ranges",
    "Commsdsl.Props.C76_versioned_partial",
    "Commsdsl.Props.C76_text",
    "Commsdsl.Props.C76_field",
    "Commsdsl.Props.C76_reads",
    "Commsdsl.Props.C76_deprecated_witness",
    "Commsdsl.Props.C76_later_witness",
    "Commsdsl.Props.C76_merged_witness",
    "Commsdsl.Props.C76_int64_witness",
    "Commsdsl.Props.C76_overflow_witness"
   ],
   "note": "Exact for bounds the generator reads as the type says, and ranges that exist in the versions concerned. False for negative bounds of int64 and large ones of uintvar, for deprecated or later ranges whose version check has no version to look at, and when ranges of different versions are merged (witnesses)."
  },
  {
   "property": "C77",
   "status": "partial",
   "theorems": [
    "Commsdsl.Props.C77_versioned_partial",
    "Commsdsl.Props.C77_few_partial",
    "Commsdsl.Props.C77_many_partial",
    "Commsdsl.Props.C77_error_iff",
    "Commsdsl.Props.C77_windows",
    "Commsdsl.Props.C77_misread_witness",
    "Commsdsl.Props.C77_order_witness",
    "Commsdsl.Props.C77_removed_witness",
    "Commsdsl.Props.C77_later_witness"
   ],
   "note": "Exact for numbers the generator reads as the type says. False for negative int64 numbers, for many uint64 values above 2^63, and for removed or later values of enums with many ranges (witnesses)."
  },
  {
   "property": "C78",
   "status": "partial",
   "theorems": [
    "Commsdsl.Props.C78_names_partial",
    "Commsdsl.Props.C78_order_witness"
   ],
   "note": "Exact except for numbers of a uintvar enum that do not fit its length (witness)."
  },
  {
   "property": "C79",
   "status": "partial",
   "theorems": [
    "Commsdsl.Props.C79_enumerators_partial",
    "Commsdsl.Props.C79_limit_witness"
   ],
   "note": "Exact except for 2^63-1 in an unsigned enum, where the next number is undefined (witness), and the least 64 bit number."
  },
  {
   "property": "C80",
   "status": "partial",
   "theorems": [
    "Commsdsl.Props.C80_versioned_partial",
    "Commsdsl.Props.C80_unversioned_partial",
    "Commsdsl.Props.C80_field",
    "Commsdsl.Props.C80_overlap_witness",
    "Commsdsl.Props.C80_covered_witness",
    "Commsdsl.Props.C80_gone_witness",
    "Commsdsl.Props.C80_shift_witness",
    "Commsdsl.Props.C80_reuse_witness"
   ],
   "note": "Exact for bits whose names do not overlap in time and agree on the reserved value. False for overlapping names, bits that are gone in all supported versions, inherited reserved bits and indices of 64 and above (witnesses)."
  },
  {
   "property": "C81",
   "status": "partial",
   "theorems": [
    "Commsdsl.Props.C81_default_partial",
    "Commsdsl.Props.C81_fits",
    "Commsdsl.Props.C81_renamed_witness"
   ],
   "note": "Exact if the names of a bit agree on the default; otherwise the last name in alphabetical order wins (witness)."
  },
  {
   "property": "C82",
   "status": "proved",
   "theorems": [
    "Commsdsl.Props.C82_names"
   ],
   "note": ""
  },
  {
   "property": "C83",
   "status": "partial",
   "theorems": [
    "Commsdsl.Props.C83_access_partial",
    "Commsdsl.Props.C83_dropped_witness"
   ],
   "note": "For indices below 64, which all types but uintvar imply; bits of uintvar sets from 64 on are dropped (witness)."
  },
  {
   "property": "C84",
   "status": "partial",
   "theorems": [
    "Commsdsl.Props.C84_namespaces",
    "Commsdsl.Props.C84_list",
    "Commsdsl.Props.C84_files_differ_partial",
    "Commsdsl.Props.C84_all_witness",
    "Commsdsl.Props.C84_case_witness",
    "Commsdsl.Props.C84_alias_witness",
    "Commsdsl.Props.C84_unrequested_witness",
    "Commsdsl.Props.C84_written",
    "Commsdsl.Props.C84_apart_partial",
    "Commsdsl.Props.C84_place_witness"
   ],
   "note": "The lists are exact. Files differ for names of platforms and bundles that differ in more than the case of the first letter and do not end like the other files (witnesses: platform \"All\", platforms \"p\" and \"P\"); messages of the same name in nested namespaces give the same alias twice (witness). Messages the generator was told to leave out are listed all the same (witness). Namespaces of the same name in different namespaces write their lists to the same file (witness)."
  },
  {
   "property": "C85",
   "status": "partial",
   "theorems": [
    "Commsdsl.Props.C85_creates",
    "Commsdsl.Props.C85_unique",
    "Commsdsl.Props.C85_written_partial",
    "Commsdsl.Props.C85_list_included",
    "Commsdsl.Props.C85_label_witness"
   ],
   "note": "What is created is exact, for fewer than 2^31 messages in a schema. The factory is written for ids other than 2^63, for which the label is undefined (signed overflow, witness)."
  },
  {
   "property": "C86",
   "status": "partial",
   "theorems": [
    "Commsdsl.Props.C86_casts_partial",
    "Commsdsl.Props.C86_agrees",
    "Commsdsl.Props.C86_written_partial",
    "Commsdsl.Props.C85_list_included",
    "Commsdsl.Props.C85_label_witness",
    "Commsdsl.Props.C86_index_witness"
   ],
   "note": "Exact for all indices the factory creates a message for, and for ids with several messages. For an id with one message the function with an index ignores the index (witness). Id 2^63 as in C85."
  },
  {
   "property": "C87",
   "status": "partial",
   "theorems": [
    "Commsdsl.Props.C87_messages",
    "Commsdsl.Props.C87_type_partial",
    "Commsdsl.Props.C87_names_partial",
    "Commsdsl.Props.C87_field_partial",
    "Commsdsl.Props.C87_global_type_witness",
    "Commsdsl.Props.C87_global_field_witness",
    "Commsdsl.Props.C87_underscore_witness",
    "Commsdsl.Props.C87_case_witness"
   ],
   "note": "Values exact. The type does not look at what a global namespace without messages borrows from the schema; names may clash with underscores or differences in case (witnesses). Missing: a description of a value that contains \"// ---\" (the prefix is then left out) is not modelled."
  },
  {
   "property": "C88",
   "status": "partial",
   "theorems": [
    "Commsdsl.Props.C88_condition_partial",
    "Commsdsl.Props.C88_wrap_witness",
    "Commsdsl.Props.C88_fields_witness",
    "Commsdsl.Props.C88_dangling_witness"
   ],
   "note": "Proved for the conditions of Says. False for numbers that do not fit the type of the field, for fields of different types, and for lists ending with an existence check of a field that is not wrapped (witnesses). Not modelled or left out: references to interface fields, injected code, floats, references to values of other fields, comparison of texts, data and lists with each other, values from 2^63 of enums and the value -2^63 (undefined, C51)."
  },
  {
   "property": "C89",
   "status": "partial",
   "theorems": [
    "Commsdsl.Props.C89_refresh_partial",
    "Commsdsl.Props.C89_unconditional",
    "Commsdsl.Props.C89_stable",
    "Commsdsl.Props.C88_dangling_witness"
   ],
   "note": "For the conditions of C88."
  },
  {
   "property": "C90",
   "status": "partial",
   "theorems": [
    "Commsdsl.Props.C90_valid_partial",
    "Commsdsl.Props.C90_unconditional",
    "Commsdsl.Props.C90_exists_witness"
   ],
   "note": "For the conditions of C88. An existence check of a deprecated field that was not removed generates nothing (witness)."
  },
  {
   "property": "C91",
   "status": "proved",
   "theorems": [
    "Commsdsl.Props.C91_wrapper",
    "Commsdsl.Props.C91_no_wrapper",
    "Commsdsl.Props.C91_independent"
   ],
   "note": ""
  },
  {
   "property": "C92",
   "status": "partial",
   "theorems": [
    "Commsdsl.Props.C92_hint",
    "Commsdsl.Props.C92_members_option",
    "Commsdsl.Props.C92_complete_partial",
    "Commsdsl.Props.C92_int",
    "Commsdsl.Props.C92_enum",
    "Commsdsl.Props.C92_set",
    "Commsdsl.Props.C92_float",
    "Commsdsl.Props.C92_ref_witness",
    "Commsdsl.Props.C92_storage_witness"
   ],
   "note": "Exact for what is defined inside. Fields that are only referred to, and prefixes of strings and data, are not looked at, so a bundle may be told that the version does not matter although it does; and a range that came with the field is taken for one that all versions have, although the field asks for the version (witnesses). The meaning of the option in the COMMS library is taken from its documentation."
  },
  {
   "property": "C93",
   "status": "partial",
   "theorems": [
    "Commsdsl.Props.C93_valid_partial",
    "Commsdsl.Props.C93_no_ranges",
    "Commsdsl.Props.C93_default_partial",
    "Commsdsl.Props.C93_default_special",
    "Commsdsl.Props.C93_text",
    "Commsdsl.Props.C93_kept_large",
    "Commsdsl.Props.C93_kept_decimal",
    "Commsdsl.Props.C93_kept_int",
    "Commsdsl.Props.C93_digits_witness",
    "Commsdsl.Props.C93_infinite_witness"
   ],
   "note": "Numbers are written with six decimal places; proved for the bounds that these determine, which are all of 2^33 and above and all that are given with at most six places. Ranges with an infinite bound are wrong (witness). Missing: versions in which the field is deprecated but still there."
  },
  {
   "property": "C94",
   "status": "partial",
   "theorems": [
    "Commsdsl.Props.C94_int_partial",
    "Commsdsl.Props.C94_int_map",
    "Commsdsl.Props.C94_map_defined_partial",
    "Commsdsl.Props.C94_float_partial",
    "Commsdsl.Props.C94_clash_witness",
    "Commsdsl.Props.C94_removed_witness",
    "Commsdsl.Props.C94_near_witness"
   ],
   "note": "Names that differ in the case of the first letter clash, the table of names uses functions of values no supported version has, and isX() of floats below 2 is also true for neighbours (witnesses)."
  },
  {
   "property": "C95",
   "status": "partial",
   "theorems": [
    "Commsdsl.Props.C95_members_partial",
    "Commsdsl.Props.C95_message_partial",
    "Commsdsl.Props.C95_single",
    "Commsdsl.Props.C95_list_partial",
    "Commsdsl.Props.C95_clash_witness",
    "Commsdsl.Props.C95_list_witness"
   ],
   "note": "The restrictions of NamesApart are not checked: members x and xField, x and xMembers, x and X, or all, give classes of the same name; so do an element length prefix and a termination suffix of a list (witnesses)."
  },
  {
   "property": "C96",
   "status": "proved",
   "theorems": [
    "Commsdsl.Props.C96_field",
    "Commsdsl.Props.C96_common",
    "Commsdsl.Props.C96_other"
   ],
   "note": ""
  },
  {
   "property": "C97",
   "status": "partial",
   "theorems": [
    "Commsdsl.Props.C97_namespace",
    "Commsdsl.Props.C97_default",
    "Commsdsl.Props.C97_text",
    "Commsdsl.Props.C97_colon_witness",
    "Commsdsl.Props.C97_macro",
    "Commsdsl.Props.C97_ns",
    "Commsdsl.Props.C97_macro_witness"
   ],
   "note": "An option item that ends with a colon is taken as a namespace including the colon; names that differ may give the same macro (witnesses)."
  },
  {
   "property": "C98",
   "status": "partial",
   "theorems": [
    "Commsdsl.Props.C98_flat",
    "Commsdsl.Props.C98_distinct_partial",
    "Commsdsl.Props.C98_c",
    "Commsdsl.Props.C98_clash_witness"
   ],
   "note": "Distinctness is proved for names without underscores; with underscores different elements may get the same name (witness)."
  },
  {
   "property": "C99",
   "status": "partial",
   "theorems": [
    "Commsdsl.Props.C99_same",
    "Commsdsl.Props.C99_path_partial",
    "Commsdsl.Props.C99_content_partial",
    "Commsdsl.Props.C99_other_witness"
   ],
   "note": "Directories and namespaces whose names only start with the name of the schema are renamed too, and references are not (witness). File system operations are not modelled."
  }
 ]
}