{
 "claims": [
  {
   "property": "C01",
   "status": "proved",
   "theorems": [
    "C01_attr_first_match"
   ],
   "note": ""
  },
  {
   "property": "C02",
   "status": "proved",
   "theorems": [
    "C02_setAttr_effect",
    "C02_attr_setAttr",
    "C02_attr_setAttr_other",
    "C02_setAttr_idem"
   ],
   "note": ""
  },
  {
   "property": "C03",
   "status": "proved",
   "theorems": [
    "C03_qname_split_unique",
    "C03_resolveNS",
    "C03_resolveNS_false_iff"
   ],
   "note": ""
  },
  {
   "property": "C04",
   "status": "proved",
   "theorems": [
    "C04_joinScope_resolve",
    "C04_joinScope_assoc"
   ],
   "note": ""
  },
  {
   "property": "C05",
   "status": "proved",
   "theorems": [
    "C05_resolveDefault"
   ],
   "note": ""
  },
  {
   "property": "C06",
   "status": "partial",
   "theorems": [
    "C06_prefix_inverse_refuted",
    "C06_prefix_inverse_refuted_default",
    "C06_prefix_favoured",
    "C06_prefix_inverse_partial",
    "C06_prefix_inverse_unique_partial",
    "C06_prefix_inverse_reserved"
   ],
   "note": "False of the code when the favoured prefix is redeclared further in; exact condition proved."
  },
  {
   "property": "C07",
   "status": "partial",
   "theorems": [
    "C07_prefix_unknown_refuted",
    "C07_prefix_unknown_partial"
   ],
   "note": "False of the code: undeclared namespaces give the empty string; exact characterisation proved."
  },
  {
   "property": "C08",
   "status": "proved",
   "theorems": [
    "C08_parse_mirrors",
    "C08_parse_positions"
   ],
   "note": ""
  },
  {
   "property": "C09",
   "status": "proved",
   "theorems": [
    "C09_content_exact"
   ],
   "note": ""
  },
  {
   "property": "C10",
   "status": "proved",
   "theorems": [
    "C10_depth_limit"
   ],
   "note": ""
  },
  {
   "property": "C11",
   "status": "partial",
   "theorems": [
    "C11_scope_path",
    "C11_scope_nearest_partial",
    "C11_foreign_xmlns_refuted"
   ],
   "note": "Proved for tags that obey the namespace rules; false for an attribute p:xmlns, which is taken for a declaration."
  },
  {
   "property": "C12",
   "status": "proved",
   "theorems": [
    "C12_searchFunc",
    "C12_flatten",
    "C12_search"
   ],
   "note": ""
  },
  {
   "property": "C13",
   "status": "proved",
   "theorems": [
    "C13_diffScope",
    "C13_path_declarations"
   ],
   "note": ""
  },
  {
   "property": "C14",
   "status": "proved",
   "theorems": [
    "C14_marshal_parse",
    "C14_marshal_parse_perm",
    "C14_marshal_stable"
   ],
   "note": "For well-formed trees (names and values that need no escaping, no mixed content, nested scopes, at most 3001 levels); the tokenizer is an environment model."
  },
  {
   "property": "C15",
   "status": "partial",
   "theorems": [
    "C15_escaping_refuted",
    "C15_injection_refuted",
    "C15_escaping_partial"
   ],
   "note": "False of the code: attribute values are not escaped. Proved for values that need no escaping."
  },
  {
   "property": "C16",
   "status": "partial",
   "theorems": [
    "C16_prefix_refuted",
    "C16_layout_partial"
   ],
   "note": "False of the code: the prefix argument is ignored. Proved: the output is Marshal's output cut into lines with indentation."
  },
  {
   "property": "C17",
   "status": "partial",
   "theorems": [
    "C17_reflexive_refuted",
    "C17_deep_refuted",
    "C17_reflexive_iff_partial"
   ],
   "note": "False of the code; exact condition proved."
  },
  {
   "property": "C18",
   "status": "partial",
   "theorems": [
    "C18_symmetric_refuted",
    "C18_symmetric_partial"
   ],
   "note": "False of the code: attributes only the first tree has are ignored."
  },
  {
   "property": "C19",
   "status": "partial",
   "theorems": [
    "C19_order_refuted",
    "C19_order_partial"
   ],
   "note": "False of the code for siblings of the same name."
  },
  {
   "property": "C20",
   "status": "partial",
   "theorems": [
    "C20_no_mutation_refuted",
    "C20_only_reorders_partial",
    "C20_repeatable_partial"
   ],
   "note": "False of the code: children are sorted in place."
  },
  {
   "property": "C21",
   "status": "partial",
   "theorems": [
    "C21_content_refuted",
    "C21_charset_partial"
   ],
   "note": "False of the code: contents are displaced by one byte. Proved: everything else is right."
  },
  {
   "property": "C22",
   "status": "partial",
   "theorems": [
    "C22_join_refuted",
    "C22_new_scope",
    "C22_full_receiver_partial",
    "C22_parsed_receivers_partial"
   ],
   "note": "False of the code when a join result is joined again; proved for receivers made by parsing."
  },
  {
   "property": "C23",
   "status": "proved",
   "theorems": [
    "C23_flatten_visits_once"
   ],
   "note": ""
  },
  {
   "property": "C24",
   "status": "proved",
   "theorems": [
    "C24_flatten_topological",
    "C24_flatten_acyclic"
   ],
   "note": ""
  },
  {
   "property": "C25",
   "status": "proved",
   "theorems": [
    "C25_flatten_edge_set",
    "C25_len_distinct_targets"
   ],
   "note": ""
  },
  {
   "property": "C26",
   "status": "proved",
   "theorems": [
    "C26_parse_name",
    "C26_parse_only",
    "C26_names_distinct",
    "C26_standard_names"
   ],
   "note": ""
  },
  {
   "property": "C27",
   "status": "partial",
   "theorems": [
    "C27_complete_refuted",
    "C27_complete_partial",
    "C27_appended_partial"
   ],
   "note": "False of the code: the loop stops before UnsignedShort, so that type and anySimpleType are missing."
  },
  {
   "property": "C28",
   "status": "partial",
   "theorems": [
    "C28_imports",
    "C28_nested_refuted",
    "C28_includes_once_partial"
   ],
   "note": "The exact list is proved for every document; one entry per include is false if a schema is nested in another."
  },
  {
   "property": "C29",
   "status": "partial",
   "theorems": [
    "C29_attribute_default",
    "C29_element_default",
    "C29_denotes_partial",
    "C29_default_type_refuted",
    "C29_foreign_type_refuted",
    "C29_documents"
   ],
   "note": "Which attributes are set, and that nothing else changes, is proved for every tree; that they denote the default type is false if the schema namespace's prefix is redeclared."
  },
  {
   "property": "C30",
   "status": "proved",
   "theorems": [
    "C30_choices",
    "C30_documents"
   ],
   "note": ""
  },
  {
   "property": "C31",
   "status": "partial",
   "theorems": [
    "C31_expanded_partial",
    "C31_documents_partial",
    "C31_explicit",
    "C31_again",
    "C31_unchanged",
    "C31_nested_refuted"
   ],
   "note": "False of the code for a complexType that is itself a child of a complexType in shorthand: it is moved, and the pointer to it then leads to something else. Proved if no complexType is a child of another; documents as parsed satisfy the other conditions (C31_documents_partial)."
  },
  {
   "property": "C32",
   "status": "partial",
   "theorems": [
    "C32_numbered_partial",
    "C32_documents_partial",
    "C32_distinct",
    "C32_none_left",
    "C32_elements_partial",
    "C32_elements_distinct",
    "C32_refers_partial",
    "C32_stale_refuted",
    "C32_union_refuted",
    "C32_taken_refuted",
    "C32_refers_refuted"
   ],
   "note": "False of the code in four ways: global elements with anonymous types are changed through pointers into an array that is no longer used once the root has got a larger one (C32_stale_refuted); the second of two anonymous members of a union is skipped (C32_union_refuted); a type that the author has named _anon1 is not taken into account (C32_taken_refuted); without a prefix for the target namespace the parent gets an empty reference (C32_refers_refuted). Proved otherwise: which tree results, for each of the two passes, for any number of documents (C32_numbered_partial, C32_elements_partial, C32_documents_partial); that generated names are different (C32_distinct, C32_elements_distinct); that no anonymous type is left (C32_none_left); that the reference resolves to the type (C32_refers_partial)."
  },
  {
   "property": "C33",
   "status": "partial",
   "theorems": [
    "C33_deref",
    "C33_ref_removed",
    "C33_type_partial",
    "C33_type_refuted",
    "C33_override_refuted"
   ],
   "note": "False for the type if the reference's scope does not declare its namespace, and for attributes with equal local names. In Normalize default types are set before references are replaced, so there every reference sets a type (C138)."
  },
  {
   "property": "C34",
   "status": "partial",
   "theorems": [
    "C34_missing",
    "C34_resolved_partial",
    "C34_stale_refuted"
   ],
   "note": "That missing targets are reported is proved for all documents. That no reference is left is false of the code: a reference inside something that is itself referred to may be copied before it is replaced. Proved if the children of referenced elements are not references."
  },
  {
   "property": "C35",
   "status": "proved",
   "theorems": [
    "C35_merged"
   ],
   "note": ""
  },
  {
   "property": "C36",
   "status": "partial",
   "theorems": [
    "C36_plural",
    "C36_flags",
    "C36_reported_partial",
    "C36_reported_refuted"
   ],
   "note": "Flags proved for every element, with the exact condition for an error; false that malformed numbers are always reported: maxOccurs is not read if minOccurs is more than 1."
  },
  {
   "property": "C37",
   "status": "proved",
   "theorems": [
    "C37_replaced",
    "C37_fails_iff",
    "C37_order",
    "C37_parse"
   ],
   "note": "C37_parse is about Parse as a whole; the other three are about resolvePartialTypes for one schema."
  },
  {
   "property": "C38",
   "status": "partial",
   "theorems": [
    "C38_bases_refuted",
    "C38_bases_partial",
    "C38_findType_partial"
   ],
   "note": "False of the code: circular derivations are accepted. Proved for hierarchies without cycles and missing bases."
  },
  {
   "property": "C39",
   "status": "proved",
   "theorems": [
    "C39_mixed",
    "C39_order",
    "C39_again"
   ],
   "note": "For hierarchies without cycles of at most 1001 levels, as in the statement."
  },
  {
   "property": "C40",
   "status": "partial",
   "theorems": [
    "C40_schemas_refuted",
    "C40_schemas_partial"
   ],
   "note": "False of the code: schemas with the same target namespace overwrite each other. Proved for distinct target namespaces."
  },
  {
   "property": "C41",
   "status": "partial",
   "theorems": [
    "C41_undo_partial",
    "C41_allowType_partial",
    "C41_undo_refuted",
    "C41_last_partial",
    "C41_wsdlgen_partial",
    "C41_wsdlgen_refuted"
   ],
   "note": "False for AllowType of xsdgen and OnlyPorts, LogLevel, LogOutput of wsdlgen; proved for every other option."
  },
  {
   "property": "C42",
   "status": "proved",
   "theorems": [
    "C42_replace_in_order",
    "C42_undo"
   ],
   "note": ""
  },
  {
   "property": "C43",
   "status": "proved",
   "theorems": [
    "C43_dedup",
    "C43_flatten"
   ],
   "note": ""
  },
  {
   "property": "C44",
   "status": "partial",
   "theorems": [
    "C44_inherits_partial",
    "C44_order_partial",
    "C44_inherits_refuted"
   ],
   "note": "The expansion does not end if a type is its own ancestor. Proved for finite ancestries in which ancestors can be told apart by name."
  },
  {
   "property": "C45",
   "status": "proved",
   "theorems": [
    "C45_merge"
   ],
   "note": ""
  },
  {
   "property": "C46",
   "status": "partial",
   "theorems": [
    "C46_names_partial",
    "C46_chosen_partial",
    "C46_wildcard_refuted",
    "C46_text_refuted"
   ],
   "note": "False for wildcard and character data fields; proved for types without them."
  },
  {
   "property": "C47",
   "status": "partial",
   "theorems": [
    "C47_ints",
    "C47_uints_partial",
    "C47_uints_refuted",
    "C47_strings_partial",
    "C47_strings_refuted",
    "C47_floats",
    "C47_bytes",
    "C47_generated_refuted",
    "C47_methods",
    "C47_codec",
    "C47_derived"
   ],
   "note": "Proved for lists of signed integers, floats and bytes; false for large unsigned integers, for strings with white space, and for item types for which the generated code does not compile."
  },
  {
   "property": "C48",
   "status": "partial",
   "theorems": [
    "C48_printed_partial",
    "C48_sorted",
    "C48_order_partial",
    "C48_order_refuted",
    "C48_clash_refuted"
   ],
   "note": "The order of declarations is proved; false that their contents never depend on the order in which types are visited."
  },
  {
   "property": "C49",
   "status": "partial",
   "theorems": [
    "C49_missing_partial",
    "C49_missing_refuted",
    "C49_twice_refuted"
   ],
   "note": "False if a namespace has several schemas or is requested twice."
  },
  {
   "property": "C50",
   "status": "partial",
   "theorems": [
    "C50_order_partial",
    "C50_unreadable_partial",
    "C50_ends_partial",
    "C50_cyclic_refuted",
    "C50_unreadable_refuted"
   ],
   "note": "False for circular imports, which are read for ever, and for an unreadable file if no namespaces are given."
  },
  {
   "property": "C51",
   "status": "proved",
   "theorems": [
    "C51_ignore_attributes",
    "C51_ignore_elements",
    "C51_no_filter"
   ],
   "note": ""
  },
  {
   "property": "C52",
   "status": "partial",
   "theorems": [
    "C52_table_partial",
    "C52_table_refuted",
    "C52_helpers",
    "C52_methods"
   ],
   "note": "False for the attributes of the xml namespace, which have no Go type, and at the upper edge of the table; proved for all others."
  },
  {
   "property": "C53",
   "status": "partial",
   "theorems": [
    "C53_collapse",
    "C53_replaced_partial",
    "C53_replaced_refuted"
   ],
   "note": "False for the facet length, which is not looked at; everything else proved."
  },
  {
   "property": "C54",
   "status": "proved",
   "theorems": [
    "C54_messages",
    "C54_complete"
   ],
   "note": "For documents in which message names are unique, as WSDL requires; the exact map is proved for all documents."
  },
  {
   "property": "C55",
   "status": "partial",
   "theorems": [
    "C55_operations_partial",
    "C55_unique_partial",
    "C55_soap12_refuted"
   ],
   "note": "False for the action of SOAP 1.2 bindings; everything else proved for all documents."
  },
  {
   "property": "C56",
   "status": "proved",
   "theorems": [
    "C56_method"
   ],
   "note": "ToUpper is modelled for ASCII."
  },
  {
   "property": "C57",
   "status": "partial",
   "theorems": [
    "C57_services_refuted",
    "C57_services_partial",
    "C57_single_partial"
   ],
   "note": "False of the code: only the last service's ports are kept."
  },
  {
   "property": "C58",
   "status": "proved",
   "theorems": [
    "C58_thresholds",
    "C58_success"
   ],
   "note": ""
  },
  {
   "property": "C59",
   "status": "partial",
   "theorems": [
    "C59_only_ports_refuted",
    "C59_generated_partial"
   ],
   "note": "False of the code: the filter is never used."
  },
  {
   "property": "C60",
   "status": "partial",
   "theorems": [
    "C60_input_type_refuted",
    "C60_returns_refuted",
    "C60_consistent_partial"
   ],
   "note": "False of the code; exact condition for the number of values proved."
  },
  {
   "property": "C61",
   "status": "partial",
   "theorems": [
    "C61_sanitize_partial",
    "C61_injective_partial",
    "C61_injective_refuted"
   ],
   "note": "False of the code: break and break_ both become break_. Proved: never a keyword, everything else unchanged, injective otherwise."
  },
  {
   "property": "C62",
   "status": "partial",
   "theorems": [
    "C62_literal_unique",
    "C62_quote",
    "C62_string_refuted",
    "C62_string_invalid_refuted",
    "C62_string_partial"
   ],
   "note": "False of the code: a carriage return between backquotes is dropped, invalid UTF-8 is not a literal. Proved for quoted literals of all strings, and for raw ones without those characters."
  },
  {
   "property": "C63",
   "status": "proved",
   "theorems": [
    "C63_replace_set",
    "C63_command_line_order",
    "C63_strings_set"
   ],
   "note": "TrimSpace is modelled for ASCII."
  },
  {
   "property": "C64",
   "status": "proved",
   "theorems": [
    "C64_comment_lines",
    "C64_function_comment",
    "C64_text_kept"
   ],
   "note": ""
  },
  {
   "property": "C65",
   "status": "partial",
   "theorems": [
    "C65_mixed_content_refuted",
    "C65_leaf_content_partial"
   ],
   "note": "False of the code: text next to child elements is dropped."
  },
  {
   "property": "C66",
   "status": "partial",
   "theorems": [
    "C66_subelement_refuted",
    "C66_subelement_partial"
   ],
   "note": "False of the code when a prefix is redeclared."
  },
  {
   "property": "C67",
   "status": "partial",
   "theorems": [
    "C67_needed_partial",
    "C67_undo_refuted"
   ],
   "note": "False that the only AllowType can be undone; proved that only needed types are generated."
  },
  {
   "property": "C68",
   "status": "proved",
   "theorems": [
    "C68_marshal_terminates",
    "C68_tree_output"
   ],
   "note": ""
  },
  {
   "property": "C69",
   "status": "proved",
   "theorems": [
    "C69_equal_sound",
    "C69_equal_complete"
   ],
   "note": ""
  },
  {
   "property": "C70",
   "status": "proved",
   "theorems": [
    "C70_port_address"
   ],
   "note": ""
  },
  {
   "property": "C71",
   "status": "partial",
   "theorems": [
    "C71_return_types_refuted",
    "C71_return_types_partial"
   ],
   "note": "False of the code for types hidden from users."
  },
  {
   "property": "C72",
   "status": "partial",
   "theorems": [
    "C72_no_panic_refuted",
    "C72_no_panic_partial",
    "C72_single_partial"
   ],
   "note": "False of the code: a schema given before one it depends on can make Parse panic. Proved for schemas in order of dependency."
  },
  {
   "property": "C73",
   "status": "partial",
   "theorems": [
    "C73_order_refuted",
    "C73_order_partial"
   ],
   "note": "False of the code if types of different schemas have the same name. Proved for schemas with target namespaces, in order of dependency."
  },
  {
   "property": "C74",
   "status": "proved",
   "theorems": [
    "C74_fields"
   ],
   "note": ""
  },
  {
   "property": "C75",
   "status": "partial",
   "theorems": [
    "C75_overrides_partial",
    "C75_overrides_refuted"
   ],
   "note": "False for plural fields of types with helpers."
  },
  {
   "property": "C76",
   "status": "partial",
   "theorems": [
    "C76_fits_partial",
    "C76_fits_refuted"
   ],
   "note": "False for byte and for the unbounded integer types."
  },
  {
   "property": "C77",
   "status": "proved",
   "theorems": [
    "C77_hex",
    "C77_base64",
    "C77_time",
    "C77_hex_case"
   ],
   "note": "For times under the stated conditions on time.Parse and Time.Format, which are parameters."
  },
  {
   "property": "C78",
   "status": "partial",
   "theorems": [
    "C78_times_partial",
    "C78_base64_partial",
    "C78_binary_refuted"
   ],
   "note": "False for hexBinary and base64Binary."
  },
  {
   "property": "C79",
   "status": "partial",
   "theorems": [
    "C79_default_partial",
    "C79_default_refuted"
   ],
   "note": "False for defaults with line breaks."
  },
  {
   "property": "C80",
   "status": "partial",
   "theorems": [
    "C80_reuse_partial",
    "C80_reuse_refuted"
   ],
   "note": "False without given namespaces: those found in the first run are kept. Proved if namespaces are given."
  },
  {
   "property": "C81",
   "status": "partial",
   "theorems": [
    "C81_facets",
    "C81_bounds_partial",
    "C81_bounds_refuted",
    "C81_pattern_partial",
    "C81_pattern_refuted",
    "C81_fails_iff"
   ],
   "note": "False for times as bounds of types derived from other types, and for patterns that Go cannot compile; everything else proved."
  },
  {
   "property": "C82",
   "status": "proved",
   "theorems": [
    "C82_simple",
    "C82_base"
   ],
   "note": ""
  },
  {
   "property": "C83",
   "status": "partial",
   "theorems": [
    "C83_complex",
    "C83_simple_partial",
    "C83_attributes_refuted"
   ],
   "note": "False for attributes in a restriction of simple content, which are dropped."
  },
  {
   "property": "C84",
   "status": "partial",
   "theorems": [
    "C84_attribute_partial",
    "C84_prohibited_refuted",
    "C84_namespace_refuted"
   ],
   "note": "False for prohibited attributes and for the namespace."
  },
  {
   "property": "C85",
   "status": "partial",
   "theorems": [
    "C85_type",
    "C85_name_partial",
    "C85_name_refuted",
    "C85_home_partial"
   ],
   "note": "False for elements whose type is from another namespace; proved for types that are built in or from the target namespace."
  },
  {
   "property": "C86",
   "status": "proved",
   "theorems": [
    "C86_find"
   ],
   "note": "If it returns; C38 is about termination."
  },
  {
   "property": "C87",
   "status": "partial",
   "theorems": [
    "C87_error_iff",
    "C87_reported_refuted"
   ],
   "note": "False of the code: it does not return. Proved that the only error is for missing targets."
  },
  {
   "property": "C88",
   "status": "partial",
   "theorems": [
    "C88_toplevel_partial",
    "C88_toplevel_refuted"
   ],
   "note": "False of the code: local declarations are found as well. Proved if no local declaration has a name that is referred to."
  },
  {
   "property": "C89",
   "status": "partial",
   "theorems": [
    "C89_only_partial",
    "C89_qualified_refuted"
   ],
   "note": "False of the code: only local names are compared. Proved for local names."
  },
  {
   "property": "C90",
   "status": "proved",
   "theorems": [
    "C90_in_order",
    "C90_types",
    "C90_sees",
    "C90_calls"
   ],
   "note": ""
  },
  {
   "property": "C91",
   "status": "partial",
   "theorems": [
    "C91_named_partial",
    "C91_others",
    "C91_all_named",
    "C91_distinct_refuted"
   ],
   "note": "False of the code: two types may get the same name. The rest is proved."
  },
  {
   "property": "C92",
   "status": "proved",
   "theorems": [
    "C92_kept",
    "C92_replaced"
   ],
   "note": ""
  },
  {
   "property": "C93",
   "status": "proved",
   "theorems": [
    "C93_struct"
   ],
   "note": ""
  },
  {
   "property": "C94",
   "status": "proved",
   "theorems": [
    "C94_methods"
   ],
   "note": ""
  },
  {
   "property": "C95",
   "status": "partial",
   "theorems": [
    "C95_simple_partial",
    "C95_doc_refuted"
   ],
   "note": "False of the code: the documentation of lists is lost. The rest is proved."
  },
  {
   "property": "C96",
   "status": "partial",
   "theorems": [
    "C96_closed_partial",
    "C96_recursive_partial",
    "C96_few",
    "C96_list_generated",
    "C96_closed_refuted",
    "C96_documents_partial"
   ],
   "note": "False of the code for types that use themselves, when a complex type extends a simple type without adding attributes: a type may be declared whose base is not. Proved for types that do not use themselves, nested at most 1000 deep, and for types that do, if every structured type has content, attributes or a structured base; without transformations."
  },
  {
   "property": "C97",
   "status": "proved",
   "theorems": [
    "C97_declared",
    "C97_documents"
   ],
   "note": ""
  },
  {
   "property": "C98",
   "status": "proved",
   "theorems": [
    "C98_helpers"
   ],
   "note": ""
  },
  {
   "property": "C101",
   "status": "partial",
   "theorems": [
    "C101_usable_partial",
    "C101_builtin_partial",
    "C101_usable_refuted",
    "C101_documents_partial"
   ],
   "note": "False of the code: for a complex type without attributes derived from an enumeration, NameOf answers with a name that is not declared. Proved where complex types derived from simple ones have attributes. The other conditions are derived from conditions on the schemas."
  },
  {
   "property": "C102",
   "status": "partial",
   "theorems": [
    "C102_stable_partial",
    "C102_stable_refuted",
    "C102_documents_partial"
   ],
   "note": "False of the code for types that are not selected: NameOf changes types. Proved for selected types, under the condition of C101, and for built-in types."
  },
  {
   "property": "C103",
   "status": "partial",
   "theorems": [
    "C103_docs_partial",
    "C103_docs_refuted",
    "C103_markup_refuted"
   ],
   "note": "False of the code: documentation after another child is lost, and so is all text of documentation with markup. Proved for documentation elements that come first and contain no elements; references, CDATA sections and comments are covered."
  },
  {
   "property": "C104",
   "status": "partial",
   "theorems": [
    "C104_array_partial",
    "C104_other_partial",
    "C104_attributes_refuted",
    "C104_panic_refuted"
   ],
   "note": "False of the code: attributes after arrayType are lost, and the generator panics if the base type has no attributes. Proved for the other cases."
  },
  {
   "property": "C105",
   "status": "partial",
   "theorems": [
    "C105_tag_partial",
    "C105_tag_refuted"
   ],
   "note": "False of the code for every tag that has the key, and for fields without a tag (the test for nil is inverted). True where the tag does not have the key."
  },
  {
   "property": "C106",
   "status": "partial",
   "theorems": [
    "C106_slice_partial",
    "C106_slice_refuted"
   ],
   "note": "False of the code for arrays of dates, whose methods are declared twice. Proved for declarations without such methods."
  },
  {
   "property": "C107",
   "status": "partial",
   "theorems": [
    "C107_items_partial",
    "C107_items_refuted"
   ],
   "note": "False of the code: the error of an item is overwritten by the next token. Proved if all items can be decoded."
  },
  {
   "property": "C99",
   "status": "partial",
   "theorems": [
    "C99_compiles_partial",
    "C99_compiles_refuted",
    "C99_file_partial",
    "C99_documents_partial"
   ],
   "note": "False of the code for lists of QName, of dates and times, and of UnsignedLong. Proved for items of every other built-in type and of all types derived from them, since the generator replaces the type of the items by the built-in one."
  },
  {
   "property": "C100",
   "status": "partial",
   "theorems": [
    "C100_slice_partial",
    "C100_slice_refuted",
    "C99_file_partial",
    "C100_documents_partial"
   ],
   "note": "False of the code for a type that restricts a list by a facet, which is declared as one item. Proved for types that are lists themselves and share their Go name with no other type."
  },
  {
   "property": "C108",
   "status": "proved",
   "theorems": [
    "C108_means",
    "C108_altered"
   ],
   "note": "For configurations without hooks that change types. What may stand for a type is the type itself, one that it is derived from, or the type of any content if the chain has no built-in end; the type of a field that is worth a declaration is not replaced."
  },
  {
   "property": "C109",
   "status": "partial",
   "theorems": [
    "C109_types_partial",
    "C109_types_refuted",
    "C109_documents_partial"
   ],
   "note": "False of the code for a complex type that only renames an enumeration, and for types of namespaces that are not selected. Proved for parts that refer to selected types, to built-in types, or to elements of such types, and messages with usable names."
  },
  {
   "property": "C110",
   "status": "partial",
   "theorems": [
    "C110_once_partial",
    "C110_once_refuted"
   ],
   "note": "False of the code: two ports for one port type give every method twice, a message with many parts that two operations use is declared twice, and a type named client clashes with Client. Proved when the names differ."
  },
  {
   "property": "C111",
   "status": "partial",
   "theorems": [
    "C111_public_partial",
    "C111_private_refuted",
    "C111_documents_partial"
   ],
   "note": "False of the code for all ten types: the field has the type that users see. Proved: users see the documented type."
  },
  {
   "property": "C112",
   "status": "proved",
   "theorems": [
    "C112_body"
   ],
   "note": "For every operation for which a function is generated."
  },
  {
   "property": "C113",
   "status": "partial",
   "theorems": [
    "C113_element_partial",
    "C113_element_refuted"
   ],
   "note": "False of the code: the field is named after the part, in the target namespace. Proved: it is the element exactly if that is the name of the element."
  },
  {
   "property": "C114",
   "status": "partial",
   "theorems": [
    "C114_parameters_partial",
    "C114_parameters_refuted"
   ],
   "note": "False of the code for parts named like the receiver, the context, a variable of the body, a package or type in use, and for type and type_. Proved for all other names."
  },
  {
   "property": "C115",
   "status": "partial",
   "theorems": [
    "C115_fields_partial",
    "C115_fields_refuted"
   ],
   "note": "False of the code for names with hyphens or periods, for names that begin with an underscore, and for names that differ in the case of the first letter. Proved for names of ASCII letters, digits and underscores that begin with a letter and differ otherwise."
  },
  {
   "property": "C116",
   "status": "partial",
   "theorems": [
    "C116_wildcard_partial",
    "C116_wildcard_refuted"
   ],
   "note": "False of the code: of several wildcards the first remains, and minOccurs=0 is dropped. Proved for one wildcard: plural, type and position."
  },
  {
   "property": "C117",
   "status": "partial",
   "theorems": [
    "C117_simple_partial",
    "C117_restriction_partial",
    "C117_complex_partial",
    "C117_doc_refuted"
   ],
   "note": "False of the code: the annotation of a type and that of its content are run together, annotations of an extension are lost, and an annotation without text leaves a blank line. Proved for elements, attributes, simple types and restrictions, and for complex types with annotations at one of the two places."
  },
  {
   "property": "C118",
   "status": "partial",
   "theorems": [
    "C118_start_partial",
    "C118_replaced_refuted"
   ],
   "note": "False of the code: fields keep the type that was replaced, and it is still declared. Proved: the types that generation starts from are those returned."
  },
  {
   "property": "C119",
   "status": "partial",
   "theorems": [
    "C119_ignored",
    "C119_results_refuted",
    "C119_results_partial"
   ],
   "note": "False: the field for the message has no tag, so only elements called Message are decoded; all other content is ignored. Proved for operations of that name."
  },
  {
   "property": "C120",
   "status": "proved",
   "theorems": [
    "C120_faults"
   ],
   "note": ""
  },
  {
   "property": "C121",
   "status": "partial",
   "theorems": [
    "C121_request_partial",
    "C121_media_type_refuted",
    "C121_action_refuted",
    "C121_style_refuted"
   ],
   "note": "False: there is no Content-Type, the SOAP action is not quoted, and the body has one more layer than either style. What requests are is proved."
  },
  {
   "property": "C122",
   "status": "partial",
   "theorems": [
    "C122_arguments_partial",
    "C122_arguments_refuted"
   ],
   "note": "False for methods other than POST and PUT, which drop the arguments; proved for these two."
  },
  {
   "property": "C123",
   "status": "partial",
   "theorems": [
    "C123_success_partial",
    "C123_status_refuted"
   ],
   "note": "False: the status of the response is ignored. Proved for the rest."
  },
  {
   "property": "C124",
   "status": "proved",
   "theorems": [
    "C124_hooks"
   ],
   "note": ""
  },
  {
   "property": "C125",
   "status": "partial",
   "theorems": [
    "C125_parse_partial",
    "C125_foreign_refuted",
    "C125_spaces_refuted",
    "C125_entity_refuted",
    "C125_instruction_refuted"
   ],
   "note": "False for attributes in a namespace called xmlns, which are lost, for white space in attribute values, which XML turns into spaces, for entities that the document declares and for some processing instructions inside document type declarations. Proved for documents without such a namespace and such entities and instructions, with line ends as the only change to white space."
  },
  {
   "property": "C126",
   "status": "partial",
   "theorems": [
    "C126_long_lines_refuted",
    "C64_text_kept"
   ],
   "note": "False of the code: bufio.Scanner stops at a line longer than 65535 bytes, and that line and everything after it is dropped without an error. Proved for texts without such a line (C64_text_kept)."
  },
  {
   "property": "C127",
   "status": "partial",
   "theorems": [
    "C127_configures_partial",
    "C127_rejected",
    "C127_kept_refuted",
    "C127_defaults"
   ],
   "note": "False for two settings: namespaces and FollowImports that were configured before are overwritten even if -ns and -f are not given. Everything else is proved, for every way of writing the flags."
  },
  {
   "property": "C128",
   "status": "proved",
   "theorems": [
    "C128_configures",
    "C128_rejected",
    "C128_package",
    "C128_defaults",
    "C128_in_order"
   ],
   "note": ""
  },
  {
   "property": "C129",
   "status": "partial",
   "theorems": [
    "C129_only_refuted",
    "C129_printed_partial"
   ],
   "note": "False of the code: -ns hides nothing, it only adds built-in schemas. What is printed is proved."
  },
  {
   "property": "C130",
   "status": "partial",
   "theorems": [
    "C130_rewrite_partial",
    "C130_default_refuted",
    "C130_shadow_refuted",
    "C130_quote_refuted",
    "C130_return_refuted"
   ],
   "note": "False for attributes in a namespace that is also the default one, for namespaces with a prefix that was declared again, and for attribute values that need escaping. Proved where all prefixes a namespace was ever given still stand for it."
  },
  {
   "property": "C131",
   "status": "partial",
   "theorems": [
    "C131_kept_partial",
    "C131_generated_partial",
    "C131_absent_refuted",
    "C131_zero_refuted",
    "C131_any_refuted",
    "C131_repeated_refuted",
    "C131_dates_refuted",
    "C131_order_refuted",
    "C131_qname_refuted",
    "C131_unexported_refuted",
    "C131_mixed_refuted",
    "C131_nil_refuted",
    "C131_value_refuted",
    "C131_form_refuted",
    "C131_embedded_refuted",
    "C131_attrs_refuted",
    "C131_octets_refuted",
    "C131_tokens_refuted"
   ],
   "note": "False for optional elements that are absent or have the value 0, wildcards, repeated bytes, choices and dates, dates before other elements, qualified names, names with an underscore, mixed content, nil, elements that are not qualified (the default), attributes qualified by default, attributes with the same local name, names t, and values passed without a pointer. Proved for all other documents, up to the order of attributes and the place of dates."
  },
  {
   "property": "C132",
   "status": "proved",
   "theorems": [
    "C132_unknown"
   ],
   "note": "For structs that compile and have no wildcard, whose fields encoding/xml can tell apart (Setting.Fine)."
  },
  {
   "property": "C133",
   "status": "proved",
   "theorems": [
    "C133_order",
    "C133_attrs"
   ],
   "note": "For structs that compile and have no wildcard, whose fields encoding/xml can tell apart (Setting.Fine). Attributes must differ in their local names."
  },
  {
   "property": "C134",
   "status": "partial",
   "theorems": [
    "C134_refuted",
    "C134_recursive_partial"
   ],
   "note": "False: an element that is not repeated and has the type it is in becomes a field of the type of the struct itself. Proved: this is the only way, for schema types with distinct names."
  },
  {
   "property": "C135",
   "status": "partial",
   "theorems": [
    "C135_refuted",
    "C135_absent_partial"
   ],
   "note": "False: the default is only mentioned in a comment of the generated method. Proved: fields of what is absent keep their value."
  },
  {
   "property": "C136",
   "status": "partial",
   "theorems": [
    "C136_flags_partial",
    "C136_repeated_refuted",
    "C136_left_out_refuted",
    "C136_twice_refuted",
    "C136_deep_refuted",
    "C136_group_refuted"
   ],
   "note": "False for groups that are repeated or may be left out, for names declared twice, for sequences in sequences of a choice, and for groups that a choice refers to. Proved for all content models without these (Ordinary)."
  },
  {
   "property": "C137",
   "status": "partial",
   "theorems": [
    "C137_canonical_partial",
    "C137_idempotent_refuted",
    "C137_neat_partial"
   ],
   "note": "False: groups are unpacked after the alternatives of choices have been made optional, so the elements of a group that a choice refers to become optional the second time. Proved: schemas in canonical form stay as they are, and the second Normalize changes nothing for schemas whose references lead to declarations without contents and whose global declarations have no anonymous types (C137_neat_partial)."
  },
  {
   "property": "C138",
   "status": "partial",
   "theorems": [
    "C138_default_partial",
    "C138_own_partial",
    "C138_refuted"
   ],
   "note": "False: default types are filled in before references are replaced, and the attributes of a reference take precedence, so references are of type anyType or anySimpleType. Proved: this is the type of every reference without a type, and a type that the reference itself sets is kept."
  },
  {
   "property": "C139",
   "status": "partial",
   "theorems": [
    "C139_comment_partial",
    "C139_documentation_refuted",
    "C139_restrictions_refuted",
    "C139_base_refuted",
    "C139_declaration_refuted"
   ],
   "note": "False: flatten1 overwrites the documentation by a sentence on the first restriction of the type itself that it finds; the other restrictions, those of the base types, and the documentation of types that get no declaration are not told. Proved: for every type that gets a declaration and is no list, the comment is the documentation if the type is a union or needs methods, and otherwise tells all enumerated values, or the pattern, or the greatest length, or the least, the first of these that there is."
  },
  {
   "property": "C140",
   "status": "partial",
   "theorems": [
    "C140_declared_partial",
    "C140_reported",
    "C140_constants",
    "C140_constants_panic",
    "C140_blank_refuted",
    "C140_channel_refuted",
    "C140_first_refuted"
   ],
   "note": "False of types without a name that contain a blank, which are cut there, and of lists of which the first text is empty, which are ignored. Proved for all others."
  },
  {
   "property": "C141",
   "status": "partial",
   "theorems": [
    "C141_marked_partial",
    "C141_documented",
    "C141_again_partial",
    "C141_directory",
    "C141_named",
    "C141_again_refuted",
    "C141_name_refuted",
    "C141_program_refuted"
   ],
   "note": "False: the package comment is removed from the file, so that it is missing the second time, and the source depends on the name of the program. Proved: the lines of the source, and that nothing else of the path of the program matters."
  },
  {
   "property": "C142",
   "status": "partial",
   "theorems": [
    "C142_rules_partial",
    "C142_strings_partial",
    "C142_rules_refuted",
    "C142_strings_refuted"
   ],
   "note": "False of replacements with line breaks, of values with commas and of no value. Proved for all others."
  },
  {
   "property": "C143",
   "status": "partial",
   "theorems": [
    "C143_listed_partial",
    "C143_element_refuted"
   ],
   "note": "False of parts given by an element, for which nothing is shown. Proved: the lines, with the types of the parts."
  },
  {
   "property": "C144",
   "status": "partial",
   "theorems": [
    "C144_first_partial",
    "C144_refuted"
   ],
   "note": "False: only the first document is parsed as a WSDL document. Proved for the operations of the first."
  },
  {
   "property": "C145",
   "status": "partial",
   "theorems": [
    "C145_portion_partial",
    "C145_mixed_refuted",
    "C145_shadow_refuted",
    "C145_escape_refuted"
   ],
   "note": "False of text beside elements, which is lost, of prefixes that are declared again and of values that must be escaped. Proved for all elements of other documents that use no entities of their own."
  },
  {
   "property": "C146",
   "status": "partial",
   "theorems": [
    "C146_place_partial",
    "C146_error_partial",
    "C146_never_refuted",
    "C146_same_refuted",
    "C146_nowhere_refuted",
    "C146_self_refuted",
    "C146_told_partial"
   ],
   "note": "False: the element at fault is never part of the place, so that errors in different declarations of a type look the same; the type is not named if its own attributes are at fault; for top-level elements a type _self is named. Proved: there is an error exactly if types cannot be read; it is about one element of the normalized schema, and the place consists of elements around it."
  },
  {
   "property": "C147",
   "status": "partial",
   "theorems": [
    "C147_named_partial",
    "C147_some_partial",
    "C147_order_refuted",
    "C147_invented_refuted"
   ],
   "note": "False: with several missing types the error depends on the order of a map, and types without a name and top-level elements are given under names that the schema does not contain. Proved for all orders: Parse fails exactly if there is an error; if all types can be read it names a type that is neither built in nor was read, and a use of it."
  },
  {
   "property": "C148",
   "status": "partial",
   "theorems": [
    "C148_collected_partial",
    "C148_tree_refuted",
    "C148_chain_refuted"
   ],
   "note": "False of the code: flatten1 visits a type again each time it is used, down to a depth of 1000, so that more than 2^1000 types are collected for a type with two elements of the type itself, and more than 2^k for k+1 nested types. Proved if each structured type refers to at most one structured type, in one place."
  },
  {
   "property": "C149",
   "status": "partial",
   "theorems": [
    "C149_canonical_partial",
    "C149_passes_partial",
    "C149_schemas",
    "C149_prefix_refuted",
    "C149_global_refuted",
    "C149_linked",
    "C149_unlinked"
   ],
   "note": "False if the target namespace has no prefix: types get names to which their elements refer by an empty string (C149_prefix_refuted). False for global elements with anonymous types: some keep them (C149_global_refuted). Proved for the whole of Normalize, on one memory and for any number of documents, for schemas whose references lead to global declarations without contents (Linked), and whose global declarations have no anonymous types of their own; references are replaced as C33 says (DocRelinked)."
  },
  {
   "property": "C150",
   "status": "partial",
   "theorems": [
    "C150_moved_partial",
    "C150_prefix_refuted",
    "C150_default_refuted"
   ],
   "note": "False if the target namespace has no prefix: the element gets any type, silently (C150_prefix_refuted). False without a target namespace if the default namespace is that of XML Schema: an element named string with a type of integers becomes a string (C150_default_refuted). Proved for the passes that move types, in the whole of Normalize, for schemas that have a target namespace with a prefix, whose global declarations have no anonymous types and which use none of the names that Normalize gives; references may lead to global declarations without contents."
  },
  {
   "property": "C151",
   "status": "partial",
   "theorems": [
    "C151_accepts_partial",
    "C151_zone_refuted",
    "C151_duration_refuted"
   ],
   "note": "False for limits of times without a time zone (C151_zone_refuted) and for limits of durations (C151_duration_refuted), which XML Schema allows; false if a type is derived from one of a later schema (C72). Proved, through the whole of Normalize and Parse, for schemas without groups whose references lead to global declarations without contents, that have a target namespace with a prefix, whose global declarations have no anonymous types, and in which types are derived from types of the same or an earlier schema."
  },
  {
   "property": "C152",
   "status": "proved",
   "theorems": [
    "C152_unknown"
   ],
   "note": ""
  },
  {
   "property": "C153",
   "status": "partial",
   "theorems": [
    "C153_types_partial",
    "C153_documents_partial",
    "C153_schemas_partial",
    "C153_default",
    "C153_lists",
    "C153_booleans_refuted",
    "C153_sound_partial"
   ],
   "note": "Proved for orderly and regular schemas whose types are derived from built-in types, with fields of types of XML Schema, and without lists of the types named in unlisted; in C153_schemas_partial, all conditions but that on the options are conditions on the documents, and C153_default shows that the options of the command meet that one for types that are not anonymous and not SOAP arrays. C153_booleans_refuted: a list of booleans, which Parse accepts, makes GenCode fail. C153_lists: of all built-in types, exactly those in unlisted do."
  },
  {
   "property": "C154",
   "status": "partial",
   "theorems": [
    "C154_functions_partial",
    "C154_documents_partial",
    "C154_schemas_partial",
    "C154_files_partial",
    "C154_messages",
    "C154_one_way_refuted",
    "C154_foreign_refuted"
   ],
   "note": "False: an operation without output (WSDL 1.1, section 2.4.1) makes the whole generation fail, and so does a part that names an element whose type is from another namespace. Proved for operations with input and output; C154_files_partial has conditions on the documents alone, besides that on the options."
  },
  {
   "property": "C155",
   "status": "partial",
   "theorems": [
    "C155_complex_partial",
    "C155_simple_partial",
    "C155_elements_partial",
    "C155_types_refuted",
    "C155_content_partial"
   ],
   "note": "False for several documents with the same target namespace, of which only the last one counts. Proved for documents with different target namespaces that define no type twice."
  },
  {
   "property": "C156",
   "status": "partial",
   "theorems": [
    "C156_struct_partial",
    "C156_refuted",
    "C156_altered_partial",
    "C156_default_partial"
   ],
   "note": "Proved for orderly, regular schemas whose types are derived as they should be (Orderly, Regular, Derivable), with options that change no types beforehand and no declarations afterwards (C156_altered_partial lets them change structs whose only field is a slice, C156_default_partial is for the options of the command xsdgen), whichever elements and attributes the options IgnoreElements and IgnoreAttributes leave out, for types whose Go name is not that of another type or of a helper. C156_refuted shows that the last condition is needed: of two types t and T only one is declared."
  },
  {
   "property": "C157",
   "status": "partial",
   "theorems": [
    "C157_simple_partial",
    "C157_refuted",
    "C157_default_partial"
   ],
   "note": "Proved for orderly, regular schemas whose types are derived as they should be (Orderly, Regular, Derivable), with options that change no types beforehand, and afterwards no declarations except structs whose only field is a slice (C157_default_partial shows it for the options of the command xsdgen), for types whose Go name is not that of another type or of a helper. C157_refuted shows that the last condition is needed: of a list t and a union T only the union is declared."
  },
  {
   "property": "C158",
   "status": "partial",
   "theorems": [
    "C158_answers_partial",
    "C158_panic_refuted",
    "C158_runs_refuted",
    "C158_unlisted"
   ],
   "note": "Proved for orderly and regular schemas whose types are derived from built-in types (Orderly, Regular, Grounded); the number of steps that loops over base types need is at most the number of types and three. C158_panic_refuted: Parse accepts a simple type that is not defined by anything, and GenCode panics in flatten1 if something is of that type. C158_runs_refuted: Parse accepts two simple types that are derived from each other, and the loop over base types in flatten1 does not end."
  },
  {
   "property": "C159",
   "status": "partial",
   "theorems": [
    "C159_comment_partial",
    "C159_dates_refuted",
    "C159_names_refuted"
   ],
   "note": "Proved for orderly, regular schemas whose types are derived as they should be (Orderly, Regular, Derivable), with options that change no types beforehand, and afterwards no declarations except structs whose only field is a slice, for restrictions of types that are not derived from a built-in type that xsdgen has a type with methods for, by values, or by lengths without values and patterns, and whose Go name is not that of another type or of a helper. C159_dates_refuted and C159_names_refuted show that the last two conditions are needed: the comment on an enumeration of dates does not tell the dates, and of the enumerations a and A only one is declared."
  },
  {
   "property": "C160",
   "status": "partial",
   "theorems": [
    "C160_functions_partial",
    "C160_simple_partial",
    "C160_refuted",
    "C160_altered_partial",
    "C160_default_partial"
   ],
   "note": "Proved for orderly, regular schemas whose types are derived as they should be (Orderly, Regular, Derivable), with options that change no types beforehand and no declarations afterwards (C160_altered_partial lets them change structs whose only field is a slice, C160_default_partial is for the options of the command wsdlgen), whichever elements and attributes the options IgnoreElements and IgnoreAttributes leave out, for types whose Go name is not that of another type, of a helper or of a type that opArgs hides. C160_refuted shows that the condition on other types is needed: a function that is given a t and a T takes two values of the one struct that is declared. C160_simple_partial is the same for simple types."
  }
 ]
}