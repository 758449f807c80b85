{
 "claims": [
  {
   "property": "C01",
   "status": "proved",
   "theorems": [
    "PXml.C01_round_trip",
    "PXml.Ex.C01_all_trees",
    "PXml.Ex.C01_all_sheets",
    "PXml.Ex.C01_counterexample_computed",
    "PXml.Ex.C01_counterexample_apart",
    "PXml.Ex.C01_counterexample_tuple",
    "PXml.Ex.C01_counterexample_skip"
   ],
   "note": "For the instances described by Handed (Verif/SpecRoundTrip.lean), for every fuel above a bound. The counterexample theorems show that the conditions on shared wrappers, on missing tuple items, on computed fields in classes that forbid extra data and on empty values under skip_empty are needed. Text parsing and printing of XML by lxml/ElementTree is not modelled."
  },
  {
   "property": "C02",
   "status": "proved",
   "theorems": [
    "PXml.C02_nothing_left"
   ],
   "note": "Same instances as C01, without computed fields."
  },
  {
   "property": "C03",
   "status": "proved",
   "theorems": [
    "PXml.C03_strict_hit",
    "PXml.C03_strict_miss",
    "PXml.C03_C04_C05_look_behind"
   ],
   "note": ""
  },
  {
   "property": "C04",
   "status": "proved",
   "theorems": [
    "PXml.C04_ordered_hit",
    "PXml.C04_ordered_miss",
    "PXml.C04_history_in_document_order",
    "PXml.C03_C04_C05_look_behind"
   ],
   "note": ""
  },
  {
   "property": "C05",
   "status": "proved",
   "theorems": [
    "PXml.C05_unordered_succeeds_iff",
    "PXml.C05_unordered_miss",
    "PXml.C05_unordered_hit",
    "PXml.C05_history_conserves",
    "PXml.C03_C04_C05_look_behind"
   ],
   "note": ""
  },
  {
   "property": "C06",
   "status": "proved",
   "theorems": [
    "PXml.C06_content_conserved",
    "PXml.C06_delivered_once",
    "PXml.C06_no_sharing",
    "PXml.C06_children_kept",
    "PXml.C06_root_children_kept"
   ],
   "note": ""
  },
  {
   "property": "C07",
   "status": "proved",
   "theorems": [
    "PXml.C07_nothing_invented",
    "PXml.C07_foreign_data_never_validated"
   ],
   "note": ""
  },
  {
   "property": "C08",
   "status": "partial",
   "theorems": [
    "PXml.C08_ordered_partial",
    "PXml.C08_C09_unordered_partial",
    "PXml.C08_unordered_partial",
    "PXml.C08_unordered_counterexample",
    "PXml.C08_ordered_counterexample",
    "PXml.C08_ordered_values_partial",
    "PXml.C08_C09_unordered_values_partial"
   ],
   "note": "The property fails in general: in unordered mode a foreign element changes which of several same-tagged siblings is read first, and in ordered mode it changes how often the error of a failed union of models is reported (counterexample theorems). Proved, for classes without raw fields, without extra='forbid' and without custom field validators: the same values and the same errors if there are no plain unions of models (*_partial), and the same instance or a validation error in both cases with unions of models (*_values_partial); in unordered mode provided that no known tag is repeated among siblings."
  },
  {
   "property": "C09",
   "status": "partial",
   "theorems": [
    "PXml.C08_C09_unordered_partial",
    "PXml.C09_order_irrelevant_partial",
    "PXml.C09_counterexample",
    "PXml.C08_C09_unordered_values_partial",
    "PXml.C09_values_partial"
   ],
   "note": "Proved for classes without raw fields, without extra='forbid' and without custom field validators and documents in which no known tag is repeated among siblings: the same values and the same errors if there are no plain unions of models, the same instance or a validation error in both cases with them. C09_counterexample shows that with unions of models the reported errors depend on the order."
  },
  {
   "property": "C10",
   "status": "partial",
   "theorems": [
    "PXml.C10_comments_invisible",
    "PXml.C10_comments_removed_partial",
    "PXml.C10_counterexample"
   ],
   "note": "Comments never bind or block. Removing a comment that splits text joins the text, so the literal statement fails (counterexample); proved for comments not followed by text."
  },
  {
   "property": "C11",
   "status": "proved",
   "theorems": [
    "PXml.C11_first_success",
    "PXml.C11_only_success"
   ],
   "note": ""
  },
  {
   "property": "C12",
   "status": "partial",
   "theorems": [
    "PXml.C12_reported",
    "PXml.C12_absent",
    "PXml.C12_errors_partial",
    "PXml.C12_names",
    "PXml.Ex.C12_counterexample"
   ],
   "note": "Errors are keyed by the title of the raised error: two failing alternatives with the same title overwrite each other (counterexample). C12_reported says exactly what is reported without any condition on names: the errors of each failed alternative that is the last failed one of its name."
  },
  {
   "property": "C13",
   "status": "proved",
   "theorems": [
    "PXml.C13_reports_leftovers",
    "PXml.C13_nothing_else",
    "PXml.C13_accepts_only_if_read",
    "PXml.C13_stripped",
    "PXml.C13_from_xml",
    "PXml.C13_unread_rejected"
   ],
   "note": ""
  },
  {
   "property": "C14",
   "status": "proved",
   "theorems": [
    "PXml.C14_aggregates",
    "PXml.C14_no_failure",
    "PXml.C14_from_xml"
   ],
   "note": ""
  },
  {
   "property": "C15",
   "status": "proved",
   "theorems": [
    "PXml.C15_C34_items",
    "PXml.C15_tuples"
   ],
   "note": ""
  },
  {
   "property": "C16",
   "status": "partial",
   "theorems": [
    "PXml.C16_field_line_partial",
    "PXml.C16_submodel_line_partial",
    "PXml.C16_item_line_partial",
    "PXml.C16_tuple_line_partial",
    "PXml.C16_union_line_partial",
    "PXml.C16_tagged_line_partial",
    "PXml.C16_every_error_has_a_line_partial",
    "PXml.C16_line_known_partial",
    "PXml.C16_alias_counterexample",
    "PXml.C16_counterexample"
   ],
   "note": "Lines are keyed by the error location, so a key of a sub-model can be overwritten by a field of the same name (counterexample), and errors located at an alias have no line (counterexample). Proved: every error carries -1 or a line of the document; with lxml the line is known if pydantic locates its errors at fields; it is the right line for text, attribute and element fields, sub-models, list items, tuple items and unions of models, also inside wrappers, whose location key is written by no other field."
  },
  {
   "property": "C17",
   "status": "partial",
   "theorems": [
    "PXml.C17_exact",
    "PXml.C17_fields",
    "PXml.C17_none_partial",
    "PXml.C17_model_partial",
    "PXml.C17_counterexample_mapping",
    "PXml.C17_counterexample_mapping_skip",
    "PXml.C17_counterexample_tagged"
   ],
   "note": "Holds for every field kind except mapping elements (an empty element is written, or a TypeError is raised with skip_empty) and tagged unions (AttributeError), both shown by counterexample theorems. C17_exact says that these are all exceptions, C17_fields what is written for a whole instance."
  },
  {
   "property": "C18",
   "status": "proved",
   "theorems": [
    "PXml.C18_unset",
    "PXml.C18_unset_root"
   ],
   "note": ""
  },
  {
   "property": "C19",
   "status": "partial",
   "theorems": [
    "PXml.C19_skip_empty_partial",
    "PXml.Ex.C19_counterexample_wrapped",
    "PXml.Ex.C19_counterexample_raw",
    "PXml.Ex.C19_counterexample_declared"
   ],
   "note": "False of elements around wrapped fields, inside raw fields, and of classes that declare skip_empty=False (counterexamples). Proved: without raw fields and such classes, every empty element below the root is a wrapper element; with no wrapped fields there is none."
  },
  {
   "property": "C20",
   "status": "proved",
   "theorems": [
    "PXml.C20_definition",
    "PXml.C20_never_read",
    "PXml.C20_removal"
   ],
   "note": ""
  },
  {
   "property": "C21",
   "status": "proved",
   "theorems": [
    "PXml.C21_not_xml",
    "PXml.C21_document",
    "PXml.C21_read_document",
    "PXml.C21_excluded",
    "PXml.C21_read"
   ],
   "note": ""
  },
  {
   "property": "C22",
   "status": "proved",
   "theorems": [
    "PXml.C22_C28_only_validation_errors",
    "PXml.C22_written_name",
    "PXml.C22_output_accepted"
   ],
   "note": ""
  },
  {
   "property": "C23",
   "status": "proved",
   "theorems": [
    "PXml.C23_C27_field",
    "PXml.C23_C27_class",
    "PXml.C23_attribute"
   ],
   "note": ""
  },
  {
   "property": "C24",
   "status": "proved",
   "theorems": [
    "PXml.C24_parse_uri",
    "PXml.C24_uri_injective",
    "PXml.C24_uri_parse",
    "PXml.C24_hypotheses_needed"
   ],
   "note": ""
  },
  {
   "property": "C25",
   "status": "proved",
   "theorems": [
    "PXml.C25_grouping",
    "PXml.C25_last_wins",
    "PXml.C25_nsmap_union"
   ],
   "note": ""
  },
  {
   "property": "C26",
   "status": "proved",
   "theorems": [
    "PXml.C26_nearest_wins",
    "PXml.C26_nsmap_accumulates"
   ],
   "note": ""
  },
  {
   "property": "C27",
   "status": "proved",
   "theorems": [
    "PXml.C23_C27_field",
    "PXml.C23_C27_class"
   ],
   "note": ""
  },
  {
   "property": "C28",
   "status": "partial",
   "theorems": [
    "PXml.C28_field_accepted",
    "PXml.C28_class_accepted",
    "PXml.C28_rejected",
    "PXml.C28_accepted_reads",
    "PXml.C28_counterexample_list_of_tuples",
    "PXml.C22_C28_only_validation_errors"
   ],
   "note": "A class statement is accepted exactly if every field type has an XML representation at its place (C28_class_accepted, Schema.Supported), and reading documents with accepted classes raises only validation errors. The literal list of rejected types has one exception: a list of variadic tuples is accepted (counterexample)."
  },
  {
   "property": "C29",
   "status": "partial",
   "theorems": [
    "PXml.C29_never_ends",
    "PXml.C29_reading_terminates",
    "PXml.C29_empty_as_string_partial",
    "PXml.C29_counterexample"
   ],
   "note": "Terminates without empty_as_string and, with it, for lists whose items are not plain text; a list of plain texts with empty_as_string never terminates, whatever the document (C29_never_ends, C29_counterexample)."
  },
  {
   "property": "C30",
   "status": "partial",
   "theorems": [
    "PXml.C30_attribute_name",
    "PXml.C30_nil_is_none",
    "PXml.C30_none_is_nil",
    "PXml.C30_none_round_trip",
    "PXml.C30_value_not_nil",
    "PXml.C30_instance_not_nil_partial",
    "PXml.Ex.C30_counterexample"
   ],
   "note": "A root model around a nillable text written as None is read back as no instance (counterexample); proved for all other values."
  },
  {
   "property": "C31",
   "status": "proved",
   "theorems": [
    "PXml.C31_write",
    "PXml.C31_write_none",
    "PXml.C31_share",
    "PXml.C31_open",
    "PXml.C31_read"
   ],
   "note": ""
  },
  {
   "property": "C32",
   "status": "proved",
   "theorems": [
    "PXml.C32_read",
    "PXml.C32_read_document",
    "PXml.C32_write",
    "PXml.C32_round_trip",
    "PXml.Ex.C32_tag_needed"
   ],
   "note": ""
  },
  {
   "property": "C33",
   "status": "proved",
   "theorems": [
    "PXml.C33_definition",
    "PXml.C33_first",
    "PXml.C33_strict",
    "PXml.Ex.C33_order_needed",
    "PXml.C33_selects",
    "PXml.C33_absent",
    "PXml.C33_absent_any_mode"
   ],
   "note": ""
  },
  {
   "property": "C34",
   "status": "partial",
   "theorems": [
    "PXml.C34_written_order",
    "PXml.C34_one_child",
    "PXml.C15_C34_items",
    "PXml.C34_texts_in_order",
    "PXml.Ex.C34_counterexample"
   ],
   "note": "Reading in document order is proved up to the first item that reads as None, where the list ends (counterexample: items after an empty element are lost)."
  },
  {
   "property": "C35",
   "status": "proved",
   "theorems": [
    "PXml.C35_attributes",
    "PXml.C35_element",
    "PXml.C35_none_is_text",
    "PXml.C35_texts"
   ],
   "note": ""
  },
  {
   "property": "C36",
   "status": "partial",
   "theorems": [
    "PXml.C36_exact_dict",
    "PXml.C36_children",
    "PXml.C36_text",
    "PXml.C36_attributes_partial",
    "PXml.C36_counterexample"
   ],
   "note": "A field that takes all attributes replaces the attributes written by earlier fields (counterexample); text, children and the attributes written by the other kinds of field are preserved. C36_exact_dict says exactly what such a field does."
  },
  {
   "property": "C37",
   "status": "proved",
   "theorems": [
    "PXml.C37_field_order"
   ],
   "note": ""
  },
  {
   "property": "C38",
   "status": "proved",
   "theorems": [
    "PXml.C38_backends_write_alike",
    "PXml.C38_backends_read_alike"
   ],
   "note": "Reading: equal values (line numbers and raw prefixes aside). Writing: equal trees apart from namespace prefix declarations, without custom serializers."
  },
  {
   "property": "C39",
   "status": "proved",
   "theorems": [
    "PXml.C39_element",
    "PXml.C39_text",
    "PXml.C39_missing"
   ],
   "note": ""
  },
  {
   "property": "C40",
   "status": "proved",
   "theorems": [
    "PXml.C40_tails_irrelevant",
    "PXml.C40_blank_tails_irrelevant"
   ],
   "note": ""
  },
  {
   "property": "C41",
   "status": "proved",
   "theorems": [
    "PXml.C41_read",
    "PXml.C41_read_start",
    "PXml.C41_finds_last_only",
    "PXml.C41_at_end",
    "PXml.C41_at_end_model"
   ],
   "note": ""
  },
  {
   "property": "C42",
   "status": "proved",
   "theorems": [
    "PXml.C42_override",
    "PXml.C42_inherit"
   ],
   "note": ""
  },
  {
   "property": "C43",
   "status": "proved",
   "theorems": [
    "PXml.C43_absent",
    "PXml.C43_others_undisturbed"
   ],
   "note": ""
  },
  {
   "property": "C44",
   "status": "proved",
   "theorems": [
    "PXml.Heap.C44_tree_unchanged",
    "PXml.Heap.C44_read_again",
    "PXml.Heap.C44_instance_unchanged",
    "PXml.Heap.C44_output_separate",
    "PXml.Heap.C44_write_again"
   ],
   "note": "In a model with object identity every object that existed before is unchanged, whatever the outcome, for reading and for writing; trees can be read and instances written again with the same result, and the tree that is written shares no object with the instance. Custom validators and serializers are functions here: what user code does to the objects it is given is not modelled."
  },
  {
   "property": "C45",
   "status": "partial",
   "theorems": [
    "PXml.C45_counterexample",
    "PXml.C45_stranger_rejected_partial"
   ],
   "note": "False: an unknown element without text and attributes is accepted (counterexample). Proved: a document with an unknown element, at any depth, that carries an attribute or a non-blank text, itself or in a descendant, is not accepted."
  },
  {
   "property": "C46",
   "status": "partial",
   "theorems": [
    "PXml.C46_nearest_wins_partial",
    "PXml.C46_counterexample_farther_wins",
    "PXml.C46_exact",
    "PXml.C46_exact_attribute",
    "PXml.C46_exact_wrapped"
   ],
   "note": "Farther declarations win over nearer wrappers in parent_nsmap (counterexample). Proved: the entity's own map wins over all others, and the nearest wins if the maps around the entity do not contradict each other. C46_exact, C46_exact_attribute and C46_exact_wrapped say without any condition which declaration counts: the own one or else the farthest one."
  },
  {
   "property": "C47",
   "status": "partial",
   "theorems": [
    "PXml.C47_undeclared_rejected_partial",
    "PXml.C47_counterexample_no_declarations",
    "PXml.C47_exact",
    "PXml.C47_exact_raw",
    "PXml.C47_exact_model",
    "PXml.C47_exact_wrapped"
   ],
   "note": "If no namespace map is in scope at all, an undeclared prefix is silently ignored (counterexample). Proved for scopes with at least one declaration. C47_exact, C47_exact_raw, C47_exact_model and C47_exact_wrapped say exactly when a primitive element or attribute, a raw element, a sub-model and a wrapped field is accepted."
  },
  {
   "property": "C48",
   "status": "proved",
   "theorems": [
    "PXml.C48_transparent"
   ],
   "note": ""
  },
  {
   "property": "C49",
   "status": "partial",
   "theorems": [
    "PXml.C49_field_terminates_partial",
    "PXml.C49_class_terminates_partial",
    "PXml.C49_counterexample_recursive_named_tuple"
   ],
   "note": "Recursion through anything but model classes, e.g. a NamedTuple containing itself, never terminates (counterexample). Proved for all types that unfold to finite trees, models being leaves."
  },
  {
   "property": "C50",
   "status": "proved",
   "theorems": [
    "PXml.C50_injective",
    "PXml.C50_text",
    "PXml.C50_attribute",
    "PXml.C50_element"
   ],
   "note": ""
  },
  {
   "property": "C51",
   "status": "proved",
   "theorems": [
    "PXml.Heap.C51_same_result",
    "PXml.Heap.C51_same_output",
    "PXml.Heap.C51_every_field_written",
    "PXml.Heap.C51_every_field",
    "PXml.Heap.C51_snapshot"
   ],
   "note": "The model with object identity (Verif/Heap.lean, Verif/HeapWrite.lean) is proved to refine the model with values, serializer by serializer, for reading and writing; a custom field validator or serializer is a function on the tree in both."
  },
  {
   "property": "C52",
   "status": "proved",
   "theorems": [
    "PXml.C52_declared_lxml",
    "PXml.C52_declared_std"
   ],
   "note": ""
  },
  {
   "property": "C53",
   "status": "proved",
   "theorems": [
    "PXml.C53_definition",
    "PXml.C53_read",
    "PXml.C53_write"
   ],
   "note": "Wrappers with their own nsmap are excluded: there the nested form resolves prefixes differently if the class binds the same prefix (see C46)."
  },
  {
   "property": "C54",
   "status": "proved",
   "theorems": [
    "PXml.C54_table",
    "PXml.C54_last",
    "PXml.C54_names",
    "PXml.C54_xsi"
   ],
   "note": "Maps that bind the prefix xml to another namespace are excluded (XML forbids it). A later class does take a prefix away from an earlier one that uses it for another namespace: names stay correct, prefixes change."
  },
  {
   "property": "C55",
   "status": "partial",
   "theorems": [
    "PXml.C55_exact",
    "PXml.C55_validator_partial",
    "PXml.C55_serializer_partial",
    "PXml.C55_inherited",
    "PXml.C55_read",
    "PXml.C55_write",
    "PXml.Ex.C55_counterexample"
   ],
   "note": "If two methods are decorated for one field, the enumeration order of a set of strings decides (counterexample). Proved for fields with at most one decorated method; C55_exact says which function handles a field for any number of them."
  },
  {
   "property": "C56",
   "status": "proved",
   "theorems": [
    "PXml.C56_stays",
    "PXml.C56_incomplete",
    "PXml.C56_complete",
    "PXml.C56_order",
    "PXml.C56_alike"
   ],
   "note": "Whether pydantic has resolved the references of a class at an event is part of the event. A class is defined once: the theorems exclude a later class statement for the same class."
  },
  {
   "property": "C57",
   "status": "partial",
   "theorems": [
    "PXml.C57_recursive_union",
    "PXml.C57_recursive_partial",
    "PXml.Def.C57_counterexample",
    "PXml.C57_constructible",
    "PXml.C57_when",
    "PXml.C57_circle"
   ],
   "note": "False: a class with a discriminated union that has the class itself as a member is never usable (AssertionError), see `C57_recursive_union`, `C57_counterexample`, and in general no class on a circle of discriminated unions is (`C57_circle`). Proved for all classes that are supported without any other class being built (`C57_recursive_partial`); which classes can be completed at all is stated exactly in `C57_constructible`, and which class statement or rebuild completes one in `C57_when`."
  },
  {
   "property": "C58",
   "status": "partial",
   "theorems": [
    "PXml.C58_first_base_partial",
    "PXml.C58_nearest_partial",
    "PXml.Bases.C58_counterexample"
   ],
   "note": "False for classes with several model bases: only the first one counts (`C58_counterexample`). Proved: for every class the parameters are those of the line of first bases, which with single inheritance is the mro."
  },
  {
   "property": "C59",
   "status": "proved",
   "theorems": [
    "PXml.C59_foreign_attributes"
   ],
   "note": ""
  },
  {
   "property": "C60",
   "status": "proved",
   "theorems": [
    "PXml.C60_prefixes_irrelevant"
   ],
   "note": ""
  },
  {
   "property": "C61",
   "status": "proved",
   "theorems": [
    "PXml.Threaded.C61_context_in_every_call",
    "PXml.Threaded.C61_no_other_context",
    "PXml.Threaded.C61_context_built_in"
   ],
   "note": "Validators are arbitrary functions of the context, the class, the data and a state of the world that they may change."
  },
  {
   "property": "C62",
   "status": "proved",
   "theorems": [
    "PXml.Conc.C62_same_result",
    "PXml.Conc.C62_inputs_untouched",
    "PXml.Conc.C62_no_waiting",
    "PXml.Conc.C62_outputs_separate"
   ],
   "note": ""
  },
  {
   "property": "C63",
   "status": "proved",
   "theorems": [
    "PXml.C63_terminates",
    "PXml.C63_succeeds_iff",
    "PXml.C63_other_shape_rejected"
   ],
   "note": ""
  },
  {
   "property": "C64",
   "status": "proved",
   "theorems": [
    "PXml.Threaded.C64_once_per_element",
    "PXml.Threaded.Ex.C64_exponential_with_unions"
   ],
   "note": "The statement excludes plain unions of models; C64_exponential_with_unions shows why it has to."
  },
  {
   "property": "C65",
   "status": "partial",
   "theorems": [
    "PXml.C65_element",
    "PXml.C65_attr",
    "PXml.C65_wrapped",
    "PXml.C65_wrapped_alone",
    "PXml.C65_nested",
    "PXml.C65_wrapped_alias_partial",
    "PXml.C65_counterexample_wrapped_alias",
    "PXml.C65_computed_element_partial",
    "PXml.C65_computed_attr_partial",
    "PXml.C65_counterexample_decorator_reuse"
   ],
   "note": "False in two points: an alias given to wrapped itself is lost (C65_counterexample_wrapped_alias), and a computed_element decorator object used twice has lost its arguments at the second use (C65_counterexample_decorator_reuse)."
  },
  {
   "property": "C66",
   "status": "partial",
   "theorems": [
    "PXml.C66_same_class",
    "PXml.C66_parameters",
    "PXml.C66_counterexample"
   ],
   "note": "The module is not that given by __module__, and class parameters in __cls_kwargs__ are overwritten (C66_counterexample); hence the hypothesis on the keys of __cls_kwargs__."
  },
  {
   "property": "C67",
   "status": "proved",
   "theorems": [
    "PXml.C67_release",
    "PXml.C67_comparison"
   ],
   "note": ""
  },
  {
   "property": "C68",
   "status": "proved",
   "theorems": [
    "PXml.C68_read_alike",
    "PXml.C68_library",
    "PXml.C68_text_round_trip",
    "PXml.C68_read_alike_raw",
    "PXml.C68_text_round_trip_raw",
    "PXml.Ex.C68_empty_text_lost"
   ],
   "note": "The XML library is a parameter; its law (what is printed is parsed) is a hypothesis on the tree at hand."
  },
  {
   "property": "C69",
   "status": "proved",
   "theorems": [
    "PXml.C69_blank",
    "PXml.C69_white_space",
    "PXml.C69_texts_nobody_takes",
    "PXml.C69_pretty_round_trip",
    "PXml.Ex.C69_text_field_gets_indentation"
   ],
   "note": "The XML library is a parameter. `C69_text_field_gets_indentation` shows why elements whose text is taken are excluded."
  },
  {
   "property": "C70",
   "status": "proved",
   "theorems": [
    "PXml.C70_program_exists",
    "PXml.C70_program_works"
   ],
   "note": ""
  },
  {
   "property": "C71",
   "status": "proved",
   "theorems": [
    "PXml.C71_strtobool",
    "PXml.C71_import"
   ],
   "note": ""
  },
  {
   "property": "C72",
   "status": "partial",
   "theorems": [
    "PXml.Mypy.C72_has_default_partial",
    "PXml.Mypy.C72_arguments_partial",
    "PXml.Mypy.C72_counterexample_names",
    "PXml.Mypy.C72_counterexample_both",
    "PXml.Mypy.C72_counterexample_wrapped",
    "PXml.Mypy.C72_recognised",
    "PXml.Mypy.C72_others_partial",
    "PXml.Mypy.C72_counterexample_frozen"
   ],
   "note": "False: the plugin does not recognise the constructors at all, because it looks for them under pydantic_xml.model while they are defined in pydantic_xml.fields (C72_counterexample_names); even with the right names the first of default and default_factory decides (C72_counterexample_both), and defaults of wrapped entities are not seen (C72_counterexample_wrapped); fields made by pydantic's Field are never frozen (C72_counterexample_frozen). The partial theorems are about the plugin with any list of recognised names. That mypy calls a function by the module that defines it is an assumption about mypy; pydantic's own plugin is a parameter."
  },
  {
   "property": "C73",
   "status": "partial",
   "theorems": [
    "PXml.C73_generic_partial",
    "PXml.Gen.C73_counterexample_root"
   ],
   "note": "False for generic root models whose root contains a type variable without being one: stating the class raises (C73_counterexample_root). Proved for all other generic classes."
  },
  {
   "property": "C74",
   "status": "proved",
   "theorems": [
    "PXml.C74_round_trip",
    "PXml.C74_pydantic_exists",
    "PXml.C74_program",
    "PXml.C74_pydantic_declared",
    "PXml.C74_text",
    "PXml.C74_text_raw",
    "PXml.C74_pretty",
    "PXml.C74_program_text",
    "PXml.C74_program_pretty"
   ],
   "note": "C74_round_trip for all classes, instances and flags; C74_pydantic_exists shows that the laws assumed of pydantic can be met for any types. Pydantic itself is assumed to follow the laws. C74_text, C74_pretty and their program versions carry it over to printed (and indented) text under the assumption that the XML library reads back what it printed."
  },
  {
   "property": "C75",
   "status": "proved",
   "theorems": [
    "PXml.C75_field",
    "PXml.C75_class",
    "PXml.C75_program"
   ],
   "note": ""
  },
  {
   "property": "C76",
   "status": "proved",
   "theorems": [
    "PXml.C76_program",
    "PXml.C76_vocabulary"
   ],
   "note": "C76_vocabulary for all vocabularies that contain the declarations of the classes; C76_program for the least one, in terms of the declarations, after any program that defines the classes. Elements of classes with raw fields may have any children. Classes with custom serializers are left out: these may write anything."
  },
  {
   "property": "C77",
   "status": "proved",
   "theorems": [
    "PXml.C77_flag",
    "PXml.C77_program",
    "PXml.C77_read",
    "PXml.C77_write",
    "PXml.C77_definitions",
    "PXml.C77_rejected"
   ],
   "note": ""
  },
  {
   "property": "C78",
   "status": "proved",
   "theorems": [
    "PXml.C78_trees",
    "PXml.C78_program",
    "PXml.C78_text"
   ],
   "note": ""
  },
  {
   "property": "C79",
   "status": "proved",
   "theorems": [
    "PXml.C79_write",
    "PXml.C79_read",
    "PXml.C79_definitions",
    "PXml.C79_rejected",
    "PXml.C79_program",
    "PXml.C79_counterexample_raw"
   ],
   "note": "The exception for raw elements is part of the statement; C79_counterexample_raw shows that it is needed."
  },
  {
   "property": "C80",
   "status": "proved",
   "theorems": [
    "PXml.C80_canonical",
    "PXml.C80_canonical_text",
    "PXml.C80_reread",
    "PXml.C80_text",
    "PXml.C80_text_raw",
    "PXml.C80_pretty",
    "PXml.C80_pydantic_exists",
    "PXml.C80_counterexample_union",
    "PXml.C80_counterexample_none",
    "PXml.C80_program",
    "PXml.C80_program_text",
    "PXml.C80_program_pretty",
    "PXml.C80_pydantic_declared"
   ],
   "note": "The English statement names the conditions; the counterexamples show the union and exclude_none conditions to be necessary."
  },
  {
   "property": "C81",
   "status": "proved",
   "theorems": [
    "PXml.C81_old_documents"
   ],
   "note": ""
  },
  {
   "property": "C82",
   "status": "proved",
   "theorems": [
    "PXml.C82_set_fields_irrelevant",
    "PXml.TypedEx.C82_exclude_unset_differs"
   ],
   "note": ""
  },
  {
   "property": "C83",
   "status": "partial",
   "theorems": [
    "PXml.C83_less_output_partial",
    "PXml.Ex.C83_counterexample_wrapped",
    "PXml.Ex.C83_counterexample_raw",
    "PXml.Ex.C83_counterexample_attributes"
   ],
   "note": "False in general: if a field between two fields of the same wrapper element is left out, the two wrapper elements become one (C83_counterexample_wrapped), or a wrapped field is written into a raw element with the name of its wrapper (C83_counterexample_raw); if a dictionary of attributes is left out, attributes it would replace appear (C83_counterexample_attributes). C83_less_output_partial proves it for all classes in which texts, attributes and wrapper elements are not shared by fields and no wrapped field comes after a raw one. Missing besides: custom serializers."
  },
  {
   "property": "C84",
   "status": "proved",
   "theorems": [
    "PXml.C84_field_outcomes",
    "PXml.C84_values",
    "PXml.C84_errors"
   ],
   "note": ""
  },
  {
   "property": "C85",
   "status": "proved",
   "theorems": [
    "PXml.C85_written_as_before"
   ],
   "note": ""
  },
  {
   "property": "C86",
   "status": "proved",
   "theorems": [
    "PXml.C86_nothing_lost",
    "PXml.Ex.C86_discriminator_needed"
   ],
   "note": "Classes that set skip_empty=True and empty_as_string are excluded: with them the full document is not the reference."
  },
  {
   "property": "C87",
   "status": "proved",
   "theorems": [
    "PXml.C87_field_order",
    "PXml.Ex.C87_single_needed"
   ],
   "note": "Fields with custom validators, fields that are plain unions of models (they pass over an element if no alternative is valid), classes with extra='forbid' and documents with repeated tags are outside of the theorem; for repeated tags Ex.C87_single_needed shows that the claim is false."
  },
  {
   "property": "C88",
   "status": "proved",
   "theorems": [
    "PXml.C88_only_what_is_taken"
   ],
   "note": "Extends C08 and C09 for the children of the root: raw elements, discriminated unions, forbidding sub-models and repeated unknown elements are covered; the order inside of the children is C09's subject."
  },
  {
   "property": "C89",
   "status": "proved",
   "theorems": [
    "PXml.C89_place",
    "PXml.C89_place_root",
    "PXml.C89_sub_model"
   ],
   "note": ""
  },
  {
   "property": "C90",
   "status": "proved",
   "theorems": [
    "PXml.C90_sub_document",
    "PXml.C90_sub_document_root",
    "PXml.Ex.C90_through_needed"
   ],
   "note": "The condition on wrapped fields is needed (C90_through_needed). The encoded form of the sub-model within the instance is assumed to be the one that it has by itself, which holds for pydantic's encoder unless a class has a model serializer of its own."
  },
  {
   "property": "C91",
   "status": "proved",
   "theorems": [
    "PXml.C91_every_instance",
    "PXml.Ex.C91_nil_counts"
   ],
   "note": ""
  },
  {
   "property": "C92",
   "status": "proved",
   "theorems": [
    "PXml.C92_same_values",
    "PXml.C92_same_output",
    "PXml.C92_insisting_needed"
   ],
   "note": ""
  },
  {
   "property": "C93",
   "status": "proved",
   "theorems": [
    "PXml.C93_read",
    "PXml.C93_write",
    "PXml.C93_root_read",
    "PXml.C93_root_write",
    "PXml.C93_fresh_needed"
   ],
   "note": "For a path of several elements apply the theorem piece by piece (C53: a path is its pieces). The class is written with default settings (no extra=forbid, no skip_empty override, no hooks); the conversions pydantic makes in the class are arbitrary."
  },
  {
   "property": "C94",
   "status": "proved",
   "theorems": [
    "PXml.C94_read",
    "PXml.C94_write"
   ],
   "note": ""
  },
  {
   "property": "C95",
   "status": "proved",
   "theorems": [
    "PXml.C95_only_reject",
    "PXml.C95_still_rejected",
    "PXml.C95_unions_needed"
   ],
   "note": ""
  },
  {
   "property": "C96",
   "status": "proved",
   "theorems": [
    "PXml.C96_list_as_tuple",
    "PXml.C96_tuple_as_list",
    "PXml.C96_write",
    "PXml.C96_end_needed"
   ],
   "note": ""
  },
  {
   "property": "C97",
   "status": "proved",
   "theorems": [
    "PXml.C97_reading",
    "PXml.C97_writing",
    "PXml.C97_definitions_reading",
    "PXml.C97_definitions_writing",
    "PXml.C97_rejected",
    "PXml.C97_program_reading",
    "PXml.C97_program_writing"
   ],
   "note": ""
  },
  {
   "property": "C98",
   "status": "proved",
   "theorems": [
    "PXml.C98_reading",
    "PXml.C98_writing",
    "PXml.C98_definitions",
    "PXml.C98_rejected",
    "PXml.C98_program",
    "PXml.C98_nil_needed",
    "PXml.C98_exclude_needed"
   ],
   "note": ""
  },
  {
   "property": "C99",
   "status": "proved",
   "theorems": [
    "PXml.C99_reading",
    "PXml.C99_writing",
    "PXml.C99_writing_submodel"
   ],
   "note": ""
  },
  {
   "property": "C100",
   "status": "proved",
   "theorems": [
    "PXml.C100_reading",
    "PXml.C100_writing",
    "PXml.C100_definitions",
    "PXml.C100_rejected",
    "PXml.C100_program"
   ],
   "note": ""
  },
  {
   "property": "C101",
   "status": "proved",
   "theorems": [
    "PXml.C101_reading",
    "PXml.C101_writing"
   ],
   "note": "Renaming is of element names in the form {namespace}name; attribute names and namespace maps are kept."
  },
  {
   "property": "C102",
   "status": "proved",
   "theorems": [
    "PXml.C102_reading",
    "PXml.C102_writing",
    "PXml.C102_reading_goes_on",
    "PXml.C102_writing_goes_on"
   ],
   "note": "Setting and looking up the serializer of a class are atomic steps. Within one serializer, the same part read twice from the same state has the same outcome. A class statement makes a new class, so the statement of a class that is in use already is no event here."
  },
  {
   "property": "C103",
   "status": "proved",
   "theorems": [
    "PXml.C103_reading",
    "PXml.C103_writing",
    "PXml.C103_definitions",
    "PXml.C103_rejected",
    "PXml.C103_program"
   ],
   "note": ""
  },
  {
   "property": "C104",
   "status": "proved",
   "theorems": [
    "PXml.C104_reading",
    "PXml.C104_writing"
   ],
   "note": ""
  },
  {
   "property": "C105",
   "status": "proved",
   "theorems": [
    "PXml.C105_only_empty_texts"
   ],
   "note": ""
  },
  {
   "property": "C106",
   "status": "proved",
   "theorems": [
    "PXml.C106_lines_move",
    "PXml.C106_only_lines"
   ],
   "note": ""
  },
  {
   "property": "C107",
   "status": "partial",
   "theorems": [
    "PXml.C107_ordered_partial",
    "PXml.C107_ordered_values_partial",
    "PXml.C107_unordered_partial",
    "PXml.C107_unordered_values_partial",
    "PXml.C107_counterexample",
    "PXml.C107_strict_partial"
   ],
   "note": "False in strict mode (C107_counterexample); proved for ordered mode (C107_ordered_partial, with plain unions of models C107_ordered_values_partial) and unordered mode (C107_unordered_partial, C107_unordered_values_partial). C107_strict_partial says what strict mode does instead: the first processing instruction of an element hides everything after it there. Missing: classes with extra='forbid' or raw fields, where processing instructions are data."
  },
  {
   "property": "C108",
   "status": "proved",
   "theorems": [
    "PXml.C108_strict_cut",
    "PXml.C108_hidden",
    "PXml.C108_foreign_last"
   ],
   "note": ""
  }
 ]
}