# Formal model of pydantic-xml in Lean 4

## 1. What is modelled

| Lean module | models |
|---|---|
| `Verif/Base.lean` | insertion-ordered dictionaries (Python `dict`) as association lists |
| `Verif/Names.lean` | `utils.py` (`QName`, `merge_nsmaps`, `select_ns`), `fields.py` (merging of entity annotations), `model.py` (inheritance of class parameters) |
| `Verif/Element.lean` | `element/element.py`: `XmlElement` and its `State`, reader and writer operations, the three search modes, `get_unbound`; `element/utils.py` |
| `Verif/Native.lean` | `element/native/lxml.py`, `element/native/std.py`: conversion from and to native trees |
| `Verif/Value.lean` | Python values, validation errors, locations, the source map, `errors`/`utils` functions on them |
| `Verif/Serializer.lean` | `serialize` and `deserialize` of every class in `serializers/factories/`, `from_xml_tree` and `to_xml_tree` of `model.py` |
| `Verif/Compile.lean` | class definition: `serializers/serializer.py` (`Context`, `preprocess_schema`, `parse_core_schema`), `from_core_schema` of every factory, the field collection of `ModelSerializer` / `RootModelSerializer` / `ModelProxySerializer`, `__build_serializer__`, `model_rebuild` |
| `Verif/Heap.lean` | the same element operations and `deserialize` with Python's object identity: a heap of mutable objects, dictionaries and lists (see C44, C51) |
| `Verif/HeapWrite.lean` | the same for `serialize` and `to_xml_tree`: the instance is a graph of objects in the same heap |
| `Verif/Conc.lean`, `Verif/ConcWrite.lean` | the code of `Verif/Heap.lean` and `Verif/HeapWrite.lean` as programs that access one object per step, for calls in threads under an arbitrary schedule (see C62) |
| `Verif/Threaded.lean` | `deserialize`, `from_xml_tree` and `from_xml` once more, with the validation context and `empty_as_string` as arguments of every call and with validators that may have side effects (see C61) |
| `Verif/Define.lean` | the field constructors of `fields.py` (`attr`, `element`, `wrapped`, `computed_attr`, `computed_element`), `create_model` of `model.py`, `parse_version` of `compat.py`; pydantic's `FieldInfo` as far as the constructors touch it |
| `Verif/Text.lean` | `from_xml` and `to_xml` of `model.py`, with the XML library's parser and printer as parameters (see C68) |
| `Verif/Registry.lean` | `register_nsmap` of `utils.py` and the global table it changes (after CPython's ElementTree) |
| `Verif/Config.lean` | `config.py`, the choice of the backend in `element/native/__init__.py`, the test for open type parameters in `__build_serializer__` |
| `Verif/Mypy.lean` | `mypy.py` on a small syntax of expressions |
| `Verif/Hooks.lean` | `_collect_xml_field_serializers_validators` of `model.py`, the decorators of `fields.py` |

Every definition carries a comment with the file and lines it models and with the simplifications made there.

Specifications (definitions that only theorem statements use) are kept apart from the model: `Verif/Spec.lean` (reading and writing),
`Verif/SpecRoundTrip.lean` (round trip), `Verif/SpecUnread.lean` (data out of reach of the fields), `Verif/SpecCompile.lean` (class definitions), `Verif/SpecProgram.lean` (which classes a program can complete), `Verif/SpecWrite.lean` (writable instances), `Verif/SpecHeap.lean` (object identity), `Verif/SpecConc.lean` (concurrent calls), `Verif/SpecEffort.lean` (effort of reading), `Verif/SpecDefine.lean` (field constructors, `create_model`), `Verif/SpecText.lean` (reading and writing text), `Verif/SpecIndent.lean` (indentation), `Verif/SpecConfig.lean` (environment variables, mypy plugin), `Verif/SpecTyped.lean` (typed instances), `Verif/SpecDeclared.lean` (the representation of declared types), `Verif/SpecTypedProgram.lean` (typed instances of declared classes), `Verif/SpecStable.lean` (reading, writing and reading again), `Verif/SpecVocabulary.lean` (what may stand where in a document), `Verif/SpecProgramVocabulary.lean` (the same by declarations), `Verif/SpecHidden.lean` (what the text of an error shows), `Verif/SpecModes.lean` (the same classes with other search modes). Property theorems are in `Verif/Props/`, lemmas
in `Verif/Lemmas/`. `Verif/Example.lean` holds the concrete classes and documents used to show that hypotheses can be met; beside each
property theorem there is an `example` that instantiates it. `Verif/ExampleXml.lean` is a small XML printer and parser for the examples of C68 and C69; it models nothing in the repository. `Verif/Tactic.lean` has one tactic, `kernel_rfl`, that closes a concrete equation
by `Eq.refl` and leaves all checking to the kernel.

## 2. Modelling decisions

* Exceptions are values (`Out`): `ok`, `verr` (pydantic `ValidationError`), `crash` (any other exception), `diverge` (out of fuel).
  `deserialize` and `serialize` call themselves through class serializers, so both take fuel. Theorems hold for every amount of fuel, or for
  every amount above a stated bound; C29 shows how much is enough.
* Elements are values. A method that mutates `self` returns the new element, a reference to a child is its index in the parent's list.
  That this is faithful is not assumed: C51 proves it against the model with object identity in `Verif/Heap.lean` and `Verif/HeapWrite.lean`.
* pydantic is a parameter of the model (`Env.validate`, `Env.toJsonable`, `Env.reprOf`). Theorems hold for every such function. Where a law
  of pydantic is needed (C01: validation inverts encoding) it is a hypothesis of the theorem, and an example meets it.
* Custom validators and serializers of fields (`@xml_field_validator`, `@xml_field_serializer`) are arbitrary functions on the element.
* Class definitions start from pydantic's core schemas, as the library does. Core schemas are given as an inductive type with the
  constructors the library distinguishes.

## 3. What is not modelled

* XML parsing and printing (libxml2, expat): the model starts from and ends in native trees. `from_xml` and `to_xml` add only these, and C68 takes them as parameters.
* pydantic itself: the generation of core schemas, the specialization of generics, the resolution of forward references (whether they are
  resolved is part of the events of C56), warnings. pydantic's and mypy's parts of the mypy plugin.
* Python's recursion limit, memory.
* Threads other than those of C62 (calls) and C102 (class statements and `model_rebuild` during a call): validators, serializers
  and properties with side effects, changes to an instance or a tree by the user while it is written or read. In C62 the access to one object (an element, a
  dictionary, a list) is one atomic step, as it is with a global interpreter lock, and recursion over trees of objects has a bound that
  is large enough for the calls.
* Refusals of the XML library when trees are built: lxml raises ValueError for texts, attribute values and names that XML does not allow (control
  characters, spaces in names), and TypeError when a processing instruction inside a raw element is copied. The trees of the model take every string, so
  "is written", "never fails" and the like mean: apart from such refusals.
* Values of a foreign kind in fields that were assigned without validation, where Python goes on because the value happens to support the operation:
  a string or a mapping in a list or tuple field is written item by item (characters, keys), an object that is no model instance but has attributes of
  the same names is written like one. In the model both raise.
* Text of error messages, except where a property mentions it (titles, types, locations, line numbers).

## 4. Trusted base

* Lean 4.33.0's kernel.
* The axioms `propext`, `Classical.choice`, `Quot.sound`; `Verif/Axioms.lean` prints those of every property theorem. No axioms are added, no `sorry`, `admit`,
  `native_decide`, `bv_decide`; no Mathlib import.
* The reading of the Python code recorded in the model's comments. No code was run.

## 5. Findings

Reading the code for the model turned up behaviour that contradicts what a user would expect. Those marked with a property have a
machine-checked witness (`..._counterexample...`); the properties are then proved in the strongest form found to hold (`..._partial`).

1. A list of plain texts read with `empty_as_string=True` never ends (C29).
2. Reading a list stops at the first empty or nil item; later items are silently lost (C34).
3. Unordered mode swaps children, so a foreign element or another order of the document can change the order of same-tagged items (C08, C09).
4. Error lines are looked up by location, so a field of a sub-model can get the line of an unrelated field (C16). Fields with an alias get no line (`C16_alias_counterexample`).
5. A dict field that takes the attributes of its element wipes the attributes written by earlier fields (C36).
6. A dict element with value None writes an empty element even with `exclude_none`, and raises `TypeError` with `skip_empty` (C17).
7. An optional discriminated union with value None raises `AttributeError` on writing (C17).
8. In dict fields None and Booleans are written as `None`, `True`, `False` (C35), unlike all other places (C50).
9. `skip_empty` leaves empty wrapper elements and empty elements inside raw ones (C19).
10. `extra='forbid'` accepts unknown elements that have neither text nor attributes (C45).
11. Namespace maps: a class's map wins over that of a nearer `wrapped` (C46); an undeclared prefix is silently dropped if no map is in scope (C47).
12. Errors of two failing union alternatives with the same title overwrite each other (C12).
13. A comment in the middle of a text cuts the text off (C10).
14. Tuples with None items that are not written do not read back (C01). Wrapped fields with a common wrapper that are not adjacent do not read back if the first is absent (C01).
15. A raw field is written with the tag of its value, whatever the name of the field (C32).
16. A root model around a nillable text with value None reads back as no instance (C30).
17. Qualified names with `}` in the namespace, or the empty namespace, are not recovered from their text (C24).
18. A list of variadic tuples is accepted although lists of lists are rejected (C28).
19. Defining a class with a self-referential NamedTuple never ends (C49).
20. If two methods are decorated as validator (or serializer) of one field, the hash seed of the process decides which one is used (C55).
21. A class that is a member of a discriminated union in one of its own fields can never be used: its serializer cannot be built (C57).
22. With several model bases, the parameters and namespace declarations of all but the first base are ignored (C58).
23. A class that has computed fields and forbids extra data, or is part of a class that does, rejects its own output (C01).
24. With `skip_empty` a wrapped raw element with a text but without children is lost, as its length is tested; an empty string in a list is lost, so later items move up (C01).
25. With a union of model classes that contain such a union, reading a valid document takes time exponential in its depth (C64).
26. An alias given to `wrapped` itself is used neither for validation nor for serialization (C65).
27. A decorator made by `computed_attr` or `computed_element` that is used for two properties has lost tag, namespace, namespace map and nillability at the second one (C65).
28. `create_model` ignores `__module__`, and it overwrites class parameters given in `__cls_kwargs__`, also in the caller's dictionary (C66).
29. The mypy plugin looks for `attr`, `element` and `wrapped` under `pydantic_xml.model`, but they are defined in `pydantic_xml.fields`: it takes every field made by them for optional (C72).
30. A generic root model whose root contains a type variable, `RootXmlModel[List[T]]`, cannot be stated (C73).
31. Classes that are members of each other's discriminated unions can never be completed, whatever the order (C57).
32. Without witness: a method that is named like an attribute of `BaseModel` is silently ignored by the decorators; a custom serializer on a set iterates in unspecified order; writing a union field holding an instance of a subclass of an alternative silently writes
    nothing; `List[Union[A, B]]` with different tags in ordered mode loses items;
    a union of only is-instance types fails with `AssertionError`; with lxml a processing instruction inside an element that a raw field takes makes
    reading fail with `TypeError`; a string assigned to a list field is written character by character.

## 6. Properties

For each property: how it is stated and proved, and the theorems (all in namespace `PXml`). Statements in words are in `properties.jsonl`.

### C01 Round trip — proved

Spec: `Handed` says, from class and values only, what pydantic must be handed for each field; `Tidy` says which fields do not compete for the same place in the element. Theorem: for every instance described by `Handed`, writing succeeds and reading the written tree returns the described instance. Proof: the writer is characterised by what it adds at each level (`Lemmas/Emit*.lean`); the reader is run on an element that contains this addition next to arbitrary other content, by induction on the derivation of `Handed`. Computed fields are written like stored ones (`ser_stored`) and left over when reading, which a flag of `Handed` keeps track of.

For the instances described by Handed (Verif/SpecRoundTrip.lean), for every fuel above a bound. The counterexample theorems show that the conditions on shared wrappers, on missing tuple items, on computed fields in classes that forbid extra data and on empty values under skip_empty are needed. Text parsing and printing of XML by lxml/ElementTree is not modelled.

Theorems: `C01_round_trip`, `Ex.C01_all_trees`, `Ex.C01_all_sheets`, `Ex.C01_counterexample_computed`, `Ex.C01_counterexample_apart`, `Ex.C01_counterexample_tuple`, `Ex.C01_counterexample_skip`.

### C02 Own output has no extra data — proved

Same induction: the part of the tree that belongs to a field is empty after the field was read; hence `leftovers = []` for the whole tree.

Same instances as C01, without computed fields.

Theorems: `C02_nothing_left`.

### C03 Strict search — proved

Functional specification of one lookup in terms of the unread children (`Elem.unread`), for every state.

Theorems: `C03_strict_hit`, `C03_strict_miss`, `C03_C04_C05_look_behind`.

### C04 Ordered search — proved

As C03, and an induction over arbitrary histories of lookups: what is taken is taken in document order, skipped children are never taken.

Theorems: `C04_ordered_hit`, `C04_ordered_miss`, `C04_history_in_document_order`, `C03_C04_C05_look_behind`.

### C05 Unordered search — proved

As C03, with permutations; induction over histories: children are conserved.

Theorems: `C05_unordered_succeeds_iff`, `C05_unordered_miss`, `C05_unordered_hit`, `C05_history_conserves`, `C03_C04_C05_look_behind`.

### C06 Every piece of the document is bound at most once — proved

Induction over a run of `deser`: the content (texts, tails, attributes) before is a permutation of the content after plus the content taken; children and tags are permuted only; the cursor does not decrease.

Theorems: `C06_content_conserved`, `C06_delivered_once`, `C06_no_sharing`, `C06_children_kept`, `C06_root_children_kept`.

### C07 Nothing is invented — proved

Same induction with a validator that returns its input: all strings of the value come from the taken content; and a version for strings of foreign elements.

Theorems: `C07_nothing_invented`, `C07_foreign_data_never_validated`.

### C08 Foreign elements are ignored in ordered and unordered mode — partial

Simulation of two runs on related documents (`Lemmas/Sim*.lean`).

The property fails in general: in unordered mode a foreign element changes which of several same-tagged siblings is read first, and in ordered mode it changes how often the error of a failed union of models is reported (counterexample theorems). Proved, for classes without raw fields, without extra='forbid' and without custom field validators: the same values and the same errors if there are no plain unions of models (*_partial), and the same instance or a validation error in both cases with unions of models (*_values_partial); in unordered mode provided that no known tag is repeated among siblings.

Theorems: `C08_ordered_partial`, `C08_C09_unordered_partial`, `C08_unordered_partial`, `C08_unordered_counterexample`, `C08_ordered_counterexample`, `C08_ordered_values_partial`, `C08_C09_unordered_values_partial`.

### C09 Unordered mode ignores the order of children — partial

Simulation up to permutation of unread children.

Proved for classes without raw fields, without extra='forbid' and without custom field validators and documents in which no known tag is repeated among siblings: the same values and the same errors if there are no plain unions of models, the same instance or a validation error in both cases with them. C09_counterexample shows that with unions of models the reported errors depend on the order.

Theorems: `C08_C09_unordered_partial`, `C09_order_irrelevant_partial`, `C09_counterexample`, `C08_C09_unordered_values_partial`, `C09_values_partial`.

### C10 Comments are invisible — partial

Native layer: reading depends on the native tree only up to comments that are not followed by text.

Comments never bind or block. Removing a comment that splits text joins the text, so the literal statement fails (counterexample); proved for comments not followed by text.

Theorems: `C10_comments_invisible`, `C10_comments_removed_partial`, `C10_counterexample`.

### C11 Union of models: first alternative that validates wins — proved

Characterisation of the union loop by the first alternative whose own run succeeds, on the original element.

Theorems: `C11_first_success`, `C11_only_success`.

### C12 Union of models: errors — partial

Same characterisation for the failing case.

Errors are keyed by the title of the raised error: two failing alternatives with the same title overwrite each other (counterexample). C12_reported says exactly what is reported without any condition on names: the errors of each failed alternative that is the last failed one of its name.

Theorems: `C12_reported`, `C12_absent`, `C12_errors_partial`, `C12_names`, `Ex.C12_counterexample`.

### C13 extra='forbid' reports exactly the unbound data — proved

`Elem.leftovers` specifies unbound data with an independent definition; errors correspond to it one by one. For whole documents: data that is out of reach of all fields (`Node.Unread`) is still there after reading, so the document is refused.

Theorems: `C13_reports_leftovers`, `C13_nothing_else`, `C13_accepts_only_if_read`, `C13_stripped`, `C13_from_xml`, `C13_unread_rejected`.

### C14 Model errors are aggregated — proved

The errors are the concatenation over `runFields`, an independent description of the field-by-field run.

Theorems: `C14_aggregates`, `C14_no_failure`, `C14_from_xml`.

### C15 Collection errors carry the item index — proved

Characterisation of the item loops for lists (per position in the document) and tuples.

Theorems: `C15_C34_items`, `C15_tuples`.

### C16 Reported source lines — partial

The source map after the run holds, at the location of the field, the line of the element the field was read from, if no other field writes that location.

Lines are keyed by the error location, so a key of a sub-model can be overwritten by a field of the same name (counterexample), and errors located at an alias have no line (counterexample). Proved: every error carries -1 or a line of the document; with lxml the line is known if pydantic locates its errors at fields; it is the right line for text, attribute and element fields, sub-models, list items, tuple items and unions of models, also inside wrappers, whose location key is written by no other field.

Theorems: `C16_field_line_partial`, `C16_submodel_line_partial`, `C16_item_line_partial`, `C16_tuple_line_partial`, `C16_union_line_partial`, `C16_tagged_line_partial`, `C16_every_error_has_a_line_partial`, `C16_line_known_partial`, `C16_alias_counterexample`, `C16_counterexample`.

### C17 exclude_none — partial

Per kind of field: the writer returns the element unchanged; lifted to models.

Holds for every field kind except mapping elements (an empty element is written, or a TypeError is raised with skip_empty) and tagged unions (AttributeError), both shown by counterexample theorems. C17_exact says that these are all exceptions, C17_fields what is written for a whole instance.

Theorems: `C17_exact`, `C17_fields`, `C17_none_partial`, `C17_model_partial`, `C17_counterexample_mapping`, `C17_counterexample_mapping_skip`, `C17_counterexample_tagged`.

### C18 exclude_unset — proved

Equality of two writer runs: with the flag, and with the class restricted to the set fields.

Theorems: `C18_unset`, `C18_unset_root`.

### C19 skip_empty — partial

Invariant over the writer: every empty element below the root is on a wrapper path.

False of elements around wrapped fields, inside raw fields, and of classes that declare skip_empty=False (counterexamples). Proved: without raw fields and such classes, every empty element below the root is a wrapper element; with no wrapped fields there is none.

Theorems: `C19_skip_empty_partial`, `Ex.C19_counterexample_wrapped`, `Ex.C19_counterexample_raw`, `Ex.C19_counterexample_declared`.

### C20 Computed fields are write-only — proved

A computed field is the identity on the reader's state; removing it gives the same run.

Theorems: `C20_definition`, `C20_never_read`, `C20_removal`.

### C21 Excluded fields are read-only — proved

Erasure for the writer; private fields are not part of the compiled class.

Theorems: `C21_not_xml`, `C21_document`, `C21_read_document`, `C21_excluded`, `C21_read`.

### C22 Root element name check — proved

Direct, together with the no-crash theorem.

Theorems: `C22_C28_only_validation_errors`, `C22_written_name`, `C22_output_accepted`.

### C23 Namespace resolution — proved

The compiled name of every kind of field equals `qualified (uriIn scope prefix) name` with an independent definition of scope.

Theorems: `C23_C27_field`, `C23_C27_class`, `C23_attribute`.

### C24 Qualified names — proved

Strings as character lists; the greedy regular expression is modelled by the last brace.

Theorems: `C24_parse_uri`, `C24_uri_injective`, `C24_uri_parse`, `C24_hypotheses_needed`.

### C25 Entity metadata merging — proved

Monoid laws and fold characterisation of the merge.

Theorems: `C25_grouping`, `C25_last_wins`, `C25_nsmap_union`.

### C26 Class parameters inheritance — proved

Induction over the inheritance chain.

Theorems: `C26_nearest_wins`, `C26_nsmap_accumulates`.

### C27 Entity names — proved

Same theorem as C23: `givenName` of the candidates.

Theorems: `C23_C27_field`, `C23_C27_class`.

### C28 Unsupported definitions are rejected at class creation — partial

`Schema.Supported` is an inductive specification of the supported types per place; a class statement succeeds exactly if all fields are supported. Accepted classes satisfy the hypotheses of the no-crash theorem.

A class statement is accepted exactly if every field type has an XML representation at its place (C28_class_accepted, Schema.Supported), and reading documents with accepted classes raises only validation errors. The literal list of rejected types has one exception: a list of variadic tuples is accepted (counterexample).

Theorems: `C28_field_accepted`, `C28_class_accepted`, `C28_rejected`, `C28_accepted_reads`, `C28_counterexample_list_of_tuples`, `C22_C28_only_validation_errors`.

### C29 Reading terminates — partial

A measure (unread children and content) decreases in every loop iteration that continues; bound on the fuel by induction on the document.

Terminates without empty_as_string and, with it, for lists whose items are not plain text; a list of plain texts with empty_as_string never terminates, whatever the document (C29_never_ends, C29_counterexample).

Theorems: `C29_never_ends`, `C29_reading_terminates`, `C29_empty_as_string_partial`, `C29_counterexample`.

### C30 Nillable fields — partial

Direct on text, element and sub-model fields.

A root model around a nillable text written as None is read back as no instance (counterexample); proved for all other values.

Theorems: `C30_attribute_name`, `C30_nil_is_none`, `C30_none_is_nil`, `C30_none_round_trip`, `C30_value_not_nil`, `C30_instance_not_nil_partial`, `Ex.C30_counterexample`.

### C31 Wrapped fields — proved

The written path is described by `Elem.openPath`; induction on the path; reading at the same path.

Theorems: `C31_write`, `C31_write_none`, `C31_share`, `C31_open`, `C31_read`.

### C32 Raw elements — proved

The native conversions are inverse to each other up to comments, lines and prefixes; the found child is hollow afterwards.

Theorems: `C32_read`, `C32_read_document`, `C32_write`, `C32_round_trip`, `Ex.C32_tag_needed`.

### C33 Tagged unions — proved

Characterisation of the tag loop by the first unread candidate and its discriminator.

Theorems: `C33_definition`, `C33_first`, `C33_strict`, `Ex.C33_order_needed`, `C33_selects`, `C33_absent`, `C33_absent_any_mode`.

### C34 Collections keep order — partial

Writer: children are appended in list order, one per item. Reader: see C15; texts in order.

Reading in document order is proved up to the first item that reads as None, where the list ends (counterexample: items after an empty element are lost).

Theorems: `C34_written_order`, `C34_one_child`, `C15_C34_items`, `C34_texts_in_order`, `Ex.C34_counterexample`.

### C35 Mapping fields — proved

Dictionary lemmas; writing then reading all attributes.

Theorems: `C35_attributes`, `C35_element`, `C35_none_is_text`, `C35_texts`.

### C36 Writing a field leaves other fields' output in place — partial

Frame theorem for the writer: children are extended at the end (or inside the last one), text and attributes of others stay.

A field that takes all attributes replaces the attributes written by earlier fields (counterexample); text, children and the attributes written by the other kinds of field are preserved. C36_exact_dict says exactly what such a field does.

Theorems: `C36_exact_dict`, `C36_children`, `C36_text`, `C36_attributes_partial`, `C36_counterexample`.

### C37 Children are written in field order — proved

Children of a model = concatenation over the fields.

Theorems: `C37_field_order`.

### C38 lxml and standard library backends agree — proved

Reader: simulation of both backends; writer: equality after erasing prefix maps.

Reading: equal values (line numbers and raw prefixes aside). Writing: equal trees apart from namespace prefix declarations, without custom serializers.

Theorems: `C38_backends_write_alike`, `C38_backends_read_alike`.

### C39 Empty text — proved

Direct.

Theorems: `C39_element`, `C39_text`, `C39_missing`.

### C40 Whitespace around elements is irrelevant — proved

Simulation of runs on elements that differ in tails only; for forbid: blank tails are no leftovers.

Theorems: `C40_tails_irrelevant`, `C40_blank_tails_irrelevant`.

### C41 Writer cursor — proved

Invariant `next = elements.length` of the writer; `next ≤ elements.length` of the reader.

Theorems: `C41_read`, `C41_read_start`, `C41_finds_last_only`, `C41_at_end`, `C41_at_end_model`.

### C42 Model-level skip_empty overrides the call — proved

Equality of writer runs.

Theorems: `C42_override`, `C42_inherit`.

### C43 Absent fields do not disturb others — proved

Per kind; and equality of the following fields' runs.

Theorems: `C43_absent`, `C43_others_undisturbed`.

### C44 The caller's tree and instance are never altered — proved

Model the reader and the writer once more in a store of mutable objects (Verif/Heap.lean, Verif/HeapWrite.lean): native trees, model instances, lists, XmlElement objects, their attribute dictionaries and child lists are cells that refer to each other by address, and every assignment or list/dict mutation of the code is a change of a cell. Prove that all cells that existed before a call are unchanged after it, and that the tree that is written consists of new cells.

In a model with object identity every object that existed before is unchanged, whatever the outcome, for reading and for writing; trees can be read and instances written again with the same result, and the tree that is written shares no object with the instance. Custom validators and serializers are functions here: what user code does to the objects it is given is not modelled.

Theorems: `Heap.C44_tree_unchanged`, `Heap.C44_read_again`, `Heap.C44_instance_unchanged`, `Heap.C44_output_separate`, `Heap.C44_write_again`.

### C45 extra='forbid' rejects unknown elements — partial

Counterexample by running the model. The partial theorem: `Ser.Takes` (`Verif/SpecUnread.lean`) says what a field may take from an element, `Node.Unread` which data is out of reach of all fields; such data is in the element after reading (induction over the fuel), so the check for extra data finds it.

False: an unknown element without text and attributes is accepted (counterexample). Proved: a document with an unknown element, at any depth, that carries an attribute or a non-blank text, itself or in a descendant, is not accepted.

Theorems: `C45_counterexample`, `C45_stranger_rejected_partial`.

### C46 The nearest namespace declaration wins — partial

Names are resolved in the merged map; merging compared with nearest-first lookup.

Farther declarations win over nearer wrappers in parent_nsmap (counterexample). Proved: the entity's own map wins over all others, and the nearest wins if the maps around the entity do not contradict each other. C46_exact, C46_exact_attribute and C46_exact_wrapped say without any condition which declaration counts: the own one or else the farthest one.

Theorems: `C46_nearest_wins_partial`, `C46_counterexample_farther_wins`, `C46_exact`, `C46_exact_attribute`, `C46_exact_wrapped`.

### C47 Undeclared prefixes are rejected — partial

A compiled field with an undeclared prefix would need a lookup that fails.

If no namespace map is in scope at all, an undeclared prefix is silently ignored (counterexample). Proved for scopes with at least one declaration. C47_exact, C47_exact_raw, C47_exact_model and C47_exact_wrapped say exactly when a primitive element or attribute, a raw element, a sub-model and a wrapped field is accepted.

Theorems: `C47_undeclared_rejected_partial`, `C47_counterexample_no_declarations`, `C47_exact`, `C47_exact_raw`, `C47_exact_model`, `C47_exact_wrapped`.

### C48 Optional, defaults and validators do not change the mapping — proved

Both schemas resolve (`Strips`) to the same core.

Theorems: `C48_transparent`.

### C49 Class definitions terminate — partial

`Schema.Finite`: the type unfolds to a finite tree with models as leaves; induction on it bounds the fuel.

Recursion through anything but model classes, e.g. a NamedTuple containing itself, never terminates (counterexample). Proved for all types that unfold to finite trees, models being leaves.

Theorems: `C49_field_terminates_partial`, `C49_class_terminates_partial`, `C49_counterexample_recursive_named_tuple`.

### C50 Primitive values are written in XML Schema form — proved

`Denotes` gives the XML form of a value, integers by Lean's own reader of numbers.

Theorems: `C50_injective`, `C50_text`, `C50_attribute`, `C50_element`.

### C51 No interference through shared objects — proved

Same model. Define when an element value is stored at an address as a tree of objects that occur in it only once (Verif/SpecHeap.lean), prove for every operation of XmlElement and every serializer that it does to the stored tree what the value model does to the value and changes no object outside the tree (a frame property), and conclude by induction over the fuel that both models return the same result. The same for writing, where the instance is stored in cells outside the element (and may share them).

The model with object identity (Verif/Heap.lean, Verif/HeapWrite.lean) is proved to refine the model with values, serializer by serializer, for reading and writing; a custom field validator or serializer is a function on the tree in both.

Theorems: `Heap.C51_same_result`, `Heap.C51_same_output`, `Heap.C51_every_field_written`, `Heap.C51_every_field`, `Heap.C51_snapshot`.

### C52 Namespace declarations of the output — proved

`Node.declared` collects the declaration of a native element, `Ser.Makes` lists the tags and maps a serializer may write (Verif/Spec.lean); an invariant over the elements below the cursor, kept by every operation and every serializer.

Theorems: `C52_declared_lxml`, `C52_declared_std`.

### C53 A path may be given in one piece or in several — proved

Definition: the parts of a joined path are the parts of its pieces, and the serializer of the wrapped entity depends on the entities around it only through the namespace and map in scope (induction over the fuel of parse). Reading and writing: descending along p ++ q is descending along p and then along q.

Wrappers with their own nsmap are excluded: there the nested form resolves prefixes differently if the class binds the same prefix (see C46).

Theorems: `C53_definition`, `C53_read`, `C53_write`.

### C54 The global prefix registry — proved

A model of the table and of ElementTree's register_namespace and _namespaces (Verif/Registry.lean); invariants over the history of registrations and over the names of a document.

Maps that bind the prefix xml to another namespace are excluded (XML forbids it). A later class does take a prefix away from an earlier one that uses it for another namespace: names stay correct, prefixes change.

Theorems: `C54_table`, `C54_last`, `C54_names`, `C54_xsi`.

### C55 Custom field validators and serializers — partial

A model of the collection over an arbitrary enumeration order (Verif/Hooks.lean); the last write to each key; for reading and writing, equality of the functions of two environments that differ only in what is claimed irrelevant, by induction over the fuel.

If two methods are decorated for one field, the enumeration order of a set of strings decides (counterexample). Proved for fields with at most one decorated method; C55_exact says which function handles a field for any number of them.

Theorems: `C55_exact`, `C55_validator_partial`, `C55_serializer_partial`, `C55_inherited`, `C55_read`, `C55_write`, `Ex.C55_counterexample`.

### C56 Definition order and model_rebuild — proved

Class statements and rebuilds as events on the table of class serializers (`history`); a succeeding build is monotone in the classes built before, hence any two histories agree.

Whether pydantic has resolved the references of a class at an event is part of the event. A class is defined once: the theorems exclude a later class statement for the same class.

Theorems: `C56_stays`, `C56_incomplete`, `C56_complete`, `C56_order`, `C56_alike`.

### C57 Recursive classes — partial

False for discriminated unions: their members must be built before; a class that is a member of its own discriminated union can never be built (proved for all histories). For classes without discriminated unions: C28 and monotonicity. The classes some program completes are exactly those of the inductive `Constructible` (well-founded choosing); proof by showing that the order of completion does not matter for what is built.

False: a class with a discriminated union that has the class itself as a member is never usable (AssertionError), see `C57_recursive_union`, `C57_counterexample`, and in general no class on a circle of discriminated unions is (`C57_circle`). Proved for all classes that are supported without any other class being built (`C57_recursive_partial`); which classes can be completed at all is stated exactly in `C57_constructible`, and which class statement or rebuild completes one in `C57_when`.

Theorems: `C57_recursive_union`, `C57_recursive_partial`, `Def.C57_counterexample`, `C57_constructible`, `C57_when`, `C57_circle`.

### C58 Parameters of classes with several bases — partial

False for several bases: every class stores all parameters, also the ones it does not declare, so the first base hides the others. With single inheritance (and mixins that are not models): induction over the hierarchy.

False for classes with several model bases: only the first one counts (`C58_counterexample`). Proved: for every class the parameters are those of the line of first bases, which with single inheritance is the mro.

Theorems: `C58_first_base_partial`, `C58_nearest_partial`, `Bases.C58_counterexample`.

### C59 Foreign attributes and attribute order — proved

A simulation (`Sim`) between trees that agree in the attributes of a given set, instantiated at the set of names the serializers look for.

Theorems: `C59_foreign_attributes`.

### C60 Prefixes do not matter — proved

The conversion from the native tree forgets the declarations; induction over the tree.

Theorems: `C60_prefixes_irrelevant`.

### C61 The validation context reaches every nested model — proved

Model the readers with the two arguments in every call (`Verif/Threaded.lean`). Prove by induction on the recursion that (1) what validation under the given context preserves is preserved, applied to a log of the calls; (2) two sets of validators that agree under the context give the same result; (3) the model with arguments refines to `fromXmlTree` with the context built in.

Validators are arbitrary functions of the context, the class, the data and a state of the world that they may change.

Theorems: `Threaded.C61_context_in_every_call`, `Threaded.C61_no_other_context`, `Threaded.C61_context_built_in`.

### C62 Concurrent calls do not interfere — proved

The code with object identity is modelled once more as programs that access one object per step (Verif/Conc.lean, Verif/ConcWrite.lean); threads run under an arbitrary schedule. A program is related to itself up to the addresses of the objects it creates (Lemmas/Para*): it reads old objects, and writes only objects it has created itself. An invariant over the schedule (Lemmas/Interleave) relates each thread to its run alone. That run is shown to be the one of Verif/Heap.lean and Verif/HeapWrite.lean (Lemmas/Runs*), which C51 connects with the model in which everything is a value.

Theorems: `Conc.C62_same_result`, `Conc.C62_inputs_untouched`, `Conc.C62_no_waiting`, `Conc.C62_outputs_separate`.

### C63 Writing ends, and succeeds exactly for instances of the declared shape — proved

`Verif/SpecWrite.lean` defines `Shaped` (an inductive predicate on field or class, value and encoding that mentions no elements, names, paths or search modes). Termination: well-founded induction on the size of the value and of the field (`Lemmas/Shaped.lean`). What is written is shaped: induction on fuel. What is shaped is written: induction on `Shaped`, with the invariant that the position of every element stays within its children, so that looking up wrapper elements never fails.

Theorems: `C63_terminates`, `C63_succeeds_iff`, `C63_other_shape_rejected`.

### C64 Each element is validated at most once — proved

Count the calls in the state of the world of Verif/Threaded.lean. Induction over reading with a potential: calls so far plus elements not yet popped never grow, since each sub-model pops the element it validates. For unions an explicit family of documents, by induction over the depth.

The statement excludes plain unions of models; C64_exponential_with_unions shows why it has to.

Theorems: `Threaded.C64_once_per_element`, `Threaded.Ex.C64_exponential_with_unions`.

### C65 Field constructors describe exactly what they are given — partial

Model the constructors over keyword dictionaries (`Verif/Define.lean`) with pydantic's `FieldInfo` as set attributes and metadata. Theorems give the described entity and the value of every attribute for all keyword dictionaries; induction over the chain of `wrapped` calls for nesting.

False in two points: an alias given to wrapped itself is lost (C65_counterexample_wrapped_alias), and a computed_element decorator object used twice has lost its arguments at the second use (C65_counterexample_decorator_reuse).

Theorems: `C65_element`, `C65_attr`, `C65_wrapped`, `C65_wrapped_alone`, `C65_nested`, `C65_wrapped_alias_partial`, `C65_counterexample_wrapped_alias`, `C65_computed_element_partial`, `C65_computed_attr_partial`, `C65_counterexample_decorator_reuse`.

### C66 create_model makes the class that the class statement makes — partial

Model `create_model` as the updates of `__cls_kwargs__` followed by the class statement; the order of the ancestors is a parameter. Equality of the classes for all arguments.

The module is not that given by __module__, and class parameters in __cls_kwargs__ are overwritten (C66_counterexample); hence the hypothesis on the keys of __cls_kwargs__.

Theorems: `C66_same_class`, `C66_parameters`, `C66_counterexample`.

### C67 The version of pydantic is recognised — proved

Model the match of the regular expression; theorem for the printed form of all triples of natural numbers and all suffixes that do not begin with a digit.

Theorems: `C67_release`, `C67_comparison`.

### C68 What is written as text and parsed again is read back — proved

`from_xml` and `to_xml` with parser and printer as parameters (`Verif/Text.lean`). That documents that say the same are read alike is proved with the simulation of `Verif/Lemmas/SimMeta.lean`, the round trip from it and C01. A small printer and parser (`Verif/ExampleXml.lean`), proved to invert each other for all texts and attribute values, show that the hypothesis can be met.

The XML library is a parameter; its law (what is printed is parsed) is a hypothesis on the tree at hand.

Theorems: `C68_read_alike`, `C68_library`, `C68_text_round_trip`, `C68_read_alike_raw`, `C68_text_round_trip_raw`, `Ex.C68_empty_text_lost`.

### C69 Indentation between elements has no influence — proved

The simulation of `Verif/Lemmas/Sim.lean` carries the tags of the elements whose text may be taken: a serializer that takes the text of its own element is only applied to elements with such a tag. Texts of other elements are related by a normal form that drops white space (or all text). With C01 this gives the round trip through indented text; an indenting printer in `Verif/ExampleXml.lean` meets the hypothesis.

The XML library is a parameter. `C69_text_field_gets_indentation` shows why elements whose text is taken are excluded.

Theorems: `C69_blank`, `C69_white_space`, `C69_texts_nobody_takes`, `C69_pretty_round_trip`, `Ex.C69_text_field_gets_indentation`.

### C70 Programs whose classes are all complete work — proved

Existence: program from a `Constructible` derivation and back. Working: the state after any history is the compilation of the class definitions (`history_accepts`), so the theorems for accepted programs (C01, C02, C28) apply; what is left is independent of the order (`history_agree`).

Theorems: `C70_program_exists`, `C70_program_works`.

### C71 Environment variables — proved

Model of strtobool on lists of characters; capital letters by arithmetic on code points.

Theorems: `C71_strtobool`, `C71_import`.

### C72 The mypy plugin describes fields as they are at run time — partial

Model of the four methods on a small syntax of expressions; compared with the field infos that the constructors of C65 make from the values of the arguments. Counterexamples by computation.

False: the plugin does not recognise the constructors at all, because it looks for them under pydantic_xml.model while they are defined in pydantic_xml.fields (C72_counterexample_names); even with the right names the first of default and default_factory decides (C72_counterexample_both), and defaults of wrapped entities are not seen (C72_counterexample_wrapped); fields made by pydantic's Field are never frozen (C72_counterexample_frozen). The partial theorems are about the plugin with any list of recognised names. That mypy calls a function by the module that defines it is an assumption about mypy; pydantic's own plugin is a parameter.

Theorems: `Mypy.C72_has_default_partial`, `Mypy.C72_arguments_partial`, `Mypy.C72_counterexample_names`, `Mypy.C72_counterexample_both`, `Mypy.C72_counterexample_wrapped`, `Mypy.C72_recognised`, `Mypy.C72_others_partial`, `Mypy.C72_counterexample_frozen`.

### C73 Generic classes wait for their parameters — partial

Induction over histories of class statements and rebuilds; counterexample by computation for root models.

False for generic root models whose root contains a type variable without being one: stating the class raises (C73_counterexample_root). Proved for all other generic classes.

Theorems: `C73_generic_partial`, `Gen.C73_counterexample_root`.

### C74 Typed instances come back from XML — proved

`Makes` says what pydantic makes out of data by a type, `Env.Follows` that pydantic follows the types, `Sound` which instances belong to their types; its Boolean says whether something must be written, as is needed below elements that `skip_empty` would remove. By induction on `Sound` the value handed to pydantic is computed and the hypotheses of C01 are met (`sound_back`). The assumptions on pydantic are shown consistent for all types by constructing such a validator (`C74_pydantic_exists`). `C74_program` says the same of a program, in terms of its declarations only (`SpecTypedProgram.lean`): `Schema.Occupies` which places a field takes by its type and annotation, `ClassDef.Neat` that the fields of a class do not compete, `Env.FollowsDeclared` that pydantic follows the declared types and defaults, `Worth` which instances come back. It follows from C75 (the serializers are the declared ones) by induction on `Worth`; `C74_pydantic_declared` shows that the assumptions on pydantic can be met for all declarations. Computed fields (`Derived`) are written and not read; the second Boolean of `Sound` and `Worth` says that there are none, so that classes may forbid extra data. `Behind` holds what the declarations do not say: the defaults and the properties of computed fields.

C74_round_trip for all classes, instances and flags; C74_pydantic_exists shows that the laws assumed of pydantic can be met for any types. Pydantic itself is assumed to follow the laws. C74_text, C74_pretty and their program versions carry it over to printed (and indented) text under the assumption that the XML library reads back what it printed.

Theorems: `C74_round_trip`, `C74_pydantic_exists`, `C74_program`, `C74_pydantic_declared`, `C74_text`, `C74_text_raw`, `C74_pretty`, `C74_program_text`, `C74_program_pretty`.

### C75 Declarations determine the XML representation — proved

`SpecDeclared.lean` says by an inductive relation `Schema.Becomes` which representation a type gets at a place, with one rule per kind of type. `C75_field` (every result of the compilation satisfies it), `C75_class`, `C75_program` (for the classes of a program, after any sequence of statements and rebuilds; the discriminator attribute is the one of the declarations). By induction on the compilation, by cases on the selected serializer; uses the inversion of `parse_core_schema` from C23/C27.

Theorems: `C75_field`, `C75_class`, `C75_program`.

### C76 The output consists of what the classes declare — proved

A `Vocabulary` (SpecVocabulary.lean) says which attributes, children and text elements of a tag may have; `Ser.DeclaredIn` that it contains everything a field declares, `Node.Speaks` that a document keeps to it. By induction on the steps of writing every serializer preserves `Speaks` of the element under construction (`ser_keeps`). Used in TypedText.lean: documents with plain names can be printed and parsed, so that C74 reaches from the declarations to the text. `Schema.Permits` (SpecProgramVocabulary.lean) says in terms of declarations what an entity permits, `Classes.vocabulary` collects it from the root class on; `C76_program` follows by induction on `Becomes` (C75). Where a class has a raw field, its elements may have any children.

C76_vocabulary for all vocabularies that contain the declarations of the classes; C76_program for the least one, in terms of the declarations, after any program that defines the classes. Elements of classes with raw fields may have any children. Classes with custom serializers are left out: these may write anything.

Theorems: `C76_program`, `C76_vocabulary`.

### C77 hide_input_in_errors decides what the text of an error shows, and nothing else — proved

Errors carry a heading: title and hide_input. The definitions carry the setting of the class or of the context into serializers of models, collections and unions (Compile.lean). That the setting of the class that is read decides is by cases on where the error is raised; with C75 the setting is that of the declaration. That nothing else changes is a simulation between two runs, by induction on the fuel, for definitions, reading and writing (Lemmas/Hidden.lean, Lemmas/HiddenCompile.lean).

Theorems: `C77_flag`, `C77_program`, `C77_read`, `C77_write`, `C77_definitions`, `C77_rejected`.

### C78 Different instances are written as different documents — proved

A corollary of the round trip of typed instances (C74): the document determines what is read from it, and that equals the instance.

Theorems: `C78_trees`, `C78_program`, `C78_text`.

### C79 search_mode is about reading only — proved

`SpecModes.lean`: the serializers with `search_mode='strict'` everywhere (`Ser.strict`, `Env.strict`), classes with other search modes (`Classes.searching`). `C79_write`: two environments that are the same after `strict` write the same; by induction on the fuel, with the invariant that the position is behind the last child at every depth (`C31_open`), so that the path of a wrapper leads to last children only. `C79_definitions`, `C79_rejected`: compiling commutes with `strict`, function by function. `C79_program`, `C79_read`: combination with C74/C01. `C79_counterexample_raw`: raw elements are appended with the position at their first child; a wrapped path into them is then found or not depending on the mode.

The exception for raw elements is part of the statement; C79_counterexample_raw shows that it is needed.

Theorems: `C79_write`, `C79_read`, `C79_definitions`, `C79_rejected`, `C79_program`, `C79_counterexample_raw`.

### C80 What was read can be written and read again — proved

Every value that reading returns is described by an inductive predicate: what was handed to pydantic for every field, and what pydantic returned (Lemmas/Stable: fromXmlTree_given). By induction over it every such value is a sound instance in the sense of C74 (given_back), so that C74 applies. The assumption that pydantic makes instances only by the types (Env.Only) is shown to be satisfiable together with the assumptions of C74. For declared classes (C80_program and its text versions) the same is said by the declarations: the types of the declarations (DeclaredTypes) turn Classes.Stable into Env.Stable. Computed fields have to be writable for all values that pydantic can make (`Env.Stable.computed`); an example with a computed attribute and a NoXml field is in Props/StableComputed.

The English statement names the conditions; the counterexamples show the union and exclude_none conditions to be necessary.

Theorems: `C80_canonical`, `C80_canonical_text`, `C80_reread`, `C80_text`, `C80_text_raw`, `C80_pretty`, `C80_pydantic_exists`, `C80_counterexample_union`, `C80_counterexample_none`, `C80_program`, `C80_program_text`, `C80_program_pretty`, `C80_pydantic_declared`.

### C81 A newer version of the declarations reads old documents as before — proved

Specification SpecEvolve (names added, documents lacking them, growth of fields, classes and programs, upgraded values). Simulation of the older reader by the newer one (Lemmas/Evolve): lookups of new names find nothing and leave the element as it is, also the look-behind of wrapped fields because cursors stay within the children; the absence of new names is preserved by every elementary step of the reader; values and errors correspond through the filling of new fields.

Theorems: `C81_old_documents`.

### C82 Explicitly set fields matter for exclude_unset only — proved

`Val.forgetSet` (SpecSet.lean) drops `model_fields_set` at every depth; induction over the writing function shows that it is invariant (Lemmas/SetFields.lean). `C80_canonical` and `C80_canonical_text` combine it with C80.

Theorems: `C82_set_fields_irrelevant`, `TypedEx.C82_exclude_unset_differs`.

### C83 Flags only leave things out — partial

`Node.Part` (SpecOmit.lean) relates a document to one with more in it. Two runs of the writer with different flags are related by induction; the texts, attributes and wrapper elements of a field must be free when it is written.

False in general: if a field between two fields of the same wrapper element is left out, the two wrapper elements become one (C83_counterexample_wrapped), or a wrapped field is written into a raw element with the name of its wrapper (C83_counterexample_raw); if a dictionary of attributes is left out, attributes it would replace appear (C83_counterexample_attributes). C83_less_output_partial proves it for all classes in which texts, attributes and wrapper elements are not shared by fields and no wrapped field comes after a raw one. Missing besides: custom serializers.

Theorems: `C83_less_output_partial`, `Ex.C83_counterexample_wrapped`, `Ex.C83_counterexample_raw`, `Ex.C83_counterexample_attributes`.

### C84 Reading is local: the contents of one child do not influence other fields — proved

A relation between the elements being read: same cursor, text and attributes, children pairwise equal up to line numbers or both with the tag. Every serializer kind that does not look for the tag preserves it and gives equal outcomes; every kind read from one child with the tag preserves it. Induction over the fields.

Theorems: `C84_field_outcomes`, `C84_values`, `C84_errors`.

### C85 A newer version of the declarations writes old data as before — proved

A relation between an instance with its JSON form in the old and in the new version, along the declarations. Additional fields that are None write nothing; everything else writes the same: induction over the depth, with lemmas for the loops over fields, items and wrapper paths.

Theorems: `C85_written_as_before`.

### C86 exclude_none and exclude_unset lose nothing — proved

C86_nothing_lost: induction over the derivation that a typed instance comes back (Sound, as for C74), transferring it from the default flags to the other ones; then C74. C86_discriminator_needed shows that the hypothesis on discriminators is necessary.

Classes that set skip_empty=True and empty_as_string are excluded: with them the full document is not the reference.

Theorems: `C86_nothing_lost`, `Ex.C86_discriminator_needed`.

### C87 In unordered mode the order of the fields does not matter — proved

Spec: SpecFieldOrder.lean (what it means for fields to have nothing in common, for two outcomes to be the same up to order). Proof: a field only depends on its view of the element (the text, the attributes and the unread children that it may take); reading another, unrelated field preserves the view, because the swap of the unordered search neither removes a child of another tag nor reorders the (at most one) child of a tag. Induction over the serializers for both facts, then over the fields: each is read as if it were alone; hence data and errors are permutations of each other.

Fields with custom validators, fields that are plain unions of models (they pass over an element if no alternative is valid), classes with extra='forbid' and documents with repeated tags are outside of the theorem; for repeated tags Ex.C87_single_needed shows that the claim is false.

Theorems: `C87_field_order`, `Ex.C87_single_needed`.

### C88 In unordered mode a class reads nothing but what its fields take — proved

Spec: Node.AgreeFor in SpecFieldOrder.lean. Proof: elements that agree on a part (texts, attributes, tags) are read alike by every field that takes nothing outside of the part, and agree on it afterwards (induction over the serializers, deser_within); the part is the union of what the fields take; then induction over the fields.

Extends C08 and C09 for the children of the root: raw elements, discriminated unions, forbidding sub-models and repeated unknown elements are covered; the order inside of the children is C09's subject.

Theorems: `C88_only_what_is_taken`.

### C89 Every value is read from the place that its field is declared at — proved

An inductive relation between a declaration, a node of the document and a value (SpecPlace). Invariant: at every moment the element is what is left of its node, its unvisited children being untouched; induction on the serializers shows that every value read under the invariant is related. Two lemmas by induction make a sub-model a document of its own: reading pays no attention to the tag of the element itself, and the location and the lines recorded so far only enter into reports.

Theorems: `C89_place`, `C89_place_root`, `C89_sub_model`.

### C90 A sub-model is written as it is written by itself — proved

A relation HasSub between a declaration with its value and the sub-models written by it (SpecSubDoc). By induction on the serializers: writing pays no attention to the name and the namespace declarations of the element itself; no serializer changes a child with a tag that no wrapped field leads through. Hence the element that the proxy appends is the document of the sub-model up to the name, and it is still there at the end.

The condition on wrapped fields is needed (C90_through_needed). The encoded form of the sub-model within the instance is assumed to be the one that it has by itself, which holds for pydantic's encoder unless a class has a model serializer of its own.

Theorems: `C90_sub_document`, `C90_sub_document_root`, `Ex.C90_through_needed`.

### C91 Every instance in the result is what its class reads from its own element — proved

From C89 (what a field gives comes from children that have not been touched) by induction over the number of elements of the document; the vocabulary is in SpecPieces.lean.

Theorems: `C91_every_instance`, `Ex.C91_nil_counts`.

### C92 A discriminator changes neither what is read nor what is written — proved

Relate C33 (selection by attribute) to C11 (first member that validates): a class that insists on another tag does not accept the candidate, because the field of the discriminator can only have the value of the attribute, or none, however the other fields are read. The errors of the two unions differ and are the subject of C12 and C33.

Theorems: `C92_same_values`, `C92_same_output`, `C92_insisting_needed`.

### C93 A wrapper stands for a sub-model that holds only that field — proved

Reading: away from the look-behind case `find_element` is `pop_element`, so both run the same serializer on the same child; the source maps differ, which deser_sm shows to be irrelevant. Writing: find_element_or_create creates a new element exactly when the last child has another name. A theorem shows that the look-behind restriction is needed.

For a path of several elements apply the theorem piece by piece (C53: a path is its pieces). The class is written with default settings (no extra=forbid, no skip_empty override, no hooks); the conversions pydantic makes in the class are arbitrary.

Theorems: `C93_read`, `C93_write`, `C93_root_read`, `C93_root_write`, `C93_fresh_needed`.

### C94 An element field is the text, or the attributes, of its element — proved

Unfold both: away from look-behind the search is the same and the text and attribute serializers run on the same child; when writing, a new element is created exactly when the last child has another name.

Theorems: `C94_read`, `C94_write`.

### C95 Constraints only reject — proved

Simulation between the two readers: same element and source map after every step, and either the same outcome, or an error on the strict side against an error or a value other than None on the lax side; the loops collect items and errors with the invariant that without errors both collections are equal.

Theorems: `C95_only_reject`, `C95_still_rejected`, `C95_unions_needed`.

### C96 A tuple of equal items is a list of that length — proved

Induction over the rounds of the two loops with the same accumulator; an error in either loop stays until the end, so a successful result has none. Writing: induction over the values.

Theorems: `C96_list_as_tuple`, `C96_tuple_as_list`, `C96_write`, `C96_end_needed`.

### C97 Settings for writing do not influence reading, nor settings for reading writing — proved

Define the classes with all settings of one direction erased (SpecSides.lean) and show by induction that reading (writing) with the classes equals reading (writing) with the erased ones. Search modes are the subject of C79. Program level: two programs that differ only in skip_empty, exclude and custom serializers (or only in extra='forbid', validation aliases and custom validators) are accepted alike and define classes that are the same for reading (for writing), since a class definition is compiled without looking at them (Lemmas/SidesCompile.lean). Namespace maps also decide names when a class is defined, so they are not among the settings of a definition that may differ.

Theorems: `C97_reading`, `C97_writing`, `C97_definitions_reading`, `C97_definitions_writing`, `C97_rejected`, `C97_program_reading`, `C97_program_writing`.

### C98 nillable matters for xsi:nil and for None only — proved

Take nillable away everywhere (SpecNillable.lean). Reading: being free of xsi:nil is preserved by every step of the reader (an ElemRel), so the reader with and without nillable fields agree by induction on the fuel. Writing: every use of nillable is behind a test that exclude_none makes false. Counterexamples show that both conditions are needed. Program level: compiling class definitions without nillable gives the compiled classes without nillable (Lemmas/NillableCompile.lean), so two programs that differ in nothing else are accepted alike.

Theorems: `C98_reading`, `C98_writing`, `C98_definitions`, `C98_rejected`, `C98_program`, `C98_nil_needed`, `C98_exclude_needed`.

### C99 A root model is a class with one field — proved

Reading is independent of the location and of the lines recorded so far (Lemmas/LocFree.lean), by induction on the fuel; here with two environments whose validations have the same verdict. The serializer of a root model and that of the one-field class then differ only in what they report. Writing: unfold both.

Theorems: `C99_reading`, `C99_writing`, `C99_writing_submodel`.

### C100 The names of the classes do not matter — proved

SpecRename.lean says what it is to rename classes in values, serializers and programs. Reading and writing are compared step by step by induction on the fuel; the class of a union's alternative is found by injectivity of the renaming. The construction of serializers from definitions is compared in the same way (Lemmas/RenameCompile.lean), along every history of class statements and rebuilds.

Theorems: `C100_reading`, `C100_writing`, `C100_definitions`, `C100_rejected`, `C100_program`.

### C101 The names of elements have no meaning of their own — proved

SpecRetag.lean says what renaming means for documents, elements, values, serializers and programs. Induction over the fuel and the serializer, with a simulation relation between the runs (the element of the second is the renamed element of the first), gives both directions. Attribute names and namespace maps stay as they are, since names of attributes can be data (the keys of dictionaries).

Renaming is of element names in the form {namespace}name; attribute names and namespace maps are kept.

Theorems: `C101_reading`, `C101_writing`.

### C102 Classes may be defined and rebuilt while others are used — proved

SpecMeanwhile.lean defines the possible outcomes when every lookup of a class sees the program after some history. All histories of a program agree on what they build (C56), so every state lies under one environment, and above that at the start (C56_stays). Reading and writing are monotone in the environment: induction over the fuel and the loops with the relation 'AssertionError or the same'.

Setting and looking up the serializer of a class are atomic steps. Within one serializer, the same part read twice from the same state has the same outcome. A class statement makes a new class, so the statement of a class that is in use already is no event here.

Theorems: `C102_reading`, `C102_writing`, `C102_reading_goes_on`, `C102_writing_goes_on`.

### C103 Texts have no meaning of their own — proved

SpecRetext.lean defines the replacement on documents, elements, values and declarations and which texts it must keep; Props/Retext.lean proves by induction over the fuel and the serializers that reading and writing commute with it. Validation, encoding and the text form of containers are parameters assumed to commute with the replacement (as pydantic does for fields of type str, and for literals replaced alike). Lemmas/RetextCompile.lean and C103_definitions, C103_rejected, C103_program carry it to whole programs: class statements and model_rebuild calls in any order give, or reject, the same classes but for the discriminator values.

Theorems: `C103_reading`, `C103_writing`, `C103_definitions`, `C103_rejected`, `C103_program`.

### C104 The names of attributes have no meaning of their own — proved

SpecRekey.lean defines the renaming on documents, elements, values and declarations; Props/Rekey.lean proves by induction over the fuel and the serializers that reading and writing commute with it. Validation and encoding are parameters assumed to commute with the renaming.

Theorems: `C104_reading`, `C104_writing`.

### C105 empty_as_string matters for empty texts only — proved

`Node.Texted T N` says that no element with a name in `T` is without text, and none with a name in `N` unless it is nil; `Env.ReadsTextsOf T N` that the classes read texts from such elements only, each once (`Ser.textPath`: where a field reads the text of its class or of a wrapper; `Ser.LeavesText`: a field takes no text there). C105_only_empty_texts: `fromXmlTree` with and without `empty_as_string` agree. Proof: both runs go in step; unvisited children are untouched (`RestOf`), and the texts at the paths that later fields read are still there (`Keeps`); induction on the fuel.

Theorems: `C105_only_empty_texts`.

### C106 Reported lines move with the elements — proved

`Node.moveLines` replaces the line numbers of a document. C106_lines_move: reading the moved document gives the outcome with the line numbers of its errors replaced (`Out.lines`). C106_only_lines: documents that differ in line numbers only are read alike. Proof: the simulation of C38 for normalised line numbers is used twice, from the document to a copy with coded (negative) line numbers and from there to the moved document; the reported lines all occur in the document (C16).

Theorems: `C106_lines_move`, `C106_only_lines`.

### C107 Processing instructions are invisible — partial

`Node.dropPis` removes the processing instructions. C107_ordered_partial and C107_unordered_partial: the same outcome with and without them; C107_ordered_values_partial: with plain unions of models the same instance, or both rejected. Proof: processing instructions are among the nodes that no field looks for, so C08 applies. C107_counterexample: in strict mode a processing instruction in front of the first element makes the document rejected.

False in strict mode (C107_counterexample); proved for ordered mode (C107_ordered_partial, with plain unions of models C107_ordered_values_partial) and unordered mode (C107_unordered_partial, C107_unordered_values_partial). C107_strict_partial says what strict mode does instead: the first processing instruction of an element hides everything after it there. Missing: classes with extra='forbid' or raw fields, where processing instructions are data.

Theorems: `C107_ordered_partial`, `C107_ordered_values_partial`, `C107_unordered_partial`, `C107_unordered_values_partial`, `C107_counterexample`, `C107_strict_partial`.

### C108 In strict search mode a foreign element hides its later siblings — proved

SpecStrictCut.lean defines the cut document. Lemmas/SimStrict.lean proves a simulation between trees that agree before the first foreign child of each element, with the invariant that no cursor passes a foreign child. C108_strict_cut, C108_hidden and C108_foreign_last follow for every class set and document.

Theorems: `C108_strict_cut`, `C108_hidden`, `C108_foreign_last`.

## 7. Wrong programs

`seeded/LOG.jsonl` records edits of the model that imitate realistic bugs, the claims they break and the theorems that failed. Each edit was
made in a copy outside this directory; the copy was rebuilt, theorems whose proofs failed were replaced by `sorry` one after the other until the build went
through, and the property theorems that then depended on `sorryAx` count as failed. An edit that broke a claim but no theorem led to a
stronger or additional theorem; the log names it.
