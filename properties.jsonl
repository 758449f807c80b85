{"id": "C01", "title": "Round trip", "statement": "For an instance whose fields claim pairwise different parts of the element (consecutive fields may share wrapper elements), to_xml_tree succeeds and reading the tree back with from_xml_tree hands pydantic exactly the string forms of the values that were written, at every nesting level; hence the instance comes back equal whenever pydantic's own validation inverts its own encoding.", "quantifier": "every model definition (any nesting, recursion, lists, tuples, wrapped paths, unions, mappings, raw elements) with non-competing fields and without custom validators or serializers; computed fields come last and their classes do not forbid extra data; every instance whose list and tuple items are all present, and under skip_empty (of the call or of a class) whose list items, sub-models and raw elements are not empty; every search mode, backend, exclude_none, exclude_unset, skip_empty and empty_as_string", "why_tests_cant": "the interaction of cursor, look-behind and field order depends on the whole schema and on list lengths and nesting depths, so any finite set of examples leaves schemas and values uncovered", "anchors": ["pydantic_xml/element/element.py:XmlElement", "pydantic_xml/serializers/factories/model.py:ModelSerializer", "pydantic_xml/serializers/factories/primitive.py", "pydantic_xml/serializers/factories/homogeneous.py", "pydantic_xml/serializers/factories/heterogeneous.py", "pydantic_xml/serializers/factories/wrapper.py", "pydantic_xml/model.py:BaseXmlModel.to_xml_tree", "pydantic_xml/model.py:BaseXmlModel.from_xml_tree"]}
{"id": "C02", "title": "Own output has no extra data", "statement": "The tree written by to_xml_tree for an instance as in C01 is accepted by the same class even with extra='forbid': after reading, no attribute, text or nested content is left unbound.", "quantifier": "every instance covered by C01 whose classes have no computed fields", "why_tests_cant": "requires that every string written is consumed at every depth, for all values", "anchors": ["pydantic_xml/element/element.py:XmlElement.get_unbound", "pydantic_xml/serializers/factories/model.py:BaseModelSerializer._check_extra"]}
{"id": "C03", "title": "Strict search", "statement": "In strict mode a field takes the next unread child element when its tag is the field's tag and takes nothing otherwise; a failed lookup leaves the element unchanged and a successful one advances by exactly one.", "quantifier": "every element state, tag, flag combination", "why_tests_cant": "element lists and cursor positions are unbounded", "anchors": ["pydantic_xml/element/element.py:strict_search", "pydantic_xml/element/element.py:_look_behind"]}
{"id": "C04", "title": "Ordered search", "statement": "In ordered mode a field takes the first unread child with its tag, every skipped child has a different tag, the skipped children can never be bound afterwards, and a failed lookup (no unread child has the tag) leaves the element unchanged.", "quantifier": "every element state and tag, and every later sequence of lookups", "why_tests_cant": "statement about all later lookups of any length", "anchors": ["pydantic_xml/element/element.py:ordered_search"]}
{"id": "C05", "title": "Unordered search", "statement": "In unordered mode a lookup succeeds exactly when some unread child has the tag, and it never loses or duplicates a child: the children before and after are the same up to order and the unread ones are exactly the old unread ones minus the one taken.", "quantifier": "every element state, tag, and every sequence of lookups", "why_tests_cant": "the swap-based bookkeeping must be right for every position and every history of lookups", "anchors": ["pydantic_xml/element/element.py:unordered_search"]}
{"id": "C06", "title": "Every piece of the document is bound at most once", "statement": "Reading a document only removes content: the text, attributes and tails left unread plus those taken make up exactly the document content, so no attribute, text or tail is delivered to two fields; the set of child elements and their tags is never changed and the cursor never moves backwards.", "quantifier": "every model definition, every document, every mix of search modes, failing or succeeding runs", "why_tests_cant": "histories of pops over arbitrary trees", "anchors": ["pydantic_xml/element/element.py:XmlElement.pop_text", "pydantic_xml/element/element.py:XmlElement.pop_attrib", "pydantic_xml/element/element.py:XmlElement.pop_element", "pydantic_xml/serializers/factories"]}
{"id": "C07", "title": "Nothing is invented", "statement": "Every string that reaches pydantic validation from from_xml_tree occurs in the document as an element text or attribute value (or attribute name, for dict keys), or is the empty string when empty_as_string is used.", "quantifier": "every model definition, every document", "why_tests_cant": "ranges over all schemas and documents", "anchors": ["pydantic_xml/serializers/factories/primitive.py:TextSerializer.deserialize", "pydantic_xml/serializers/factories/primitive.py:AttributeSerializer.deserialize", "pydantic_xml/serializers/factories/mapping.py"]}
{"id": "C08", "title": "Foreign elements are ignored in ordered and unordered mode", "statement": "In ordered and unordered mode, inserting child elements whose tags no field of any involved class looks for, at any depth, does not change the outcome of reading (values, errors), provided extra is not 'forbid'.", "quantifier": "every class, every document, every number and position of foreign elements", "why_tests_cant": "positions and numbers of foreign elements are unbounded", "anchors": ["pydantic_xml/element/element.py:ordered_search", "pydantic_xml/element/element.py:unordered_search"]}
{"id": "C09", "title": "Unordered mode ignores the order of children", "statement": "In unordered mode, if children with pairwise different tags are permuted, reading yields the same result.", "quantifier": "every class of unordered fields, every document with distinctly tagged children, every permutation", "why_tests_cant": "n! permutations for every n", "anchors": ["pydantic_xml/element/element.py:unordered_search"]}
{"id": "C10", "title": "Comments are invisible", "statement": "Comments in the document never bind to fields and never block strict search: reading a tree gives the same result as reading the tree with all comments removed.", "quantifier": "every tree, any number and position of comments, any model", "why_tests_cant": "positions and numbers are unbounded", "anchors": ["pydantic_xml/element/native/lxml.py:XmlElement.from_native", "pydantic_xml/element/native/std.py"]}
{"id": "C11", "title": "Union of models: first alternative that validates wins", "statement": "A union-of-models field yields the value of the first alternative, in declaration order, that finds its element and validates; what is consumed is exactly what this alternative alone consumes, so attempts of earlier alternatives leave no trace in the element.", "quantifier": "every list of alternatives, every element", "why_tests_cant": "the number of alternatives, their partial consumption before failing, and the nesting of unions are unbounded", "anchors": ["pydantic_xml/serializers/factories/union.py:ModelSerializer.deserialize", "pydantic_xml/element/element.py:XmlElement.create_snapshot", "pydantic_xml/element/element.py:XmlElement.apply_snapshot"]}
{"id": "C12", "title": "Union of models: errors", "statement": "When no alternative succeeds: if none of them found its element the field is absent and nothing is consumed; otherwise one error is raised carrying the errors of every failed alternative in declaration order, prefixed with the alternative's name.", "quantifier": "every list of alternatives with distinct names, every element", "why_tests_cant": "unbounded alternatives and errors", "anchors": ["pydantic_xml/serializers/factories/union.py:ModelSerializer.deserialize", "pydantic_xml/utils.py:into_validation_error"]}
{"id": "C13", "title": "extra='forbid' reports exactly the unbound data", "statement": "With extra='forbid', if no field fails, reading fails with one extra_forbidden error for each non-blank text, non-blank tail and attribute that no field consumed, at any depth, with its path and line, and for nothing else; a document is accepted only if nothing but blank text is left of it.", "quantifier": "every tree state after binding", "why_tests_cant": "arbitrary depth and width of the unread remainder", "anchors": ["pydantic_xml/element/element.py:XmlElement.get_unbound", "pydantic_xml/serializers/factories/model.py:BaseModelSerializer._check_extra"]}
{"id": "C14", "title": "Model errors are aggregated", "statement": "If any fields of a model fail while reading, the raised error lists all errors of all failing fields, in field order, each located under its field name; succeeding fields do not hide them and no error is added.", "quantifier": "every model definition, every subset of failing fields", "why_tests_cant": "2^n subsets of failing fields and arbitrary nesting", "anchors": ["pydantic_xml/serializers/factories/model.py:ModelSerializer.deserialize", "pydantic_xml/utils.py:into_validation_error"]}
{"id": "C15", "title": "Collection errors carry the item index", "statement": "When items of a list or tuple fail, the raised error contains the errors of every failing item located under that item's position in the document, and reading continues past a failing item.", "quantifier": "every list length, every set of failing positions", "why_tests_cant": "unbounded list lengths", "anchors": ["pydantic_xml/serializers/factories/homogeneous.py", "pydantic_xml/serializers/factories/heterogeneous.py"]}
{"id": "C16", "title": "Reported source lines", "statement": "The line number attached to a validation error for a field is the line of the element the field was read from (or, for attributes and text, of the enclosing element).", "quantifier": "every model definition, every document", "why_tests_cant": "depends on the dictionary of locations being collision free over all nestings", "anchors": ["pydantic_xml/serializers/factories/model.py:ModelSerializer.deserialize", "pydantic_xml/utils.py:set_validation_error_sourceline"]}
{"id": "C17", "title": "exclude_none", "statement": "With exclude_none=True a field whose value is None contributes nothing to the output document.", "quantifier": "every field kind, every instance, any depth", "why_tests_cant": "must hold for every serializer kind and nesting", "anchors": ["pydantic_xml/serializers/factories/primitive.py", "pydantic_xml/serializers/factories/model.py", "pydantic_xml/serializers/factories/mapping.py", "pydantic_xml/serializers/factories/wrapper.py"]}
{"id": "C18", "title": "exclude_unset", "statement": "With exclude_unset=True the output document is the same as if the model had only the explicitly set fields.", "quantifier": "every model definition and instance", "why_tests_cant": "all subsets of set fields", "anchors": ["pydantic_xml/serializers/factories/model.py:ModelSerializer.serialize", "pydantic_xml/serializers/factories/model.py:RootModelSerializer.serialize"]}
{"id": "C19", "title": "skip_empty", "statement": "With skip_empty=True the output contains no empty element (no text, attributes or children) other than the root.", "quantifier": "every model definition without raw fields or wrapped paths (full statement: every model definition)", "why_tests_cant": "emptiness propagates through arbitrary depths", "anchors": ["pydantic_xml/element/element.py:XmlElement.is_empty", "pydantic_xml/serializers/factories/primitive.py:ElementSerializer.serialize", "pydantic_xml/serializers/factories/model.py:ModelProxySerializer.serialize"]}
{"id": "C20", "title": "Computed fields are write-only", "statement": "A computed field never consumes anything from a document and never contributes to the data handed to validation; removing it from the class does not change reading.", "quantifier": "every model definition, document", "why_tests_cant": "all schemas and documents", "anchors": ["pydantic_xml/serializers/factories/primitive.py", "pydantic_xml/serializers/factories/model.py:ModelSerializer.deserialize"]}
{"id": "C21", "title": "Excluded fields are read-only", "statement": "A field with exclude=True never contributes to the output; fields that are not XML entities contribute neither to reading nor writing.", "quantifier": "every model definition, instance and document", "why_tests_cant": "all schemas and values", "anchors": ["pydantic_xml/serializers/factories/model.py:ModelSerializer.serialize", "pydantic_xml/serializers/factories/model.py:ModelSerializer.from_core_schema"]}
{"id": "C22", "title": "Root element name check", "statement": "from_xml_tree raises ParsingError exactly when the root tag differs from the qualified name of the model class; to_xml_tree always writes that name, so its output is never rejected by this check.", "quantifier": "every class, every document", "why_tests_cant": "all tags and namespaces", "anchors": ["pydantic_xml/model.py:BaseXmlModel.from_xml_tree", "pydantic_xml/model.py:BaseXmlModel.to_xml_tree"]}
{"id": "C23", "title": "Namespace resolution", "statement": "The namespace of an element field is that of the first of: its own ns, the model ns (sub-model fields), the enclosing field/model ns; the prefix is looked up in the field's own nsmap first, then the model's, then the parents'; attributes take a namespace only from their own ns or, with ns_attrs, the parent's; the default namespace never applies to attributes.", "quantifier": "every combination of declared ns and nsmap at every level", "why_tests_cant": "chains of contexts are unbounded", "anchors": ["pydantic_xml/utils.py:QName.from_alias", "pydantic_xml/utils.py:merge_nsmaps", "pydantic_xml/utils.py:select_ns", "pydantic_xml/serializers/serializer.py:Serializer.Context"]}
{"id": "C24", "title": "Qualified names", "statement": "The textual form of a qualified name determines namespace and local name: parsing the text of a name gives the name back, for all names without braces or line breaks in the local part; the empty namespace is identified with no namespace.", "quantifier": "all namespace uris and local names", "why_tests_cant": "all strings", "anchors": ["pydantic_xml/utils.py:QName.from_uri", "pydantic_xml/utils.py:QName.uri"]}
{"id": "C25", "title": "Entity metadata merging", "statement": "Merging several field annotations: the last one that sets a property wins, unset properties never overwrite set ones, grouping does not matter, and the nsmap is the union with the later annotation winning.", "quantifier": "every number of annotations and combination of set properties", "why_tests_cant": "2^n combinations for all lengths", "anchors": ["pydantic_xml/fields.py:XmlEntityInfo.merge"]}
{"id": "C26", "title": "Class parameters inheritance", "statement": "A subclass inherits tag, ns, nsmap, ns_attrs, skip_empty and search_mode from its parent unless it overrides them; nsmap entries accumulate along the inheritance chain with the nearest class winning.", "quantifier": "every chain of subclasses", "why_tests_cant": "unbounded chains", "anchors": ["pydantic_xml/model.py:BaseXmlModel.__init_subclass__"]}
{"id": "C27", "title": "Entity names", "statement": "An element or attribute field is named by its explicit path, else its alias, else its field name; a sub-model field by its explicit path, else the sub-model tag, else alias, else field name, else class name; reading and writing always use the same name.", "quantifier": "every combination", "why_tests_cant": "all combinations and both directions", "anchors": ["pydantic_xml/serializers/factories/primitive.py:ElementSerializer.from_core_schema", "pydantic_xml/serializers/factories/model.py:ModelProxySerializer.from_core_schema"]}
{"id": "C28", "title": "Unsupported definitions are rejected at class creation", "statement": "A type that has no XML representation in its location (models, collections of collections, mixed unions as attributes, untagged nested sequences...) is rejected when the class is defined; an accepted definition never fails during reading with anything but a validation error, for documents of any shape (refusals of the XML library itself, such as copying a processing instruction with lxml, aside).", "quantifier": "every type expression and location", "why_tests_cant": "type expressions nest without bound", "anchors": ["pydantic_xml/serializers/serializer.py:Serializer.select_serializer", "pydantic_xml/serializers/factories/homogeneous.py:from_core_schema", "pydantic_xml/serializers/factories/heterogeneous.py:from_core_schema", "pydantic_xml/serializers/factories/union.py:from_core_schema", "pydantic_xml/serializers/factories/tagged_union.py:from_core_schema"]}
{"id": "C29", "title": "Reading terminates", "statement": "from_xml_tree terminates on every finite document, also for self-referential model classes.", "quantifier": "every model definition, every document", "why_tests_cant": "non-termination cannot be observed by a finite test; loops run until an item is missing", "anchors": ["pydantic_xml/serializers/factories/homogeneous.py:HomogeneousSerializer.deserialize", "pydantic_xml/serializers/factories/model.py"]}
{"id": "C30", "title": "Nillable fields", "statement": "A nillable element written for None carries xsi:nil='true' and reads back as None; an element with xsi:nil='true' is read as None whatever else it contains; a value that is not None is never written as nil.", "quantifier": "every nillable primitive or model field, every value and element", "why_tests_cant": "all values and elements", "anchors": ["pydantic_xml/element/utils.py", "pydantic_xml/serializers/factories/primitive.py:TextSerializer", "pydantic_xml/serializers/factories/model.py:ModelProxySerializer"]}
{"id": "C31", "title": "Wrapped fields", "statement": "wrapped('a/b/c', ...) writes its content inside the nested elements a, b, c, reusing the wrapper element of the directly preceding field and creating missing ones; everything else in the element is unchanged; consecutive fields with the same path share one wrapper element and are read back from it.", "quantifier": "every path length, every element state", "why_tests_cant": "unbounded path lengths and states", "anchors": ["pydantic_xml/serializers/factories/wrapper.py", "pydantic_xml/element/element.py:XmlElement.find_element_or_create", "pydantic_xml/element/element.py:XmlElement.find_sub_element"]}
{"id": "C32", "title": "Raw elements", "statement": "A raw element field yields a complete copy of the sub-tree (tag, text, tail, attributes, all descendants in order) and writing it back reproduces the sub-tree; the copied content is no longer available to other fields.", "quantifier": "every sub-tree", "why_tests_cant": "arbitrary trees", "anchors": ["pydantic_xml/serializers/factories/raw.py", "pydantic_xml/element/element.py:XmlElement.pop_element"]}
{"id": "C33", "title": "Tagged unions", "statement": "A discriminated union reads the sub-model whose tag equals the discriminator attribute of the candidate element, whatever the order of alternatives; other alternatives' validators are not run.", "quantifier": "every set of alternatives, every element", "why_tests_cant": "all sets and elements", "anchors": ["pydantic_xml/serializers/factories/tagged_union.py:ModelSerializer.deserialize"]}
{"id": "C34", "title": "Collections keep order", "statement": "A list of elements is read in document order (strict and ordered mode) and written in list order, one child per item, after everything written before.", "quantifier": "every list length, every document", "why_tests_cant": "unbounded lengths", "anchors": ["pydantic_xml/serializers/factories/homogeneous.py"]}
{"id": "C35", "title": "Mapping fields", "statement": "A dict attribute field writes one attribute per entry and reads all attributes back as the same dict.", "quantifier": "every dict with distinct keys", "why_tests_cant": "all dicts", "anchors": ["pydantic_xml/serializers/factories/mapping.py"]}
{"id": "C36", "title": "Writing a field leaves other fields' output in place", "statement": "Serializing a field only adds to the element: children written before keep their place and order, attributes and text written by other fields stay as they are.", "quantifier": "every field kind and every element state", "why_tests_cant": "all states and orders", "anchors": ["pydantic_xml/element/element.py:XmlElement.append_element", "pydantic_xml/element/element.py:XmlElement.set_attributes", "pydantic_xml/serializers/factories/mapping.py"]}
{"id": "C37", "title": "Children are written in field order", "statement": "The children written by a model are the concatenation, in field declaration order, of the children written by each field (for fields without wrapped paths).", "quantifier": "every model and instance", "why_tests_cant": "all field lists", "anchors": ["pydantic_xml/serializers/factories/model.py:ModelSerializer.serialize"]}
{"id": "C38", "title": "lxml and standard library backends agree", "statement": "For a document without comments and processing instructions the lxml and the standard library backends give the same reading result (line numbers aside), and to_xml_tree builds the same tree (namespace prefixes aside).", "quantifier": "every tree, every model", "why_tests_cant": "arbitrary trees", "anchors": ["pydantic_xml/element/native/lxml.py", "pydantic_xml/element/native/std.py"]}
{"id": "C39", "title": "Empty text", "statement": "An element with empty text is read as None (absent) by default and as '' with empty_as_string=True; an element that is missing is absent in both cases.", "quantifier": "every text or element field and element", "why_tests_cant": "all documents", "anchors": ["pydantic_xml/serializers/factories/primitive.py:TextSerializer.deserialize"]}
{"id": "C40", "title": "Whitespace around elements is irrelevant", "statement": "Text following child elements (tails, e.g. indentation) never influences reading of models without raw fields and without extra='forbid'; with 'forbid' blank tails do not matter.", "quantifier": "every model and document", "why_tests_cant": "every placement of whitespace at every depth", "anchors": ["pydantic_xml/element/element.py:XmlElement.pop_tail", "pydantic_xml/element/element.py:XmlElement.get_unbound"]}
{"id": "C41", "title": "Writer cursor", "statement": "During serialization the writer's position is always at the end of the children, so a wrapped field can only reuse the last child written; the look-behind index is always valid while reading.", "quantifier": "every sequence of serializer calls", "why_tests_cant": "all histories", "anchors": ["pydantic_xml/element/element.py:XmlElement.find_element_or_create", "pydantic_xml/element/element.py:_look_behind", "pydantic_xml/element/element.py:XmlElement.step_forward"]}
{"id": "C42", "title": "Model-level skip_empty overrides the call", "statement": "A model class that declares skip_empty uses its own setting for its fields whatever is passed to to_xml; classes that do not declare it use the setting of the caller (the enclosing model).", "quantifier": "every nesting of classes and settings", "why_tests_cant": "unbounded nesting", "anchors": ["pydantic_xml/serializers/factories/model.py:ModelSerializer.serialize"]}
{"id": "C43", "title": "Absent fields do not disturb others", "statement": "If the element, attribute or text of a field is missing, reading of the field yields 'absent' (so the pydantic default applies) and the remaining element content is still fully available to the following fields.", "quantifier": "every field kind, every element", "why_tests_cant": "all states", "anchors": ["pydantic_xml/serializers/factories/primitive.py", "pydantic_xml/serializers/factories/model.py", "pydantic_xml/serializers/factories/mapping.py", "pydantic_xml/serializers/factories/raw.py"]}
{"id": "C44", "title": "The caller's tree and instance are never altered", "statement": "from_xml_tree never modifies the passed native tree, to_xml_tree never modifies the model instance.", "quantifier": "every call, successful or not, in every state of memory", "why_tests_cant": "all inputs", "anchors": ["pydantic_xml/element/native/lxml.py:XmlElement.from_native", "pydantic_xml/element/native/std.py:XmlElement.from_native", "pydantic_xml/model.py:BaseXmlModel.to_xml_tree", "pydantic_xml/serializers/factories/raw.py:ElementSerializer.serialize"]}
{"id": "C45", "title": "extra='forbid' rejects unknown elements", "statement": "A class with extra='forbid' rejects every document that contains an element no field reads.", "quantifier": "every class with extra='forbid', every document", "why_tests_cant": "The claim ranges over all unknown elements, including empty ones; a test with a non-empty unknown element passes although the claim is false.", "anchors": ["pydantic_xml/element/element.py:XmlElement.get_unbound", "pydantic_xml/serializers/factories/model.py:_check_extra"]}
{"id": "C46", "title": "The nearest namespace declaration wins", "statement": "A namespace prefix used by a field, wrapper or sub-model stands for the namespace that the nearest enclosing declaration (field, then wrappers from the inside out, then class) binds it to.", "quantifier": "every nesting of wrappers, every set of namespace maps, every prefix", "why_tests_cant": "nesting depth and the combinations of declarations are unbounded; tests use one declaration per prefix, for which the order does not matter", "anchors": ["pydantic_xml/serializers/serializer.py:Serializer.Context.parent_nsmap", "pydantic_xml/utils.py:merge_nsmaps", "pydantic_xml/serializers/factories/wrapper.py"]}
{"id": "C47", "title": "Undeclared prefixes are rejected", "statement": "A field, sub-model or wrapper that uses a namespace prefix which no namespace map in its scope declares is rejected when the class is defined.", "quantifier": "every prefix, every set of namespace maps, every kind of field", "why_tests_cant": "all combinations of scopes, including the empty one", "anchors": ["pydantic_xml/utils.py:QName.from_alias", "pydantic_xml/serializers/factories/primitive.py", "pydantic_xml/serializers/factories/model.py"]}
{"id": "C48", "title": "Optional, defaults and validators do not change the mapping", "statement": "Wrapping the type of a field in Optional, giving it a default or attaching validators changes nothing about the XML representation of the field: the definition is accepted or rejected as before, with the same names and structure.", "quantifier": "every type expression, every number of wrappers around it", "why_tests_cant": "type expressions and the wrappers around them nest without bound", "anchors": ["pydantic_xml/serializers/serializer.py:Serializer.preprocess_schema"]}
{"id": "C49", "title": "Class definitions terminate", "statement": "Defining a class ends, with a class or an error, also if types refer to themselves.", "quantifier": "every set of possibly recursive type definitions", "why_tests_cant": "all recursive type graphs", "anchors": ["pydantic_xml/serializers/serializer.py:Serializer.parse_core_schema", "pydantic_xml/serializers/serializer.py:Serializer.preprocess_schema"]}
{"id": "C50", "title": "Primitive values are written in XML Schema form", "statement": "The text of a primitive field, attribute or element is the XML Schema form of its encoded value: Booleans as true and false, integers in decimal notation without separators, strings verbatim. Different values of one type have different texts.", "quantifier": "every Boolean, integer and string value of a text, attribute or element field, every model and writing options", "why_tests_cant": "infinitely many integers and strings", "anchors": ["pydantic_xml/serializers/serializer.py:encode_primitive", "pydantic_xml/serializers/factories/primitive.py:TextSerializer.serialize", "pydantic_xml/serializers/factories/primitive.py:AttributeSerializer.serialize", "pydantic_xml/serializers/factories/primitive.py:ElementSerializer.serialize"]}
{"id": "C51", "title": "No interference through shared objects", "statement": "Reading and writing behave as if elements were immutable values: the result of reading a tree or writing an instance depends only on its content, not on which Python objects it is made of or shares with others, and the attempts of a union to read an alternative work on copies that share nothing with the element, so a failed attempt cannot consume anything the next one needs.", "quantifier": "every native tree and every instance in every state of memory, including ones that share objects; every class; every serializer on every element", "why_tests_cant": "a mutation seen through an alias shows up only for particular combinations of fields, unions, search modes and documents", "anchors": ["pydantic_xml/element/element.py:XmlElement.create_snapshot", "pydantic_xml/element/element.py:XmlElement.apply_snapshot", "pydantic_xml/element/element.py:XmlElement.__init__", "pydantic_xml/element/element.py:XmlElement.pop_element", "pydantic_xml/serializers/factories/union.py:ModelSerializer.deserialize", "pydantic_xml/element/element.py:XmlElement.append_element", "pydantic_xml/element/element.py:XmlElement.find_element_or_create"]}
{"id": "C52", "title": "Namespace declarations of the output", "statement": "With lxml, the root of the written document declares exactly the namespace map of its class, and every element below it declares exactly the map of the field, model or wrapper that writes it; elements that come from raw fields lose their declarations. With the standard library's backend no element carries declarations, whatever the classes say.", "quantifier": "every class, every instance, all writing options, both backends", "why_tests_cant": "every combination of fields, wrappers and nesting writes elements by its own path through the code", "anchors": ["pydantic_xml/element/native/lxml.py:XmlElement.to_native", "pydantic_xml/element/native/std.py:XmlElement.to_native", "pydantic_xml/element/element.py:XmlElement.find_element_or_create", "pydantic_xml/model.py:BaseXmlModel.to_xml_tree"]}
{"id": "C53", "title": "A path may be given in one piece or in several", "statement": "wrapped('a/b', entity) and wrapped('a', wrapped('b', entity)) mean the same: the class is accepted or rejected alike, the same documents are read to the same values and errors, and the same XML is written. (Only the source line of an error may differ: if a exists and b does not, the nested form knows the line of a.)", "quantifier": "every path, every wrapped entity and type, every class around it without namespace maps on the wrappers, every document and every value", "why_tests_cant": "paths, types and documents are unbounded; the claim compares two classes on all of them", "anchors": ["pydantic_xml/fields.py:wrapped", "pydantic_xml/serializers/factories/wrapper.py:ElementPathSerializer.from_core_schema", "pydantic_xml/serializers/factories/wrapper.py:ElementPathSerializer.deserialize", "pydantic_xml/serializers/factories/wrapper.py:ElementPathSerializer.serialize", "pydantic_xml/element/element.py:XmlElement.find_sub_element"]}
{"id": "C54", "title": "The global prefix registry", "statement": "Declaring classes and fields with namespace maps, in any number and order, never fails because of a prefix and keeps the XML library's global table of prefixes one to one, without the empty and the reserved prefixes; the prefixes of the last declared map are the ones in force; and in every document written afterwards with the standard library's backend each prefix resolves to the namespace of the name it stands for, even if two classes use one prefix for different namespaces.", "quantifier": "every history of declarations, every document", "why_tests_cant": "the table is global state shaped by everything declared before in the process", "anchors": ["pydantic_xml/utils.py:register_nsmap", "pydantic_xml/fields.py:XmlEntityInfo.__post_init__", "pydantic_xml/fields.py:ComputedXmlEntityInfo.__post_init__", "pydantic_xml/model.py:BaseXmlModel.__build_serializer__"]}
{"id": "C55", "title": "Custom field validators and serializers", "statement": "A method decorated with xml_field_validator or xml_field_serializer, declared in the class or inherited and not overridden, handles its fields and takes precedence over XmlFieldValidator and XmlFieldSerializer annotations, of which the last counts. Which function handles a field does not depend on anything but the class. That function alone reads (writes) the field: the field's type and annotations make no difference.", "quantifier": "every class hierarchy, every order in which Python enumerates attributes, every document, instance and writing options", "why_tests_cant": "the order of enumeration depends on the hash seed of the process", "anchors": ["pydantic_xml/model.py:XmlModelMeta._collect_xml_field_serializers_validators", "pydantic_xml/fields.py:xml_field_validator", "pydantic_xml/fields.py:xml_field_serializer", "pydantic_xml/serializers/factories/model.py:ModelSerializer.deserialize", "pydantic_xml/serializers/factories/model.py:ModelSerializer.serialize"]}
{"id": "C56", "title": "Definition order and model_rebuild", "statement": "A program may define its model classes in any order, with forward references completed later by model_rebuild. Until its forward references are resolved a class can neither be read nor written: from_xml and to_xml raise AssertionError, for every document and every value. From the first accepted class statement or model_rebuild with all references resolved on, the class is usable, and no later definition or model_rebuild changes how it is read or written. Two programs that end up with the same usable classes read and write every document and every value alike, whatever the order of their definitions.", "quantifier": "all sequences of class statements and model_rebuild calls, all class definitions, all documents and values", "why_tests_cant": "A test runs one order of definitions; the number of interleavings of class statements and rebuilds is unbounded, and the effect of an order shows only in documents the test does not contain.", "anchors": ["pydantic_xml/model.py: XmlModelMeta.__new__, BaseXmlModel.__build_serializer__, BaseXmlModel.model_rebuild, from_xml_tree, to_xml_tree", "pydantic_xml/serializers/factories/tagged_union.py: ModelSerializer.from_core_schema"]}
{"id": "C57", "title": "Recursive classes", "statement": "Classes may refer to themselves and to each other through all supported types; such a class is usable as soon as its forward references are resolved.", "quantifier": "all class definitions, all sequences of class statements and model_rebuild calls", "why_tests_cant": "It must hold for every shape of recursion and every order of definitions.", "anchors": ["pydantic_xml/model.py: BaseXmlModel.__build_serializer__, model_rebuild", "pydantic_xml/serializers/factories/tagged_union.py: ModelSerializer.from_core_schema", "pydantic_xml/serializers/factories/model.py: ModelProxySerializer"]}
{"id": "C58", "title": "Parameters of classes with several bases", "statement": "Each class parameter (tag, ns, ns_attrs, skip_empty, search_mode) of a class is the one of the first class in its mro that declares it, and every namespace prefix has the uri given by the first class in its mro that declares it.", "quantifier": "all class hierarchies", "why_tests_cant": "It must hold for hierarchies of any depth and shape.", "anchors": ["pydantic_xml/model.py: BaseXmlModel.__init_subclass__"]}
{"id": "C59", "title": "Foreign attributes and attribute order", "statement": "Attributes that no field of the classes looks for (other than xsi:nil), anywhere in a document, and the order in which attributes are written, have no influence on what is read, unless a field takes all attributes as a dictionary, an element is kept raw, or extra='forbid' is set.", "quantifier": "all classes without dictionary and raw fields and without extra='forbid', all pairs of documents that agree except for such attributes", "why_tests_cant": "The foreign attributes may occur at any depth, in any number, in elements reached through any combination of fields.", "anchors": ["pydantic_xml/element/element.py: XmlElement.pop_attrib", "pydantic_xml/serializers/factories/primitive.py: AttributeSerializer.deserialize"]}
{"id": "C60", "title": "Prefixes do not matter", "statement": "Which prefixes a document uses for its namespaces, and on which elements they are declared, has no influence on what is read.", "quantifier": "all classes, all pairs of documents with the same expanded names", "why_tests_cant": "Declarations may be anywhere and of any number.", "anchors": ["pydantic_xml/element/native/lxml.py: XmlElement.from_native", "pydantic_xml/element/native/std.py: XmlElement.from_native"]}
{"id": "C61", "title": "The validation context reaches every nested model", "statement": "Every pydantic validation run during from_xml or from_xml_tree, however deeply the model is nested (in sub-models, lists, tuples, wrapped fields, unions), is given the context that was passed to from_xml, and never another one; empty_as_string likewise applies throughout. Reading under a context is the same as reading with validators into which the context has been built.", "quantifier": "all classes, documents, contexts and validators, including validators with side effects", "why_tests_cant": "Each kind of serializer has to pass the arguments on, in every nesting of the kinds and at any depth.", "anchors": ["pydantic_xml/model.py: BaseXmlModel.from_xml, BaseXmlModel.from_xml_tree", "pydantic_xml/serializers/factories/model.py: ModelSerializer.deserialize, ModelProxySerializer.deserialize", "pydantic_xml/serializers/factories: deserialize"]}
{"id": "C62", "title": "Concurrent calls do not interfere", "statement": "Calls of from_xml_tree and to_xml_tree (and so from_xml and to_xml) that run in several threads do not influence each other, even if they read the same tree, write the same instance, or use the same classes. Whatever the order in which the steps of the threads interleave: a call that has returned has returned what it returns if it is the only one - the same instance, the same tree, or the same exception; at every moment the trees and instances that were there before are unchanged; each call returns after as many steps of its own as it makes alone; the trees returned by different calls have no objects in common.", "quantifier": "all stores of objects with arbitrary sharing, all finite lists of calls on trees and instances in the store (any classes, flags, backends), all schedules, all moments of the execution", "why_tests_cant": "The number of interleavings is exponential in the number of steps, and a data race shows only in rare schedules; tests run one or a few schedules on a few inputs.", "anchors": ["pydantic_xml/element/element.py: XmlElement (State, create_snapshot, apply_snapshot, pop_*, find_*)", "pydantic_xml/element/native/lxml.py and std.py: from_native, to_native", "pydantic_xml/model.py: BaseXmlModel.from_xml_tree, BaseXmlModel.to_xml_tree", "pydantic_xml/serializers/factories: serialize, deserialize of every serializer"]}
{"id": "C63", "title": "Writing ends, and succeeds exactly for instances of the declared shape", "statement": "to_xml_tree ends for every instance, also of recursive classes and also when fields were assigned without validation: it returns a document or raises. It returns a document exactly if the instance has the shape its class prescribes: every field that is written (not excluded and, with exclude_unset, set) has a value and an encoding; tuples have exactly the declared number of items (or are empty with skip_empty); lists are lists, dictionaries dictionaries, raw fields elements; the tag of a discriminated union is a known one or absent; and so on for every sub-model, union member, list and tuple item. So a tuple of a wrong length anywhere in an instance is always an error and never a silently shortened or padded document.", "quantifier": "all classes (recursive ones too), all values (except foreign values that Python can treat like the declared kind: strings and mappings in collection fields, objects with attributes of the right names in model fields), all encodings, all combinations of skip_empty, exclude_none and exclude_unset, all custom serializers that succeed (that end, for termination); texts and names that the XML library takes", "why_tests_cant": "instances are unbounded in depth and kinds, and assignments without validation make every value possible in every field; a test can only try a few wrong values in a few places", "anchors": ["pydantic_xml/model.py:BaseXmlModel.to_xml_tree", "pydantic_xml/serializers/factories/heterogeneous.py:ElementSerializer.serialize", "pydantic_xml/serializers/factories/homogeneous.py:ElementSerializer.serialize", "pydantic_xml/serializers/factories/model.py:ModelSerializer.serialize", "pydantic_xml/serializers/factories/tagged_union.py:ModelSerializer.serialize", "pydantic_xml/serializers/factories/mapping.py:ElementSerializer.serialize"]}
{"id": "C64", "title": "Each element is validated at most once", "statement": "If no field of the classes involved is a union of model classes without a discriminator, from_xml and from_xml_tree call pydantic's validation (model_validate, with all user validators it runs) at most once for each element of the document, however deeply sub-models, lists, tuples, wrappers and discriminated unions are nested. (With unions of model classes this fails: a valid document of d+1 nested elements can take 2^(d+1)-1 validations.)", "quantifier": "all class definitions without plain unions of models, documents of any size and depth, validators (with any side effects), contexts, values of empty_as_string", "why_tests_cant": "Tests count calls for one document of one class; the bound must hold for all nestings, and the exponential growth only shows on deep documents.", "anchors": ["pydantic_xml/serializers/factories/model.py:ModelProxySerializer.deserialize", "pydantic_xml/serializers/factories/union.py:ModelSerializer.deserialize", "pydantic_xml/serializers/factories/tagged_union.py:ModelSerializer.deserialize", "pydantic_xml/element/element.py:XmlElement.pop_element"]}
{"id": "C65", "title": "Field constructors describe exactly what they are given", "statement": "element(...), attr(...), wrapped(...), computed_element(...) and computed_attr(...) describe exactly the element, attribute or wrapper named by their arguments: tag, namespace, namespace map and nillability are those given, nested wrapped calls describe the nested elements from the outermost inwards, an alias is used for validation and for serialization unless a separate one is given, and every other argument reaches pydantic as it was passed; with wrapped, an argument set in the wrapped entity wins over the one of the wrapper.", "quantifier": "for all arguments of the constructors, all further keyword arguments, and all depths of nested wrapped calls", "why_tests_cant": "the keyword arguments are an open set and wrapped calls nest without bound; tests use a few combinations.", "anchors": ["pydantic_xml/fields.py: prepare_field_kwargs, attr, element, wrapped, computed_entity, computed_attr, computed_element", "pydantic_xml/compat.py: merge_field_infos"]}
{"id": "C66", "title": "create_model makes the class that the class statement makes", "statement": "create_model(name, __base__=..., __tag__=..., __ns__=..., __nsmap__=..., __ns_attrs__=..., __skip_empty__=..., __search_mode__=..., __config__=..., __cls_kwargs__=...) makes a class with the same parameters, inherited ones included, the same further class keyword arguments and the same name as the class statement with these bases and keywords.", "quantifier": "for all names, bases, class parameters given or left out, configurations and further class keyword arguments", "why_tests_cant": "there are 64 combinations of given parameters, times unboundedly many base hierarchies and keyword arguments.", "anchors": ["pydantic_xml/model.py: create_model, BaseXmlModel.__init_subclass__"]}
{"id": "C67", "title": "The version of pydantic is recognised", "statement": "For every release major.minor.micro of pydantic, with or without a pre- or post-release suffix, the library recognises the three numbers, so that it uses the field merging function that this version has.", "quantifier": "for all version numbers and suffixes", "why_tests_cant": "versions are unbounded; a test environment has one of them.", "anchors": ["pydantic_xml/compat.py: VERSION_RE, parse_version, merge_field_infos"]}
{"id": "C68", "title": "What is written as text and parsed again is read back", "statement": "For a class without custom XML validators, `from_xml(to_xml(v))` is the instance that pydantic builds from the data `v` was written from (the same as in C01), whenever the XML library parses the text it has printed to a tree with the same tags, attributes, texts and children. It does not matter what the parser does to prefix declarations, line numbers and (unless the class has raw fields) the difference between an empty text and none: documents that say the same are read alike, by either backend, with the same instance, the same errors up to line numbers or the same exception. With raw fields the parsed tree has to have the same texts, and an empty text of a raw element is lost.", "quantifier": "all classes without custom validators, all instances C01 covers, all serialization flags, both backends, all printers and parsers that meet the stated law on the tree written", "why_tests_cant": "tests use a few literal documents; the text depends on arbitrary strings (special characters, empty strings, whitespace) in arbitrary places of arbitrarily nested classes", "anchors": ["pydantic_xml/model.py: BaseXmlModel.from_xml, to_xml, from_xml_tree, to_xml_tree", "pydantic_xml/element/native/lxml.py: XmlElement.from_native, to_native", "pydantic_xml/element/native/std.py: XmlElement.from_native, to_native"]}
{"id": "C69", "title": "Indentation between elements has no influence", "statement": "White space between elements does not change what is read: documents that differ only in blank texts of elements whose text no field takes, and in blank text after elements, are read alike by either backend (same instance, same errors up to line numbers, or same exception), also by classes that forbid extra data. If no class forbids extra data, such texts need not even be blank. So what is written with indentation (`to_xml(..., pretty_print=True)`) is read back like what is written without. The classes must have no raw fields and no custom XML validators, and a class that takes the text of an element with children does get the indentation.", "quantifier": "all classes without raw fields and custom validators, all documents, both backends, all printers that add white space only where no field takes the text", "why_tests_cant": "tests indent a few documents; the claim is about every way to spread white space over every document, with every nesting of classes, wrappers, lists and unions", "anchors": ["pydantic_xml/model.py: BaseXmlModel.to_xml, from_xml", "pydantic_xml/element/element.py: XmlElement.pop_text, get_unbound, find_element", "pydantic_xml/serializers/factories/primitive.py: TextSerializer, ElementSerializer", "pydantic_xml/serializers/factories/wrapper.py: ElementPathSerializer"]}
{"id": "C70", "title": "Programs whose classes are all complete work", "statement": "Classes may be stated in any order and completed by model_rebuild later. All classes of a program can be completed exactly if each has only fields with an XML representation and the members of discriminated unions do not choose in a circle. Once all classes are complete, in whatever order that happened, instances written are read back as handed through by the validators, nothing of the written document is left unread, and reading any document ends with an instance or a validation error, or a ParsingError exactly if the root tag is another one.", "quantifier": "all finite sets of class definitions, all orders of class statements and model_rebuild calls, all instances, all documents", "why_tests_cant": "tests state a few classes in one order; the claim ranges over all sets of mutually referring classes and all orders of definition", "anchors": ["pydantic_xml/model.py: XmlModelMeta, BaseXmlModel.__build_serializer__, model_rebuild, from_xml_tree, to_xml_tree", "pydantic_xml/serializers/serializer.py: Serializer.parse_core_schema", "pydantic_xml/serializers/factories/tagged_union.py: ModelSerializer.from_core_schema", "pydantic_xml/serializers/factories/model.py: ModelProxySerializer"]}
{"id": "C71", "title": "Environment variables", "statement": "The package can be imported exactly if REGISTER_NS_PREFIXES and FORCE_STD_XML, where they are set, spell one of y, yes, t, true, on, 1, n, no, f, false, off, 0 in small or capital letters; otherwise the import raises ValueError. Prefixes are registered unless REGISTER_NS_PREFIXES says no; the standard library is used exactly if FORCE_STD_XML says yes or lxml is not installed.", "quantifier": "all values of the two environment variables, with and without lxml", "why_tests_cant": "the variables can hold any string, and they are read once per process at import", "anchors": ["pydantic_xml/config.py: strtobool, REGISTER_NS_PREFIXES, FORCE_STD_XML", "pydantic_xml/element/native/__init__.py"]}
{"id": "C72", "title": "The mypy plugin describes fields as they are at run time", "statement": "With the mypy plugin enabled, a field made by attr, element or wrapped is regarded as optional exactly if it has a default at run time, its alias is known exactly if given as a string literal, and it is strict or frozen exactly if these are given as literals.", "quantifier": "all calls of the field constructors, with all arguments", "why_tests_cant": "the plugin works on syntax, the constructors on values: that they agree is a claim about all argument lists", "anchors": ["pydantic_xml/mypy.py: PydanticXmlModelTransformer.get_has_default, get_alias_info, get_strict, is_field_frozen, ENTITIES_FULLNAME", "pydantic_xml/fields.py: attr, element, wrapped"]}
{"id": "C73", "title": "Generic classes wait for their parameters", "statement": "A generic class with open type parameters can always be stated and rebuilt, without an effect on other classes; until it is parametrised, reading and writing with it raise AssertionError.", "quantifier": "all generic classes, all types of fields, all programs", "why_tests_cant": "it must hold for every shape of generic class and every order of class statements and rebuilds", "anchors": ["pydantic_xml/model.py: BaseXmlModel.__build_serializer__, RootXmlModel"]}
{"id": "C74", "title": "Typed instances come back from XML", "statement": "Let pydantic follow the declared types: validating a class gives every field the value made out of its data (strings for primitives, item by item for collections, sub-model instances as they are, by alias) or its default if there is no data; primitive values are read back from their string form. Then for every instance whose field values belong to the declared types, to_xml_tree succeeds and from_xml_tree of the result returns an equal instance, provided that every field that is written as nothing (None, an empty list, an empty string without empty_as_string, an excluded or unset field, with skip_empty also an empty dictionary or sub-element) holds its default and that, where skip_empty removes empty elements, the items of lists and tuples and the sub-models hold something that is written. Fields outside the XML (NoXml) hold their defaults. Computed fields are written but not read; they are functions of the other fields, and come back as these do if no class forbids extra data. No condition mentions the data that passes between the reader and pydantic.", "quantifier": "all sets of classes whose fields do not compete for places and have no custom hooks, all types (primitives, unions, discriminated unions, dictionaries, lists, tuples, raw elements, sub-models, recursive classes, root models, wrapped fields), all their instances of any depth, all flags of the call and skip_empty of classes, both settings of empty_as_string", "why_tests_cant": "Round-trip tests compare one instance of one class; the claim is about every class and every instance of its type, including recursive ones of unbounded depth.", "anchors": ["pydantic_xml/model.py: XmlModel.to_xml_tree, from_xml_tree", "pydantic_xml/serializers/factories: serialize, deserialize", "pydantic_xml/serializers/serializer.py: encode_primitive"]}
{"id": "C75", "title": "Declarations determine the XML representation", "statement": "When a class is complete, after whatever class statements and rebuilds, each of its fields and computed fields is represented in XML as its declaration prescribes and in no other way: primitive types as the text, an attribute or an element according to the annotation; dictionaries as the attributes of the element or of one of their own; raw elements and sub-models as elements; lists, sets and tuples as their items one after the other; unions of primitive types as primitive values; unions of models as one of the model elements, discriminated unions by the attribute that is the discriminator in all of the member classes; wrapped fields inside elements for the parts of the path. Names, namespaces, search mode, nillability and order of the fields are the declared ones. Optional, defaults, validators, references and forward references around a type make no difference.", "quantifier": "all programs of class statements and rebuilds, all classes (recursive, nested, root models), all types of fields and annotations accepted by the library", "why_tests_cant": "The representation depends on the type, the annotation, the class around it and the order of statements together; tests try a few combinations, the claim covers all nestings.", "anchors": ["pydantic_xml/serializers/serializer.py: Serializer.parse_core_schema", "pydantic_xml/serializers/factories/*.py: from_core_schema", "pydantic_xml/model.py: BaseXmlModel.__build_serializer__"]}
{"id": "C76", "title": "The output consists of what the classes declare", "statement": "Every element, attribute and text in the document that to_xml_tree returns stands where a field declares it: attributes and text only on elements whose class, wrapper or field declares them, child elements only in the elements of classes and wrappers that declare them, xsi:nil only where a field is nillable; there are no comments, no processing instructions and no text after elements. The values of the instance only decide which of the declared parts appear and with which texts (and, for dictionary fields, with which attribute names).", "quantifier": "all sets of classes without custom serializers (recursive ones, wrapped fields, unions, collections, dictionaries), given as serializers or as declarations in any program; all values, all flags, both backends; only the content of raw elements is arbitrary", "why_tests_cant": "A test inspects the document of one instance; that no instance at all, of whatever depth and with whatever flags, brings an undeclared name into the document is a statement about all of them.", "anchors": ["pydantic_xml/model.py: XmlModel.to_xml_tree", "pydantic_xml/serializers/factories: serialize of all serializers", "pydantic_xml/element/element.py: XmlElement.find_element_or_create, append_element, set_attribute, set_attributes, set_text"]}
{"id": "C77", "title": "hide_input_in_errors decides what the text of an error shows, and nothing else", "statement": "A ValidationError raised by from_xml_tree shows the inputs in its text exactly if the class that is read does not have hide_input_in_errors=True; the settings of the classes of sub-models, collections and unions inside it do not matter. The setting changes nothing else: the same class statements and rebuilds are accepted and rejected with the same exceptions, the same documents are accepted and give the same instances, rejected ones give the same lines of the error with the same types, messages, locations, source lines and inputs (errors() always has them), and the same documents are written.", "quantifier": "all sets of classes and all settings of each of them, all programs of class statements and rebuilds, all documents, all instances, all flags, both backends; pydantic's validation of the classes is assumed to differ at most in hide_input of its errors", "why_tests_cant": "Errors are gathered by fields, collections, unions and sub-models at any depth and re-raised with the setting of each; a test checks one nesting, the claim is about all of them, and that nothing else changes is a statement about pairs of runs.", "anchors": ["pydantic_xml/utils.py: set_validation_error_sourceline, into_validation_error", "pydantic_xml/serializers/factories/model.py: BaseModelSerializer._check_extra, ModelSerializer.from_core_schema, ModelSerializer.deserialize, RootModelSerializer.deserialize", "pydantic_xml/serializers/factories/homogeneous.py: deserialize", "pydantic_xml/serializers/factories/heterogeneous.py: deserialize", "pydantic_xml/serializers/factories/union.py: ModelSerializer.deserialize"]}
{"id": "C78", "title": "Different instances are written as different documents", "statement": "No information is lost by writing: if two instances of a class are written to the same tree, or to the same text, they are equal - even if they were written with different flags (skip_empty, exclude_none, exclude_unset).", "quantifier": "all programs of class statements that complete their classes, all pairs of instances that come back (values of the declared types that are not read as nothing, or are the default), all flags for either", "why_tests_cant": "Injectivity is a statement about all pairs of instances; a test compares two.", "anchors": ["pydantic_xml/model.py: BaseXmlModel.to_xml_tree, to_xml, from_xml_tree", "pydantic_xml/serializers/factories: serialize and deserialize of all serializers"]}
{"id": "C79", "title": "search_mode is about reading only", "statement": "The search_mode of the classes of a program (strict, ordered, unordered, in any combination) has no influence on anything but reading: every class definition and model_rebuild is accepted or rejected with the same exception, and to_xml_tree yields the same tree, or the same exception, for every instance and all flags. Hence a document written by a class with one search mode is read back by the same class with another one whenever that class reads back its own documents. Excepted are classes with raw element fields and custom field serializers that append elements with the position in front of their children: a wrapped field can be written into a raw element written before it, and then the search mode decides where.", "quantifier": "all programs, all assignments of search modes to classes, all instances, all flags, all depths", "why_tests_cant": "A test compares a few instances under two modes; the claim needs that at every point of every write the lookup of a wrapper finds the last child or nothing, whatever has been written before.", "anchors": ["pydantic_xml/serializers/factories/wrapper.py: ElementPathSerializer.serialize", "pydantic_xml/element/element.py: XmlElement.find_element_or_create", "pydantic_xml/element/element.py: XmlElement.append_element", "pydantic_xml/serializers/serializer.py: Serializer.Context.search_mode", "pydantic_xml/model.py: BaseXmlModel.__init_subclass__"]}
{"id": "C80", "title": "What was read can be written and read again", "statement": "Whatever document from_xml/from_xml_tree accepts, the instance it returns can be written with to_xml/to_xml_tree, and reading what was written gives an instance equal to the first. Fields outside the XML (NoXml) are allowed, and so are computed fields, if their values can be written and no class forbids extra data. This holds for classes made of text, attributes, elements, wrapped elements, lists, tuples, sub-models, raw elements, dictionaries (without ns_attrs), unions of models and tagged unions, if the alternatives of unions have different tags, a discriminator can only be the tag, items of tuples are not optional, no field is excluded, every default comes back itself (a default of None of an attribute needs exclude_none), empty elements are written (no skip_empty), with exclude_unset nothing is read where nothing is written, and no dictionary has the key xsi:nil. It does not hold for unions of classes with the same tag, nor for optional attributes written without exclude_none: in both cases a document is exhibited.", "quantifier": "all classes as described, of all sizes and recursive ones, all documents (of any shape, with any unknown content) that are accepted, reading of empty elements as empty strings on or off, exclude_none and exclude_unset on or off, all pydantic validations that follow the types, all XML libraries that read back what they print", "why_tests_cant": "Tests write instances they constructed; here the instance comes from an arbitrary accepted document, of which there are infinitely many with unknown elements, missing fields and texts in unusual spellings.", "anchors": ["pydantic_xml/model.py: from_xml_tree, to_xml_tree, from_xml, to_xml", "pydantic_xml/serializers/factories/*.py: serialize, deserialize"]}
{"id": "C81", "title": "A newer version of the declarations reads old documents as before", "statement": "Suppose a program is extended: classes get new fields at any place (new attributes, elements with new tags holding text, dictionaries, raw elements or sub-models, unions and tagged unions of sub-models with new tags, anything wrapped in a new element, lists and tuples of such, computed fields), unions and tagged unions get new alternatives with new tags, new classes are added, and pydantic accepts the same data as before, filling in the new fields. Then every document in which none of the new tags and attribute names occurs is read by the newer version exactly as by the older one: the same value with the new fields filled in at every depth, the same validation errors (up to line numbers), the same other exceptions, and the same data left over.", "quantifier": "all programs and all extensions of them in this sense (any number of classes, fields and alternatives, any nesting, all search modes, recursive classes, custom validators that only read), all documents without the new names, both settings of empty_as_string", "why_tests_cant": "Tests compare particular versions of particular classes on a few documents; compatibility must hold for every extension and every old document, including failing ones and any position of the new field among the old ones.", "anchors": ["pydantic_xml/serializers/factories/model.py:ModelSerializer.deserialize", "pydantic_xml/serializers/factories/union.py:ModelSerializer.deserialize", "pydantic_xml/serializers/factories/tagged_union.py:ModelSerializer.deserialize", "pydantic_xml/serializers/factories/wrapper.py:ElementPathSerializer.deserialize", "pydantic_xml/element/element.py:XmlElement.find_sub_element"]}
{"id": "C82", "title": "Explicitly set fields matter for exclude_unset only", "statement": "Without exclude_unset, to_xml_tree and to_xml give the same document, or the same exception, for two instances that differ only in which of their fields (or of the fields of instances inside of them) were set explicitly, provided that custom field serializers and pydantic's encoding do not look at that. With exclude_unset they may be written differently. Together with C80: what is written for an instance that was read is a canonical form, i.e. reading it and writing it again gives the same document.", "quantifier": "all classes, all instances of any nesting, all values of skip_empty and exclude_none, and for the canonical form all documents that can be read", "why_tests_cant": "The fields set explicitly are tracked in every instance at every depth, and every serializer kind could consult them; a test compares two instances of one class.", "anchors": ["pydantic_xml/serializers/factories/model.py:ModelSerializer.serialize", "pydantic_xml/serializers/factories/model.py:RootModelSerializer.serialize", "pydantic_xml/model.py:BaseXmlModel.to_xml_tree"]}
{"id": "C83", "title": "Flags only leave things out", "statement": "What to_xml and to_xml_tree write with skip_empty, exclude_none or exclude_unset is what they write without them, with attributes, texts and elements left out: nothing is added, changed, moved or merged. More flags never give more output.", "quantifier": "all classes, all instances of any nesting, all pairs of flag settings of which one includes the other", "why_tests_cant": "Every serializer kind treats the flags on its own, and what is left out at one place decides what happens at later places; tests compare single outputs.", "anchors": ["pydantic_xml/model.py:BaseXmlModel.to_xml_tree", "pydantic_xml/serializers/factories/primitive.py:ElementSerializer.serialize", "pydantic_xml/serializers/factories/wrapper.py:ElementPathSerializer.serialize", "pydantic_xml/serializers/factories/mapping.py:AttributesSerializer.serialize"]}
{"id": "C84", "title": "Reading is local: the contents of one child do not influence other fields", "statement": "If two documents differ only in line numbers and in what is inside the children of the root with one tag (their attributes, texts and descendants), then from_xml_tree reads every field that does not look for this tag in the same way: it hands pydantic the same value for it, raises the same errors about it up to their line numbers, or fails with the same exception. An error about such a field is neither hidden nor altered by the contents of the other child. The condition: the fields that do look for the tag are read from one child each (a primitive, mapping, raw element or sub-model, or anything in a wrapper of this tag). It is needed: an empty item ends a list of primitives and leaves the items behind it in the way of the next field.", "quantifier": "every set of model classes without field validators, every search mode, every pair of documents that agree outside the children with the tag, every tag, every field that does not look for it, both back ends and both settings of empty-as-string", "why_tests_cant": "The fields share one element whose cursor, attributes and text are consumed as fields are read; that nothing consumed for one field depends on the inside of its element must hold for every document and every combination of fields.", "anchors": ["pydantic_xml/serializers/factories/model.py:ModelSerializer.deserialize", "pydantic_xml/element/element.py:XmlElement.pop_element", "pydantic_xml/element/element.py:XmlElement.find_sub_element", "pydantic_xml/serializers/factories/wrapper.py:ElementSerializer.deserialize", "pydantic_xml/serializers/factories/primitive.py:ElementSerializer.deserialize"]}
{"id": "C85", "title": "A newer version of the declarations writes old data as before", "statement": "Let a newer version of a program declare additional fields, at any place, in any of its classes. If the older version writes a document for an instance with to_xml_tree, then the newer version, called with the same flags, writes the same document for the instance with the additional fields, provided that these fields, in every instance at any depth, are unset (with exclude_unset) or None (with exclude_none). The additional fields may be texts, attributes, elements, attribute dictionaries, raw elements, sub-models, unions, wrapped fields, lists and tuples. A dictionary in an element of its own is excepted: it is written for None as well.", "quantifier": "every pair of versions of a set of model classes without custom serializers, every instance (nested models, lists, tuples, unions and tagged unions included), every combination of skip_empty, exclude_none and exclude_unset, both back ends", "why_tests_cant": "Whether an unused field leaves traces depends on its kind, its place between the others, the flags and the class settings at every depth of the instance.", "anchors": ["pydantic_xml/model.py:BaseXmlModel.to_xml_tree", "pydantic_xml/serializers/factories/model.py:ModelSerializer.serialize", "pydantic_xml/serializers/factories/primitive.py:ElementSerializer.serialize", "pydantic_xml/serializers/factories/mapping.py:ElementSerializer.serialize", "pydantic_xml/serializers/factories/wrapper.py:ElementSerializer.serialize"]}
{"id": "C86", "title": "exclude_none and exclude_unset lose nothing", "statement": "Let an instance consist of values of the declared types, each of which is either not read as nothing or is the default of its field; such an instance, written with everything in it, is read back as an equal instance. Then it is also read back as an equal instance when it is written with exclude_none, with exclude_unset, or with both. For exclude_unset, fields that were not set must hold their defaults, and discriminators of unions must be set.", "quantifier": "all classes with declared types, all instances of any width and depth that consist of such values (not all instances that happen to come back), both flags in all combinations, both backends", "why_tests_cant": "a test writes a few instances of a few classes; the claim is about every instance and every nesting, and the ways an omitted value can shift what other fields read depend on the classes and the data", "anchors": ["pydantic_xml/serializers/factories/model.py:ModelSerializer.serialize", "pydantic_xml/serializers/factories/primitive.py:ElementSerializer.serialize", "pydantic_xml/serializers/factories/primitive.py:AttributeSerializer.serialize", "pydantic_xml/serializers/factories/tagged_union.py:ModelSerializer.serialize", "pydantic_xml/model.py:BaseXmlModel.to_xml_tree"]}
{"id": "C87", "title": "In unordered mode the order of the fields does not matter", "statement": "Let two classes be declared with the same fields in different orders and be validated alike. If every field looks for its elements in unordered mode, no two fields take the text, the same attribute, or children with the same tag, the classes ignore unknown data, and a document has at most one child for each field, then from_xml_tree gives the same instance for both classes (up to the order of its fields), or the same errors (up to their order and their line numbers), or raises another exception for both. Whatever the fields contain (sub-models with any search mode, lists, tuples, wrapped fields, discriminated unions, raw elements, dictionaries), wherever the children are, and whatever else is in the document.", "quantifier": "every pair of classes that differ in the order of their fields, every number of fields, every document of any size with at most one child per field, every other class that they refer to, both back ends", "why_tests_cant": "The search in unordered mode rearranges the list of children and moves a cursor, so that every field leaves another state for the following ones; whether this is ever visible is a question about all orders of fields and all orders of children. (It is visible if a tag is repeated: see C87_single_needed.)", "anchors": ["pydantic_xml/element/element.py:unordered_search", "pydantic_xml/element/element.py:XmlElement.find_sub_element", "pydantic_xml/serializers/factories/model.py:ModelSerializer.deserialize", "pydantic_xml/model.py:BaseXmlModel.from_xml_tree"]}
{"id": "C88", "title": "In unordered mode a class reads nothing but what its fields take", "statement": "Let the fields of a class look for their elements in unordered mode, and let two documents agree on what these fields take from the root element: the text (if a field takes it), the attributes that fields take, and the children with the tags that fields go to, of which there is at most one for each tag. Then from_xml_tree gives the same result for both, up to the line numbers in errors. Hence the order of the children, comments, any number of unknown elements anywhere between them, unknown attributes and a text that no field takes play no part. Applies to classes that ignore unknown data; the sub-models may use any mode and may forbid it.", "quantifier": "every class with fields (or a root value) in unordered mode, every pair of documents of any size that agree on what the fields take, every set of other classes, both back ends", "why_tests_cant": "the search swaps children and moves a cursor, so that every unknown element changes the state that later fields start from; the claim is about all insertions, removals and permutations together", "anchors": ["pydantic_xml/element/element.py:unordered_search", "pydantic_xml/serializers/factories/model.py:ModelSerializer.deserialize", "pydantic_xml/model.py:BaseXmlModel.from_xml_tree"]}
{"id": "C89", "title": "Every value is read from the place that its field is declared at", "statement": "If from_xml_tree succeeds, the data that is validated holds, for every field, only what is found at the place where the field is declared: for an attribute field the value of that attribute of the element that the class is read from, for a text field its text, for an element field the text of one of its children with the declared tag, for a dictionary the attributes there, for a raw element a copy of such a child, for a wrapped field what is found in the same way at the end of a path of children with the declared tags, for lists, tuples and unions what their parts find. A sub-model is what its class reads by itself from a child with the declared tag, taken as a document of its own (with the tag of the class and without xsi:nil). Nothing leaks in from siblings, from other levels or from what other fields have taken, and computed fields read nothing.", "quantifier": "every class without user-written field validators, every nesting of fields and sub-models, every search mode, every document of any size, both backends, both settings of empty_as_string", "why_tests_cant": "a test compares the result for a few documents; the claim excludes, for every document and every combination of fields with interleaved cursors, snapshots of unions and removed raw elements, that a value comes from elsewhere", "anchors": ["pydantic_xml/model.py:BaseXmlModel.from_xml_tree", "pydantic_xml/serializers/factories/model.py:ModelSerializer.deserialize", "pydantic_xml/serializers/factories/model.py:ModelProxySerializer.deserialize", "pydantic_xml/element/element.py:XmlElement.pop_element", "pydantic_xml/element/element.py:XmlElement.find_element", "pydantic_xml/serializers/factories/union.py:ModelSerializer.deserialize"]}
{"id": "C90", "title": "A sub-model is written as it is written by itself", "statement": "If to_xml_tree succeeds for an instance, then for every sub-model in it (the value of a field, an item of a list, a part of a tuple, or the member that a union picks, whose field is neither excluded nor dropped as unset) the written element has a child that is exactly what to_xml_tree gives for the sub-model by itself, with the same flags, except that the name and the namespace declarations of its root element are the ones that the field gives. The only exception is a sub-model that is written as an empty element with skip_empty, which is left out. The other fields add nothing to it and take nothing away from it, as long as no wrapped field leads through an element with the same name; if one does, it writes into the element of the sub-model.", "quantifier": "every class without user-written field serializers, every instance and every nesting of sub-models, every flag (skip_empty, exclude_none, exclude_unset), both backends", "why_tests_cant": "a test compares the elements of a few instances; the claim is that writing is compositional for every class and every instance, whatever the other fields write before and after the sub-model", "anchors": ["pydantic_xml/model.py:BaseXmlModel.to_xml_tree", "pydantic_xml/serializers/factories/model.py:ModelSerializer.serialize", "pydantic_xml/serializers/factories/model.py:ModelProxySerializer.serialize", "pydantic_xml/element/element.py:XmlElement.append_element", "pydantic_xml/element/element.py:XmlElement.find_element_or_create"]}
{"id": "C91", "title": "Every instance in the result is what its class reads from its own element", "statement": "If from_xml or from_xml_tree returns an instance, then every instance of a model class inside it, at whatever depth (in sub-models, lists, tuples, wrapped fields, unions), is equal to what from_xml_tree of that instance's own class returns for one of the elements inside the document, cut out and taken as a document of its own (with the root tag of the class, and without xsi:nil). So nothing outside its element decides what a sub-model holds: neither the enclosing classes and their settings, nor what was read before.", "quantifier": "all sets of classes without custom XML validators (recursive ones, all kinds of fields, all search modes, extra='forbid'), all documents, both backends, both settings of empty_as_string; pydantic's validation must not make instances of its own", "why_tests_cant": "the sub-models are read from a shared tree with cursors at every level that earlier fields, wrappers and failed union members have moved; whether any of this leaks into a sub-model depends on the whole history of the reading, for documents and class hierarchies of any depth", "anchors": ["pydantic_xml/serializers/factories/model.py:ModelProxySerializer.deserialize", "pydantic_xml/serializers/factories/model.py:ModelSerializer.deserialize", "pydantic_xml/element/element.py:XmlElement.pop_element", "pydantic_xml/model.py:BaseXmlModel.from_xml_tree"]}
{"id": "C92", "title": "A discriminator changes neither what is read nor what is written", "statement": "Let several classes share an element name and require their discriminator attribute to have the value of their own tag. A discriminated union of these classes and the plain union of the same classes, in whatever order, read the same instance from every element in every search mode, and leave the same things unread; and both write the same output for every instance, with all flags.", "quantifier": "every such list of classes, every search mode, every document position, every instance and all flags", "why_tests_cant": "the two kinds of union select a member by different algorithms (looking at an attribute, trial and error on copies), and the documents, members and their order are unbounded", "anchors": ["pydantic_xml/serializers/factories/tagged_union.py:ModelSerializer", "pydantic_xml/serializers/factories/union.py:ModelSerializer"]}
{"id": "C93", "title": "A wrapper stands for a sub-model that holds only that field", "statement": "Declaring a field as wrapped(path, entity) is the same as declaring a sub-model for the path element whose only field is that entity: the two write the same element, take the same things off the document, find a value in the same cases, what the wrapper reads is what the sub-model is validated with, and they fail alike. The exceptions are exactly the documented differences: a wrapper goes on in the element just passed if it has the same name, a sub-model respects xsi:nil, and skip_empty drops an empty sub-model element.", "quantifier": "all entities inside the wrapper, all elements and reader positions, all search modes, all values, all encodings and output options", "why_tests_cant": "The entity inside the wrapper is arbitrary (text, attribute, element, collection, model, further wrappers) and so is the document around it; examples compare a few of them.", "anchors": ["pydantic_xml/serializers/factories/wrapper.py:ElementSerializer", "pydantic_xml/serializers/factories/model.py:ModelProxySerializer", "pydantic_xml/element/element.py:XmlElement.find_sub_element"]}
{"id": "C94", "title": "An element field is the text, or the attributes, of its element", "statement": "element(tag) of a primitive type behaves as wrapped(tag) around the text of that element, and element(tag) of a mapping as wrapped(tag) around its attributes: the same value or error, the same parts of the document taken, the same line recorded for errors, and the same element written for a value that is not None, unless the element just passed (read or written) has the same name or skip_empty drops the element.", "quantifier": "all elements, reader positions, search modes, values, encodings, output options, namespace maps, nillable or not", "why_tests_cant": "The element and mapping serializers are separate classes from the wrapper; that they agree for every document and position needs a proof over all of them.", "anchors": ["pydantic_xml/serializers/factories/primitive.py:ElementSerializer", "pydantic_xml/serializers/factories/mapping.py:ElementSerializer", "pydantic_xml/serializers/factories/wrapper.py:ElementSerializer"]}
{"id": "C95", "title": "Constraints only reject", "statement": "Adding constraints to classes without plain unions of models - extra='forbid', or pydantic constraints that reject data but do not convert it - never changes what is read: a document accepted by the stricter classes is accepted by the laxer ones with the same instance, a document rejected by the laxer ones is rejected by the stricter ones, and no other exception appears or disappears. With a plain union a rejected alternative lets the next one be taken, so the restriction is needed.", "quantifier": "all sets of classes, all additional constraints at any number of classes and depths, all documents", "why_tests_cant": "A constraint on a nested class changes the control flow of every loop above it (items and fields continue after an error); that the rest of the document is nevertheless read identically has to hold for every nesting and document.", "anchors": ["pydantic_xml/serializers/factories/model.py:ModelSerializer.deserialize", "pydantic_xml/serializers/factories/model.py:BaseModelSerializer._check_extra", "pydantic_xml/serializers/factories/homogeneous.py:ElementSerializer.deserialize", "pydantic_xml/serializers/factories/heterogeneous.py:ElementSerializer.deserialize"]}
{"id": "C96", "title": "A tuple of equal items is a list of that length", "statement": "Tuple[T, ..., T] with k items and List[T] agree: if a document gives k items as a list it gives the same items as a tuple of k; if it gives k items other than None as a tuple and there is no further item, it gives the same list; and the same values are written as the same elements, unless skip_empty leaves out items that are None.", "quantifier": "all item types, all lengths, all documents and reader positions, all values, encodings and output options", "why_tests_cant": "The two are separate serializers with different loops; the item type (element, model, union, nested collection, wrapper) and the number of items are unbounded.", "anchors": ["pydantic_xml/serializers/factories/homogeneous.py:ElementSerializer", "pydantic_xml/serializers/factories/heterogeneous.py:ElementSerializer"]}
{"id": "C97", "title": "Settings for writing do not influence reading, nor settings for reading writing", "statement": "Two sets of classes that differ only in settings for writing (namespace maps, skip_empty, exclude, custom serializers, nillable of sub-models, the name of the discriminating field, how values are encoded) read every document with the same instance or the same error; two that differ only in settings for reading (computed or not, validation aliases, custom validators, extra='forbid', hide_input_in_errors, validation) write every instance as the same document or raise the same exception.", "quantifier": "all sets of classes, all documents, all instances, all flags, any number of changed settings at any depth", "why_tests_cant": "Each serializer carries one object for both directions; that a setting of one direction leaks into the other for no class, nesting, document or value is a statement about all of them.", "anchors": ["pydantic_xml/serializers/serializer.py:Serializer", "pydantic_xml/serializers/factories/model.py:ModelSerializer", "pydantic_xml/model.py:BaseXmlModel.from_xml_tree", "pydantic_xml/model.py:BaseXmlModel.to_xml_tree"]}
{"id": "C98", "title": "nillable matters for xsi:nil and for None only", "statement": "Two sets of classes that differ only in which fields are nillable read every document in which no element has xsi:nil with the same instance or the same error, and with exclude_none=True write every instance as the same document or raise the same exception. Both conditions are needed.", "quantifier": "all sets of classes with any number of nillable fields at any depth, all documents without xsi:nil, all instances, all other flags", "why_tests_cant": "the set of classes, the depth and the documents are unbounded; making a field nillable must not disturb documents of today", "anchors": ["pydantic_xml/serializers/factories/primitive.py:TextSerializer", "pydantic_xml/serializers/factories/primitive.py:ElementSerializer", "pydantic_xml/serializers/factories/model.py:ModelProxySerializer", "pydantic_xml/element/utils.py:is_element_nill"]}
{"id": "C99", "title": "A root model is a class with one field", "statement": "If root models, at whatever places, are replaced by classes with a single field named root of the same declaration (and validation accepts {'root': v} exactly if it accepted v), every document gives the same instance, or a validation error in both cases, or the same other exception. An instance of a root model is written, by itself and as a sub-model, as an instance of such a class.", "quantifier": "all sets of classes with any number of root models at any depth, all documents, all instances, all flags", "why_tests_cant": "Root models are handled by a serializer class of their own; that it treats every kind of content, in every nesting and document, as the other one treats a field is a statement about all of them.", "anchors": ["pydantic_xml/serializers/factories/model.py:RootModelSerializer", "pydantic_xml/serializers/factories/model.py:ModelSerializer", "pydantic_xml/model.py:RootXmlModel"]}
{"id": "C100", "title": "The names of the classes do not matter", "statement": "Take a program in which every class whose __name__ is changed declares its tag, and give its classes other names, distinct ones, changing nothing else. Then the same class statements and calls of model_rebuild succeed, in whatever order they are made, and the others fail with the same exception; and when the classes are defined, every document is read to the same instance as before, up to the names of the classes of the instances in it, or gives a validation error where it gave one, or the same other exception; and every instance is written to the same document, or with the same exception, in particular instances in a union of models, where the class of the instance selects the alternative.", "quantifier": "all programs, injective renamings of the classes, new headings of errors, documents, instances, flags", "why_tests_cant": "A test runs one program under one set of names; the claim compares two programs on every document and every instance, at any nesting of sub-models, unions and collections.", "anchors": ["pydantic_xml/serializers/factories/model.py:ModelSerializer.serialize", "pydantic_xml/serializers/factories/model.py:ModelSerializer.deserialize", "pydantic_xml/serializers/factories/model.py:ModelProxySerializer", "pydantic_xml/serializers/factories/union.py:ModelSerializer.serialize", "pydantic_xml/serializers/factories/tagged_union.py:ModelSerializer", "pydantic_xml/serializers/factories/model.py:ModelProxySerializer.from_core_schema", "pydantic_xml/model.py:BaseXmlModel.__build_serializer__"]}
{"id": "C101", "title": "The names of elements have no meaning of their own", "statement": "If the elements of a program get other names, namespaces included, in the declarations of all classes and fields and in the documents alike, with different elements still named differently, then each document is read to the same instance as before, where only the native elements held by raw fields are renamed, or is rejected as before; and each instance is written to the same document as before with its elements renamed, or fails with the same exception. No name of an element is treated specially.", "quantifier": "every injective renaming of elements, every program (all kinds of fields, all search modes, wrapped paths, unions, sub-models, raw elements, custom functions that respect the renaming), every document, every instance and every choice of the options for writing", "why_tests_cant": "A test uses the names it uses; that the behaviour is the same for all names, documents and declarations is a statement about all pairs of programs, which only a proof over the whole reading and writing code can give.", "anchors": ["pydantic_xml/element/element.py:XmlElement", "pydantic_xml/serializers/factories/primitive.py:ElementSerializer", "pydantic_xml/serializers/factories/model.py:ModelSerializer", "pydantic_xml/serializers/factories/wrapper.py:ElementPathSerializer", "pydantic_xml/model.py:BaseXmlModel.from_xml_tree"]}
{"id": "C102", "title": "Classes may be defined and rebuilt while others are used", "statement": "While one thread reads a document or writes an instance, other threads may execute class statements and model_rebuild. If the call would succeed with the classes as they are when it starts (if it raises, it is not the AssertionError for a class that is not built), it has exactly the same outcome whatever classes are defined or rebuilt meanwhile. If not, its outcome is the AssertionError, or what it is once the classes are built. In particular no order of definitions and rebuilds changes an outcome other than the AssertionError.", "quantifier": "every program, every history of class statements and rebuilds before and during the call, every way in which they interleave with the call's lookups of classes, every document, every instance and all options for reading and writing", "why_tests_cant": "The outcome depends on where between two lookups the other threads' events fall; tests see a few interleavings of a few programs.", "anchors": ["pydantic_xml/model.py:XmlModelMeta", "pydantic_xml/model.py:BaseXmlModel.__build_serializer__", "pydantic_xml/model.py:BaseXmlModel.model_rebuild", "pydantic_xml/serializers/factories/model.py:ModelProxySerializer"]}
{"id": "C103", "title": "Texts have no meaning of their own", "statement": "The library attaches no meaning to particular texts: if the texts of elements and the values of attributes in a document are replaced by other texts (different texts by different ones), and the discriminator values in the declarations alike, then the document is read to the same instance with the strings replaced, or is a validation error in both cases, or raises the same other exception. The same holds for writing: the instance with its strings replaced is written to the document with its texts replaced, with every combination of the options. The only texts that have a meaning are the empty text (which can stand for a missing value), texts of white space only (which are ignored by extra='forbid'), the 'true' of xsi:nil, and, in writing, the texts in which values that are no strings are written (true, false, None, numbers). In particular 'null', '-' and texts with white space around them are texts as any other, and in reading also 'None', '0' and 'false'. A program with other discriminator values defines the same classes: each class statement or call of model_rebuild succeeds or fails as before, with the same exception.", "quantifier": "all replacements of texts by texts that keep the special ones; all classes (discriminator values replaced alike), all documents and all instances (nesting, unions, mappings, wrapped fields, raw elements); validators, encoders and custom functions that commute with the replacement; both backends, all options; all programs and all orders of class statements and calls of model_rebuild", "why_tests_cant": "A test uses a few texts and cannot show that no other text is treated specially, e.g. stripped, compared case-insensitively, or taken for a missing value, at some place.", "anchors": ["pydantic_xml/serializers/factories/primitive.py:TextSerializer", "pydantic_xml/serializers/factories/primitive.py:AttributeSerializer", "pydantic_xml/serializers/factories/primitive.py:ElementSerializer", "pydantic_xml/serializers/factories/tagged_union.py:ModelSerializer", "pydantic_xml/serializers/factories/mapping.py:AttributesSerializer", "pydantic_xml/serializers/serializer.py:encode_primitive", "pydantic_xml/element/element.py:XmlElement", "pydantic_xml/serializers/factories/tagged_union.py:from_core_schema"]}
{"id": "C104", "title": "The names of attributes have no meaning of their own", "statement": "If attributes get other names (different attributes different names, xsi:nil keeps its own), in the declarations (including the attribute of a discriminator) and in the documents alike, then every document is read to the same instance (in which the native elements of raw fields have the new names), or is a validation error in both cases, or raises the same other exception; and every instance is written to the same document with the attributes renamed, or raises the same exception, with every combination of the options. In particular neither the order of attributes by name nor a name such as 'id', 'type' or 'xml:lang' nor names that differ only in case or in the namespace have any influence.", "quantifier": "all renamings of attributes that are injective and keep xsi:nil; all classes without mapping fields (in a mapping the names of attributes are data), all documents and all instances (nesting, unions, discriminators, wrapped fields, collections, raw elements); validators, encoders and custom functions that commute with the renaming; both backends, all options", "why_tests_cant": "A test uses a few names of attributes and cannot show that no other name is treated specially, or confused with another one, at some place.", "anchors": ["pydantic_xml/serializers/factories/primitive.py:AttributeSerializer", "pydantic_xml/serializers/factories/tagged_union.py:ModelSerializer", "pydantic_xml/element/element.py:XmlElement.pop_attrib", "pydantic_xml/element/element.py:XmlElement.set_attribute", "pydantic_xml/element/utils.py:is_element_nill"]}
{"id": "C105", "title": "empty_as_string matters for empty texts only", "statement": "If none of the elements that the classes read texts from (element fields, wrappers around a text, sub-models with a text) is without text in a document, from_xml gives the same with empty_as_string=True and with empty_as_string=False: the same instance, the same validation error or the same other exception. Containers, dictionaries, unknown elements and, for nillable fields and sub-models, elements with xsi:nil=\"true\" may be without text. The classes have no custom field validators, and no field reads a text (of the element of its class or of a wrapper) that a field before it takes, since a text that is read a second time is empty.", "quantifier": "all sets of such classes with fields of every kind and any nesting, all documents without empty texts in these elements, any size and depth", "why_tests_cant": "The parameter is handed through every serializer; that it has no effect anywhere but on empty texts, and that no element is visited a second time after its text was taken, concerns all combinations of classes and documents.", "anchors": ["pydantic_xml/serializers/factories/primitive.py:TextSerializer.deserialize", "pydantic_xml/serializers/factories/primitive.py:ElementSerializer.deserialize", "pydantic_xml/model.py:BaseXmlModel.from_xml_tree"]}
{"id": "C106", "title": "Reported lines move with the elements", "statement": "When the elements of a document are moved to other lines (blank lines, broken lines, another header), from_xml gives the same: the same instance, the same exception, or the same validation errors, whose line numbers are those that the reported lines have moved to. In particular line numbers never influence what is read. The classes have no custom field validators.", "quantifier": "all sets of classes, all documents of any size and depth, all changes of the line numbers", "why_tests_cant": "Line numbers are kept in a map that is filled and consulted during the whole reading; that no decision depends on them, and that every reported number is carried over from an element and never computed, concerns all classes, documents and layouts.", "anchors": ["pydantic_xml/utils.py:set_validation_error_sourceline", "pydantic_xml/serializers/factories/model.py:ModelSerializer.deserialize", "pydantic_xml/element/element.py:XmlElement.get_sourceline"]}
{"id": "C107", "title": "Processing instructions are invisible", "statement": "A document with processing instructions is read as if they were not there (like comments). True in ordered mode, and in unordered mode if each known tag occurs at most once among the children of an element, for classes without custom validators, extra='forbid' and raw fields (errors of plain unions of models aside). False in strict mode, the default: the lxml backend treats a processing instruction as an element with a name that nothing matches, so it hides the elements after it.", "quantifier": "all sets of classes in the given search mode, all documents with processing instructions anywhere, any size and depth", "why_tests_cant": "Processing instructions can stand between any two children at any depth; that no search ever takes or is stopped by one concerns all classes and documents.", "anchors": ["pydantic_xml/element/native/lxml.py:XmlElement.from_native", "pydantic_xml/element/element.py:strict_search", "pydantic_xml/element/element.py:ordered_search"]}
{"id": "C108", "title": "In strict search mode a foreign element hides its later siblings", "statement": "When every class uses search_mode='strict' (the default), from_xml_tree/from_xml read a document exactly as if, in each element, the first child whose tag no field looks for (comments aside; a processing instruction counts as such a child) and everything after it in that element were missing: the same instance or the same validation errors, with the same locations and lines. In particular the contents of what is hidden, known tags included, cannot influence the result, and foreign elements that come last in their parent are harmless. Scope: classes without user validators, extra='forbid' and raw element fields.", "quantifier": "all sets of strict-mode classes within the scope, all root classes, all documents of any depth and size, all pairs of documents that agree on the visible part", "why_tests_cant": "Quantifies over arbitrary hidden content at every nesting level and over all class definitions; the cursor of each element advances through nested reads, so a single forgotten step can make hidden content visible for one combination only.", "anchors": ["pydantic_xml/element/element.py:strict_search", "pydantic_xml/element/element.py:_look_behind", "pydantic_xml/element/element.py:XmlElement.pop_element"]}
