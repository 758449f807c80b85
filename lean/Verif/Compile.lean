import Verif.Serializer

/-!
# From core schemas to serializers

Models `pydantic_xml/serializers/serializer.py` (`Serializer.Context`, `preprocess_schema`, `select_serializer`), the
functions `from_core_schema` of every factory, and `BaseXmlModel.__build_serializer__` of `pydantic_xml/model.py`: how a
class definition becomes the serializer that reads and writes it, or is rejected.

pydantic itself, which turns annotations into core schemas, is not modelled: a class definition is given by the core
schemas of its fields.
-/

namespace PXml

/-- The core schemas of `pydantic_core.core_schema`, as far as the library tells them apart.

* `prim ty`: the types of the family PRIMITIVE, serializer.py:47-64;
* `other ty`: a type that is not in `TYPE_FAMILY`;
* `func`: `function-before`, `function-after`, `function-wrap`;
* `funcPlain`: `function-plain` with its `serialization` entry, if it has one;
* `model cls root`: `model` with its `cls` and `root_model` entries; the fields are kept in the class table;
* `list`: `list`, `set`, `frozenset`;
* `tuple items variadic`: `tuple` with its `variadic_item_index`;
* `typedDict`: the schemas of all fields and computed fields;
* `tagged discr choices`: `tagged-union`; `none` for a discriminator or tag that is not a string;
* `isInst native`: `is-instance`; whether the class is the element class of the XML library;
* `call isTuple args`: `call`; whether the function is a subclass of `tuple`, and the schemas of the arguments. -/
inductive Schema where
  | prim (ty : String)
  | other (ty : String)
  | func (inner : Schema)
  | funcPlain (serialization : Option Schema)
  | default (inner : Schema)
  | nullable (inner : Schema)
  | jsonOrPython (python : Schema)
  | definitions (defs : List (String × Schema)) (inner : Schema)
  | ref (name : String)
  | model (cls : String) (root : Bool)
  | list (items : Schema)
  | tuple (items : List Schema) (variadic : Option Nat)
  | dict (keys values : Schema)
  | typedDict (values : List Schema)
  | union (choices : List Schema)
  | tagged (discr : Option String) (choices : List (Option String × Schema))
  | isInst (native : Bool)
  | call (isTuple : Bool) (args : List Schema)
deriving Repr, Inhabited

/-- `SchemaTypeFamily`, serializer.py:29-43, of the types that are left after preprocessing. -/
inductive Family where
  | primitive | model | homogeneous | tuple | mapping | typedMapping | union | taggedUnion | isInstance | call
deriving DecidableEq, Repr

/-- `TYPE_FAMILY.get(schema['type'])`, serializer.py:46-94; `none` for unknown types and for the families that
preprocessing removes. -/
def Schema.family : Schema → Option Family
  | .prim _ => some .primitive
  | .model _ _ => some .model
  | .list _ => some .homogeneous
  | .tuple _ _ => some .tuple
  | .dict _ _ => some .mapping
  | .typedDict _ => some .typedMapping
  | .union _ => some .union
  | .tagged _ _ => some .taggedUnion
  | .isInst _ => some .isInstance
  | .call _ _ => some .call
  | _ => none

/-- `Serializer.Context`, serializer.py:98-115.  `parents` are the `entity_info` of the chain of parent contexts, the
nearest first: nothing else of a parent context is ever used.  `optional` and `has_default` are written but never
read.  `hide` is `hide_input_in_errors`. -/
structure Ctx where
  modelName : String
  fieldName : Option String := none
  fieldAlias : Option String := none
  computed : Bool := false
  info : Option EntityInfo := none
  nsAttrs : Bool := false
  mode : Mode := .strict
  defs : Dict String Schema := []
  hide : Bool := false
  parents : List (Option EntityInfo) := []

namespace Ctx

/-- `entity_location`, serializer.py:121-123. -/
def location (c : Ctx) : Option Location := c.info.bind EntityInfo.location
/-- `entity_path`, serializer.py:125-127. -/
def path (c : Ctx) : Option String := c.info.bind EntityInfo.path
/-- `entity_ns`, serializer.py:129-131. -/
def ns (c : Ctx) : Option String := c.info.bind EntityInfo.ns
/-- `entity_nsmap`, serializer.py:133-135. -/
def nsmap (c : Ctx) : Option NsMap := c.info.bind EntityInfo.nsmap
/-- Truthiness of `nillable`, serializer.py:137-139. -/
def nillable (c : Ctx) : Bool := (c.info.bind EntityInfo.nillable).getD false
/-- `entity_wrapped`, serializer.py:141-143. -/
def wrapped (c : Ctx) : Option EntityInfo := c.info.bind EntityInfo.wrapped

/-- What the errors of collections and unions are headed with: `model_name` and `hide_input_in_errors`,
factories/homogeneous.py:33, heterogeneous.py:21, named_tuple.py:23, union.py:85. -/
def title (c : Ctx) : Title := ⟨c.modelName, c.hide⟩

/-- `parent_ns`, serializer.py:145-151, as a function of the chain of parents. -/
def parentNsOf : List (Option EntityInfo) → Option String
  | [] => none
  | i :: is => selectNs [i.bind EntityInfo.ns, parentNsOf is]

/-- `parent_ns`, serializer.py:145-151. -/
def parentNs (c : Ctx) : Option String := parentNsOf c.parents

/-- `parent_nsmap`, serializer.py:153-161, as a function of the chain of parents: in `{**a, **b}` the entries of `b`,
the farther parents, win. -/
def parentNsmapOf : List (Option EntityInfo) → Option NsMap
  | [] => none
  | i :: is => some (Dict.update ((i.bind EntityInfo.nsmap).getD []) ((parentNsmapOf is).getD []))

/-- `parent_nsmap`, serializer.py:153-161. -/
def parentNsmap (c : Ctx) : Option NsMap := parentNsmapOf c.parents

/-- `child(entity_info=...)`, serializer.py:163-170: everything else is kept. -/
def child (c : Ctx) (info : Option EntityInfo) : Ctx := { c with info := info, parents := c.info :: c.parents }

end Ctx

/-- Python's `a or b` on optional strings: the empty string is false. -/
def strOr (a b : Option String) : Option String := if Elem.truthy a then a else b

/-- The xml part of one model field: an entry of `fields_schema['fields']` with the class's `model_fields` entry,
factories/model.py:78-97.  `validationAlias` is a string alias (other forms are ignored by the code). -/
structure FieldDef where
  name : String
  schema : Schema
  alias : Option String := none
  validationAlias : Option String := none
  exclude : Bool := false
  noXml : Bool := false
  infos : List EntityInfo := []

/-- A computed field, factories/model.py:99-116: `schema` is `return_schema`, `info` the `ComputedXmlEntityInfo`, if
any. -/
structure ComputedDef where
  name : String
  schema : Schema
  alias : Option String := none
  info : Option EntityInfo := none

/-- What a class consists of: fields, or (root model) the schema and the metadata of `root`. -/
inductive BodyDef where
  | fields (fs : List FieldDef) (cs : List ComputedDef)
  | root (schema : Schema) (infos : List EntityInfo)

/-- A subclass of `BaseXmlModel`: its class parameters, its core schema (`__pydantic_core_schema__`), its fields, the
custom validators and serializers registered for its fields, `model_config['extra'] == 'forbid'`,
`model_config.get('hide_input_in_errors')` (`none`: not set), and whether it can be built (all forward references resolved, all generic parameters given; model.py:208-217, 222). -/
structure ClassDef where
  name : String
  params : ClassParams := {}
  schema : Schema
  body : BodyDef
  extraForbid : Bool := false
  hideInput : Option Bool := none
  complete : Bool := true
  validators : String → Option (Elem → Out Val × Elem) := fun _ => none
  serializers : String → Option (Val → Elem → Val → Out Elem) := fun _ => none

/-- The class table: `none` for classes that are not subclasses of `BaseXmlModel`. -/
abbrev Classes := String → Option ClassDef

/-- The class-level serializers built so far (`__xml_serializer__`). -/
abbrev Built := String → Option ModelSer

/-- `preprocess_schema`, serializer.py:180-221: removes validators, defaults, `Optional`, and resolves references.  The
chain of references is not bounded in the code, hence the fuel. -/
def preprocess : Nat → Schema → Ctx → Except DefErr (Schema × Ctx)
  | 0, _, _ => .error .diverge
  | n + 1, s, ctx =>
    match s with
    | .other ty => .error (.modelError ("type " ++ ty ++ " is not supported"))
    | .func inner => preprocess n inner ctx
    | .funcPlain (some inner) => preprocess n inner ctx
    | .funcPlain none => .error .keyError
    | .default inner => preprocess n inner ctx
    | .nullable inner => preprocess n inner ctx
    | .jsonOrPython inner => preprocess n inner ctx
    | .definitions defs inner => preprocess n inner { ctx with defs := Dict.update ctx.defs defs }
    | .ref r =>
      match ctx.defs.get? r with
      | some s => preprocess n s ctx
      | none => .error (.modelError ("schema reference " ++ r ++ " not found"))
    | s => .ok (s, ctx)

/-! ## Leaf serializers -/

/-- `primitive.TextSerializer.from_core_schema`, factories/primitive.py:32-41. -/
def textOf (ctx : Ctx) : Ser := .text ctx.computed ctx.nillable

/-- `primitive.AttributeSerializer.from_core_schema`, factories/primitive.py:85-106. -/
def attrOf (ctx : Ctx) : Except DefErr Ser :=
  let name := strOr ctx.path (strOr ctx.fieldAlias ctx.fieldName)
  let ns := selectNs [ctx.ns, if ctx.nsAttrs then ctx.parentNs else none]
  let nsmap := mergeNsmaps [ctx.nsmap, ctx.parentNsmap]
  if ns = some "" then .error (.fieldError "attributes with default namespace are forbidden")
  else match name with
    | none => .error (.fieldError "entity name is not provided")
    | some name => (QName.fromAlias name ns (some nsmap) true).map fun q => .attr q.uri ctx.computed

/-- The name and namespace map of an element serializer, the same in factories/primitive.py:149-175,
mapping.py:72-97, raw.py:14-30. -/
def elementName (ctx : Ctx) : Except DefErr (String × NsMap) :=
  let name := strOr ctx.path (strOr ctx.fieldAlias ctx.fieldName)
  let ns := selectNs [ctx.ns, ctx.parentNs]
  let nsmap := mergeNsmaps [ctx.nsmap, ctx.parentNsmap]
  match name with
  | none => .error (.fieldError "entity name is not provided")
  | some name => (QName.fromAlias name ns (some nsmap) false).map fun q => (q.uri, nsmap)

/-- `primitive.ElementSerializer.from_core_schema`, factories/primitive.py:148-175. -/
def elemOf (ctx : Ctx) : Except DefErr Ser :=
  (elementName ctx).map fun nm => .elem nm.1 (some nm.2) ctx.mode ctx.computed ctx.nillable

/-- `mapping.AttributesSerializer.from_core_schema`, factories/mapping.py:13-26. -/
def attrsOf (ctx : Ctx) : AttrsSer where
  ns := selectNs [ctx.ns, ctx.parentNs]
  nsmap := some (mergeNsmaps [ctx.nsmap, ctx.parentNsmap])
  namespaced := ctx.nsAttrs
  computed := ctx.computed

/-- `mapping.ElementSerializer.from_core_schema`, factories/mapping.py:71-97. -/
def mapElemOf (ctx : Ctx) : Except DefErr Ser :=
  (elementName ctx).map fun nm => .mapElem (attrsOf ctx) nm.1 ctx.mode

/-- `raw.ElementSerializer.from_core_schema`, factories/raw.py:13-30. -/
def rawElemOf (ctx : Ctx) : Except DefErr Ser :=
  (elementName ctx).map fun nm => .raw nm.1 ctx.mode ctx.computed

/-- `primitive.from_core_schema`, factories/primitive.py:224-232. -/
def primOf (ctx : Ctx) : Except DefErr Ser :=
  match ctx.location with
  | some .element => elemOf ctx
  | some .attribute => attrOf ctx
  | none => .ok (textOf ctx)
  | some .wrapped => .error (.assertion "unreachable")

/-- The end of `mapping.from_core_schema` and `typed_mapping.from_core_schema`, factories/mapping.py:155-162,
typed_mapping.py:25-32. -/
def mappingOf (ctx : Ctx) : Except DefErr Ser :=
  match ctx.location with
  | some .element => mapElemOf ctx
  | none => .ok (.attrs (attrsOf ctx))
  | some .attribute => .error (.fieldError "attributes of mapping type are not supported")
  | some .wrapped => .error (.assertion "unreachable")

/-- `raw.from_core_schema`, factories/raw.py:74-82. -/
def rawOf (ctx : Ctx) : Except DefErr Ser :=
  match ctx.location with
  | some .element => rawElemOf ctx
  | none => rawElemOf ctx
  | some .attribute => .error (.fieldError "attributes of raw types are not supported")
  | some .wrapped => .error (.assertion "unreachable")

/-- `ModelProxySerializer.from_core_schema`, factories/model.py:360-389. -/
def proxyOf (classes : Classes) (cls : String) (ctx : Ctx) : Except DefErr Proxy :=
  match classes cls with
  | none => .error (.assertion "unexpected model type")
  | some cd =>
    let name := (strOr ctx.path (strOr cd.params.tag (strOr ctx.fieldAlias (strOr ctx.fieldName (some cd.name))))).getD cd.name
    let ns := selectNs [ctx.ns, cd.params.ns, ctx.parentNs]
    let nsmap := mergeNsmaps [ctx.nsmap, cd.params.nsmap, ctx.parentNsmap]
    (QName.fromAlias name ns (some nsmap) false).map fun q =>
      { cls := cls, name := q.uri, nsmap := some nsmap, mode := ctx.mode, computed := ctx.computed,
        nillable := ctx.nillable }

/-- `model.from_core_schema` inside another class, factories/model.py:479-488. -/
def modelOf (classes : Classes) (cls : String) (ctx : Ctx) : Except DefErr Ser :=
  match ctx.location with
  | some .attribute => .error (.fieldError "attributes of a model type are not supported")
  | some .wrapped => .error (.assertion "unreachable")
  | _ => (proxyOf classes cls ctx).map .proxy

/-- The last part of the collection factories, factories/homogeneous.py:140-147, heterogeneous.py:124-131,
named_tuple.py:88-95. Simplified: the message is the one of homogeneous.py, named_tuple.py:93 says "attributes of tuple
types are not supported". -/
def collectionOf (ctx : Ctx) (r : Except DefErr Ser) : Except DefErr Ser :=
  match ctx.location with
  | some .attribute => .error (.fieldError "attributes of collection types are not supported")
  | some .wrapped => .error (.assertion "unreachable")
  | _ => r

/-! ## Composite serializers

`rec` is `Serializer.parse_core_schema` and `n` the fuel for preprocessing. -/

/-- `parse_core_schema` on every schema of a list, e.g. factories/heterogeneous.py:18-19. -/
def parseAll (rec : Schema → Ctx → Except DefErr Ser) (ctx : Ctx) : List Schema → Except DefErr (List Ser)
  | [] => .ok []
  | s :: ss =>
    match rec s ctx with
    | .error e => .error e
    | .ok x => match parseAll rec ctx ss with | .error e => .error e | .ok xs => .ok (x :: xs)

/-- The item types of a collection, factories/homogeneous.py:116-126. -/
def Family.isItem : Option Family → Bool
  | some .homogeneous => false
  | none => false
  | _ => true

/-- The item types of a tuple, factories/heterogeneous.py:107-116, named_tuple.py:71-80. -/
def Family.isTupleItem : Option Family → Bool
  | some .homogeneous => false
  | some .tuple => false
  | none => false
  | _ => true

/-- The item types of a collection that need no name, factories/homogeneous.py:131-137. -/
def Family.namedItem : Option Family → Bool
  | some .model => true
  | some .union => true
  | some .taggedUnion => true
  | some .tuple => true
  | some .call => true
  | _ => false

/-- `homogeneous.from_core_schema`, factories/homogeneous.py:107-147, 21-39. -/
def homogOf (rec : Schema → Ctx → Except DefErr Ser) (n : Nat) (items : Schema) (ctx : Ctx) : Except DefErr Ser :=
  match preprocess n items ctx with
  | .error e => .error e
  | .ok (is, ctx) =>
    if !Family.isItem is.family then
      .error (.fieldError "collection item must be of primitive, model, mapping, union or tuple type")
    else if !Family.namedItem is.family && ctx.location = none then
      .error (.fieldError "entity name is not provided")
    else collectionOf ctx ((rec items ctx).map (.homog ctx.title ctx.computed))

/-- The checking loop of `heterogeneous.from_core_schema` and `named_tuple.from_core_schema`,
factories/heterogeneous.py:103-122, named_tuple.py:66-86: the context is threaded through. Simplified: the message is the
one of heterogeneous.py, named_tuple.py:82 says "tuple item must be …". -/
def tupleItems (n : Nat) : List Schema → Ctx → Except DefErr Ctx
  | [], ctx => .ok ctx
  | s :: ss, ctx =>
    match preprocess n s ctx with
    | .error e => .error e
    | .ok (s, ctx) =>
      if !Family.isTupleItem s.family then
        .error (.fieldError "collection item must be of primitive, model, mapping or union type")
      else if !(s.family = some .model || s.family = some .union) && ctx.location = none then
        .error (.fieldError "entity name is not provided")
      else tupleItems n ss ctx

/-- `heterogeneous.from_core_schema`, factories/heterogeneous.py:102-131, 13-33, and `named_tuple.from_core_schema`,
factories/named_tuple.py:64-95, 14-61 (the serializer of a named tuple delegates to the one of tuples). -/
def heteroOf (rec : Schema → Ctx → Except DefErr Ser) (n : Nat) (items : List Schema) (ctx : Ctx) : Except DefErr Ser :=
  match tupleItems n items ctx with
  | .error e => .error e
  | .ok ctx => collectionOf ctx ((parseAll rec ctx items).map (.hetero ctx.title ctx.computed))

/-- The checks of mapping values, factories/mapping.py:143-153, typed_mapping.py:12-23 (the context is not
threaded). Simplified: there is one message instead of one for keys, one for values and one for typed dictionaries. -/
def primitives (n : Nat) (ctx : Ctx) : List Schema → Except DefErr Unit
  | [] => .ok ()
  | s :: ss =>
    match preprocess n s ctx with
    | .error e => .error e
    | .ok (s, _) =>
      if s.family = some .primitive then primitives n ctx ss
      else .error (.fieldError "mapping keys and values must be of a primitive type")

/-- The classes of serializers, for `type(s)` in factories/union.py:28. -/
inductive SerKind where
  | text | attr | elem | attrs | mapElem | raw | proxy | primUnion | modelUnion | tagged | wrap | homog | hetero
deriving DecidableEq, Repr

/-- `type(s)` -/
def Ser.kind : Ser → SerKind
  | .text _ _ => .text
  | .attr _ _ => .attr
  | .elem _ _ _ _ _ => .elem
  | .attrs _ => .attrs
  | .mapElem _ _ _ => .mapElem
  | .raw _ _ _ => .raw
  | .proxy _ => .proxy
  | .primUnion _ _ => .primUnion
  | .modelUnion _ _ _ => .modelUnion
  | .tagged _ _ _ _ _ => .tagged
  | .wrap _ _ _ _ _ => .wrap
  | .homog _ _ _ => .homog
  | .hetero _ _ _ => .hetero

/-- `PrimitiveTypeSerializer.from_core_schema`, factories/union.py:15-35. -/
def primUnionOf (rec : Schema → Ctx → Except DefErr Ser) (choices : List Schema) (ctx : Ctx) : Except DefErr Ser :=
  match parseAll rec ctx choices with
  | .error e => .error e
  | .ok [] => .error (.assertion "union choice is not provided")
  | .ok (s :: ss) =>
    if ss.all fun t => t.kind = s.kind then .ok (.primUnion ctx.computed s)
    else .error (.typeError "unions of different primitive types are not supported")

/-- `parse_core_schema` on a choice and the assertion that the result is a `ModelProxySerializer`,
factories/union.py:78-79, tagged_union.py:32-33. -/
def parseProxy (rec : Schema → Ctx → Except DefErr Ser) (ctx : Ctx) (s : Schema) : Except DefErr Proxy :=
  match rec s ctx with
  | .error e => .error e
  | .ok (.proxy p) => .ok p
  | .ok _ => .error (.assertion "unexpected serializer type")

/-- The loop of `union.ModelSerializer.from_core_schema`, factories/union.py:73-81. -/
def parseProxies (rec : Schema → Ctx → Except DefErr Ser) (ctx : Ctx) : List Schema → Except DefErr (List Proxy)
  | [] => .ok []
  | s :: ss =>
    match parseProxy rec ctx s with
    | .error e => .error e
    | .ok p => match parseProxies rec ctx ss with | .error e => .error e | .ok ps => .ok (p :: ps)

/-- `union.ModelSerializer.from_core_schema`, factories/union.py:69-97. -/
def modelUnionOf (rec : Schema → Ctx → Except DefErr Ser) (choices : List Schema) (ctx : Ctx) : Except DefErr Ser :=
  match parseProxies rec ctx choices with
  | .error e => .error e
  | .ok [] => .error (.assertion "union choice is not provided")
  | .ok (p :: ps) => .ok (.modelUnion ctx.title ctx.computed (p :: ps))

/-- The loop of `union.from_core_schema`, factories/union.py:162-173: the families of the choices and the threaded
context. -/
def unionFamilies (n : Nat) : List Schema → Ctx → Except DefErr (List Family × Ctx)
  | [], ctx => .ok ([], ctx)
  | s :: ss, ctx =>
    match preprocess n s ctx with
    | .error e => .error e
    | .ok (s, ctx) =>
      match s.family with
      | some .primitive | some .isInstance | some .model =>
        match unionFamilies n ss ctx with
        | .error e => .error e
        | .ok (fs, ctx) => .ok ((s.family.getD .primitive) :: fs, ctx)
      | _ => .error (.fieldError "union must be of primitive or model type")

/-- `union.from_core_schema`, factories/union.py:161-187.  `choice_families.pop()` returns the family with the smallest
hash slot: PRIMITIVE (1) before IS_INSTANCE (12). -/
def unionOf (rec : Schema → Ctx → Except DefErr Ser) (n : Nat) (choices : List Schema) (ctx : Ctx) :
    Except DefErr Ser :=
  match unionFamilies n choices ctx with
  | .error e => .error e
  | .ok (fams, ctx) =>
    if fams.isEmpty then .error (.assertion "union choices are not provided")
    else if (fams.contains .primitive || fams.contains .isInstance) && fams.contains .model then
      .error (.typeError "unions of combined primitive and model types are not supported")
    else if fams.contains .model then modelUnionOf rec choices ctx
    else if fams.contains .primitive then primUnionOf rec choices ctx
    else .error (.assertion "unreachable")

/-- The loop of `tagged_union.from_core_schema`, factories/tagged_union.py:118-127. -/
def taggedChoices (n : Nat) : List Schema → Ctx → Except DefErr Ctx
  | [], ctx => .ok ctx
  | s :: ss, ctx =>
    match preprocess n s ctx with
    | .error e => .error e
    | .ok (.model _ false, ctx) => taggedChoices n ss ctx
    | .ok (.model _ true, _) => .error (.fieldError "tagged union doesn't support root models")
    | .ok _ => .error (.fieldError "tagged union must be of a model type")

/-- The attribute name of the discriminator field of a built class, factories/tagged_union.py:36-43. -/
def discriminatorAttr (built : Built) (discr cls : String) : Except DefErr String :=
  match built cls with
  | some { body := .fields fs, .. } =>
    match fs.find? (fun f => f.name = discr) with
    | some { ser := .attr name _, .. } => .ok name
    | _ => .error (.fieldError "discriminator field must be an xml attribute")
  | _ => .error (.assertion "unexpected model serializer type")

/-- The loop of `tagged_union.ModelSerializer.from_core_schema`, factories/tagged_union.py:26-49. -/
def taggedLoopOf (rec : Schema → Ctx → Except DefErr Ser) (built : Built) (discr : String) (ctx : Ctx) :
    List (Option String × Schema) → Option String → Dict String Proxy → Except DefErr (Option String × Dict String Proxy)
  | [], attr, acc => .ok (attr, acc)
  | (none, _) :: _, _, _ => .error (.fieldError "tagged union only supports string tags")
  | (some tag, s) :: rest, attr, acc =>
    match parseProxy rec ctx s with
    | .error e => .error e
    | .ok p =>
      match discriminatorAttr built discr p.cls with
      | .error e => .error e
      | .ok a =>
        if attr.isSome && attr ≠ some a then
          .error (.fieldError "sub-models discriminating attributes must have the same name")
        else taggedLoopOf rec built discr ctx rest (some a) (acc.set tag p)

/-- `tagged_union.from_core_schema`, factories/tagged_union.py:117-129, 17-53. -/
def taggedOf (rec : Schema → Ctx → Except DefErr Ser) (n : Nat) (built : Built) (discr : Option String)
    (choices : List (Option String × Schema)) (ctx : Ctx) : Except DefErr Ser :=
  match taggedChoices n (choices.map Prod.snd) ctx with
  | .error e => .error e
  | .ok ctx =>
    match discr with
    | none => .error (.fieldError "only string discriminators are supported")
    | some discr =>
      match taggedLoopOf rec built discr ctx choices none [] with
      | .error e => .error e
      | .ok (none, _) => .error (.assertion "schema choices are not provided")
      | .ok (some attr, alts) => .ok (.tagged ctx.computed discr attr ctx.mode alts)

/-- `path.split('/')` on the characters: the first part and the others. -/
def splitSlash : List Char → List Char × List (List Char)
  | [] => ([], [])
  | c :: cs =>
    match splitSlash cs with
    | (p, ps) => if c = '/' then ([], p :: ps) else (c :: p, ps)

/-- `path.split('/')`, factories/wrapper.py:36. -/
def splitPath (path : String) : List String :=
  match splitSlash path.toList with
  | (p, ps) => (p :: ps).map String.ofList

/-- The qualified names of the path, factories/wrapper.py:36. -/
def pathNames (ns : Option String) (nsmap : NsMap) : List String → Except DefErr (List String)
  | [] => .ok []
  | p :: ps =>
    match QName.fromAlias p ns (some nsmap) false with
    | .error e => .error e
    | .ok q => match pathNames ns nsmap ps with | .error e => .error e | .ok qs => .ok (q.uri :: qs)

/-- `wrapper.ElementPathSerializer.from_core_schema`, factories/wrapper.py:12-40. -/
def wrapOf (rec : Schema → Ctx → Except DefErr Ser) (s : Schema) (ctx : Ctx) : Except DefErr Ser :=
  match ctx.path with
  | none => .error (.assertion "path is not provided")
  | some path =>
    let ns := selectNs [ctx.ns, ctx.parentNs]
    let nsmap := mergeNsmaps [ctx.nsmap, ctx.parentNsmap]
    match rec s (ctx.child ctx.wrapped) with
    | .error e => .error e
    | .ok inner =>
      match pathNames ns nsmap (splitPath path) with
      | .error e => .error e
      | .ok names => .ok (.wrap names (some nsmap) ctx.mode ctx.computed inner)

/-- `select_serializer`, serializer.py:223-274, for a schema that is not the class itself. -/
def select (classes : Classes) (built : Built) (rec : Schema → Ctx → Except DefErr Ser) (n : Nat) (s : Schema)
    (ctx : Ctx) : Except DefErr Ser :=
  if ctx.location = some .wrapped then wrapOf rec s ctx
  else match s with
    | .prim _ => primOf ctx
    | .model cls _ => modelOf classes cls ctx
    | .list items => homogOf rec n items ctx
    | .tuple items variadic =>
      -- factories/tuple.py:9-21
      match variadic with
      | none => heteroOf rec n items ctx
      | some 0 =>
        match items with
        | [item] => homogOf rec n item ctx
        | _ => .error (.assertion "unexpected items schema type")
      | some _ => .error (.fieldError "variadic tuples with prefixed items are not supported")
    | .dict keys values =>
      match primitives n ctx [keys, values] with
      | .error e => .error e
      | .ok () => mappingOf ctx
    | .typedDict values =>
      match primitives n ctx values with
      | .error e => .error e
      | .ok () => mappingOf ctx
    | .union choices => unionOf rec n choices ctx
    | .tagged discr choices => taggedOf rec n built discr choices ctx
    | .isInst native => if native then rawOf ctx else primOf ctx   -- factories/is_instance.py:9-15
    | .call isTuple args =>
      -- factories/call.py:10-16
      if isTuple then heteroOf rec n args ctx else .error (.modelError "type call is not supported")
    | _ => .error (.assertion "unreachable")

/-- `parse_core_schema`, serializer.py:175-178. -/
def parse (classes : Classes) (built : Built) : Nat → Schema → Ctx → Except DefErr Ser
  | 0, _, _ => .error .diverge
  | n + 1, s, ctx =>
    match preprocess n s ctx with
    | .error e => .error e
    | .ok (s, ctx) => select classes built (parse classes built n) n s ctx

/-! ## Classes -/

/-- The context of a field, factories/model.py:91-96. -/
def FieldDef.ctx (ctx : Ctx) (f : FieldDef) : Ctx :=
  { ctx.child (EntityInfo.extract f.infos) with fieldName := some f.name, fieldAlias := f.alias }

/-- The context of a computed field, factories/model.py:109-115. -/
def ComputedDef.ctx (ctx : Ctx) (c : ComputedDef) : Ctx :=
  { ctx.child c.info with fieldName := some c.name, fieldAlias := c.alias, computed := true }

/-- The loop over the fields, factories/model.py:78-97. -/
def compileFields (rec : Schema → Ctx → Except DefErr Ser) (cd : ClassDef) (ctx : Ctx) :
    List FieldDef → Except DefErr (List Field)
  | [] => .ok []
  | f :: fs =>
    if f.noXml then compileFields rec cd ctx fs
    else
      match rec f.schema (f.ctx ctx) with
      | .error e => .error e
      | .ok s =>
        match compileFields rec cd ctx fs with
        | .error e => .error e
        | .ok rest =>
          .ok ({ name := f.name, ser := s, alias := if Elem.truthy f.validationAlias then f.validationAlias else none,
                 exclude := f.exclude, validator := cd.validators f.name, serializer := cd.serializers f.name } :: rest)

/-- The loop over the computed fields, factories/model.py:99-116. -/
def compileComputed (rec : Schema → Ctx → Except DefErr Ser) (cd : ClassDef) (ctx : Ctx) :
    List ComputedDef → Except DefErr (List Field)
  | [] => .ok []
  | c :: cs =>
    match rec c.schema (c.ctx ctx) with
    | .error e => .error e
    | .ok s =>
      match compileComputed rec cd ctx cs with
      | .error e => .error e
      | .ok rest =>
        .ok ({ name := c.name, ser := s, validator := cd.validators c.name, serializer := cd.serializers c.name } :: rest)

/-- The context of the fields of a class: `hide_input_in_errors` is the setting of the class or else that of the context,
factories/model.py:72, 95, 114, 253, 259. -/
def ClassDef.inside (cd : ClassDef) (ctx : Ctx) : Ctx := { ctx with hide := cd.hideInput.getD ctx.hide }

/-- `ModelSerializer.from_core_schema` and `RootModelSerializer.from_core_schema`, factories/model.py:60-146, 246-283, as chosen for the class
itself (`ctx.top`), factories/model.py:470-477. -/
def compileClass (rec : Schema → Ctx → Except DefErr Ser) (cd : ClassDef) (ctx : Ctx) : Except DefErr ModelSer :=
  let body : Except DefErr Body :=
    match cd.body with
    | .fields fs cs =>
      match compileFields rec cd (cd.inside ctx) fs with
      | .error e => .error e
      | .ok a => match compileComputed rec cd (cd.inside ctx) cs with | .error e => .error e | .ok b => .ok (.fields (a ++ b))
    | .root s infos => (rec s { (cd.inside ctx).child (EntityInfo.extract infos) with fieldName := none }).map .root
  match body with
  | .error e => .error e
  | .ok body =>
    (QName.fromAlias ((strOr cd.params.tag (some cd.name)).getD cd.name) cd.params.ns cd.params.nsmap false).map fun q =>
      { name := cd.name, elementName := q.uri, nsmap := cd.params.nsmap, body := body, skipEmpty := cd.params.skipEmpty,
        extraForbid := cd.extraForbid, hideInput := (cd.inside ctx).hide }

/-- The context of a class, model.py:225-235. -/
def ClassDef.ctx (cd : ClassDef) : Ctx where
  modelName := cd.name
  nsAttrs := cd.params.nsAttrs
  mode := cd.params.searchMode
  info := some (.mk (some .element) cd.params.tag cd.params.ns cd.params.nsmap none none)

/-- `__build_serializer__`, model.py:203-240 and for root models 373-378 (`BaseXmlModel` and `RootXmlModel` themselves, which get no serializer, are
no classes of a program here): `none` for a class that is not complete.  (For a core schema that is not a
model the code builds another serializer and fails the assertion model.py:237 afterwards.) -/
def buildClass (classes : Classes) (built : Built) (n : Nat) (cd : ClassDef) : Except DefErr (Option ModelSer) :=
  if cd.complete then
    match preprocess n cd.schema cd.ctx with
    | .error e => .error e
    | .ok (.model cls _, ctx) =>
      match classes cls with
      | none => .error (.assertion "model class must be a BaseXmlModel subclass")
      | some cd => (compileClass (parse classes built n) cd ctx).map some
    | .ok _ => .error (.assertion "unexpected serializer type")
  else .ok none

/-- Sets the serializer of a class, `cls.__xml_serializer__ = …` in `__build_serializer__`, model.py:203-240.  `complete` is
`__pydantic_complete__`: whether all forward references have been resolved; `cd.complete` is whether all generic parameters
are given (model.py:208-217).  For a class that is not a subclass of `BaseXmlModel` there is nothing to do. -/
def setSerializer (classes : Classes) (n : Nat) (built : Built) (c : String) (complete : Bool) : Except DefErr Built :=
  match classes c with
  | none => .ok built
  | some cd =>
    match buildClass classes built n { cd with complete := cd.complete && complete } with
    | .error e => .error e
    | .ok m => .ok fun x => if x = c then m else built x

/-- What happens to the classes of a program.  Whether pydantic has resolved all forward references of the class is part of
the event: it is decided by pydantic, not by this library. -/
inductive Event where
  /-- The class statement, model.py:104-121. -/
  | statement (cls : String) (complete : Bool)
  /-- A call of `model_rebuild`, model.py:242-247. -/
  | rebuild (cls : String) (complete : Bool)
deriving DecidableEq, Repr

/-- `XmlModelMeta.__new__`, model.py:104-121, and `model_rebuild`, model.py:242-247. -/
def Event.run (classes : Classes) (n : Nat) (built : Built) : Event → Except DefErr Built
  | .statement c complete => setSerializer classes n built c complete
  | .rebuild c complete => if (built c).isNone && complete then setSerializer classes n built c complete else .ok built

/-- A program that defines and rebuilds classes, in any order.  An error sets no serializer (model.py:237-238 is not
reached); the program may go on after it. -/
def history (classes : Classes) (n : Nat) : List Event → Built → Built
  | [], built => built
  | e :: es, built =>
    match e.run classes n built with
    | .error _ => history classes n es built
    | .ok built' => history classes n es built'

end PXml
