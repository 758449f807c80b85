import Verif.Value

/-!
# Serializers

Models `serialize` and `deserialize` of every class in `pydantic_xml/serializers/factories/`, and
`BaseXmlModel.from_xml_tree` / `to_xml_tree` of `pydantic_xml/model.py`.

The Python methods call each other recursively through the class-level serializer of sub-models, so both directions
take fuel; running out of it is the outcome `diverge`.  All other control flow is that of the code.  `deserialize`
keeps its effects on the element and on the source map when it raises, so it returns the state in every case;
`serialize` is only ever abandoned as a whole when it raises, so it returns a state only on success.

The parameter `element: Optional[...]` of `deserialize` is never `None` in any call made by the library; the
`if element is None` branches are left out.  The return value of `serialize` is ignored by all callers and is left
out too.
-/

namespace PXml

/-- `ModelProxySerializer`, factories/model.py:374-389; `name` is `_element_name`, `nillable` its truthiness. -/
structure Proxy where
  cls : String
  name : String
  nsmap : Option NsMap := none
  mode : Mode := .strict
  computed : Bool := false
  nillable : Bool := false
deriving Repr, DecidableEq

/-- `mapping.AttributesSerializer`, factories/mapping.py:22-26. -/
structure AttrsSer where
  ns : Option String := none
  nsmap : Option NsMap := none
  namespaced : Bool := false
  computed : Bool := false
deriving Repr, DecidableEq

/-- The serializer objects that can be attached to a field. -/
inductive Ser where
  /-- `primitive.TextSerializer`, factories/primitive.py:39-41 -/
  | text (computed nillable : Bool)
  /-- `primitive.AttributeSerializer`, factories/primitive.py:104-106 -/
  | attr (name : String) (computed : Bool)
  /-- `primitive.ElementSerializer`, factories/primitive.py:162-175 -/
  | elem (name : String) (nsmap : Option NsMap) (mode : Mode) (computed nillable : Bool)
  /-- `mapping.AttributesSerializer` -/
  | attrs (a : AttrsSer)
  /-- `mapping.ElementSerializer`, factories/mapping.py:85-97 -/
  | mapElem (a : AttrsSer) (name : String) (mode : Mode)
  /-- `raw.ElementSerializer`, factories/raw.py:26-30 -/
  | raw (name : String) (mode : Mode) (computed : Bool)
  /-- `model.ModelProxySerializer` -/
  | proxy (p : Proxy)
  /-- `union.PrimitiveTypeSerializer`, factories/union.py:33-35 -/
  | primUnion (computed : Bool) (inner : Ser)
  /-- `union.ModelSerializer`, factories/union.py:87-97; `title` is `_model_name` -/
  | modelUnion (title : Title) (computed : Bool) (alts : List Proxy)
  /-- `tagged_union.ModelSerializer`, factories/tagged_union.py:55-67 -/
  | tagged (computed : Bool) (discr attrName : String) (mode : Mode) (alts : List (String × Proxy))
  /-- `wrapper.ElementPathSerializer`, factories/wrapper.py:27-40 -/
  | wrap (path : List String) (nsmap : Option NsMap) (mode : Mode) (computed : Bool) (inner : Ser)
  /-- `homogeneous.ElementSerializer`, factories/homogeneous.py:35-39 -/
  | homog (title : Title) (computed : Bool) (inner : Ser)
  /-- `heterogeneous.ElementSerializer`, factories/heterogeneous.py:23-33, also used by
  `named_tuple.ElementSerializer`, factories/named_tuple.py:25-34 -/
  | hetero (title : Title) (computed : Bool) (inners : List Ser)
deriving Repr

/-- State threaded through `deserialize`: the element and the source map. -/
structure St where
  el : Elem
  sm : SMap
deriving Repr

/-- One entry of `_field_serializers` with its validation alias, exclusion flag and custom functions
(factories/model.py:128-146, `__xml_field_validators__` and `__xml_field_serializers__` of model.py).  A custom
validator gets the element and may consume it, a custom serializer gets the model, the element and the field value. -/
structure Field where
  name : String
  ser : Ser
  alias : Option String := none
  exclude : Bool := false
  validator : Option (Elem → Out Val × Elem) := none
  serializer : Option (Val → Elem → Val → Out Elem) := none

/-- `ModelSerializer` or `RootModelSerializer`. -/
inductive Body where
  | fields (fs : List Field)
  | root (s : Ser)

/-- The class-level serializer of a model, factories/model.py:128-146, 269-283, with the class settings it reads:
`__xml_skip_empty__`, `model_config['extra'] == 'forbid'`. `name` is `__name__`. -/
structure ModelSer where
  name : String
  elementName : String
  nsmap : Option NsMap := none
  body : Body
  skipEmpty : Option Bool := none
  extraForbid : Bool := false
  hideInput : Bool := false

/-- What the errors of a class are headed with, factories/model.py:229-234, 237, 343-348, 351. -/
def ModelSer.title (m : ModelSer) : Title := ⟨m.name, m.hideInput⟩

/-- The environment: model classes (`none`: `__xml_serializer__` is not built), and pydantic.

* `validate cls data` is `cls.model_validate(data, strict=False, context=context)`: an error, or the fields and the
  set fields of the new instance (the context is fixed for a run);
* `toJsonable` is `pydantic_core.to_jsonable_python(..., by_alias=False, ...)`;
* `reprOf` is `str(...)` of a container or model. -/
structure Env where
  backend : Backend
  model : String → Option ModelSer
  validate : String → Val → Except VErr (List (String × Val) × List String)
  toJsonable : Val → Val
  reprOf : Val → String

/-! ## Reading -/

/-- Runs `f` on the child at index `i` and writes the mutated child back. -/
def onChild {α : Type} (st : St) (i : Nat) (f : St → Out α × St) : Out α × St :=
  match st.el.elements[i]? with
  | none => (.crash .indexError, st)
  | some c =>
    match f ⟨c, st.sm⟩ with
    | (o, st') => (o, ⟨st.el.setChild i st'.el, st'.sm⟩)

/-- `self.pop_text() or default`, factories/primitive.py:80-81. -/
def textVal (eas : Bool) : Option String → Val
  | some s => if s = "" then (if eas then .str "" else .none) else .str s
  | none => if eas then .str "" else .none

/-- `TextSerializer.deserialize`, factories/primitive.py:62-81. -/
def deserText (eas computed nillable : Bool) (st : St) : Out Val × St :=
  if computed then (.ok .none, st)
  else
    match (if nillable then st.el.isNil else (false, st.el)) with
    | (true, el) => (.ok .none, { st with el := el })
    | (false, el) =>
      match el.popText with
      | (t, el) => (.ok (textVal eas t), { st with el := el })

/-- `AttributesSerializer.deserialize`, factories/mapping.py:49-67. -/
def deserAttrs (a : AttrsSer) (st : St) : Out Val × St :=
  if a.computed then (.ok .none, st)
  else
    match st.el.popAttributes with
    | (none, el) => (.ok .none, { st with el := el })
    | (some d, el) =>
      (.ok (.dict (Dict.ofItems (d.map fun kv =>
        (if a.namespaced then (QName.fromUri kv.1).tag else kv.1, Val.str kv.2)))), { st with el := el })

/-- `find_sub_element(path, mode)`, element.py:433-443, followed by the continuation on the last element if the
whole path was found, factories/wrapper.py:82-92.  The empty path is an assertion error in the code; it cannot occur
(`str.split` returns at least one part). -/
def descend (mode : Mode) (f : St → Out Val × St) : List String → St → Out Val × St
  | [], st => f st
  | t :: ts, st =>
    match st.el.findElement t mode with
    | .error e => (.crash e, st)
    | .ok (none, el) => (.ok .none, { st with el := el })
    | .ok (some i, el) => onChild { st with el := el } i (descend mode f ts)

/-- The loop of `homogeneous.ElementSerializer.deserialize`, factories/homogeneous.py:83-95 (`it.count()`: no bound
but the fuel). -/
def homogLoop (rec : Loc → St → Out Val × St) (loc : Loc) :
    Nat → Nat → List Val → Dict ErrKey VErr → St → Out (List Val × Dict ErrKey VErr) × St
  | 0, _, _, _, st => (.diverge, st)
  | n + 1, idx, acc, errs, st =>
    match rec (loc ++ [.idx idx]) st with
    | (.ok v, st') =>
      if v.isNone then (.ok (acc, errs), st') else homogLoop rec loc n (idx + 1) (acc ++ [v]) errs st'
    | (.verr e, st') => homogLoop rec loc n (idx + 1) acc (errs ++ [(some (.idx idx), e)]) st'
    | (.crash e, st') => (.crash e, st')
    | (.diverge, st') => (.diverge, st')

/-- factories/homogeneous.py:97-104. -/
def homogFinish (title : Title) (r : List Val × Dict ErrKey VErr) : Out Val :=
  if r.2.isEmpty then (if r.1.isEmpty then .ok .none else .ok (.list r.1))
  else .verr (intoValidationError title r.2)

/-- The loop of `heterogeneous.ElementSerializer.deserialize`, factories/heterogeneous.py:76-87. -/
def heteroLoop (rec : Ser → Loc → St → Out Val × St) (loc : Loc) :
    List Ser → Nat → List Val → Dict ErrKey VErr → St → Out (List Val × Dict ErrKey VErr) × St
  | [], _, acc, errs, st => (.ok (acc, errs), st)
  | s :: ss, idx, acc, errs, st =>
    match rec s (loc ++ [.idx idx]) st with
    | (.ok v, st') => heteroLoop rec loc ss (idx + 1) (acc ++ [v]) errs st'
    | (.verr e, st') => heteroLoop rec loc ss (idx + 1) acc (errs ++ [(some (.idx idx), e)]) st'
    | (.crash e, st') => (.crash e, st')
    | (.diverge, st') => (.diverge, st')

/-- factories/heterogeneous.py:89-99. -/
def heteroFinish (title : Title) (r : List Val × Dict ErrKey VErr) : Out Val :=
  if r.2.isEmpty then (if r.1.all Val.isNone then .ok .none else .ok (.list r.1))
  else .verr (intoValidationError title r.2)

/-- `union.ModelSerializer.deserialize`, factories/union.py:135-158.  Every alternative works on a snapshot of the
element; the source map is shared by all of them. -/
def unionLoop (rec : Proxy → St → Out Val × St) (title : Title) :
    List Proxy → Dict ErrKey VErr → St → Out Val × St
  | [], errs, st =>
    if errs.isEmpty then (.ok .none, st)
    else (.verr (intoValidationError title errs), { st with el := st.el.stepForward })
  | p :: ps, errs, st =>
    match rec p ⟨st.el.createSnapshot, st.sm⟩ with
    | (.ok v, st') =>
      if v.isNone then unionLoop rec title ps errs { st with sm := st'.sm }
      else (.ok v, ⟨st.el.applySnapshot st'.el, st'.sm⟩)
    | (.verr e, st') => unionLoop rec title ps (errs.set (some (.name e.title.text)) e) { st with sm := st'.sm }
    | (.crash e, st') => (.crash e, { st with sm := st'.sm })
    | (.diverge, st') => (.diverge, { st with sm := st'.sm })

/-- `tagged_union.ModelSerializer.deserialize`, factories/tagged_union.py:101-114. -/
def taggedLoop (rec : Proxy → St → Out Val × St) (loc : Loc) (attrName : String) (mode : Mode) :
    List (String × Proxy) → St → Out Val × St
  | [], st => (.ok .none, st)
  | (tag, p) :: alts, st =>
    match st.el.search p.name mode false with
    | (some i, el) =>
      match el.elements[i]? with
      | none => (.crash .indexError, { st with el := el })
      | some c =>
        if c.getAttrib attrName = some tag then rec p ⟨el, st.sm.set loc c.line⟩
        else taggedLoop rec loc attrName mode alts { st with el := el }
    | (none, el) => taggedLoop rec loc attrName mode alts { st with el := el }

/-- The loop of `ModelSerializer.deserialize`, factories/model.py:210-227. -/
def deserFields (rec : Ser → Loc → St → Out Val × St) :
    List Field → Dict String Val → Dict ErrKey VErr → St → Out (Dict String Val × Dict ErrKey VErr) × St
  | [], res, errs, st => (.ok (res, errs), st)
  | f :: fs, res, errs, st =>
    let loc : Loc := [.name f.name]
    let st : St := { st with sm := st.sm.set loc st.el.line }
    let r := match f.validator with
      | some v => match v st.el with | (o, el) => (o, { st with el := el })
      | none => rec f.ser loc st
    match r with
    | (.ok v, st') => deserFields rec fs (if v.isNone then res else res.set (f.alias.getD f.name) v) errs st'
    | (.verr e, st') => deserFields rec fs res (errs.set (some (.name f.name)) e) st'
    | (.crash e, st') => (.crash e, st')
    | (.diverge, st') => (.diverge, st')

/-- The end of both model serializers, factories/model.py:236-242, 350-356: check for extra data, then validate. -/
def validateModel (env : Env) (cls : String) (m : ModelSer) (data : Val) (st : St) : Out Val :=
  match (if m.extraForbid then checkExtra m.title st.el else none) with
  | some e => .verr e
  | none =>
    match env.validate cls data with
    | .ok (fs, set) => .ok (.model cls fs set)
    | .error e => .verr (setSourceline m.hideInput st.sm e)

/-- `ModelSerializer.deserialize`, factories/model.py:198-242 (which ignores the passed location), and
`RootModelSerializer.deserialize`, factories/model.py:325-356. -/
def deserModel (env : Env) (rec : Ser → Loc → St → Out Val × St) (cls : String) (m : ModelSer) (loc : Loc)
    (st : St) : Out Val × St :=
  match m.body with
  | .fields fs =>
    match deserFields rec fs [] [] st with
    | (.ok (res, errs), st') =>
      if errs.isEmpty then (validateModel env cls m (.dict res) st', st')
      else (.verr (intoValidationError m.title errs), st')
    | (.verr e, st') => (.verr e, st')
    | (.crash e, st') => (.crash e, st')
    | (.diverge, st') => (.diverge, st')
  | .root s =>
    match rec s loc st with
    | (.ok v, st') => (validateModel env cls m (if v.isNone then .undef else v) st', st')
    | (.verr e, st') => (.verr (intoValidationError m.title [(none, e)]), st')
    | (.crash e, st') => (.crash e, st')
    | (.diverge, st') => (.diverge, st')

/-- `Serializer.deserialize` of every serializer kind, given the function `rec` used for the serializers it delegates to
and the fuel for the loops.  `eas` is `empty_as_string`. -/
def deserStep (env : Env) (eas : Bool) (rec : Ser → Loc → St → Out Val × St) (fuel : Nat) (s : Ser) (loc : Loc)
    (st : St) : Out Val × St :=
  match s with
  | .text computed nillable => deserText eas computed nillable st
  | .attr name computed =>
    -- factories/primitive.py:129-144
    if computed then (.ok .none, st)
    else match st.el.popAttrib name with
      | (some v, el) => (.ok (.str v), { st with el := el })
      | (none, el) => (.ok .none, { st with el := el })
  | .elem name _ mode computed nillable =>
    -- factories/primitive.py:200-221
    if computed then (.ok .none, st)
    else match st.el.popElement name mode with
      | (none, el) => (.ok .none, { st with el := el })
      | (some i, el) =>
        onChild { st with el := el } i fun c => deserText eas computed nillable { c with sm := c.sm.set loc c.el.line }
  | .attrs a => deserAttrs a st
  | .mapElem a name mode =>
    -- factories/mapping.py:122-140
    if a.computed then (.ok .none, st)
    else match st.el.popElement name mode with
      | (none, el) => (.ok .none, { st with el := el })
      | (some i, el) =>
        onChild { st with el := el } i fun c => deserAttrs a { c with sm := c.sm.set loc c.el.line }
  | .raw name mode computed =>
    -- factories/raw.py:52-71
    if computed then (.ok .none, st)
    else match st.el.popElementRemove name mode with
      | (some c, el) => (.ok (.raw (toNative env.backend c)), ⟨el, st.sm.set loc c.line⟩)
      | (none, el) => (.ok .none, { st with el := el })
  | .proxy p =>
    -- factories/model.py:441-467
    match env.model p.cls with
    | none => (.crash .assertionError, st)
    | some m =>
      if p.computed then (.ok .none, st)
      else match st.el.popElement p.name p.mode with
        | (none, el) => (.ok .none, { st with el := el })
        | (some i, el) =>
          onChild { st with el := el } i fun c =>
            let sm := c.sm.set loc c.el.line
            match c.el.isNil with
            | (true, el) => (.ok .none, ⟨el, sm⟩)
            | (false, el) => deserModel env rec p.cls m loc ⟨el, sm⟩
  | .primUnion computed inner =>
    -- factories/union.py:51-65
    if computed then (.ok .none, st) else rec inner loc st
  | .modelUnion title computed alts =>
    -- factories/union.py:120-158
    if computed then (.ok .none, st) else unionLoop (fun p st => rec (.proxy p) loc st) title alts [] st
  | .tagged computed _ attrName mode alts =>
    -- factories/tagged_union.py:86-114
    if computed then (.ok .none, st)
    else taggedLoop (fun p st => rec (.proxy p) loc st) loc attrName mode alts st
  | .wrap path _ mode computed inner =>
    -- factories/wrapper.py:67-92
    if computed then (.ok .none, st)
    else descend mode (fun c => rec inner loc { c with sm := c.sm.set loc c.el.line }) path st
  | .homog title computed inner =>
    -- factories/homogeneous.py:67-104
    if computed then (.ok .none, st)
    else match homogLoop (fun loc st => rec inner loc st) loc fuel 0 [] [] st with
      | (.ok r, st') => (homogFinish title r, st')
      | (.verr e, st') => (.verr e, st')
      | (.crash e, st') => (.crash e, st')
      | (.diverge, st') => (.diverge, st')
  | .hetero title computed inners =>
    -- factories/heterogeneous.py:61-99
    if computed then (.ok .none, st)
    else match heteroLoop rec loc inners 0 [] [] st with
      | (.ok r, st') => (heteroFinish title r, st')
      | (.verr e, st') => (.verr e, st')
      | (.crash e, st') => (.crash e, st')
      | (.diverge, st') => (.diverge, st')

/-- `Serializer.deserialize`, tied up by fuel. -/
def deser (env : Env) (eas : Bool) : Nat → Ser → Loc → St → Out Val × St
  | 0, _, _, st => (.diverge, st)
  | n + 1, s, loc, st => deserStep env eas (deser env eas n) n s loc st

/-- `BaseXmlModel.from_xml_tree`, model.py:249-281.  The second component is the final state of the element (not
observable in Python, used to state that nothing is left). -/
def fromXmlTree (env : Env) (eas : Bool) (n : Nat) (cls : String) (root : Node) : Out Val × Elem :=
  let el := fromNative env.backend root
  match env.model cls with
  | none => (.crash .assertionError, el)
  | some m =>
    if root.tag = m.elementName then
      match deserModel env (deser env eas n) cls m [] ⟨el, []⟩ with
      | (o, st) => (o, st.el)
    else (.crash .parsingError, el)

/-! ## Writing -/

/-- `skip_empty`, `exclude_none`, `exclude_unset`. -/
structure Flags where
  skipEmpty : Bool := false
  excludeNone : Bool := false
  excludeUnset : Bool := false
deriving Repr, DecidableEq

/-- Python's `str(...)`. -/
def pyStr (env : Env) : Val → String
  | .none => "None"
  | .str s => s
  | .bool true => "True"
  | .bool false => "False"
  | .int i => toString i
  | .opaque r _ => r
  | v => env.reprOf v

/-- `encode_primitive`, serializers/serializer.py:20-26. -/
def encodePrimitive (env : Env) : Val → String
  | .none => ""
  | .bool true => "true"
  | .bool false => "false"
  | v => pyStr env v

/-- `TextSerializer.serialize`, factories/primitive.py:43-60. -/
def serText (env : Env) (nillable : Bool) (fl : Flags) (el : Elem) (v enc : Val) : Elem :=
  if v.isNone && (fl.skipEmpty || fl.excludeNone) then el
  else (if nillable && v.isNone then el.makeNil else el).setText (encodePrimitive env enc)

/-- `AttributesSerializer.serialize`, factories/mapping.py:28-47. -/
def serAttrs (env : Env) (a : AttrsSer) (el : Elem) (v enc : Val) : Out Elem :=
  if v.isNone then .ok el
  else
    let ns := if a.namespaced && Elem.truthy a.ns && truthyMap a.nsmap
      then (a.nsmap.getD []).get? (a.ns.getD "") else none
    match enc with
    | .dict d => .ok (el.setAttributes (Dict.ofItems (d.map fun kv => (QName.uri ⟨kv.1, ns⟩, pyStr env kv.2))))
    | _ => .crash .attributeError

/-- Drops the finished sub-element if it is empty and `skip_empty` is set, appends it otherwise,
factories/primitive.py:194-198, mapping.py:116-120, model.py:435-439, raw.py:46-50. -/
def appendUnlessEmpty (fl : Flags) (el sub : Elem) : Elem :=
  if fl.skipEmpty && sub.isEmpty then el else el.append sub

/-- `find_element_or_create` along the path, element.py:445-456, factories/wrapper.py:58-63, with the rest of the
work done on the last element. -/
def ascend (b : Backend) (mode : Mode) (nsmap : Option NsMap) (f : Elem → Out Elem) : List String → Elem → Out Elem
  | [], el => f el
  | t :: ts, el =>
    match el.findElement t mode with
    | .error e => .crash e
    | .ok (some i, el') =>
      match el'.elements[i]? with
      | none => .crash .indexError
      | some c => (ascend b mode nsmap f ts c).bind fun c' => .ok (el'.setChild i c')
    | .ok (none, el') => (ascend b mode nsmap f ts (makeElement b t nsmap)).bind fun c' => .ok (el'.append c')

/-- The loop factories/homogeneous.py:57-63. -/
def serItems (rec : Elem → Val → Val → Out Elem) (fl : Flags) : List Val → List Val → Elem → Out Elem
  | v :: vs, enc :: encs, el =>
    if fl.skipEmpty && v.isNone then serItems rec fl vs encs el
    else (rec el v enc).bind (serItems rec fl vs encs)
  | _, _, el => .ok el

/-- The loop factories/heterogeneous.py:54-57. -/
def serTuple (rec : Ser → Elem → Val → Val → Out Elem) : List Ser → List Val → List Val → Elem → Out Elem
  | s :: ss, v :: vs, enc :: encs, el => (rec s el v enc).bind (serTuple rec ss vs encs)
  | _, _, _, el => .ok el

/-- `getattr(value, field_name)` -/
def getAttr (fields : Dict String Val) (name : String) : Out Val :=
  match fields.get? name with
  | some v => .ok v
  | none => .crash .attributeError

/-- `encoded[field_name]` -/
def getItem (enc : Val) (name : String) : Out Val :=
  match enc with
  | .dict d => match Dict.get? d name with | some v => .ok v | none => .crash .keyError
  | _ => .crash .typeError

/-- The loop of `ModelSerializer.serialize`, factories/model.py:180-194. -/
def serFields (rec : Ser → Elem → Val → Val → Out Elem) (fl : Flags) (self : Val) (fields : Dict String Val)
    (fieldsSet : List String) (enc : Val) : List Field → Elem → Out Elem
  | [], el => .ok el
  | f :: fs, el =>
    if f.exclude then serFields rec fl self fields fieldsSet enc fs el
    else if fl.excludeUnset && !fieldsSet.contains f.name then serFields rec fl self fields fieldsSet enc fs el
    else
      (match f.serializer with
       | some g => (getAttr fields f.name).bind fun v => g self el v
       | none => (getAttr fields f.name).bind fun v => (getItem enc f.name).bind fun e => rec f.ser el v e).bind
      (serFields rec fl self fields fieldsSet enc fs)

/-- `ModelSerializer.serialize`, factories/model.py:164-196, and `RootModelSerializer.serialize`,
factories/model.py:297-323.  `rec` gets the flags, because `skip_empty` can be overridden by the class. -/
def serModel (rec : Flags → Ser → Elem → Val → Val → Out Elem) (m : ModelSer) (fl : Flags) (el : Elem)
    (v enc : Val) : Out Elem :=
  match v with
  | .none => .ok el
  | .model _ fields fieldsSet =>
    let fl' := { fl with skipEmpty := m.skipEmpty.getD fl.skipEmpty }
    match m.body with
    | .fields fs => serFields (rec fl') fl' v fields fieldsSet enc fs el
    | .root s =>
      if fl.excludeUnset && !fieldsSet.contains "root" then .ok el
      else (getAttr fields "root").bind fun rv => rec fl' s el rv enc
  | _ => .crash .attributeError -- simplified: an object that is no model instance might have attributes of the same names

/-- `Serializer.serialize` of every serializer kind, given the function used for the serializers it delegates to. -/
def serStep (env : Env) (rec : Flags → Ser → Elem → Val → Val → Out Elem) (fl : Flags) (s : Ser) (el : Elem)
    (v enc : Val) : Out Elem :=
  match s with
  | .text _ nillable => .ok (serText env nillable fl el v enc)
  | .attr name _ =>
    -- factories/primitive.py:112-127
    if v.isNone && (fl.skipEmpty || fl.excludeNone) then .ok el
    else .ok (el.setAttribute name (encodePrimitive env enc))
  | .elem name nsmap _ _ nillable =>
    -- factories/primitive.py:177-198
    if v.isNone && (fl.skipEmpty || fl.excludeNone) then .ok el
    else .ok (appendUnlessEmpty fl el (serText env nillable fl (makeElement env.backend name nsmap) v enc))
  | .attrs a => serAttrs env a el v enc
  | .mapElem a name _ =>
    -- factories/mapping.py:99-120
    if fl.skipEmpty then
      match v.len? with
      | none => .crash .typeError
      | some 0 => .ok el
      | some _ => (serAttrs env a (makeElement env.backend name a.nsmap) v enc).bind fun sub =>
          .ok (appendUnlessEmpty fl el sub)
    else (serAttrs env a (makeElement env.backend name a.nsmap) v enc).bind fun sub => .ok (el.append sub)
  | .raw _ _ _ =>
    -- factories/raw.py:32-50
    match v with
    | .none => .ok el
    | .raw node => .ok (appendUnlessEmpty fl el (fromNative env.backend node))
    | _ => .crash .attributeError
  | .proxy p =>
    -- factories/model.py:407-439
    match env.model p.cls with
    | none => .crash .assertionError
    | some m =>
      if fl.excludeNone && v.isNone then .ok el
      else if p.nillable && v.isNone then .ok (el.append (makeElement env.backend p.name p.nsmap).makeNil)
      else if v.isNone then .ok el
      else (serModel rec m fl (makeElement env.backend p.name p.nsmap) v enc).bind fun sub =>
        .ok (appendUnlessEmpty fl el sub)
  | .primUnion _ inner => rec fl inner el v enc
  | .modelUnion _ _ alts =>
    -- factories/union.py:99-118
    match v with
    | .model cls _ _ =>
      match alts.find? (fun p => p.cls = cls) with
      | some p => rec fl (.proxy p) el v enc
      | none => .ok el
    | _ => .ok el
  | .tagged _ discr _ _ alts =>
    -- factories/tagged_union.py:69-84.  Simplified: tags are strings (tagged_union.py:30), so a discriminator that is neither a
    -- string nor None can only be the result of an assignment without validation; every such value is a KeyError here, while
    -- Python writes nothing for `0`, `False` and empty containers and raises a TypeError for other lists and mappings.
    match enc with
    | .dict d =>
      match Dict.get? d discr with
      | some (.str tag) =>
        if tag = "" then .ok el
        else match Dict.get? alts tag with
          | some p => rec fl (.proxy p) el v enc
          | none => .crash .keyError
      | some .none => .ok el
      | none => .ok el
      | some _ => .crash .keyError
    | _ => .crash .attributeError
  | .wrap path nsmap mode _ inner =>
    -- factories/wrapper.py:42-65
    if v.isNone then .ok el
    else if fl.skipEmpty && v.len? = some 0 then .ok el
    else ascend env.backend mode nsmap (fun c => rec fl inner c v enc) path el
  | .homog _ _ inner =>
    -- factories/homogeneous.py:41-65 (with `skip_empty` an empty collection returns early, lines 54-55, as the empty loop does).
    -- Simplified: a string, mapping or other iterable that is no collection (assigned without validation) is a TypeError here,
    -- while Python writes its characters, keys, ...; the same for tuples below.
    if v.isNone then .ok el
    else match v, enc with
      | .list vs, .list encs => serItems (rec fl inner) fl vs encs el
      | _, _ => .crash .typeError
  | .hetero _ _ inners =>
    -- factories/heterogeneous.py:35-59
    if v.isNone then .ok el
    else match v, enc with
      | .list vs, .list encs =>
        if fl.skipEmpty && vs.isEmpty then .ok el
        else if vs.length ≠ inners.length then .crash .serializationError
        else serTuple (rec fl) inners vs encs el
      | _, _ => .crash .typeError

/-- `Serializer.serialize`, tied up by fuel. -/
def ser (env : Env) : Nat → Flags → Ser → Elem → Val → Val → Out Elem
  | 0, _, _, _, _, _ => .diverge
  | n + 1, fl, s, el, v, enc => serStep env (ser env n) fl s el v enc

/-- `BaseXmlModel.to_xml_tree`, model.py:307-333, for an instance `v` of the class `cls`. -/
def toXmlTree (env : Env) (n : Nat) (fl : Flags) (cls : String) (v : Val) : Out Node :=
  match env.model cls with
  | none => .crash .assertionError
  | some m =>
    (serModel (ser env n) m fl { tag := m.elementName, nsmap := m.nsmap } v (env.toJsonable v)).bind fun root =>
      .ok (toNative env.backend root)

end PXml
