import Verif.Serializer

/-!
# The arguments of `deserialize`

`Verif/Serializer.lean` fixes the validation context and `empty_as_string` for a whole run.  In the code they are arguments
of every call of `deserialize`, and each of the serializers has to pass them on.  Here the reading functions are modelled
once more with both arguments in every call, and with pydantic's validation as a function that is given the context and may
look at, and change, some state of the world (validators may count calls, fill the context, write to a file).
-/

namespace PXml
namespace Threaded

/-- The arguments `context` and `empty_as_string`, serializers/serializer.py:300-318. -/
structure Opts (C : Type) where
  context : Option C := none
  emptyAsString : Bool := false

/-- The environment; `validate context cls data` is `cls.model_validate(data, strict=False, context=context)`, run in a state of
the world. -/
structure TEnv (C W : Type) where
  backend : Backend
  model : String → Option ModelSer
  validate : Option C → String → Val → W → Except VErr (List (String × Val) × List String) × W

/-- The element, the source map and the state of the world. -/
structure TSt (W : Type) where
  el : Elem
  sm : SMap
  w : W

variable {C W : Type}

/-- The part of the state that the serializers own. -/
def TSt.st (s : TSt W) : St := ⟨s.el, s.sm⟩

/-- The same state of the world, another element and source map. -/
def TSt.put (s : TSt W) (st : St) : TSt W := ⟨st.el, st.sm, s.w⟩

/-- `deserialize` of a serializer: the arguments, the location, the state. -/
abbrev Read (C W : Type) := Opts C → Loc → TSt W → Out Val × TSt W

/-- Runs `f` on the child at index `i`; the child is mutated in place. -/
def onChild {α : Type} (s : TSt W) (i : Nat) (f : TSt W → Out α × TSt W) : Out α × TSt W :=
  match s.el.elements[i]? with
  | none => (.crash .indexError, s)
  | some c =>
    match f { s with el := c } with
    | (o, s') => (o, ⟨s.el.setChild i s'.el, s'.sm, s'.w⟩)

/-- `TextSerializer.deserialize`, factories/primitive.py:62-81. -/
def text (computed nillable : Bool) (o : Opts C) (s : TSt W) : Out Val × TSt W :=
  match deserText o.emptyAsString computed nillable s.st with
  | (r, st) => (r, s.put st)

/-- `AttributesSerializer.deserialize`, factories/mapping.py:49-67 (uses neither argument). -/
def attrs (a : AttrsSer) (_ : Opts C) (s : TSt W) : Out Val × TSt W :=
  match deserAttrs a s.st with
  | (r, st) => (r, s.put st)

/-- `find_sub_element` and the call on the last element, element.py:433-443, factories/wrapper.py:82-92. -/
def descend (mode : Mode) (f : Opts C → TSt W → Out Val × TSt W) (o : Opts C) : List String → TSt W → Out Val × TSt W
  | [], s => f o s
  | t :: ts, s =>
    match s.el.findElement t mode with
    | .error e => (.crash e, s)
    | .ok (none, el) => (.ok .none, { s with el := el })
    | .ok (some i, el) => onChild { s with el := el } i (descend mode f o ts)

/-- factories/homogeneous.py:83-95. -/
def homogLoop (read : Read C W) (o : Opts C) (loc : Loc) :
    Nat → Nat → List Val → Dict ErrKey VErr → TSt W → Out (List Val × Dict ErrKey VErr) × TSt W
  | 0, _, _, _, s => (.diverge, s)
  | n + 1, idx, acc, errs, s =>
    match read o (loc ++ [.idx idx]) s with
    | (.ok v, s') =>
      if v.isNone then (.ok (acc, errs), s') else homogLoop read o loc n (idx + 1) (acc ++ [v]) errs s'
    | (.verr e, s') => homogLoop read o loc n (idx + 1) acc (errs ++ [(some (.idx idx), e)]) s'
    | (.crash e, s') => (.crash e, s')
    | (.diverge, s') => (.diverge, s')

/-- factories/heterogeneous.py:76-87. -/
def heteroLoop (read : Ser → Read C W) (o : Opts C) (loc : Loc) :
    List Ser → Nat → List Val → Dict ErrKey VErr → TSt W → Out (List Val × Dict ErrKey VErr) × TSt W
  | [], _, acc, errs, s => (.ok (acc, errs), s)
  | x :: xs, idx, acc, errs, s =>
    match read x o (loc ++ [.idx idx]) s with
    | (.ok v, s') => heteroLoop read o loc xs (idx + 1) (acc ++ [v]) errs s'
    | (.verr e, s') => heteroLoop read o loc xs (idx + 1) acc (errs ++ [(some (.idx idx), e)]) s'
    | (.crash e, s') => (.crash e, s')
    | (.diverge, s') => (.diverge, s')

/-- factories/union.py:135-158: alternatives work on snapshots of the element; what validators did to the rest of the world
is not taken back when an alternative fails. -/
def unionLoop (read : Proxy → Read C W) (o : Opts C) (loc : Loc) (title : Title) :
    List Proxy → Dict ErrKey VErr → TSt W → Out Val × TSt W
  | [], errs, s =>
    if errs.isEmpty then (.ok .none, s)
    else (.verr (intoValidationError title errs), { s with el := s.el.stepForward })
  | p :: ps, errs, s =>
    match read p o loc { s with el := s.el.createSnapshot } with
    | (.ok v, s') =>
      if v.isNone then unionLoop read o loc title ps errs { s' with el := s.el }
      else (.ok v, { s' with el := s.el.applySnapshot s'.el })
    | (.verr e, s') => unionLoop read o loc title ps (errs.set (some (.name e.title.text)) e) { s' with el := s.el }
    | (.crash e, s') => (.crash e, { s' with el := s.el })
    | (.diverge, s') => (.diverge, { s' with el := s.el })

/-- factories/tagged_union.py:101-114. -/
def taggedLoop (read : Proxy → Read C W) (o : Opts C) (loc : Loc) (attrName : String) (mode : Mode) :
    List (String × Proxy) → TSt W → Out Val × TSt W
  | [], s => (.ok .none, s)
  | (tag, p) :: alts, s =>
    match s.el.search p.name mode false with
    | (some i, el) =>
      match el.elements[i]? with
      | none => (.crash .indexError, { s with el := el })
      | some c =>
        if c.getAttrib attrName = some tag then read p o loc { s with el := el, sm := s.sm.set loc c.line }
        else taggedLoop read o loc attrName mode alts { s with el := el }
    | (none, el) => taggedLoop read o loc attrName mode alts { s with el := el }

/-- factories/model.py:210-227.  Custom validators of fields are given the element, and neither argument. -/
def fields (read : Ser → Read C W) (o : Opts C) :
    List Field → Dict String Val → Dict ErrKey VErr → TSt W → Out (Dict String Val × Dict ErrKey VErr) × TSt W
  | [], res, errs, s => (.ok (res, errs), s)
  | f :: fs, res, errs, s =>
    let loc : Loc := [.name f.name]
    let s : TSt W := { s with sm := s.sm.set loc s.el.line }
    let r := match f.validator with
      | some v => match v s.el with | (out, el) => (out, { s with el := el })
      | none => read f.ser o loc s
    match r with
    | (.ok v, s') => fields read o fs (if v.isNone then res else res.set (f.alias.getD f.name) v) errs s'
    | (.verr e, s') => fields read o fs res (errs.set (some (.name f.name)) e) s'
    | (.crash e, s') => (.crash e, s')
    | (.diverge, s') => (.diverge, s')

/-- factories/model.py:236-242, 350-356. -/
def validateModel (E : TEnv C W) (o : Opts C) (cls : String) (m : ModelSer) (data : Val) (s : TSt W) : Out Val × TSt W :=
  match (if m.extraForbid then checkExtra m.title s.el else none) with
  | some e => (.verr e, s)
  | none =>
    match E.validate o.context cls data s.w with
    | (.ok (fs, set), w) => (.ok (.model cls fs set), { s with w := w })
    | (.error e, w) => (.verr (setSourceline m.hideInput s.sm e), { s with w := w })

/-- factories/model.py:198-242, 325-356. -/
def modelSer (E : TEnv C W) (read : Ser → Read C W) (o : Opts C) (cls : String) (m : ModelSer) (loc : Loc) (s : TSt W) :
    Out Val × TSt W :=
  match m.body with
  | .fields fs =>
    match fields read o fs [] [] s with
    | (.ok (res, errs), s') =>
      if errs.isEmpty then validateModel E o cls m (.dict res) s'
      else (.verr (intoValidationError m.title errs), s')
    | (.verr e, s') => (.verr e, s')
    | (.crash e, s') => (.crash e, s')
    | (.diverge, s') => (.diverge, s')
  | .root x =>
    match read x o loc s with
    | (.ok v, s') => validateModel E o cls m (if v.isNone then .undef else v) s'
    | (.verr e, s') => (.verr (intoValidationError m.title [(none, e)]), s')
    | (.crash e, s') => (.crash e, s')
    | (.diverge, s') => (.diverge, s')

/-- `deserialize` of every kind of serializer (the lines are cited in `deserStep`). -/
def step (E : TEnv C W) (read : Ser → Read C W) (fuel : Nat) (x : Ser) (o : Opts C) (loc : Loc) (s : TSt W) : Out Val × TSt W :=
  match x with
  | .text computed nillable => text computed nillable o s
  | .attr name computed =>
    if computed then (.ok .none, s)
    else match s.el.popAttrib name with
      | (some v, el) => (.ok (.str v), { s with el := el })
      | (none, el) => (.ok .none, { s with el := el })
  | .elem name _ mode computed nillable =>
    if computed then (.ok .none, s)
    else match s.el.popElement name mode with
      | (none, el) => (.ok .none, { s with el := el })
      | (some i, el) => onChild { s with el := el } i fun c => text computed nillable o { c with sm := c.sm.set loc c.el.line }
  | .attrs a => attrs a o s
  | .mapElem a name mode =>
    if a.computed then (.ok .none, s)
    else match s.el.popElement name mode with
      | (none, el) => (.ok .none, { s with el := el })
      | (some i, el) => onChild { s with el := el } i fun c => attrs a o { c with sm := c.sm.set loc c.el.line }
  | .raw name mode computed =>
    if computed then (.ok .none, s)
    else match s.el.popElementRemove name mode with
      | (some c, el) => (.ok (.raw (toNative E.backend c)), { s with el := el, sm := s.sm.set loc c.line })
      | (none, el) => (.ok .none, { s with el := el })
  | .proxy p =>
    match E.model p.cls with
    | none => (.crash .assertionError, s)
    | some m =>
      if p.computed then (.ok .none, s)
      else match s.el.popElement p.name p.mode with
        | (none, el) => (.ok .none, { s with el := el })
        | (some i, el) =>
          onChild { s with el := el } i fun c =>
            let sm := c.sm.set loc c.el.line
            match c.el.isNil with
            | (true, el) => (.ok .none, { c with el := el, sm := sm })
            | (false, el) => modelSer E read o p.cls m loc { c with el := el, sm := sm }
  | .primUnion computed inner => if computed then (.ok .none, s) else read inner o loc s
  | .modelUnion title computed alts =>
    if computed then (.ok .none, s) else unionLoop (fun p => read (.proxy p)) o loc title alts [] s
  | .tagged computed _ attrName mode alts =>
    if computed then (.ok .none, s) else taggedLoop (fun p => read (.proxy p)) o loc attrName mode alts s
  | .wrap path _ mode computed inner =>
    if computed then (.ok .none, s)
    else descend mode (fun o c => read inner o loc { c with sm := c.sm.set loc c.el.line }) o path s
  | .homog title computed inner =>
    if computed then (.ok .none, s)
    else match homogLoop (read inner) o loc fuel 0 [] [] s with
      | (.ok r, s') => (homogFinish title r, s')
      | (.verr e, s') => (.verr e, s')
      | (.crash e, s') => (.crash e, s')
      | (.diverge, s') => (.diverge, s')
  | .hetero title computed inners =>
    if computed then (.ok .none, s)
    else match heteroLoop read o loc inners 0 [] [] s with
      | (.ok r, s') => (heteroFinish title r, s')
      | (.verr e, s') => (.verr e, s')
      | (.crash e, s') => (.crash e, s')
      | (.diverge, s') => (.diverge, s')

/-- `deserialize`, tied up by fuel. -/
def read (E : TEnv C W) : Nat → Ser → Read C W
  | 0, _, _, _, s => (.diverge, s)
  | n + 1, x, o, loc, s => step E (read E n) n x o loc s

/-- `from_xml_tree(root, context, empty_as_string)`, model.py:249-281, with the state of the world before and after. -/
def fromXmlTree (E : TEnv C W) (n : Nat) (cls : String) (root : Node) (context : Option C := none)
    (emptyAsString : Bool := false) (w : W) : Out Val × W :=
  match E.model cls with
  | none => (.crash .assertionError, w)
  | some m =>
    if root.tag = m.elementName then
      match modelSer E (read E n) ⟨context, emptyAsString⟩ cls m [] ⟨fromNative E.backend root, [], w⟩ with
      | (out, s) => (out, s.w)
    else (.crash .parsingError, w)

/-- `from_xml(source, context, empty_as_string)`, model.py:283-305; `parse` is `etree.fromstring` (with the remaining keyword
arguments). -/
def fromXml (E : TEnv C W) (parse : String → Except PyErr Node) (n : Nat) (cls : String) (source : String)
    (context : Option C := none) (emptyAsString : Bool := false) (w : W) : Out Val × W :=
  match parse source with
  | .error e => (.crash e, w)
  | .ok root => fromXmlTree E n cls root (emptyAsString := emptyAsString) (context := context) w

end Threaded
end PXml
