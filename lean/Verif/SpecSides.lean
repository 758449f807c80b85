import Verif.SpecModes
import Verif.SpecCompile

/-!
# Specification of "the same for reading" and "the same for writing"

Two classes are the same for reading if they become the same class when everything that concerns writing is set to a default, and the same for writing
if they become the same class when everything that concerns reading is.
-/

namespace PXml

/-- Without the settings for writing: the namespace map and `nillable` (a sub-model is `None` for `xsi:nil` in any case). -/
def Proxy.reading (p : Proxy) : Proxy := { p with nsmap := none, nillable := false }

/-- Without the settings for writing: the namespace of the attributes written, and the namespace map. -/
def AttrsSer.reading (a : AttrsSer) : AttrsSer := { a with ns := none, nsmap := none }

mutual

/-- Without the settings for writing: namespace maps, and the name of the discriminating field (not of its attribute). -/
def Ser.reading : Ser → Ser
  | .text c n => .text c n
  | .attr name c => .attr name c
  | .elem name _ mode c n => .elem name none mode c n
  | .attrs a => .attrs a.reading
  | .mapElem a name mode => .mapElem a.reading name mode
  | .raw name mode c => .raw name mode c
  | .proxy p => .proxy p.reading
  | .primUnion c inner => .primUnion c inner.reading
  | .modelUnion t c alts => .modelUnion t c (alts.map Proxy.reading)
  | .tagged c _ attrName mode alts => .tagged c "" attrName mode (alts.map fun kp => (kp.1, kp.2.reading))
  | .wrap path _ mode c inner => .wrap path none mode c inner.reading
  | .homog t c inner => .homog t c inner.reading
  | .hetero t c inners => .hetero t c (Ser.readingAll inners)

/-- The same for every serializer of a list. -/
def Ser.readingAll : List Ser → List Ser
  | [] => []
  | s :: ss => s.reading :: Ser.readingAll ss

end

/-- Without the settings for writing: `exclude` and a custom serializer. -/
def Field.reading (f : Field) : Field := { f with ser := f.ser.reading, exclude := false, serializer := none }

/-- The same for what a class consists of. -/
def Body.reading : Body → Body
  | .fields fs => .fields (fs.map Field.reading)
  | .root s => .root s.reading

/-- Without the settings for writing: the namespace map and `skip_empty`. -/
def ModelSer.reading (m : ModelSer) : ModelSer := { m with body := m.body.reading, nsmap := none, skipEmpty := none }

/-- Without the settings for writing: those of the classes, and the encoding of values. -/
def Env.reading (env : Env) : Env :=
  { env with model := fun cls => (env.model cls).map ModelSer.reading, toJsonable := id, reprOf := fun _ => "" }

/-- Without the settings for reading: whether the field is computed. -/
def Proxy.writing (p : Proxy) : Proxy := { p with computed := false }

/-- Without the settings for reading: whether the field is computed. -/
def AttrsSer.writing (a : AttrsSer) : AttrsSer := { a with computed := false }

mutual

/-- Without the settings for reading: whether the field is computed, the names used in errors, and the attribute of the discriminator. -/
def Ser.writing : Ser → Ser
  | .text _ n => .text false n
  | .attr name _ => .attr name false
  | .elem name nsmap mode _ n => .elem name nsmap mode false n
  | .attrs a => .attrs a.writing
  | .mapElem a name mode => .mapElem a.writing name mode
  | .raw name mode _ => .raw name mode false
  | .proxy p => .proxy p.writing
  | .primUnion _ inner => .primUnion false inner.writing
  | .modelUnion _ _ alts => .modelUnion "" false (alts.map Proxy.writing)
  | .tagged _ discr _ mode alts => .tagged false discr "" mode (alts.map fun kp => (kp.1, kp.2.writing))
  | .wrap path nsmap mode _ inner => .wrap path nsmap mode false inner.writing
  | .homog _ _ inner => .homog "" false inner.writing
  | .hetero _ _ inners => .hetero "" false (Ser.writingAll inners)

/-- The same for every serializer of a list. -/
def Ser.writingAll : List Ser → List Ser
  | [] => []
  | s :: ss => s.writing :: Ser.writingAll ss

end

/-- Without the settings for reading: the validation alias and a custom validator. -/
def Field.writing (f : Field) : Field := { f with ser := f.ser.writing, alias := none, validator := none }

/-- The same for what a class consists of. -/
def Body.writing : Body → Body
  | .fields fs => .fields (fs.map Field.writing)
  | .root s => .root s.writing

/-- Without the settings for reading: the name used in errors, `extra='forbid'` and `hide_input_in_errors`. -/
def ModelSer.writing (m : ModelSer) : ModelSer := { m with body := m.body.writing, name := "", extraForbid := false, hideInput := false }

/-- Without the settings for reading: those of the classes, and the validation of data. -/
def Env.writing (env : Env) : Env :=
  { env with model := fun cls => (env.model cls).map ModelSer.writing, validate := fun cls _ => .error ⟨cls, []⟩ }

/-! ## Class definitions -/

/-- The field definitions of a class, each changed by `g`. -/
def BodyDef.retouch (g : FieldDef → FieldDef) : BodyDef → BodyDef
  | .fields fs cs => .fields (fs.map g) cs
  | .root s infos => .root s infos

/-- A class definition without the settings for writing: `skip_empty`, `Field(exclude=…)` and `@xml_field_serializer`. -/
def ClassDef.reading (cd : ClassDef) : ClassDef :=
  { cd with
    params := { cd.params with skipEmpty := none }
    serializers := fun _ => none
    body := cd.body.retouch fun f => { f with exclude := false } }

/-- A class definition without the settings for reading: `extra='forbid'`, validation aliases and `@xml_field_validator`. -/
def ClassDef.writing (cd : ClassDef) : ClassDef :=
  { cd with
    extraForbid := false
    validators := fun _ => none
    body := cd.body.retouch fun f => { f with validationAlias := none } }

/-- The definitions of a program without the settings for writing. -/
def Classes.reading (classes : Classes) : Classes := fun c => (classes c).map ClassDef.reading

/-- The definitions of a program without the settings for reading. -/
def Classes.writing (classes : Classes) : Classes := fun c => (classes c).map ClassDef.writing

end PXml
