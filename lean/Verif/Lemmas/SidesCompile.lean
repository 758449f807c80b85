import Verif.SpecSides
import Verif.Lemmas.Compile

/-! Class definitions are accepted or not, and give the same serializers, whatever the settings for writing, or those for reading, are. -/

namespace PXml
namespace Sides

/-- A change of class definitions that concerns only what a class says about its fields besides their serializers. -/
structure Touch where
  cls : ClassDef → ClassDef
  ser : ModelSer → ModelSer
  name : ∀ cd, (cls cd).name = cd.name
  tag : ∀ cd, (cls cd).params.tag = cd.params.tag
  ns : ∀ cd, (cls cd).params.ns = cd.params.ns
  nsmap : ∀ cd, (cls cd).params.nsmap = cd.params.nsmap
  schema : ∀ cd, (cls cd).schema = cd.schema
  ctx : ∀ cd, (cls cd).ctx = cd.ctx
  complete : ∀ cd k, cls { cd with complete := k } = { cls cd with complete := k }
  isComplete : ∀ cd, (cls cd).complete = cd.complete
  compile : ∀ rec cd c, compileClass rec (cls cd) c = (compileClass rec cd c).map ser
  discr : ∀ (built : Built) d c, discriminatorAttr (fun x => (built x).map ser) d c = discriminatorAttr built d c

variable (t : Touch)

/-- The definitions, each changed. -/
abbrev Touch.classes (classes : Classes) : Classes := fun c => (classes c).map t.cls

/-- The classes built so far, each changed. -/
abbrev Touch.built (built : Built) : Built := fun c => (built c).map t.ser

theorem proxyOf_touch (classes : Classes) (cls : String) (c : Ctx) : proxyOf (t.classes classes) cls c = proxyOf classes cls c := by
  unfold proxyOf
  simp only [Touch.classes]
  cases classes cls with
  | none => rfl
  | some cd => simp only [Option.map_some, t.name, t.tag, t.ns, t.nsmap]

theorem taggedLoopOf_touch (rec : Schema → Ctx → Except DefErr Ser) (built : Built) (d : String) (c : Ctx) :
    ∀ (cs : List (Option String × Schema)) (a : Option String) (acc : Dict String Proxy),
      taggedLoopOf rec (t.built built) d c cs a acc = taggedLoopOf rec built d c cs a acc
  | [], _, _ => rfl
  | (none, _) :: _, _, _ => rfl
  | (some tag, s) :: cs, a, acc => by
    unfold taggedLoopOf
    simp only [t.discr, taggedLoopOf_touch rec built d c cs]

theorem select_touch (classes : Classes) (built : Built) (rec : Schema → Ctx → Except DefErr Ser) (n : Nat) (s : Schema) (c : Ctx) :
    select (t.classes classes) (t.built built) rec n s c = select classes built rec n s c := by
  have h1 : ∀ cls, modelOf (t.classes classes) cls c = modelOf classes cls c := by
    intro cls
    unfold modelOf
    rw [proxyOf_touch]
  have h2 : ∀ d cs, taggedOf rec n (t.built built) d cs c = taggedOf rec n built d cs c := by
    intro d cs
    unfold taggedOf
    simp only [taggedLoopOf_touch]
  unfold select
  simp only [h1, h2]

theorem parse_touch (classes : Classes) (built : Built) : ∀ n : Nat, parse (t.classes classes) (t.built built) n = parse classes built n
  | 0 => rfl
  | n + 1 => by
    funext s c
    unfold parse
    rw [parse_touch classes built n]
    cases preprocess n s c with
    | error e => rfl
    | ok x => exact select_touch t classes built _ n x.1 x.2

theorem buildClass_touch (classes : Classes) (built : Built) (n : Nat) (cd : ClassDef) :
    buildClass (t.classes classes) (t.built built) n (t.cls cd) = (buildClass classes built n cd).map (Option.map t.ser) := by
  unfold buildClass
  rw [t.schema, t.ctx, t.isComplete]
  split
  · cases preprocess n cd.schema cd.ctx with
    | error e => rfl
    | ok x =>
      obtain ⟨s, c⟩ := x
      cases s with
      | model cls r =>
        simp only [Touch.classes]
        cases classes cls with
        | none => rfl
        | some cd =>
          simp only [Option.map_some]
          rw [show parse (fun c => (classes c).map t.cls) (t.built built) n = parse classes built n from parse_touch t classes built n, t.compile]
          generalize compileClass _ _ _ = r
          cases r <;> rfl
      | _ => rfl
  · rfl

theorem setSerializer_touch (classes : Classes) (built : Built) (n : Nat) (c : String) (k : Bool) :
    setSerializer (t.classes classes) n (t.built built) c k = (setSerializer classes n built c k).map t.built := by
  unfold setSerializer
  have : (t.classes classes) c = (classes c).map t.cls := rfl
  rw [this]
  cases classes c with
  | none => rfl
  | some cd =>
    have h := buildClass_touch t classes built n { cd with complete := cd.complete && k }
    rw [t.complete] at h
    simp only [Option.map_some, t.isComplete]
    rw [h]
    cases buildClass classes built n { cd with complete := cd.complete && k } with
    | error e => rfl
    | ok m =>
      refine congrArg Except.ok (funext fun x => ?_)
      simp only [Touch.built]
      split <;> rfl

theorem run_touch (classes : Classes) (built : Built) (n : Nat) (e : Event) :
    e.run (t.classes classes) n (t.built built) = (e.run classes n built).map t.built := by
  cases e with
  | statement c k => exact setSerializer_touch t classes built n c k
  | rebuild c k =>
    unfold Event.run
    simp only [Touch.built, Option.isNone_map]
    split
    · exact setSerializer_touch t classes built n c k
    · rfl

theorem history_touch (classes : Classes) (n : Nat) : ∀ (es : List Event) (built : Built),
    history (t.classes classes) n es (t.built built) = t.built (history classes n es built)
  | [], _ => rfl
  | e :: es, built => by
    unfold history
    rw [run_touch]
    cases e.run classes n built with
    | error e => exact history_touch classes n es built
    | ok b => exact history_touch classes n es b

/-! ## The two changes -/

/-- The fields of a built class, each changed. -/
def bodyMap (g : Field → Field) : Body → Body
  | .fields fs => .fields (fs.map g)
  | .root s => .root s

theorem find_map {g : Field → Field} (hn : ∀ f, (g f).name = f.name) (d : String) : ∀ fs : List Field,
    (fs.map g).find? (fun f => f.name = d) = (fs.find? fun f => f.name = d).map g
  | [] => rfl
  | f :: fs => by
    simp only [List.map_cons, List.find?_cons, find_map hn d fs, hn]
    cases decide (f.name = d) <;> rfl

theorem discr_map {μ : ModelSer → ModelSer} {g : Field → Field} (hb : ∀ m, (μ m).body = bodyMap g m.body) (hn : ∀ f, (g f).name = f.name)
    (hs : ∀ f, (g f).ser = f.ser) (built : Built) (d c : String) :
    discriminatorAttr (fun x => (built x).map μ) d c = discriminatorAttr built d c := by
  have key : ∀ b : Built, discriminatorAttr b d c = match (b c).map ModelSer.body with
      | some (.fields fs) => (match (fs.find? fun f => f.name = d).map Field.ser with
        | some (.attr name _) => .ok name
        | _ => .error (.fieldError "discriminator field must be an xml attribute"))
      | _ => .error (.assertion "unexpected model serializer type") := by
    intro b
    unfold discriminatorAttr
    cases b c with
    | none => rfl
    | some m =>
      obtain ⟨name, el, nsm, body, sk, ex, hi⟩ := m
      cases body with
      | root s => rfl
      | fields fs =>
        simp only [Option.map_some]
        cases fs.find? (fun f => decide (f.name = d)) with
        | none => rfl
        | some f =>
          obtain ⟨fname, fser, al, exc, va, se⟩ := f
          cases fser <;> rfl
  rw [key, key]
  cases built c with
  | none => rfl
  | some m =>
    simp only [Option.map_some, hb]
    cases m.body with
    | root s => rfl
    | fields fs =>
      simp only [bodyMap, find_map hn, Option.map_map]
      have : (Field.ser ∘ g) = Field.ser := funext hs
      rw [this]

/-- The built class without the settings for writing, but for the serializers of its fields. -/
def dropOut (m : ModelSer) : ModelSer := { m with skipEmpty := none, body := bodyMap (fun f => { f with exclude := false, serializer := none }) m.body }

/-- The built class without the settings for reading, but for the serializers of its fields. -/
def dropIn (m : ModelSer) : ModelSer := { m with extraForbid := false, body := bodyMap (fun f => { f with alias := none, validator := none }) m.body }

theorem fields_dropOut (rec : Schema → Ctx → Except DefErr Ser) (cd : ClassDef) (c : Ctx) : ∀ fs : List FieldDef,
    compileFields rec cd.reading c (fs.map fun f => { f with exclude := false }) =
      (compileFields rec cd c fs).map (List.map fun f => { f with exclude := false, serializer := none })
  | [] => rfl
  | f :: fs => by
    have h1 : FieldDef.ctx c { f with exclude := false } = f.ctx c := rfl
    simp only [List.map_cons, compileFields, fields_dropOut rec cd c fs, h1]
    split
    · rfl
    · cases rec f.schema (f.ctx c) with
      | error e => rfl
      | ok x => cases compileFields rec cd c fs <;> rfl

theorem computed_dropOut (rec : Schema → Ctx → Except DefErr Ser) (cd : ClassDef) (c : Ctx) : ∀ fs : List ComputedDef,
    compileComputed rec cd.reading c fs =
      (compileComputed rec cd c fs).map (List.map fun f => { f with exclude := false, serializer := none })
  | [] => rfl
  | f :: fs => by
    simp only [compileComputed, computed_dropOut rec cd c fs]
    cases rec f.schema (f.ctx c) with
    | error e => rfl
    | ok x => cases compileComputed rec cd c fs <;> rfl

theorem fields_dropIn (rec : Schema → Ctx → Except DefErr Ser) (cd : ClassDef) (c : Ctx) : ∀ fs : List FieldDef,
    compileFields rec cd.writing c (fs.map fun f => { f with validationAlias := none }) =
      (compileFields rec cd c fs).map (List.map fun f => { f with alias := none, validator := none })
  | [] => rfl
  | f :: fs => by
    have h1 : FieldDef.ctx c { f with validationAlias := none } = f.ctx c := rfl
    simp only [List.map_cons, compileFields, fields_dropIn rec cd c fs, h1]
    split
    · rfl
    · cases rec f.schema (f.ctx c) with
      | error e => rfl
      | ok x => cases compileFields rec cd c fs <;> rfl

theorem computed_dropIn (rec : Schema → Ctx → Except DefErr Ser) (cd : ClassDef) (c : Ctx) : ∀ fs : List ComputedDef,
    compileComputed rec cd.writing c fs =
      (compileComputed rec cd c fs).map (List.map fun f => { f with alias := none, validator := none })
  | [] => rfl
  | f :: fs => by
    simp only [compileComputed, computed_dropIn rec cd c fs]
    cases rec f.schema (f.ctx c) with
    | error e => rfl
    | ok x => cases compileComputed rec cd c fs <;> rfl

theorem compile_dropOut (rec : Schema → Ctx → Except DefErr Ser) (cd : ClassDef) (c : Ctx) :
    compileClass rec cd.reading c = (compileClass rec cd c).map dropOut := by
  have hin : cd.reading.inside c = cd.inside c := rfl
  have h1 := fields_dropOut rec cd (cd.inside c)
  have h2 := computed_dropOut rec cd (cd.inside c)
  unfold compileClass
  rw [hin]
  have hb : cd.reading.body = cd.body.retouch fun f => { f with exclude := false } := rfl
  rw [hb]
  cases cd.body with
  | fields fs cs =>
    simp only [BodyDef.retouch, h1, h2]
    cases compileFields rec cd (cd.inside c) fs with
    | error e => rfl
    | ok a => cases compileComputed rec cd (cd.inside c) cs with
      | error e => rfl
      | ok b =>
        simp only [Except.map, ← List.map_append]
        show Except.map _ (QName.fromAlias ((strOr cd.params.tag (some cd.name)).getD cd.name) cd.params.ns cd.params.nsmap false) = _
        generalize QName.fromAlias _ _ _ _ = r
        cases r <;> rfl
  | root s infos =>
    simp only [BodyDef.retouch]
    cases rec s { (cd.inside c).child (EntityInfo.extract infos) with fieldName := none } with
    | error e => rfl
    | ok x =>
      simp only [Except.map]
      show Except.map _ (QName.fromAlias ((strOr cd.params.tag (some cd.name)).getD cd.name) cd.params.ns cd.params.nsmap false) = _
      generalize QName.fromAlias _ _ _ _ = r
      cases r <;> rfl

theorem compile_dropIn (rec : Schema → Ctx → Except DefErr Ser) (cd : ClassDef) (c : Ctx) :
    compileClass rec cd.writing c = (compileClass rec cd c).map dropIn := by
  have hin : cd.writing.inside c = cd.inside c := rfl
  have h1 := fields_dropIn rec cd (cd.inside c)
  have h2 := computed_dropIn rec cd (cd.inside c)
  unfold compileClass
  rw [hin]
  have hb : cd.writing.body = cd.body.retouch fun f => { f with validationAlias := none } := rfl
  rw [hb]
  cases cd.body with
  | fields fs cs =>
    simp only [BodyDef.retouch, h1, h2]
    cases compileFields rec cd (cd.inside c) fs with
    | error e => rfl
    | ok a => cases compileComputed rec cd (cd.inside c) cs with
      | error e => rfl
      | ok b =>
        simp only [Except.map, ← List.map_append]
        show Except.map _ (QName.fromAlias ((strOr cd.params.tag (some cd.name)).getD cd.name) cd.params.ns cd.params.nsmap false) = _
        generalize QName.fromAlias _ _ _ _ = r
        cases r <;> rfl
  | root s infos =>
    simp only [BodyDef.retouch]
    cases rec s { (cd.inside c).child (EntityInfo.extract infos) with fieldName := none } with
    | error e => rfl
    | ok x =>
      simp only [Except.map]
      show Except.map _ (QName.fromAlias ((strOr cd.params.tag (some cd.name)).getD cd.name) cd.params.ns cd.params.nsmap false) = _
      generalize QName.fromAlias _ _ _ _ = r
      cases r <;> rfl

/-- Leaving the settings for writing out of the definitions. -/
def out : Touch where
  cls := ClassDef.reading
  ser := dropOut
  name _ := rfl
  tag _ := rfl
  ns _ := rfl
  nsmap _ := rfl
  schema _ := rfl
  ctx _ := rfl
  complete _ _ := rfl
  isComplete _ := rfl
  compile := compile_dropOut
  discr := discr_map (g := fun f => { f with exclude := false, serializer := none }) (fun _ => rfl) (fun _ => rfl) (fun _ => rfl)

/-- Leaving the settings for reading out of the definitions. -/
def into : Touch where
  cls := ClassDef.writing
  ser := dropIn
  name _ := rfl
  tag _ := rfl
  ns _ := rfl
  nsmap _ := rfl
  schema _ := rfl
  ctx _ := rfl
  complete _ _ := rfl
  isComplete _ := rfl
  compile := compile_dropIn
  discr := discr_map (g := fun f => { f with alias := none, validator := none }) (fun _ => rfl) (fun _ => rfl) (fun _ => rfl)

theorem reading_dropOut (m : ModelSer) : (dropOut m).reading = m.reading := by
  obtain ⟨name, el, nsm, body, sk, ex, hi⟩ := m
  cases body with
  | root s => rfl
  | fields fs => simp [dropOut, ModelSer.reading, bodyMap, Body.reading, Field.reading, Function.comp_def]

theorem writing_dropIn (m : ModelSer) : (dropIn m).writing = m.writing := by
  obtain ⟨name, el, nsm, body, sk, ex, hi⟩ := m
  cases body with
  | root s => rfl
  | fields fs => simp [dropIn, ModelSer.writing, bodyMap, Body.writing, Field.writing, Function.comp_def]

end Sides
end PXml
