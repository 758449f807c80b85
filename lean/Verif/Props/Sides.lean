import Verif.SpecSides
import Verif.Lemmas.SidesCompile
import Verif.Props.History
import Verif.Props.TupleList

/-!
# C97: settings for writing do not influence reading, nor settings for reading writing

Specification: `SpecSides.lean`.
-/

namespace PXml

namespace Sides

theorem readingAll_eq : ∀ ss : List Ser, Ser.readingAll ss = ss.map Ser.reading
  | [] => rfl
  | s :: ss => by simp [Ser.readingAll, readingAll_eq ss]

theorem writingAll_eq : ∀ ss : List Ser, Ser.writingAll ss = ss.map Ser.writing
  | [] => rfl
  | s :: ss => by simp [Ser.writingAll, writingAll_eq ss]

theorem hetero_map {f g : Ser → Loc → St → Out Val × St} (h : ∀ s loc st, f s loc st = g s.reading loc st) (loc : Loc) (ss : List Ser) (idx : Nat)
    (acc : List Val) (errs : Dict ErrKey VErr) (st : St) :
    heteroLoop f loc ss idx acc errs st = heteroLoop g loc (ss.map Ser.reading) idx acc errs st := by
  induction ss generalizing idx acc errs st with
  | nil => rfl
  | cons s ss ih =>
    simp only [List.map_cons, heteroLoop, h, ih]

theorem union_map {f g : Proxy → St → Out Val × St} (h : ∀ p st, f p st = g p.reading st) (title : Title) (ps : List Proxy) (errs : Dict ErrKey VErr)
    (st : St) : unionLoop f title ps errs st = unionLoop g title (ps.map Proxy.reading) errs st := by
  induction ps generalizing errs st with
  | nil => rfl
  | cons p ps ih => simp only [List.map_cons, unionLoop, h, ih]

theorem tagged_map {f g : Proxy → St → Out Val × St} (h : ∀ p st, f p st = g p.reading st) (loc : Loc) (a : String) (mode : Mode)
    (alts : List (String × Proxy)) (st : St) :
    taggedLoop f loc a mode alts st = taggedLoop g loc a mode (alts.map fun kp => (kp.1, kp.2.reading)) st := by
  induction alts generalizing st with
  | nil => rfl
  | cons p ps ih =>
    obtain ⟨tag, p⟩ := p
    simp only [List.map_cons, taggedLoop, h, ih]
    rfl

theorem fields_map {f g : Ser → Loc → St → Out Val × St} (h : ∀ s loc st, f s loc st = g s.reading loc st) (fs : List Field) (res : Dict String Val)
    (errs : Dict ErrKey VErr) (st : St) : deserFields f fs res errs st = deserFields g (fs.map Field.reading) res errs st := by
  induction fs generalizing res errs st with
  | nil => rfl
  | cons fd fs ih =>
    simp only [List.map_cons, deserFields, h, ih]
    rfl

theorem model_map (env : Env) {f g : Ser → Loc → St → Out Val × St} (h : ∀ s loc st, f s loc st = g s.reading loc st) (cls : String) (m : ModelSer)
    (loc : Loc) (st : St) : deserModel env f cls m loc st = deserModel env.reading g cls m.reading loc st := by
  unfold deserModel
  cases hb : m.body with
  | fields fs =>
    have hb' : m.reading.body = .fields (fs.map Field.reading) := by simp [ModelSer.reading, hb, Body.reading]
    simp only [hb', fields_map h]
    rfl
  | root s =>
    have hb' : m.reading.body = .root s.reading := by simp [ModelSer.reading, hb, Body.reading]
    simp only [hb', h]
    rfl

theorem deser_reading (env : Env) (eas : Bool) (n : Nat) (s : Ser) (loc : Loc) (st : St) :
    deser env eas n s loc st = deser env.reading eas n s.reading loc st := by
  induction n generalizing s loc st with
  | zero => rfl
  | succ n ih =>
    change deserStep env eas (deser env eas n) n s loc st = deserStep env.reading eas (deser env.reading eas n) n s.reading loc st
    cases s with
    | text c nl => simp only [Ser.reading]; rfl
    | attr k c => simp only [Ser.reading]; rfl
    | elem nm ns mode c nl => simp only [Ser.reading]; rfl
    | attrs a => simp only [Ser.reading]; rfl
    | mapElem a nm mode => simp only [Ser.reading]; rfl
    | raw nm mode c => simp only [Ser.reading]; rfl
    | primUnion c inner => simp only [Ser.reading, deserStep, ih inner]
    | modelUnion t c alts =>
      simp only [Ser.reading, deserStep]
      rw [union_map (g := fun p st => deser env.reading eas n (.proxy p) loc st) (fun p st => by rw [ih]; simp only [Ser.reading])]
    | tagged c d a mode alts =>
      simp only [Ser.reading, deserStep]
      rw [tagged_map (g := fun p st => deser env.reading eas n (.proxy p) loc st) (fun p st => by rw [ih]; simp only [Ser.reading])]
    | wrap path ns mode c inner => simp only [Ser.reading, deserStep, ih inner]
    | homog title c inner => simp only [Ser.reading, deserStep, ih inner]
    | hetero title c inners =>
      simp only [Ser.reading, deserStep, readingAll_eq, hetero_map (fun s loc st => ih s loc st)]
    | proxy p =>
      simp only [Ser.reading, deserStep]
      have hcls : p.reading.cls = p.cls := rfl
      have hm : env.reading.model p.cls = (env.model p.cls).map ModelSer.reading := rfl
      rw [hcls, hm]
      cases env.model p.cls with
      | none => rfl
      | some m =>
        simp only [Option.map_some, model_map env (fun s loc st => ih s loc st)]
        rfl

theorem items_map {f g : Elem → Val → Val → Out Elem} (h : ∀ e v x, f e v x = g e v x) (fl : Flags) (vs encs : List Val) (el : Elem) :
    serItems f fl vs encs el = serItems g fl vs encs el := by
  have : f = g := by funext e v x; exact h e v x
  rw [this]

theorem tuple_map {f g : Ser → Elem → Val → Val → Out Elem} (h : ∀ s e v x, f s e v x = g s.writing e v x) (ss : List Ser) (vs encs : List Val)
    (el : Elem) : serTuple f ss vs encs el = serTuple g (ss.map Ser.writing) vs encs el := by
  induction ss generalizing vs encs el with
  | nil => rfl
  | cons s ss ih =>
    cases vs with
    | nil => rfl
    | cons v vs =>
      cases encs with
      | nil => rfl
      | cons x encs =>
        simp only [List.map_cons, serTuple, h]
        congr 1
        funext e
        exact ih vs encs e

theorem outFields_map {f g : Ser → Elem → Val → Val → Out Elem} (h : ∀ s e v x, f s e v x = g s.writing e v x) (fl : Flags) (self : Val)
    (d : Dict String Val) (set : List String) (enc : Val) (fs : List Field) (el : Elem) :
    serFields f fl self d set enc fs el = serFields g fl self d set enc (fs.map Field.writing) el := by
  induction fs generalizing el with
  | nil => rfl
  | cons fd fs ih =>
    have ih' : serFields f fl self d set enc fs = serFields g fl self d set enc (fs.map Field.writing) := by funext el; exact ih el
    simp only [List.map_cons, serFields, ih', h]
    rfl

theorem outModel_map {f g : Flags → Ser → Elem → Val → Val → Out Elem} (h : ∀ fl s e v x, f fl s e v x = g fl s.writing e v x) (m : ModelSer)
    (fl : Flags) (el : Elem) (v enc : Val) : serModel f m fl el v enc = serModel g m.writing fl el v enc := by
  unfold serModel
  cases v with
  | model cls d set =>
    cases hb : m.body with
    | fields fs =>
      have hb' : m.writing.body = .fields (fs.map Field.writing) := by simp [ModelSer.writing, hb, Body.writing]
      have hs : m.writing.skipEmpty = m.skipEmpty := rfl
      simp only [hb', hs]
      exact outFields_map (fun s e v x => h _ s e v x) _ _ _ _ _ _ _
    | root s =>
      have hb' : m.writing.body = .root s.writing := by simp [ModelSer.writing, hb, Body.writing]
      simp only [hb', h]
      rfl
  | _ => rfl

theorem find_writing (cls : String) (alts : List Proxy) :
    (alts.map Proxy.writing).find? (fun p => p.cls = cls) = (alts.find? (fun p => p.cls = cls)).map Proxy.writing := by
  rw [List.find?_map]
  rfl

theorem get_writing (tag : String) (alts : List (String × Proxy)) :
    Dict.get? (alts.map fun kp => (kp.1, kp.2.writing)) tag = (Dict.get? alts tag).map Proxy.writing := by
  induction alts with
  | nil => rfl
  | cons x alts ih =>
    simp only [List.map_cons, Dict.get?]
    split
    · rfl
    · exact ih

theorem ser_writing (env : Env) (n : Nat) (fl : Flags) (s : Ser) (el : Elem) (v enc : Val) :
    ser env n fl s el v enc = ser env.writing n fl s.writing el v enc := by
  induction n generalizing fl s el v enc with
  | zero => rfl
  | succ n ih =>
    change serStep env (ser env n) fl s el v enc = serStep env.writing (ser env.writing n) fl s.writing el v enc
    cases s with
    | text c nl => simp only [Ser.writing]; rfl
    | attr k c => simp only [Ser.writing]; rfl
    | elem nm ns mode c nl => simp only [Ser.writing]; rfl
    | attrs a => simp only [Ser.writing]; rfl
    | mapElem a nm mode => simp only [Ser.writing]; rfl
    | raw nm mode c => simp only [Ser.writing]; rfl
    | primUnion c inner => simp only [Ser.writing, serStep, ih _ inner]
    | modelUnion t c alts =>
      simp only [Ser.writing, serStep, find_writing]
      cases v with
      | model cls d set =>
        simp only
        cases alts.find? (fun p => p.cls = cls) with
        | none => rfl
        | some p => simp only [Option.map_some, ih, Ser.writing]
      | _ => rfl
    | tagged c d a mode alts =>
      simp only [Ser.writing, serStep, get_writing]
      cases enc with
      | dict dd =>
        simp only
        cases Dict.get? dd d with
        | none => rfl
        | some w =>
          cases w with
          | str tag =>
            simp only
            split
            · rfl
            · cases Dict.get? alts tag with
              | none => rfl
              | some p => simp only [Option.map_some, ih, Ser.writing]
          | _ => rfl
      | _ => rfl
    | wrap path ns mode c inner =>
      simp only [Ser.writing, serStep, ih _ inner]
      rfl
    | homog title c inner =>
      simp only [Ser.writing, serStep]
      have : ser env n fl inner = ser env.writing n fl inner.writing := by funext e v x; exact ih fl inner e v x
      rw [this]
    | hetero title c inners =>
      simp only [Ser.writing, serStep, writingAll_eq, tuple_map (fun s e v x => ih fl s e v x), List.length_map]
    | proxy p =>
      simp only [Ser.writing, serStep]
      have hcls : p.writing.cls = p.cls := rfl
      have hm : env.writing.model p.cls = (env.model p.cls).map ModelSer.writing := rfl
      rw [hcls, hm]
      cases env.model p.cls with
      | none => rfl
      | some m =>
        simp only [Option.map_some, outModel_map (fun fl s e v x => ih fl s e v x)]
        rfl

end Sides

/-- C97: what is read, and the errors, do not depend on the settings for writing: namespace maps, `skip_empty`, excluded fields, custom serializers,
`nillable` of sub-models, the encoding of values. -/
theorem C97_reading (env env' : Env) (h : env.reading = env'.reading) (eas : Bool) (n : Nat) (cls : String) (doc : Node) :
    fromXmlTree env eas n cls doc = fromXmlTree env' eas n cls doc := by
  have key : ∀ env : Env, fromXmlTree env eas n cls doc = fromXmlTree env.reading eas n cls doc := by
    intro env
    unfold fromXmlTree
    have hm : env.reading.model cls = (env.model cls).map ModelSer.reading := rfl
    rw [hm]
    cases env.model cls with
    | none => rfl
    | some m =>
      simp only [Option.map_some, Sides.model_map env (fun s loc st => Sides.deser_reading env eas n s loc st)]
      rfl
  rw [key env, key env', h]

/-- C97: what is written, and the exceptions, do not depend on the settings for reading: computed or not, aliases for validation, custom validators,
`extra='forbid'`, `hide_input_in_errors`, the validation of data, the names that appear in errors. -/
theorem C97_writing (env env' : Env) (h : env.writing = env'.writing) (n : Nat) (fl : Flags) (cls : String) (v : Val) :
    toXmlTree env n fl cls v = toXmlTree env' n fl cls v := by
  have key : ∀ env : Env, toXmlTree env n fl cls v = toXmlTree env.writing n fl cls v := by
    intro env
    unfold toXmlTree
    have hm : env.writing.model cls = (env.model cls).map ModelSer.writing := rfl
    rw [hm]
    cases env.model cls with
    | none => rfl
    | some m =>
      simp only [Option.map_some, Sides.outModel_map (fun fl s e v x => Sides.ser_writing env n fl s e v x)]
      rfl
  rw [key env, key env', h]

/-- C97: two programs whose classes differ only in `skip_empty`, `exclude` and custom serializers define classes that are the same for reading. -/
theorem C97_definitions_reading (classes classes' : Classes) (h : classes.reading = classes'.reading) (k : Nat) (es : List Event) (cls : String) :
    (history classes k es .empty cls).map ModelSer.reading = (history classes' k es .empty cls).map ModelSer.reading := by
  have h1 : (fun c => (history classes k es .empty c).map Sides.dropOut) = fun c => (history classes' k es .empty c).map Sides.dropOut :=
    (Sides.history_touch Sides.out classes k es .empty).symm.trans
      ((congrArg (fun x => history x k es .empty) h).trans (Sides.history_touch Sides.out classes' k es .empty))
  have h2 := congrArg (Option.map ModelSer.reading) (congrFun h1 cls)
  simpa only [Option.map_map, Function.comp_def, Sides.reading_dropOut] using h2

/-- C97: two programs whose classes differ only in `extra='forbid'`, validation aliases and custom validators define classes that are the same for
writing. -/
theorem C97_definitions_writing (classes classes' : Classes) (h : classes.writing = classes'.writing) (k : Nat) (es : List Event) (cls : String) :
    (history classes k es .empty cls).map ModelSer.writing = (history classes' k es .empty cls).map ModelSer.writing := by
  have h1 : (fun c => (history classes k es .empty c).map Sides.dropIn) = fun c => (history classes' k es .empty c).map Sides.dropIn :=
    (Sides.history_touch Sides.into classes k es .empty).symm.trans
      ((congrArg (fun x => history x k es .empty) h).trans (Sides.history_touch Sides.into classes' k es .empty))
  have h2 := congrArg (Option.map ModelSer.writing) (congrFun h1 cls)
  simpa only [Option.map_map, Function.comp_def, Sides.writing_dropIn] using h2

/-- C97: none of these settings decides whether a class statement, or a `model_rebuild`, is accepted, nor with which exception it fails. -/
theorem C97_rejected (classes classes' : Classes) (h : classes.reading = classes'.reading ∨ classes.writing = classes'.writing) (k : Nat)
    (es : List Event) (e : Event) (err : DefErr) :
    e.run classes k (history classes k es .empty) = .error err ↔ e.run classes' k (history classes' k es .empty) = .error err := by
  have key : ∀ (t : Sides.Touch), t.classes classes = t.classes classes' →
      (e.run classes k (history classes k es .empty) = .error err ↔ e.run classes' k (history classes' k es .empty) = .error err) := by
    intro t ht
    have h0 : t.built (history classes k es .empty) = t.built (history classes' k es .empty) :=
      (Sides.history_touch t classes k es .empty).symm.trans
        ((congrArg (fun x => history x k es .empty) ht).trans (Sides.history_touch t classes' k es .empty))
    have h1 := Sides.run_touch t classes (history classes k es .empty) k e
    have h2 := Sides.run_touch t classes' (history classes' k es .empty) k e
    rw [ht, h0, h2] at h1
    revert h1
    generalize e.run classes k (history classes k es .empty) = x
    generalize e.run classes' k (history classes' k es .empty) = y
    intro h1
    cases x <;> cases y
    · injection h1 with h1; rw [h1]
    · cases h1
    · cases h1
    · exact ⟨nofun, nofun⟩
  rcases h with h | h
  · exact key Sides.out h
  · exact key Sides.into h

/-- C97: after two programs whose classes differ only in `skip_empty`, `exclude` and custom serializers, and however values are encoded, every document
is read alike. -/
theorem C97_program_reading (classes classes' : Classes) (h : classes.reading = classes'.reading) (k : Nat) (es : List Event) (env env' : Env)
    (h1 : env.model = history classes k es .empty) (h2 : env'.model = history classes' k es .empty)
    (hsame : { env with model := env'.model }.reading = env'.reading) (eas : Bool) (n : Nat) (cls : String) (doc : Node) :
    fromXmlTree env eas n cls doc = fromXmlTree env' eas n cls doc := by
  refine C97_reading env env' ?_ eas n cls doc
  rw [← hsame]
  unfold Env.reading
  have : (fun cls => Option.map ModelSer.reading (env.model cls)) = fun cls => Option.map ModelSer.reading (env'.model cls) := by
    funext cls
    rw [h1, h2]
    exact C97_definitions_reading classes classes' h k es cls
  simp only [this]

/-- C97: after two programs whose classes differ only in `extra='forbid'`, validation aliases and custom validators, and however data is validated,
every instance is written alike. -/
theorem C97_program_writing (classes classes' : Classes) (h : classes.writing = classes'.writing) (k : Nat) (es : List Event) (env env' : Env)
    (h1 : env.model = history classes k es .empty) (h2 : env'.model = history classes' k es .empty)
    (hsame : { env with model := env'.model }.writing = env'.writing) (n : Nat) (fl : Flags) (cls : String) (v : Val) :
    toXmlTree env n fl cls v = toXmlTree env' n fl cls v := by
  refine C97_writing env env' ?_ n fl cls v
  rw [← hsame]
  unfold Env.writing
  have : (fun cls => Option.map ModelSer.writing (env.model cls)) = fun cls => Option.map ModelSer.writing (env'.model cls) := by
    funext cls
    rw [h1, h2]
    exact C97_definitions_writing classes classes' h k es cls
  simp only [this]

/-! ## Non-vacuity -/

namespace Ex

/-- The example classes, all of whose fields are excluded from the output, with `skip_empty` and a namespace map. -/
def mute : Body → Body
  | .fields fs => .fields (fs.map fun f => { f with exclude := true, serializer := some fun _ e _ => .ok e })
  | .root s => .root s

def muteEnv : Env := { env with
  model := fun c => (env.model c).map fun m => { m with skipEmpty := some true, nsmap := some [("p", "urn:p")], body := mute m.body } }

/-- They are the same for reading, and not for writing. -/
theorem mute_reading : muteEnv.reading = env.reading := by
  unfold Env.reading muteEnv
  congr 1
  funext c
  simp only [Option.map_map]
  congr 1
  funext m
  simp only [Function.comp, ModelSer.reading]
  congr 1
  cases m.body with
  | fields fs => simp only [mute, Body.reading, List.map_map]; rfl
  | root s => rfl

example : toXmlTree muteEnv 9 {} "Address" (.model "Address" [("zip", .str "1"), ("street", .none)] ["zip"]) ≠
    toXmlTree env 9 {} "Address" (.model "Address" [("zip", .str "1"), ("street", .none)] ["zip"]) := by
  intro h
  have h1 : toXmlTree muteEnv 9 {} "Address" (.model "Address" [("zip", .str "1"), ("street", .none)] ["zip"]) =
    .ok (.elem "Address" [] [("p", "urn:p")] none none [] none) := by kernel_rfl
  have h2 : toXmlTree env 9 {} "Address" (.model "Address" [("zip", .str "1"), ("street", .none)] ["zip"]) =
    .ok (.elem "Address" [("zip", "1")] [] (some "") none [] none) := by kernel_rfl
  rw [h1, h2] at h
  injection h with h
  injection h with _ h
  cases h

/-- The example classes with `extra='forbid'` and validators that reject everything. -/
def deaf : Body → Body
  | .fields fs => .fields (fs.map fun f => { f with alias := some "x", validator := some fun e => (.crash .typeError, e) })
  | .root s => .root s

def deafEnv : Env := { env with
  model := fun c => (env.model c).map fun m => { m with extraForbid := true, body := deaf m.body }
  validate := fun cls _ => .error ⟨cls, []⟩ }

/-- They are the same for writing. -/
theorem deaf_writing : deafEnv.writing = env.writing := by
  unfold Env.writing deafEnv
  congr 1
  funext c
  simp only [Option.map_map]
  congr 1
  funext m
  simp only [Function.comp, ModelSer.writing]
  congr 1
  cases m.body with
  | fields fs => simp only [deaf, Body.writing, List.map_map]; rfl
  | root s => rfl

/-- `class Memo(BaseXmlModel, skip_empty=…, extra=…): text: str = attr(exclude=…, validation_alias=…)` with a custom serializer and a custom validator. -/
def memoField (out : Bool) (alias : Option String) : FieldDef where
  name := "text"
  schema := .prim "str"
  validationAlias := alias
  exclude := out
  infos := [.mk (some .attribute) none none none none none]

def memoClass (out : Bool) (strict : Bool) : ClassDef where
  name := "Memo"
  params := { skipEmpty := some out }
  schema := .model "Memo" false
  body := .fields [memoField out (if strict then some "t" else none)] []
  extraForbid := strict
  validators := fun _ => if strict then some fun e => (.crash .typeError, e) else none
  serializers := fun _ => if out then some fun _ e _ => .ok e else none

def memoClasses (out strict : Bool) : Classes := fun c => if c = "Memo" then some (memoClass out strict) else none

example (out out' strict : Bool) : (memoClasses out strict).reading = (memoClasses out' strict).reading := by
  funext c
  unfold Classes.reading memoClasses
  split <;> rfl

example (out strict strict' : Bool) : (memoClasses out strict).writing = (memoClasses out strict').writing := by
  funext c
  unfold Classes.writing memoClasses
  split <;> rfl

/-- The definitions are accepted, and differ. -/
example (out : Bool) : history (memoClasses out false) 9 [.statement "Memo" true] .empty "Memo" =
    some { name := "Memo", elementName := "Memo", skipEmpty := some out, body := .fields [⟨"text", .attr "text" false, none, out, none,
      if out then some fun _ e _ => .ok e else none⟩] } := by
  cases out <;> kernel_rfl

end Ex

end PXml
