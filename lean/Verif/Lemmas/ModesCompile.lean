import Verif.Lemmas.Modes
import Verif.Props.History

/-! Definitions are accepted or not whatever `search_mode` is, and give the same serializers but for the search modes. -/

namespace PXml
namespace Modes

/-- The context with `search_mode='strict'`. -/
abbrev st (c : Ctx) : Ctx := { c with mode := .strict }

theorem preprocess_st : ∀ (n : Nat) (s : Schema) (c : Ctx),
    preprocess n s (st c) = (preprocess n s c).map fun x => (x.1, st x.2)
  | 0, _, _ => rfl
  | n + 1, s, c => by
    cases s with
    | func i => exact preprocess_st n i c
    | funcPlain o =>
      cases o with
      | none => rfl
      | some i => exact preprocess_st n i c
    | default i => exact preprocess_st n i c
    | nullable i => exact preprocess_st n i c
    | jsonOrPython i => exact preprocess_st n i c
    | definitions defs i => exact preprocess_st n i { c with defs := Dict.update c.defs defs }
    | ref r =>
      simp only [preprocess]
      split
      · exact preprocess_st n _ c
      · rfl
    | _ => rfl

theorem tupleItems_st (n : Nat) : ∀ (ss : List Schema) (c : Ctx), tupleItems n ss (st c) = (tupleItems n ss c).map st
  | [], _ => rfl
  | s :: ss, c => by
    unfold tupleItems
    rw [preprocess_st]
    cases preprocess n s c with
    | error e => rfl
    | ok x =>
      simp only [Except.map]
      split
      · rfl
      · split <;> rename_i h
        · have h' : (!(decide (x.1.family = some .model) || decide (x.1.family = some .union)) && decide (x.2.location = none)) = true := h
          rw [if_pos h']
        · have h' : ¬(!(decide (x.1.family = some .model) || decide (x.1.family = some .union)) && decide (x.2.location = none)) = true := h
          rw [if_neg h']
          exact tupleItems_st n ss x.2

theorem primitives_st (n : Nat) (c : Ctx) : ∀ ss : List Schema, primitives n (st c) ss = primitives n c ss
  | [] => rfl
  | s :: ss => by
    unfold primitives
    rw [preprocess_st]
    cases preprocess n s c with
    | error e => rfl
    | ok x =>
      simp only [Except.map]
      rw [primitives_st n c ss]

theorem unionFamilies_st (n : Nat) : ∀ (ss : List Schema) (c : Ctx),
    unionFamilies n ss (st c) = (unionFamilies n ss c).map fun x => (x.1, st x.2)
  | [], _ => rfl
  | s :: ss, c => by
    unfold unionFamilies
    rw [preprocess_st]
    cases preprocess n s c with
    | error e => rfl
    | ok x =>
      have := unionFamilies_st n ss x.2
      simp only [Except.map]
      split
      all_goals first | rfl | skip
      all_goals
        rw [this]
        cases unionFamilies n ss x.2 with
        | error e => rfl
        | ok y => rfl

theorem taggedChoices_st (n : Nat) : ∀ (ss : List Schema) (c : Ctx),
    taggedChoices n ss (st c) = (taggedChoices n ss c).map st
  | [], _ => rfl
  | s :: ss, c => by
    unfold taggedChoices
    rw [preprocess_st]
    cases preprocess n s c with
    | error e => rfl
    | ok x =>
      obtain ⟨t, c'⟩ := x
      cases t with
      | model cls r => cases r with
        | true => rfl
        | false => exact taggedChoices_st n ss c'
      | _ => rfl


/-- The classes built so far with `search_mode='strict'` everywhere. -/
abbrev built' (built : Built) : Built := fun c => (built c).map ModelSer.strict

/-- All classes with `search_mode='strict'`. -/
abbrev classes' (classes : Classes) : Classes := classes.searching fun _ => .strict

section
variable {rec rec' : Schema → Ctx → Except DefErr Ser} (hr : ∀ s c, rec' s (st c) = (rec s c).map Ser.strict)
include hr

theorem parseAll_st (c : Ctx) : ∀ ss : List Schema, parseAll rec' (st c) ss = (parseAll rec c ss).map (List.map Ser.strict)
  | [] => rfl
  | s :: ss => by
    unfold parseAll
    rw [hr, parseAll_st c ss]
    cases rec s c with
    | error e => rfl
    | ok x => cases parseAll rec c ss with
      | error e => rfl
      | ok xs => rfl

theorem parseProxy_st (c : Ctx) (s : Schema) : parseProxy rec' (st c) s = (parseProxy rec c s).map Proxy.strict := by
  unfold parseProxy
  rw [hr]
  cases rec s c with
  | error e => rfl
  | ok x => cases x <;> rfl

theorem parseProxies_st (c : Ctx) : ∀ ss : List Schema, parseProxies rec' (st c) ss = (parseProxies rec c ss).map (List.map Proxy.strict)
  | [] => rfl
  | s :: ss => by
    unfold parseProxies
    rw [parseProxy_st hr, parseProxies_st c ss]
    cases parseProxy rec c s with
    | error e => rfl
    | ok x => cases parseProxies rec c ss with
      | error e => rfl
      | ok xs => rfl

omit hr in
theorem collectionOf_st {r r' : Except DefErr Ser} (c : Ctx) (h : r' = r.map Ser.strict) :
    collectionOf (st c) r' = (collectionOf c r).map Ser.strict := by
  subst h
  unfold collectionOf
  show (match c.location with
    | some .attribute => _
    | some .wrapped => _
    | _ => _) = _
  generalize c.location = l
  rcases l with _ | l
  · rfl
  · cases l <;> rfl

omit hr in
theorem map_map {r : Except DefErr Ser} {f g : Ser → Ser} (h : ∀ x, f x.strict = (g x).strict) :
    (r.map Ser.strict).map f = (r.map g).map Ser.strict := by
  cases r with
  | error e => rfl
  | ok x => exact congrArg Except.ok (h x)

theorem homogOf_st (n : Nat) (items : Schema) (c : Ctx) : homogOf rec' n items (st c) = (homogOf rec n items c).map Ser.strict := by
  unfold homogOf
  rw [preprocess_st n items c]
  cases preprocess n items c with
  | error e => rfl
  | ok x =>
    simp only [Except.map]
    split
    · rfl
    · split <;> rename_i h
      · have h' : (!Family.namedItem x.1.family && decide (x.2.location = none)) = true := h
        rw [if_pos h']
      · have h' : ¬(!Family.namedItem x.1.family && decide (x.2.location = none)) = true := h
        rw [if_neg h']
        exact collectionOf_st _ (by rw [hr]; exact map_map fun x => rfl)

theorem heteroOf_st (n : Nat) (items : List Schema) (c : Ctx) : heteroOf rec' n items (st c) = (heteroOf rec n items c).map Ser.strict := by
  unfold heteroOf
  rw [tupleItems_st n items c]
  cases tupleItems n items c with
  | error e => rfl
  | ok x =>
    refine collectionOf_st _ ?_
    rw [parseAll_st hr]
    cases parseAll rec x items with
    | error e => rfl
    | ok xs => exact congrArg Except.ok (by simp only [Ser.strict, strictAll_eq]; rfl)

omit hr in
theorem kind_st (x : Ser) : x.strict.kind = x.kind := by cases x <;> rfl

theorem primUnionOf_st (cs : List Schema) (c : Ctx) : primUnionOf rec' cs (st c) = (primUnionOf rec cs c).map Ser.strict := by
  unfold primUnionOf
  rw [parseAll_st hr]
  cases parseAll rec c cs with
  | error e => rfl
  | ok xs => cases xs with
    | nil => rfl
    | cons x xs =>
      simp only [Except.map, List.map_cons, List.all_map, Function.comp_def, kind_st]
      split <;> rfl

theorem modelUnionOf_st (cs : List Schema) (c : Ctx) : modelUnionOf rec' cs (st c) = (modelUnionOf rec cs c).map Ser.strict := by
  unfold modelUnionOf
  rw [parseProxies_st hr]
  cases parseProxies rec c cs with
  | error e => rfl
  | ok xs => cases xs <;> rfl

theorem unionOf_st (n : Nat) (cs : List Schema) (c : Ctx) : unionOf rec' n cs (st c) = (unionOf rec n cs c).map Ser.strict := by
  unfold unionOf
  rw [unionFamilies_st n cs c]
  cases unionFamilies n cs c with
  | error e => rfl
  | ok x =>
    simp only [Except.map]
    split
    · rfl
    · split
      · rfl
      · split
        · exact modelUnionOf_st hr _ _
        · split
          · exact primUnionOf_st hr _ _
          · rfl

omit hr in
theorem find_field (discr : String) : ∀ fs : List Field,
    (fs.map Field.strict).find? (fun f => f.name = discr) = (fs.find? fun f => f.name = discr).map Field.strict
  | [] => rfl
  | f :: fs => by
    simp only [List.map_cons, List.find?_cons, find_field discr fs]
    show (match decide (f.name = discr) with | true => _ | false => _) = _
    cases decide (f.name = discr) <;> rfl

omit hr in
theorem discriminatorAttr_st (built : Built) (discr cls : String) :
    discriminatorAttr (built' built) discr cls = discriminatorAttr built discr cls := by
  unfold discriminatorAttr
  simp only [built']
  cases built cls with
  | none => rfl
  | some m =>
    obtain ⟨name, el, nsm, body, sk, ex, hi⟩ := m
    cases body with
    | root s => rfl
    | fields fs =>
      simp only [Option.map_some, ModelSer.strict, Body.strict, find_field]
      cases fs.find? (fun f => decide (f.name = discr)) with
      | none => rfl
      | some f =>
        obtain ⟨fname, fser, al, exc, va, se⟩ := f
        cases fser <;> rfl

omit hr in
theorem set_st (tag : String) (p : Proxy) : ∀ acc : Dict String Proxy,
    (acc.set tag p).map (fun kp => (kp.1, kp.2.strict)) = Dict.set (acc.map fun kp => (kp.1, kp.2.strict)) tag p.strict
  | [] => rfl
  | (k, q) :: acc => by
    simp only [Dict.set, List.map_cons]
    split
    · rfl
    · rw [List.map_cons, set_st tag p acc]

theorem taggedLoopOf_st (built : Built) (discr : String) (c : Ctx) :
    ∀ (cs : List (Option String × Schema)) (a : Option String) (acc : Dict String Proxy),
      taggedLoopOf rec' (built' built) discr (st c) cs a (acc.map fun kp => (kp.1, kp.2.strict)) =
        (taggedLoopOf rec built discr c cs a acc).map fun r => (r.1, r.2.map fun kp => (kp.1, kp.2.strict))
  | [], _, _ => rfl
  | (none, _) :: _, _, _ => rfl
  | (some tag, s) :: cs, a, acc => by
    unfold taggedLoopOf
    rw [parseProxy_st hr]
    cases parseProxy rec c s with
    | error e => rfl
    | ok p =>
      simp only [Except.map]
      show (match discriminatorAttr (built' built) discr p.cls with | .error e => _ | .ok a' => _) = _
      rw [discriminatorAttr_st]
      cases discriminatorAttr built discr p.cls with
      | error e => rfl
      | ok a' =>
        simp only
        split
        · rfl
        · rw [← set_st, taggedLoopOf_st built discr c cs]
          rfl

theorem taggedOf_st (built : Built) (n : Nat) (discr : Option String) (cs : List (Option String × Schema)) (c : Ctx) :
    taggedOf rec' n (built' built) discr cs (st c) = (taggedOf rec n built discr cs c).map Ser.strict := by
  unfold taggedOf
  rw [taggedChoices_st n _ c]
  cases taggedChoices n (cs.map Prod.snd) c with
  | error e => rfl
  | ok x =>
    cases discr with
    | none => rfl
    | some d =>
      simp only [Except.map]
      have := taggedLoopOf_st hr built d x cs none []
      simp only [List.map_nil] at this
      rw [this]
      cases taggedLoopOf rec built d x cs none [] with
      | error e => rfl
      | ok r =>
        obtain ⟨a, alts⟩ := r
        cases a <;> rfl

theorem wrapOf_st (s : Schema) (c : Ctx) : wrapOf rec' s (st c) = (wrapOf rec s c).map Ser.strict := by
  unfold wrapOf
  show (match c.path with
    | none => _
    | some path => _) = _
  cases c.path with
  | none => rfl
  | some p =>
    simp only
    show (match rec' s (st (c.child c.wrapped)) with | .error e => _ | .ok inner => _) = _
    rw [hr]
    cases rec s (c.child c.wrapped) with
    | error e => rfl
    | ok x =>
      simp only [Except.map]
      show (match pathNames (selectNs [c.ns, c.parentNs]) (mergeNsmaps [c.nsmap, c.parentNsmap]) (splitPath p) with
        | .error e => _
        | .ok names => _) = _
      generalize pathNames (selectNs [c.ns, c.parentNs]) (mergeNsmaps [c.nsmap, c.parentNsmap]) (splitPath p) = r
      cases r <;> rfl

omit hr in
theorem modelOf_st (classes : Classes) (cls : String) (c : Ctx) :
    modelOf (classes' classes) cls (st c) = (modelOf classes cls c).map Ser.strict := by
  unfold modelOf
  have : proxyOf (classes' classes) cls (st c) = (proxyOf classes cls c).map Proxy.strict := by
    unfold proxyOf
    simp only [classes', Classes.searching]
    cases classes cls with
    | none => rfl
    | some cd =>
      simp only [Option.map_some]
      show (QName.fromAlias ((strOr c.path (strOr cd.params.tag (strOr c.fieldAlias (strOr c.fieldName (some cd.name))))).getD cd.name)
        (selectNs [c.ns, cd.params.ns, c.parentNs]) (some (mergeNsmaps [c.nsmap, cd.params.nsmap, c.parentNsmap])) false).map _ = _
      generalize QName.fromAlias _ _ _ _ = r
      cases r <;> rfl
  rw [this]
  show (match c.location with
    | some .attribute => _
    | some .wrapped => _
    | _ => _) = _
  generalize c.location = l
  rcases l with _ | l
  · generalize proxyOf classes cls c = r; cases r <;> rfl
  · cases l
    · generalize proxyOf classes cls c = r; cases r <;> rfl
    · rfl
    · rfl

omit hr in
theorem elementName_st (c : Ctx) : elementName (st c) = elementName c := rfl

omit hr in
theorem elemOf_st (c : Ctx) : elemOf (st c) = (elemOf c).map Ser.strict := by
  unfold elemOf
  rw [elementName_st]
  generalize elementName c = r
  cases r <;> rfl

omit hr in
theorem attrOf_st (c : Ctx) : attrOf (st c) = (attrOf c).map Ser.strict := by
  have : attrOf (st c) = attrOf c := rfl
  rw [this]
  unfold attrOf
  simp only
  generalize selectNs [c.ns, if c.nsAttrs = true then c.parentNs else none] = ns
  split
  · rfl
  · generalize strOr c.path (strOr c.fieldAlias c.fieldName) = name
    cases name with
    | none => rfl
    | some name =>
      simp only
      generalize QName.fromAlias _ _ _ _ = r
      cases r <;> rfl

omit hr in
theorem primOf_st (c : Ctx) : primOf (st c) = (primOf c).map Ser.strict := by
  unfold primOf
  rw [elemOf_st, attrOf_st]
  show (match c.location with
    | some .element => _
    | some .attribute => _
    | none => _
    | some .wrapped => _) = _
  generalize c.location = l
  rcases l with _ | l
  · rfl
  · cases l <;> rfl

omit hr in
theorem mappingOf_st (c : Ctx) : mappingOf (st c) = (mappingOf c).map Ser.strict := by
  have : mapElemOf (st c) = (mapElemOf c).map Ser.strict := by
    unfold mapElemOf
    rw [elementName_st]
    generalize elementName c = r
    cases r <;> rfl
  unfold mappingOf
  rw [this]
  show (match c.location with
    | some .element => _
    | none => _
    | some .attribute => _
    | some .wrapped => _) = _
  generalize c.location = l
  rcases l with _ | l
  · rfl
  · cases l <;> rfl

omit hr in
theorem rawOf_st (c : Ctx) : rawOf (st c) = (rawOf c).map Ser.strict := by
  have : rawElemOf (st c) = (rawElemOf c).map Ser.strict := by
    unfold rawElemOf
    rw [elementName_st]
    generalize elementName c = r
    cases r <;> rfl
  unfold rawOf
  rw [this]
  show (match c.location with
    | some .element => _
    | none => _
    | some .attribute => _
    | some .wrapped => _) = _
  generalize c.location = l
  rcases l with _ | l
  · rfl
  · cases l <;> rfl

theorem select_st (classes : Classes) (built : Built) (n : Nat) (s : Schema) (c : Ctx) :
    select (classes' classes) (built' built) rec' n s (st c) = (select classes built rec n s c).map Ser.strict := by
  unfold select
  show (if c.location = some .wrapped then _ else _) = _
  split
  · exact wrapOf_st hr _ _
  · cases s with
    | prim ty => exact primOf_st c
    | model cls r => exact modelOf_st classes cls c
    | list i => exact homogOf_st hr _ _ _
    | tuple is v =>
      cases v with
      | none => exact heteroOf_st hr _ _ _
      | some k =>
        cases k with
        | succ k => rfl
        | zero =>
          cases is with
          | nil => rfl
          | cons i is => cases is with
            | nil => exact homogOf_st hr _ _ _
            | cons j js => rfl
    | dict k v =>
      simp only
      rw [primitives_st, mappingOf_st]
      cases primitives n c [k, v] <;> rfl
    | typedDict vs =>
      simp only
      rw [primitives_st, mappingOf_st]
      cases primitives n c vs <;> rfl
    | union cs => exact unionOf_st hr _ _ _
    | tagged d cs => exact taggedOf_st hr _ _ _ _ _
    | isInst native =>
      cases native with
      | true => exact rawOf_st c
      | false => exact primOf_st c
    | call b args =>
      cases b with
      | true => exact heteroOf_st hr _ _ _
      | false => rfl
    | _ => rfl

theorem compileFields_st {cd cd' : ClassDef} (hv : cd'.validators = cd.validators) (hs : cd'.serializers = cd.serializers) (c : Ctx) :
    ∀ fs : List FieldDef, compileFields rec' cd' (st c) fs = (compileFields rec cd c fs).map (List.map Field.strict)
  | [] => rfl
  | f :: fs => by
    unfold compileFields
    rw [compileFields_st hv hs c fs]
    split
    · rfl
    · show (match rec' f.schema (st (f.ctx c)) with | .error e => _ | .ok s => _) = _
      rw [hr, hv, hs]
      cases rec f.schema (f.ctx c) with
      | error e => rfl
      | ok x => cases compileFields rec cd c fs <;> rfl

theorem compileComputed_st {cd cd' : ClassDef} (hv : cd'.validators = cd.validators) (hs : cd'.serializers = cd.serializers) (c : Ctx) :
    ∀ fs : List ComputedDef, compileComputed rec' cd' (st c) fs = (compileComputed rec cd c fs).map (List.map Field.strict)
  | [] => rfl
  | f :: fs => by
    unfold compileComputed
    rw [compileComputed_st hv hs c fs]
    show (match rec' f.schema (st (f.ctx c)) with | .error e => _ | .ok s => _) = _
    rw [hr, hv, hs]
    cases rec f.schema (f.ctx c) with
    | error e => rfl
    | ok x => cases compileComputed rec cd c fs <;> rfl

theorem compileClass_st (cd : ClassDef) (c : Ctx) :
    compileClass rec' { cd with params := { cd.params with searchMode := .strict } } (st c) = (compileClass rec cd c).map ModelSer.strict := by
  have hin : ({ cd with params := { cd.params with searchMode := .strict } } : ClassDef).inside (st c) = st (cd.inside c) := rfl
  unfold compileClass
  rw [hin]
  have h1 := fun fs => compileFields_st hr (cd := cd) (cd' := { cd with params := { cd.params with searchMode := .strict } }) rfl rfl (cd.inside c) fs
  have h2 := fun fs => compileComputed_st hr (cd := cd) (cd' := { cd with params := { cd.params with searchMode := .strict } }) rfl rfl (cd.inside c) fs
  have h3 := fun s infos => hr s { (cd.inside c).child (EntityInfo.extract infos) with fieldName := none }
  have h4 : (st (cd.inside c)).hide = (cd.inside c).hide := rfl
  rw [h4]
  generalize cd.inside c = c at h1 h2 h3
  simp only
  have key : ∀ {x y : Except DefErr Body}, y = x.map Body.strict →
      (match y with
        | .error e => (.error e : Except DefErr ModelSer)
        | .ok body =>
          (QName.fromAlias ((strOr cd.params.tag (some cd.name)).getD cd.name) cd.params.ns cd.params.nsmap false).map fun q : QName =>
            ({ name := cd.name, elementName := q.uri, nsmap := cd.params.nsmap, body := body, skipEmpty := cd.params.skipEmpty,
               extraForbid := cd.extraForbid, hideInput := c.hide } : ModelSer)) =
      (match x with
        | .error e => (.error e : Except DefErr ModelSer)
        | .ok body =>
          (QName.fromAlias ((strOr cd.params.tag (some cd.name)).getD cd.name) cd.params.ns cd.params.nsmap false).map fun q : QName =>
            ({ name := cd.name, elementName := q.uri, nsmap := cd.params.nsmap, body := body, skipEmpty := cd.params.skipEmpty,
               extraForbid := cd.extraForbid, hideInput := c.hide } : ModelSer)).map ModelSer.strict := by
    intro x y hxy
    subst hxy
    cases x with
    | error e => rfl
    | ok b =>
      simp only [Except.map]
      generalize QName.fromAlias _ _ _ _ = r
      cases r <;> rfl
  refine key ?_
  clear key h4
  obtain ⟨name, params, schema, body, ex, hi, co, va, se⟩ := cd
  cases body with
  | fields fs cs =>
    have h1 := h1 fs
    have h2 := h2 cs
    simp only at h1 h2 ⊢
    rw [h1, h2]
    cases compileFields rec _ c fs with
    | error e => rfl
    | ok a => cases compileComputed rec _ c cs with
      | error e => rfl
      | ok b => simp only [Except.map, Body.strict, List.map_append]
  | root s infos =>
    have := h3 s infos
    simp only
    show Except.map Body.root (rec' s (st { c.child (EntityInfo.extract infos) with fieldName := none })) = _
    rw [this]
    generalize rec s _ = r
    cases r <;> rfl

end

theorem parse_st (classes : Classes) (built : Built) : ∀ (n : Nat) (s : Schema) (c : Ctx),
    parse (classes' classes) (built' built) n s (st c) = (parse classes built n s c).map Ser.strict
  | 0, _, _ => rfl
  | n + 1, s, c => by
    unfold parse
    rw [preprocess_st n s c]
    cases preprocess n s c with
    | error e => rfl
    | ok x => exact select_st (parse_st classes built n) classes built n x.1 x.2

theorem buildClass_st (classes : Classes) (built : Built) (n : Nat) (cd : ClassDef) :
    buildClass (classes' classes) (built' built) n { cd with params := { cd.params with searchMode := .strict } } =
      (buildClass classes built n cd).map (Option.map ModelSer.strict) := by
  unfold buildClass
  show (if cd.complete then (match preprocess n cd.schema (st cd.ctx) with
    | .error e => _
    | .ok (.model cls _, ctx) => _
    | .ok _ => _) else _) = _
  rw [preprocess_st n cd.schema cd.ctx]
  split
  · cases preprocess n cd.schema cd.ctx with
    | error e => rfl
    | ok x =>
      obtain ⟨t, c⟩ := x
      cases t with
      | model cls r =>
        simp only [Except.map, classes', Classes.searching]
        cases classes cls with
        | none => rfl
        | some cd =>
          simp only [Option.map_some]
          rw [compileClass_st (parse_st classes built n) cd c]
          generalize compileClass _ _ _ = r
          cases r <;> rfl
      | _ => rfl
  · rfl

theorem setSerializer_st (classes : Classes) (built : Built) (n : Nat) (c : String) (k : Bool) :
    setSerializer (classes' classes) n (built' built) c k = (setSerializer classes n built c k).map built' := by
  unfold setSerializer
  have : (classes' classes) c = (classes c).map fun cd => { cd with params := { cd.params with searchMode := .strict } } := rfl
  rw [this]
  cases classes c with
  | none => rfl
  | some cd =>
    have := buildClass_st classes built n { cd with complete := cd.complete && k }
    simp only [Option.map]
    simp only at this
    rw [this]
    cases buildClass classes built n { cd with complete := cd.complete && k } with
    | error e => rfl
    | ok m =>
      refine congrArg Except.ok (funext fun x => ?_)
      simp only [built']
      split <;> rfl

theorem run_st (classes : Classes) (built : Built) (n : Nat) (e : Event) :
    e.run (classes' classes) n (built' built) = (e.run classes n built).map built' := by
  cases e with
  | statement c k => exact setSerializer_st classes built n c k
  | rebuild c k =>
    unfold Event.run
    simp only [built', Option.isNone_map]
    split
    · exact setSerializer_st classes built n c k
    · rfl

theorem history_st (classes : Classes) (n : Nat) : ∀ (es : List Event) (built : Built),
    history (classes' classes) n es (built' built) = built' (history classes n es built)
  | [], _ => rfl
  | e :: es, built => by
    unfold history
    rw [run_st]
    cases e.run classes n built with
    | error e => exact history_st classes n es built
    | ok b => exact history_st classes n es b

theorem classes'_searching (classes : Classes) (mode : String → Mode) : classes' (classes.searching mode) = classes' classes := by
  funext c
  simp only [classes', Classes.searching]
  cases classes c <;> rfl

/-- The classes of a program with other search modes are the same when the search modes are left out. -/
theorem history_searching (classes : Classes) (mode : String → Mode) (n : Nat) (es : List Event) :
    built' (history (classes.searching mode) n es .empty) = built' (history classes n es .empty) := by
  rw [← history_st, ← history_st, classes'_searching]

theorem run_searching (classes : Classes) (mode : String → Mode) (n : Nat) (es : List Event) (e : Event) :
    (e.run (classes.searching mode) n (history (classes.searching mode) n es .empty)).map built' =
      (e.run classes n (history classes n es .empty)).map built' := by
  rw [← run_st, ← run_st, history_searching, classes'_searching]

end Modes
end PXml
