import Verif.SpecNillable
import Verif.Props.History

/-! Definitions are accepted or not whatever fields are `nillable`, and give the same serializers but for this. -/

namespace PXml
namespace Nillable

theorem unnilledAll_eq : ∀ ss : List Ser, Ser.unnilledAll ss = ss.map Ser.unnilled
  | [] => rfl
  | s :: ss => by simp [Ser.unnilledAll, unnilledAll_eq ss]

theorem info_eq (i : EntityInfo) : i.unnilled = .mk i.location i.path i.ns i.nsmap none (i.wrapped.map EntityInfo.unnilled) := by
  obtain ⟨l, p, n, m, nl, w⟩ := i
  cases w <;> simp [EntityInfo.unnilled, EntityInfo.location, EntityInfo.path, EntityInfo.ns, EntityInfo.nsmap, EntityInfo.wrapped]

/-- The context without `nillable`. -/
def un (c : Ctx) : Ctx := { c with info := c.info.map EntityInfo.unnilled, parents := c.parents.map (Option.map EntityInfo.unnilled) }

theorem un_location (c : Ctx) : (un c).location = c.location := by
  unfold un Ctx.location
  cases c.info with
  | none => rfl
  | some i => simp [info_eq, EntityInfo.location]

theorem un_path (c : Ctx) : (un c).path = c.path := by
  unfold un Ctx.path
  cases c.info with
  | none => rfl
  | some i => simp [info_eq, EntityInfo.path]

theorem un_ns (c : Ctx) : (un c).ns = c.ns := by
  unfold un Ctx.ns
  cases c.info with
  | none => rfl
  | some i => simp [info_eq, EntityInfo.ns]

theorem un_nsmap (c : Ctx) : (un c).nsmap = c.nsmap := by
  unfold un Ctx.nsmap
  cases c.info with
  | none => rfl
  | some i => simp [info_eq, EntityInfo.nsmap]

theorem un_nillable (c : Ctx) : (un c).nillable = false := by
  unfold un Ctx.nillable
  cases c.info with
  | none => rfl
  | some i => simp [info_eq, EntityInfo.nillable]

theorem un_wrapped (c : Ctx) : (un c).wrapped = c.wrapped.map EntityInfo.unnilled := by
  unfold un Ctx.wrapped
  cases c.info with
  | none => rfl
  | some i => simp [info_eq, EntityInfo.wrapped]

theorem un_parentNs (c : Ctx) : (un c).parentNs = c.parentNs := by
  unfold un Ctx.parentNs
  simp only
  induction c.parents with
  | nil => rfl
  | cons i is ih =>
    simp only [List.map_cons, Ctx.parentNsOf, ih]
    cases i with
    | none => rfl
    | some i => simp [info_eq, EntityInfo.ns]

theorem un_parentNsmap (c : Ctx) : (un c).parentNsmap = c.parentNsmap := by
  unfold un Ctx.parentNsmap
  simp only
  induction c.parents with
  | nil => rfl
  | cons i is ih =>
    simp only [List.map_cons, Ctx.parentNsmapOf, ih]
    cases i with
    | none => rfl
    | some i => simp [info_eq, EntityInfo.nsmap]

theorem un_child (c : Ctx) (i : Option EntityInfo) : (un c).child (i.map EntityInfo.unnilled) = un (c.child i) := rfl

theorem merge_un : ∀ (is : List EntityInfo) (acc : EntityInfo),
    (is.map EntityInfo.unnilled).foldl EntityInfo.mergeStep acc.unnilled = (is.foldl EntityInfo.mergeStep acc).unnilled
  | [], _ => rfl
  | i :: is, acc => by
    have : EntityInfo.mergeStep acc.unnilled i.unnilled = (EntityInfo.mergeStep acc i).unnilled := by
      obtain ⟨l, p, n, m, nl, w⟩ := i
      obtain ⟨l', p', n', m', nl', w'⟩ := acc
      simp only [info_eq, EntityInfo.mergeStep, EntityInfo.location, EntityInfo.path, EntityInfo.ns, EntityInfo.nsmap, EntityInfo.wrapped,
        EntityInfo.nillable]
      cases w <;> rfl
    simp only [List.map_cons, List.foldl_cons, this]
    exact merge_un is _

theorem extract_un (is : List EntityInfo) : EntityInfo.extract (is.map EntityInfo.unnilled) = (EntityInfo.extract is).map EntityInfo.unnilled := by
  cases is with
  | nil => rfl
  | cons i is =>
    simp only [List.map_cons, EntityInfo.extract, EntityInfo.merge, Option.map_some, Option.some.injEq]
    have : EntityInfo.unset = EntityInfo.unset.unnilled := by rw [info_eq]; rfl
    rw [this, ← List.map_cons]
    exact (merge_un (i :: is) _).trans (by rw [← this])

theorem preprocess_un : ∀ (n : Nat) (s : Schema) (c : Ctx),
    preprocess n s (un c) = (preprocess n s c).map fun x => (x.1, un x.2)
  | 0, _, _ => rfl
  | n + 1, s, c => by
    cases s with
    | func i => exact preprocess_un n i c
    | funcPlain o =>
      cases o with
      | none => rfl
      | some i => exact preprocess_un n i c
    | default i => exact preprocess_un n i c
    | nullable i => exact preprocess_un n i c
    | jsonOrPython i => exact preprocess_un n i c
    | definitions defs i => exact preprocess_un n i { c with defs := Dict.update c.defs defs }
    | ref r =>
      have hd : (un c).defs = c.defs := rfl
      simp only [preprocess, hd]
      cases c.defs.get? r with
      | some s => exact preprocess_un n s c
      | none => rfl
    | _ => rfl

theorem tupleItems_un (n : Nat) : ∀ (ss : List Schema) (c : Ctx), tupleItems n ss (un c) = (tupleItems n ss c).map un
  | [], _ => rfl
  | s :: ss, c => by
    unfold tupleItems
    rw [preprocess_un]
    cases preprocess n s c with
    | error e => rfl
    | ok x =>
      simp only [Except.map]
      split
      · rfl
      · split <;> rename_i h
        · have h' : (!(decide (x.1.family = some .model) || decide (x.1.family = some .union)) && decide (x.2.location = none)) = true := by rw [un_location] at h; exact h
          rw [if_pos h']
        · have h' : ¬(!(decide (x.1.family = some .model) || decide (x.1.family = some .union)) && decide (x.2.location = none)) = true := by rw [un_location] at h; exact h
          rw [if_neg h']
          exact tupleItems_un n ss x.2

theorem primitives_un (n : Nat) (c : Ctx) : ∀ ss : List Schema, primitives n (un c) ss = primitives n c ss
  | [] => rfl
  | s :: ss => by
    unfold primitives
    rw [preprocess_un]
    cases preprocess n s c with
    | error e => rfl
    | ok x =>
      simp only [Except.map]
      rw [primitives_un n c ss]

theorem unionFamilies_un (n : Nat) : ∀ (ss : List Schema) (c : Ctx),
    unionFamilies n ss (un c) = (unionFamilies n ss c).map fun x => (x.1, un x.2)
  | [], _ => rfl
  | s :: ss, c => by
    unfold unionFamilies
    rw [preprocess_un]
    cases preprocess n s c with
    | error e => rfl
    | ok x =>
      have := unionFamilies_un n ss x.2
      simp only [Except.map]
      split
      all_goals first | rfl | skip
      all_goals
        rw [this]
        cases unionFamilies n ss x.2 with
        | error e => rfl
        | ok y => rfl

theorem taggedChoices_un (n : Nat) : ∀ (ss : List Schema) (c : Ctx),
    taggedChoices n ss (un c) = (taggedChoices n ss c).map un
  | [], _ => rfl
  | s :: ss, c => by
    unfold taggedChoices
    rw [preprocess_un]
    cases preprocess n s c with
    | error e => rfl
    | ok x =>
      obtain ⟨t, c'⟩ := x
      cases t with
      | model cls r => cases r with
        | true => rfl
        | false => exact taggedChoices_un n ss c'
      | _ => rfl


/-- The classes built so far, with nothing nillable. -/
abbrev built' (built : Built) : Built := fun c => (built c).map ModelSer.unnilled

/-- The definitions of all classes without `nillable`. -/
abbrev classes' (classes : Classes) : Classes := classes.unnilled

section
variable {rec rec' : Schema → Ctx → Except DefErr Ser} (hr : ∀ s c, rec' s (un c) = (rec s c).map Ser.unnilled)
include hr

theorem parseAll_un (c : Ctx) : ∀ ss : List Schema, parseAll rec' (un c) ss = (parseAll rec c ss).map (List.map Ser.unnilled)
  | [] => rfl
  | s :: ss => by
    unfold parseAll
    rw [hr, parseAll_un c ss]
    cases rec s c with
    | error e => rfl
    | ok x => cases parseAll rec c ss with
      | error e => rfl
      | ok xs => rfl

theorem parseProxy_un (c : Ctx) (s : Schema) : parseProxy rec' (un c) s = (parseProxy rec c s).map Proxy.unnilled := by
  unfold parseProxy
  rw [hr]
  cases rec s c with
  | error e => rfl
  | ok x => cases x <;> rfl

theorem parseProxies_un (c : Ctx) : ∀ ss : List Schema, parseProxies rec' (un c) ss = (parseProxies rec c ss).map (List.map Proxy.unnilled)
  | [] => rfl
  | s :: ss => by
    unfold parseProxies
    rw [parseProxy_un hr, parseProxies_un c ss]
    cases parseProxy rec c s with
    | error e => rfl
    | ok x => cases parseProxies rec c ss with
      | error e => rfl
      | ok xs => rfl

omit hr in
theorem collectionOf_un {r r' : Except DefErr Ser} (c : Ctx) (h : r' = r.map Ser.unnilled) :
    collectionOf (un c) r' = (collectionOf c r).map Ser.unnilled := by
  subst h
  unfold collectionOf
  rw [un_location]
  generalize c.location = l
  rcases l with _ | l
  · rfl
  · cases l <;> rfl

omit hr in
theorem map_map {r : Except DefErr Ser} {f g : Ser → Ser} (h : ∀ x, f x.unnilled = (g x).unnilled) :
    (r.map Ser.unnilled).map f = (r.map g).map Ser.unnilled := by
  cases r with
  | error e => rfl
  | ok x => exact congrArg Except.ok (h x)

theorem homogOf_un (n : Nat) (items : Schema) (c : Ctx) : homogOf rec' n items (un c) = (homogOf rec n items c).map Ser.unnilled := by
  unfold homogOf
  rw [preprocess_un n items c]
  cases preprocess n items c with
  | error e => rfl
  | ok x =>
    simp only [Except.map]
    split
    · rfl
    · split <;> rename_i h
      · have h' : (!Family.namedItem x.1.family && decide (x.2.location = none)) = true := by rw [un_location] at h; exact h
        rw [if_pos h']
      · have h' : ¬(!Family.namedItem x.1.family && decide (x.2.location = none)) = true := by rw [un_location] at h; exact h
        rw [if_neg h']
        exact collectionOf_un _ (by rw [hr]; exact map_map fun x => rfl)

theorem heteroOf_un (n : Nat) (items : List Schema) (c : Ctx) : heteroOf rec' n items (un c) = (heteroOf rec n items c).map Ser.unnilled := by
  unfold heteroOf
  rw [tupleItems_un n items c]
  cases tupleItems n items c with
  | error e => rfl
  | ok x =>
    refine collectionOf_un _ ?_
    rw [parseAll_un hr]
    cases parseAll rec x items with
    | error e => rfl
    | ok xs => exact congrArg Except.ok (by simp only [Ser.unnilled, unnilledAll_eq]; rfl)

omit hr in
theorem kind_un (x : Ser) : x.unnilled.kind = x.kind := by cases x <;> rfl

theorem primUnionOf_un (cs : List Schema) (c : Ctx) : primUnionOf rec' cs (un c) = (primUnionOf rec cs c).map Ser.unnilled := by
  unfold primUnionOf
  rw [parseAll_un hr]
  cases parseAll rec c cs with
  | error e => rfl
  | ok xs => cases xs with
    | nil => rfl
    | cons x xs =>
      simp only [Except.map, List.map_cons, List.all_map, Function.comp_def, kind_un]
      split <;> rfl

theorem modelUnionOf_un (cs : List Schema) (c : Ctx) : modelUnionOf rec' cs (un c) = (modelUnionOf rec cs c).map Ser.unnilled := by
  unfold modelUnionOf
  rw [parseProxies_un hr]
  cases parseProxies rec c cs with
  | error e => rfl
  | ok xs => cases xs <;> rfl

theorem unionOf_un (n : Nat) (cs : List Schema) (c : Ctx) : unionOf rec' n cs (un c) = (unionOf rec n cs c).map Ser.unnilled := by
  unfold unionOf
  rw [unionFamilies_un n cs c]
  cases unionFamilies n cs c with
  | error e => rfl
  | ok x =>
    simp only [Except.map]
    split
    · rfl
    · split
      · rfl
      · split
        · exact modelUnionOf_un hr _ _
        · split
          · exact primUnionOf_un hr _ _
          · rfl

omit hr in
theorem find_field (discr : String) : ∀ fs : List Field,
    (fs.map Field.unnilled).find? (fun f => f.name = discr) = (fs.find? fun f => f.name = discr).map Field.unnilled
  | [] => rfl
  | f :: fs => by
    simp only [List.map_cons, List.find?_cons, find_field discr fs]
    show (match decide (f.name = discr) with | true => _ | false => _) = _
    cases decide (f.name = discr) <;> rfl

omit hr in
theorem discriminatorAttr_un (built : Built) (discr cls : String) :
    discriminatorAttr (built' built) discr cls = discriminatorAttr built discr cls := by
  unfold discriminatorAttr
  simp only [built']
  cases built cls with
  | none => rfl
  | some m =>
    obtain ⟨name, el, nsm, body, sk, ex, hi⟩ := m
    cases body with
    | root s => rfl
    | fields fs =>
      simp only [Option.map_some, ModelSer.unnilled, Body.unnilled, find_field]
      cases fs.find? (fun f => decide (f.name = discr)) with
      | none => rfl
      | some f =>
        obtain ⟨fname, fser, al, exc, va, se⟩ := f
        cases fser <;> rfl

omit hr in
theorem set_un (tag : String) (p : Proxy) : ∀ acc : Dict String Proxy,
    (acc.set tag p).map (fun kp => (kp.1, kp.2.unnilled)) = Dict.set (acc.map fun kp => (kp.1, kp.2.unnilled)) tag p.unnilled
  | [] => rfl
  | (k, q) :: acc => by
    simp only [Dict.set, List.map_cons]
    split
    · rfl
    · rw [List.map_cons, set_un tag p acc]

theorem taggedLoopOf_un (built : Built) (discr : String) (c : Ctx) :
    ∀ (cs : List (Option String × Schema)) (a : Option String) (acc : Dict String Proxy),
      taggedLoopOf rec' (built' built) discr (un c) cs a (acc.map fun kp => (kp.1, kp.2.unnilled)) =
        (taggedLoopOf rec built discr c cs a acc).map fun r => (r.1, r.2.map fun kp => (kp.1, kp.2.unnilled))
  | [], _, _ => rfl
  | (none, _) :: _, _, _ => rfl
  | (some tag, s) :: cs, a, acc => by
    unfold taggedLoopOf
    rw [parseProxy_un hr]
    cases parseProxy rec c s with
    | error e => rfl
    | ok p =>
      simp only [Except.map]
      show (match discriminatorAttr (built' built) discr p.cls with | .error e => _ | .ok a' => _) = _
      rw [discriminatorAttr_un]
      cases discriminatorAttr built discr p.cls with
      | error e => rfl
      | ok a' =>
        simp only
        split
        · rfl
        · rw [← set_un, taggedLoopOf_un built discr c cs]
          rfl

theorem taggedOf_un (built : Built) (n : Nat) (discr : Option String) (cs : List (Option String × Schema)) (c : Ctx) :
    taggedOf rec' n (built' built) discr cs (un c) = (taggedOf rec n built discr cs c).map Ser.unnilled := by
  unfold taggedOf
  rw [taggedChoices_un n _ c]
  cases taggedChoices n (cs.map Prod.snd) c with
  | error e => rfl
  | ok x =>
    cases discr with
    | none => rfl
    | some d =>
      simp only [Except.map]
      have := taggedLoopOf_un hr built d x cs none []
      simp only [List.map_nil] at this
      rw [this]
      cases taggedLoopOf rec built d x cs none [] with
      | error e => rfl
      | ok r =>
        obtain ⟨a, alts⟩ := r
        cases a <;> rfl

theorem wrapOf_un (s : Schema) (c : Ctx) : wrapOf rec' s (un c) = (wrapOf rec s c).map Ser.unnilled := by
  unfold wrapOf
  rw [un_path, un_ns, un_parentNs, un_nsmap, un_parentNsmap, un_wrapped]
  cases c.path with
  | none => rfl
  | some p =>
    simp only
    show (match rec' s (un (c.child c.wrapped)) with | .error e => _ | .ok inner => _) = _
    rw [hr]
    cases rec s (c.child c.wrapped) with
    | error e => rfl
    | ok x =>
      simp only [Except.map]
      show (match pathNames (selectNs [c.ns, c.parentNs]) (mergeNsmaps [c.nsmap, c.parentNsmap]) (splitPath p) with
        | .error e => _
        | .ok names => _) = _
      generalize pathNames (selectNs [c.ns, c.parentNs]) (mergeNsmaps [c.nsmap, c.parentNsmap]) (splitPath p) = r
      cases r <;> rfl

omit hr in
theorem modelOf_un (classes : Classes) (cls : String) (c : Ctx) :
    modelOf (classes' classes) cls (un c) = (modelOf classes cls c).map Ser.unnilled := by
  unfold modelOf
  have : proxyOf (classes' classes) cls (un c) = (proxyOf classes cls c).map Proxy.unnilled := by
    unfold proxyOf
    simp only [classes', Classes.unnilled]
    cases classes cls with
    | none => rfl
    | some cd =>
      simp only [Option.map_some]
      rw [un_path, un_ns, un_parentNs, un_nsmap, un_parentNsmap, un_nillable]
      show (QName.fromAlias ((strOr c.path (strOr cd.params.tag (strOr c.fieldAlias (strOr c.fieldName (some cd.name))))).getD cd.name)
        (selectNs [c.ns, cd.params.ns, c.parentNs]) (some (mergeNsmaps [c.nsmap, cd.params.nsmap, c.parentNsmap])) false).map _ = _
      generalize QName.fromAlias _ _ _ _ = r
      cases r <;> rfl
  rw [this]
  rw [un_location]
  generalize c.location = l
  rcases l with _ | l
  · generalize proxyOf classes cls c = r; cases r <;> rfl
  · cases l
    · generalize proxyOf classes cls c = r; cases r <;> rfl
    · rfl
    · rfl

omit hr in
theorem elementName_un (c : Ctx) : elementName (un c) = elementName c := by
  unfold elementName
  rw [un_path, un_ns, un_parentNs, un_nsmap, un_parentNsmap]
  rfl

omit hr in
theorem elemOf_un (c : Ctx) : elemOf (un c) = (elemOf c).map Ser.unnilled := by
  unfold elemOf
  rw [elementName_un, un_nillable]
  generalize elementName c = r
  cases r <;> rfl

omit hr in
theorem attrOf_un (c : Ctx) : attrOf (un c) = (attrOf c).map Ser.unnilled := by
  have : attrOf (un c) = attrOf c := by
    unfold attrOf
    rw [un_path, un_ns, un_parentNs, un_nsmap, un_parentNsmap]
    rfl
  rw [this]
  unfold attrOf
  simp only
  generalize selectNs [c.ns, if c.nsAttrs = true then c.parentNs else none] = ns
  split
  · rfl
  · generalize strOr c.path (strOr c.fieldAlias c.fieldName) = name
    cases name with
    | none => rfl
    | some name =>
      simp only
      generalize QName.fromAlias _ _ _ _ = r
      cases r <;> rfl

omit hr in
theorem attrsOf_un (c : Ctx) : attrsOf (un c) = attrsOf c := by
  unfold attrsOf
  rw [un_ns, un_parentNs, un_nsmap, un_parentNsmap]
  rfl

omit hr in
theorem textOf_un (c : Ctx) : textOf (un c) = (textOf c).unnilled := by
  unfold textOf
  rw [un_nillable]
  simp only [Ser.unnilled]
  rfl

omit hr in
theorem primOf_un (c : Ctx) : primOf (un c) = (primOf c).map Ser.unnilled := by
  unfold primOf
  rw [elemOf_un, attrOf_un, textOf_un]
  rw [un_location]
  generalize c.location = l
  rcases l with _ | l
  · rfl
  · cases l <;> rfl

omit hr in
theorem mappingOf_un (c : Ctx) : mappingOf (un c) = (mappingOf c).map Ser.unnilled := by
  have : mapElemOf (un c) = (mapElemOf c).map Ser.unnilled := by
    unfold mapElemOf
    rw [elementName_un, attrsOf_un]
    generalize elementName c = r
    cases r <;> rfl
  unfold mappingOf
  rw [this, attrsOf_un]
  rw [un_location]
  generalize c.location = l
  rcases l with _ | l
  · rfl
  · cases l <;> rfl

omit hr in
theorem rawOf_un (c : Ctx) : rawOf (un c) = (rawOf c).map Ser.unnilled := by
  have : rawElemOf (un c) = (rawElemOf c).map Ser.unnilled := by
    unfold rawElemOf
    rw [elementName_un]
    generalize elementName c = r
    cases r <;> rfl
  unfold rawOf
  rw [this]
  rw [un_location]
  generalize c.location = l
  rcases l with _ | l
  · rfl
  · cases l <;> rfl

theorem select_un (classes : Classes) (built : Built) (n : Nat) (s : Schema) (c : Ctx) :
    select (classes' classes) (built' built) rec' n s (un c) = (select classes built rec n s c).map Ser.unnilled := by
  unfold select
  rw [un_location]
  split
  · exact wrapOf_un hr _ _
  · cases s with
    | prim ty => exact primOf_un c
    | model cls r => exact modelOf_un classes cls c
    | list i => exact homogOf_un hr _ _ _
    | tuple is v =>
      cases v with
      | none => exact heteroOf_un hr _ _ _
      | some k =>
        cases k with
        | succ k => rfl
        | zero =>
          cases is with
          | nil => rfl
          | cons i is => cases is with
            | nil => exact homogOf_un hr _ _ _
            | cons j js => rfl
    | dict k v =>
      simp only
      rw [primitives_un, mappingOf_un]
      cases primitives n c [k, v] <;> rfl
    | typedDict vs =>
      simp only
      rw [primitives_un, mappingOf_un]
      cases primitives n c vs <;> rfl
    | union cs => exact unionOf_un hr _ _ _
    | tagged d cs => exact taggedOf_un hr _ _ _ _ _
    | isInst native =>
      cases native with
      | true => exact rawOf_un c
      | false => exact primOf_un c
    | call b args =>
      cases b with
      | true => exact heteroOf_un hr _ _ _
      | false => rfl
    | _ => rfl

theorem compileFields_un {cd cd' : ClassDef} (hv : cd'.validators = cd.validators) (hs : cd'.serializers = cd.serializers) (c : Ctx) :
    ∀ fs : List FieldDef, compileFields rec' cd' (un c) (fs.map fun f => { f with infos := f.infos.map EntityInfo.unnilled }) =
      (compileFields rec cd c fs).map (List.map Field.unnilled)
  | [] => rfl
  | f :: fs => by
    simp only [List.map_cons, compileFields]
    rw [compileFields_un hv hs c fs]
    have hctx : ({ f with infos := f.infos.map EntityInfo.unnilled } : FieldDef).ctx (un c) = un (f.ctx c) := by
      unfold FieldDef.ctx
      simp only [extract_un, un_child]
      rfl
    split
    · rfl
    · rw [hctx, hr, hv, hs]
      cases rec f.schema (f.ctx c) with
      | error e => rfl
      | ok x => cases compileFields rec cd c fs <;> rfl

theorem compileComputed_un {cd cd' : ClassDef} (hv : cd'.validators = cd.validators) (hs : cd'.serializers = cd.serializers) (c : Ctx) :
    ∀ fs : List ComputedDef, compileComputed rec' cd' (un c) (fs.map fun f => { f with info := f.info.map EntityInfo.unnilled }) =
      (compileComputed rec cd c fs).map (List.map Field.unnilled)
  | [] => rfl
  | f :: fs => by
    simp only [List.map_cons, compileComputed]
    rw [compileComputed_un hv hs c fs]
    have hctx : ({ f with info := f.info.map EntityInfo.unnilled } : ComputedDef).ctx (un c) = un (f.ctx c) := rfl
    rw [hctx, hr, hv, hs]
    cases rec f.schema (f.ctx c) with
    | error e => rfl
    | ok x => cases compileComputed rec cd c fs <;> rfl

theorem compileClass_un (cd : ClassDef) (c : Ctx) :
    compileClass rec' { cd with body := cd.body.unnilled } (un c) = (compileClass rec cd c).map ModelSer.unnilled := by
  have hin : ({ cd with body := cd.body.unnilled } : ClassDef).inside (un c) = un (cd.inside c) := rfl
  unfold compileClass
  rw [hin]
  have h1 := fun fs => compileFields_un hr (cd := cd) (cd' := { cd with body := cd.body.unnilled }) rfl rfl (cd.inside c) fs
  have h2 := fun fs => compileComputed_un hr (cd := cd) (cd' := { cd with body := cd.body.unnilled }) rfl rfl (cd.inside c) fs
  have h3 := fun s infos => hr s { (cd.inside c).child (EntityInfo.extract infos) with fieldName := none }
  have h4 : (un (cd.inside c)).hide = (cd.inside c).hide := rfl
  rw [h4]
  generalize cd.inside c = c at h1 h2 h3
  simp only
  have key : ∀ {x y : Except DefErr Body}, y = x.map Body.unnilled →
      (match y with
        | .error e => (.error e : Except DefErr ModelSer)
        | .ok body =>
          (QName.fromAlias ((strOr cd.params.tag (some cd.name)).getD cd.name) cd.params.ns cd.params.nsmap false).map fun q : QName =>
            ({ name := cd.name, elementName := q.uri, nsmap := cd.params.nsmap, body := body, skipEmpty := cd.params.skipEmpty,
               extraForbid := cd.extraForbid, hideInput := c.hide } : ModelSer)) =
      (match x with
        | .error e => (.error e : Except DefErr ModelSer)
        | .ok body =>
          (QName.fromAlias ((strOr cd.params.tag (some cd.name)).getD cd.name) cd.params.ns cd.params.nsmap false).map fun q : QName =>
            ({ name := cd.name, elementName := q.uri, nsmap := cd.params.nsmap, body := body, skipEmpty := cd.params.skipEmpty,
               extraForbid := cd.extraForbid, hideInput := c.hide } : ModelSer)).map ModelSer.unnilled := by
    intro x y hxy
    subst hxy
    cases x with
    | error e => rfl
    | ok b =>
      simp only [Except.map]
      generalize QName.fromAlias _ _ _ _ = r
      cases r <;> rfl
  refine key ?_
  clear key h4
  obtain ⟨name, params, schema, body, ex, hi, co, va, se⟩ := cd
  cases body with
  | fields fs cs =>
    have h1 := h1 fs
    have h2 := h2 cs
    simp only [BodyDef.unnilled] at h1 h2 ⊢
    rw [h1, h2]
    cases compileFields rec _ c fs with
    | error e => rfl
    | ok a => cases compileComputed rec _ c cs with
      | error e => rfl
      | ok b => simp only [Except.map, Body.unnilled, List.map_append]
  | root s infos =>
    have := h3 s infos
    simp only [BodyDef.unnilled, extract_un, un_child]
    show Except.map Body.root (rec' s (un { c.child (EntityInfo.extract infos) with fieldName := none })) = _
    rw [this]
    generalize rec s _ = r
    cases r <;> rfl

end

theorem parse_un (classes : Classes) (built : Built) : ∀ (n : Nat) (s : Schema) (c : Ctx),
    parse (classes' classes) (built' built) n s (un c) = (parse classes built n s c).map Ser.unnilled
  | 0, _, _ => rfl
  | n + 1, s, c => by
    unfold parse
    rw [preprocess_un n s c]
    cases preprocess n s c with
    | error e => rfl
    | ok x => exact select_un (parse_un classes built n) classes built n x.1 x.2

theorem buildClass_un (classes : Classes) (built : Built) (n : Nat) (cd : ClassDef) :
    buildClass (classes' classes) (built' built) n { cd with body := cd.body.unnilled } =
      (buildClass classes built n cd).map (Option.map ModelSer.unnilled) := by
  unfold buildClass
  show (if cd.complete then (match preprocess n cd.schema (un cd.ctx) with
    | .error e => _
    | .ok (.model cls _, ctx) => _
    | .ok _ => _) else _) = _
  rw [preprocess_un n cd.schema cd.ctx]
  split
  · cases preprocess n cd.schema cd.ctx with
    | error e => rfl
    | ok x =>
      obtain ⟨t, c⟩ := x
      cases t with
      | model cls r =>
        simp only [Except.map, classes', Classes.unnilled]
        cases classes cls with
        | none => rfl
        | some cd =>
          simp only [Option.map_some]
          rw [compileClass_un (parse_un classes built n) cd c]
          generalize compileClass _ _ _ = r
          cases r <;> rfl
      | _ => rfl
  · rfl

theorem setSerializer_un (classes : Classes) (built : Built) (n : Nat) (c : String) (k : Bool) :
    setSerializer (classes' classes) n (built' built) c k = (setSerializer classes n built c k).map built' := by
  unfold setSerializer
  have : (classes' classes) c = (classes c).map fun cd => { cd with body := cd.body.unnilled } := rfl
  rw [this]
  cases classes c with
  | none => rfl
  | some cd =>
    have := buildClass_un classes built n { cd with complete := cd.complete && k }
    simp only [Option.map]
    simp only at this
    rw [this]
    cases buildClass classes built n { cd with complete := cd.complete && k } with
    | error e => rfl
    | ok m =>
      refine congrArg Except.ok (funext fun x => ?_)
      simp only [built']
      split <;> rfl

theorem run_un (classes : Classes) (built : Built) (n : Nat) (e : Event) :
    e.run (classes' classes) n (built' built) = (e.run classes n built).map built' := by
  cases e with
  | statement c k => exact setSerializer_un classes built n c k
  | rebuild c k =>
    unfold Event.run
    simp only [built', Option.isNone_map]
    split
    · exact setSerializer_un classes built n c k
    · rfl

theorem history_un (classes : Classes) (n : Nat) : ∀ (es : List Event) (built : Built),
    history (classes' classes) n es (built' built) = built' (history classes n es built)
  | [], _ => rfl
  | e :: es, built => by
    unfold history
    rw [run_un]
    cases e.run classes n built with
    | error e => exact history_un classes n es built
    | ok b => exact history_un classes n es b

end Nillable
end PXml
