import Verif.SpecRetext
import Verif.Props.History

/-! Definitions are accepted or not whatever the discriminator values are, and give the same serializers but for them. -/

namespace PXml
namespace RetextCompile

variable {φ : String → String}

theorem serAll_eq : ∀ ss : List Ser, Ser.retextedAll φ ss = ss.map (Ser.retexted φ)
  | [] => rfl
  | s :: ss => by simp [Ser.retextedAll, serAll_eq ss]

theorem all_eq : ∀ ss : List Schema, Schema.retextedAll φ ss = ss.map (Schema.retexted φ)
  | [] => rfl
  | s :: ss => by simp [Schema.retextedAll, all_eq ss]

theorem choices_eq : ∀ ss : List (Option String × Schema), Schema.retextedChoices φ ss = ss.map fun x => (x.1.map φ, x.2.retexted φ)
  | [] => rfl
  | (t, s) :: ss => by simp [Schema.retextedChoices, choices_eq ss]

theorem family_rt (s : Schema) : (s.retexted φ).family = s.family := by
  cases s <;> first | rfl | (rename_i o; cases o <;> rfl)

theorem defs_get (r : String) : ∀ d : Dict String Schema,
    Dict.get? (Schema.retextedDefs φ d) r = (Dict.get? d r).map (Schema.retexted φ)
  | [] => rfl
  | (k, s) :: d => by
    simp only [Schema.retextedDefs, Dict.get?]
    split
    · rfl
    · exact defs_get r d

theorem defs_set (r : String) (s : Schema) : ∀ d : Dict String Schema,
    Schema.retextedDefs φ (Dict.set d r s) = Dict.set (Schema.retextedDefs φ d) r (s.retexted φ)
  | [] => rfl
  | (k, t) :: d => by
    simp only [Schema.retextedDefs, Dict.set]
    split
    · rfl
    · simp only [Schema.retextedDefs, defs_set r s d]

theorem defs_update : ∀ (e d : Dict String Schema),
    Schema.retextedDefs φ (Dict.update d e) = Dict.update (Schema.retextedDefs φ d) (Schema.retextedDefs φ e)
  | [], _ => rfl
  | (k, s) :: e, d => by
    show Schema.retextedDefs φ (Dict.update (Dict.set d k s) e) =
      Dict.update (Dict.set (Schema.retextedDefs φ d) k (s.retexted φ)) (Schema.retextedDefs φ e)
    rw [defs_update e, defs_set]

/-- The context with the discriminator values replaced. -/
def rt (φ : String → String) (c : Ctx) : Ctx := { c with defs := Schema.retextedDefs φ c.defs }

theorem preprocess_rt : ∀ (n : Nat) (s : Schema) (c : Ctx),
    preprocess n (s.retexted φ) (rt φ c) = (preprocess n s c).map fun x => (x.1.retexted φ, rt φ x.2)
  | 0, _, _ => rfl
  | n + 1, s, c => by
    cases s with
    | func i => exact preprocess_rt n i c
    | funcPlain o =>
      cases o with
      | none => rfl
      | some i => exact preprocess_rt n i c
    | default i => exact preprocess_rt n i c
    | nullable i => exact preprocess_rt n i c
    | jsonOrPython i => exact preprocess_rt n i c
    | definitions defs i =>
      have := preprocess_rt n i { c with defs := Dict.update c.defs defs }
      simp only [rt, defs_update] at this
      exact this
    | ref r =>
      have hd : (rt φ c).defs = Schema.retextedDefs φ c.defs := rfl
      simp only [preprocess, Schema.retexted, hd, defs_get]
      cases Dict.get? c.defs r with
      | some s => exact preprocess_rt n s c
      | none => rfl
    | _ => rfl

theorem tupleItems_rt (n : Nat) : ∀ (ss : List Schema) (c : Ctx),
    tupleItems n (ss.map (Schema.retexted φ)) (rt φ c) = (tupleItems n ss c).map (rt φ)
  | [], _ => rfl
  | s :: ss, c => by
    simp only [List.map_cons, tupleItems]
    rw [preprocess_rt]
    cases preprocess n s c with
    | error e => rfl
    | ok x =>
      simp only [Except.map, family_rt]
      have hl : (rt φ x.2).location = x.2.location := rfl
      rw [hl]
      split
      · rfl
      · split
        · rfl
        · exact tupleItems_rt n ss x.2

theorem primitives_rt (n : Nat) (c : Ctx) : ∀ ss : List Schema, primitives n (rt φ c) (ss.map (Schema.retexted φ)) = primitives n c ss
  | [] => rfl
  | s :: ss => by
    simp only [List.map_cons, primitives]
    rw [preprocess_rt]
    cases preprocess n s c with
    | error e => rfl
    | ok x =>
      simp only [Except.map, family_rt]
      rw [primitives_rt n c ss]

theorem unionFamilies_rt (n : Nat) : ∀ (ss : List Schema) (c : Ctx),
    unionFamilies n (ss.map (Schema.retexted φ)) (rt φ c) = (unionFamilies n ss c).map fun x => (x.1, rt φ x.2)
  | [], _ => rfl
  | s :: ss, c => by
    simp only [List.map_cons, unionFamilies]
    rw [preprocess_rt]
    cases preprocess n s c with
    | error e => rfl
    | ok x =>
      have := unionFamilies_rt n ss x.2
      simp only [Except.map, family_rt]
      split
      all_goals first | rfl | skip
      all_goals
        rw [this]
        cases unionFamilies n ss x.2 with
        | error e => rfl
        | ok y => rfl

theorem taggedChoices_rt (n : Nat) : ∀ (ss : List Schema) (c : Ctx),
    taggedChoices n (ss.map (Schema.retexted φ)) (rt φ c) = (taggedChoices n ss c).map (rt φ)
  | [], _ => rfl
  | s :: ss, c => by
    simp only [List.map_cons, taggedChoices]
    rw [preprocess_rt]
    cases preprocess n s c with
    | error e => rfl
    | ok x =>
      obtain ⟨t, c'⟩ := x
      cases t with
      | model cls r => cases r with
        | true => rfl
        | false => exact taggedChoices_rt n ss c'
      | funcPlain o => cases o <;> rfl
      | _ => rfl

/-- The classes built so far are the same up to the replacement. -/
def BuiltRt (φ : String → String) (built built' : Built) : Prop :=
  ∀ c, (built c = none ∧ built' c = none) ∨ ∃ m m', built c = some m ∧ built' c = some m' ∧ m.Retexts φ m'

section
variable {rec rec' : Schema → Ctx → Except DefErr Ser} (hr : ∀ s c, rec' (s.retexted φ) (rt φ c) = (rec s c).map (Ser.retexted φ))
include hr

theorem parseAll_rt (c : Ctx) : ∀ ss : List Schema,
    parseAll rec' (rt φ c) (ss.map (Schema.retexted φ)) = (parseAll rec c ss).map (List.map (Ser.retexted φ))
  | [] => rfl
  | s :: ss => by
    simp only [List.map_cons, parseAll]
    rw [hr, parseAll_rt c ss]
    cases rec s c with
    | error e => rfl
    | ok x => cases parseAll rec c ss with
      | error e => rfl
      | ok xs => rfl

theorem parseProxy_rt (c : Ctx) (s : Schema) : parseProxy rec' (rt φ c) (s.retexted φ) = (parseProxy rec c s) := by
  unfold parseProxy
  rw [hr]
  cases rec s c with
  | error e => rfl
  | ok x => cases x <;> rfl

theorem parseProxies_rt (c : Ctx) : ∀ ss : List Schema,
    parseProxies rec' (rt φ c) (ss.map (Schema.retexted φ)) = parseProxies rec c ss
  | [] => rfl
  | s :: ss => by
    simp only [List.map_cons, parseProxies]
    rw [parseProxy_rt hr, parseProxies_rt c ss]

omit hr in
theorem collectionOf_rt {r r' : Except DefErr Ser} (c : Ctx) (h : r' = r.map (Ser.retexted φ)) :
    collectionOf (rt φ c) r' = (collectionOf c r).map (Ser.retexted φ) := by
  subst h
  unfold collectionOf
  have hl : (rt φ c).location = c.location := rfl
  rw [hl]
  generalize c.location = l
  rcases l with _ | l
  · rfl
  · cases l <;> rfl

omit hr in
theorem map_map {r : Except DefErr Ser} {f g : Ser → Ser} (h : ∀ x, f (x.retexted φ) = (g x).retexted φ) :
    (r.map (Ser.retexted φ)).map f = (r.map g).map (Ser.retexted φ) := by
  cases r with
  | error e => rfl
  | ok x => exact congrArg Except.ok (h x)

theorem homogOf_rt (n : Nat) (items : Schema) (c : Ctx) :
    homogOf rec' n (items.retexted φ) (rt φ c) = (homogOf rec n items c).map (Ser.retexted φ) := by
  unfold homogOf
  rw [preprocess_rt n items c]
  cases preprocess n items c with
  | error e => rfl
  | ok x =>
    simp only [Except.map, family_rt]
    have hl : (rt φ x.2).location = x.2.location := rfl
    rw [hl]
    split
    · rfl
    · split
      · rfl
      · exact collectionOf_rt _ (by rw [hr]; exact map_map fun x => rfl)

theorem heteroOf_rt (n : Nat) (items : List Schema) (c : Ctx) :
    heteroOf rec' n (items.map (Schema.retexted φ)) (rt φ c) = (heteroOf rec n items c).map (Ser.retexted φ) := by
  unfold heteroOf
  rw [tupleItems_rt n items c]
  cases tupleItems n items c with
  | error e => rfl
  | ok x =>
    refine collectionOf_rt _ ?_
    rw [parseAll_rt hr]
    cases parseAll rec x items with
    | error e => rfl
    | ok xs => exact congrArg Except.ok (by simp only [Ser.retexted, serAll_eq]; rfl)

omit hr in
theorem kind_rt (x : Ser) : (x.retexted φ).kind = x.kind := by cases x <;> rfl

theorem primUnionOf_rt (cs : List Schema) (c : Ctx) :
    primUnionOf rec' (cs.map (Schema.retexted φ)) (rt φ c) = (primUnionOf rec cs c).map (Ser.retexted φ) := by
  unfold primUnionOf
  rw [parseAll_rt hr]
  cases parseAll rec c cs with
  | error e => rfl
  | ok xs => cases xs with
    | nil => rfl
    | cons x xs =>
      simp only [Except.map, List.map_cons, List.all_map, Function.comp_def, kind_rt]
      split <;> rfl

theorem modelUnionOf_rt (cs : List Schema) (c : Ctx) :
    modelUnionOf rec' (cs.map (Schema.retexted φ)) (rt φ c) = (modelUnionOf rec cs c).map (Ser.retexted φ) := by
  unfold modelUnionOf
  rw [parseProxies_rt hr]
  cases parseProxies rec c cs with
  | error e => rfl
  | ok xs => cases xs <;> rfl

theorem unionOf_rt (n : Nat) (cs : List Schema) (c : Ctx) :
    unionOf rec' n (cs.map (Schema.retexted φ)) (rt φ c) = (unionOf rec n cs c).map (Ser.retexted φ) := by
  unfold unionOf
  rw [unionFamilies_rt n cs c]
  cases unionFamilies n cs c with
  | error e => rfl
  | ok x =>
    simp only [Except.map]
    split
    · rfl
    · split
      · rfl
      · split
        · exact modelUnionOf_rt hr _ _
        · split
          · exact primUnionOf_rt hr _ _
          · rfl

omit hr in
theorem find_field (discr : String) {fs fs' : List Field} (h : Fields.Retexts φ fs fs') :
    (fs.find? (fun f => f.name = discr) = none ∧ fs'.find? (fun f => f.name = discr) = none) ∨
    ∃ f f', fs.find? (fun f => f.name = discr) = some f ∧ fs'.find? (fun f => f.name = discr) = some f' ∧ f.Retexts φ f' := by
  induction h with
  | nil => exact .inl ⟨rfl, rfl⟩
  | @cons f f' fs fs' hf _ ih =>
    simp only [List.find?_cons, hf.name]
    cases decide (f.name = discr)
    · exact ih
    · exact .inr ⟨f, f', rfl, rfl, hf⟩

omit hr in
theorem discriminatorAttr_rt {built built' : Built} (hb : BuiltRt φ built built') (discr cls : String) :
    discriminatorAttr built' discr cls = discriminatorAttr built discr cls := by
  unfold discriminatorAttr
  rcases hb cls with ⟨h1, h2⟩ | ⟨m, m', h1, h2, hm⟩
  · rw [h1, h2]
  · rw [h1, h2]
    have hbody := hm.body
    obtain ⟨name, el, nsm, body, sk, ex, hi⟩ := m
    obtain ⟨name', el', nsm', body', sk', ex', hi'⟩ := m'
    simp only at hbody
    cases hbody with
    | root s => rfl
    | fields hfs =>
      simp only
      rcases find_field discr hfs with ⟨g1, g2⟩ | ⟨f, f', g1, g2, hf⟩
      · rw [g1, g2]
      · rw [g1, g2]
        have hs := hf.ser
        obtain ⟨fname, fser, al, exc, va, se⟩ := f
        obtain ⟨fname', fser', al', exc', va', se'⟩ := f'
        simp only at hs
        subst hs
        cases fser <;> rfl

omit hr in
theorem set_rt (hinj : ∀ a b, φ a = φ b → a = b) (tag : String) (p : Proxy) : ∀ acc : Dict String Proxy,
    (acc.set tag p).map (fun kp => (φ kp.1, kp.2)) = Dict.set (acc.map fun kp => (φ kp.1, kp.2)) (φ tag) p
  | [] => rfl
  | (k, q) :: acc => by
    simp only [Dict.set, List.map_cons]
    by_cases h : k = tag
    · subst h
      simp
    · have h' : φ k ≠ φ tag := fun he => h (hinj _ _ he)
      rw [if_neg h, if_neg h', List.map_cons, set_rt hinj tag p acc]

theorem taggedLoopOf_rt (hinj : ∀ a b, φ a = φ b → a = b) {built built' : Built} (hb : BuiltRt φ built built') (discr : String) (c : Ctx) :
    ∀ (cs : List (Option String × Schema)) (a : Option String) (acc : Dict String Proxy),
      taggedLoopOf rec' built' discr (rt φ c) (Schema.retextedChoices φ cs) a (acc.map fun kp => (φ kp.1, kp.2)) =
        (taggedLoopOf rec built discr c cs a acc).map fun r => (r.1, r.2.map fun kp => (φ kp.1, kp.2))
  | [], _, _ => rfl
  | (none, _) :: _, _, _ => rfl
  | (some tag, s) :: cs, a, acc => by
    simp only [Schema.retextedChoices, Option.map_some, taggedLoopOf]
    rw [parseProxy_rt hr]
    cases parseProxy rec c s with
    | error e => rfl
    | ok p =>
      simp only
      rw [discriminatorAttr_rt hb]
      cases discriminatorAttr built discr p.cls with
      | error e => rfl
      | ok a' =>
        simp only
        split
        · rfl
        · rw [← set_rt hinj, taggedLoopOf_rt hinj hb discr c cs]

theorem taggedOf_rt (hinj : ∀ a b, φ a = φ b → a = b) {built built' : Built} (hb : BuiltRt φ built built') (n : Nat) (discr : Option String) (cs : List (Option String × Schema))
    (c : Ctx) : taggedOf rec' n built' discr (Schema.retextedChoices φ cs) (rt φ c) = (taggedOf rec n built discr cs c).map (Ser.retexted φ) := by
  unfold taggedOf
  have hc : (Schema.retextedChoices φ cs).map Prod.snd = (cs.map Prod.snd).map (Schema.retexted φ) := by
    rw [choices_eq, List.map_map, List.map_map]
    rfl
  rw [hc, taggedChoices_rt n _ c]
  cases taggedChoices n (cs.map Prod.snd) c with
  | error e => rfl
  | ok x =>
    cases discr with
    | none => rfl
    | some d =>
      simp only [Except.map]
      have := taggedLoopOf_rt hr hinj hb d x cs none []
      simp only [List.map_nil] at this
      rw [this]
      cases taggedLoopOf rec built d x cs none [] with
      | error e => rfl
      | ok r =>
        obtain ⟨a, alts⟩ := r
        cases a <;> rfl

theorem wrapOf_rt (s : Schema) (c : Ctx) : wrapOf rec' (s.retexted φ) (rt φ c) = (wrapOf rec s c).map (Ser.retexted φ) := by
  unfold wrapOf
  have h1 : (rt φ c).path = c.path := rfl
  have h2 : (rt φ c).child (rt φ c).wrapped = rt φ (c.child c.wrapped) := rfl
  rw [h1, h2, hr]
  cases c.path with
  | none => rfl
  | some p =>
    simp only
    cases rec s (c.child c.wrapped) with
    | error e => rfl
    | ok x =>
      simp only [Except.map]
      show (match pathNames (selectNs [c.ns, c.parentNs]) (mergeNsmaps [c.nsmap, c.parentNsmap]) (splitPath p) with
        | .error e => _
        | .ok names => _) = _
      generalize pathNames (selectNs [c.ns, c.parentNs]) (mergeNsmaps [c.nsmap, c.parentNsmap]) (splitPath p) = r
      cases r <;> rfl

omit hr in
theorem modelOf_rt {classes classes' : Classes} (hc : classes.Retexts φ classes') (cls : String) (c : Ctx) :
    modelOf classes' cls (rt φ c) = (modelOf classes cls c).map (Ser.retexted φ) := by
  unfold modelOf
  have : proxyOf classes' cls (rt φ c) = (proxyOf classes cls c) := by
    unfold proxyOf
    rcases hc cls with ⟨h1, h2⟩ | ⟨cd, cd', h1, h2, h⟩
    · rw [h1, h2]
    · rw [h1, h2]
      simp only
      rw [h.params, h.name]
      show (QName.fromAlias ((strOr c.path (strOr cd.params.tag (strOr c.fieldAlias (strOr c.fieldName (some cd.name))))).getD cd.name)
        (selectNs [c.ns, cd.params.ns, c.parentNs]) (some (mergeNsmaps [c.nsmap, cd.params.nsmap, c.parentNsmap])) false).map _ = _
      generalize QName.fromAlias _ _ _ _ = r
      cases r <;> rfl
  rw [this]
  have hl : (rt φ c).location = c.location := rfl
  rw [hl]
  generalize c.location = l
  rcases l with _ | l
  · generalize proxyOf classes cls c = r; cases r <;> rfl
  · cases l
    · generalize proxyOf classes cls c = r; cases r <;> rfl
    · rfl
    · rfl

omit hr in
theorem elemOf_rt (c : Ctx) : elemOf (rt φ c) = (elemOf c).map (Ser.retexted φ) := by
  show elemOf c = _
  unfold elemOf
  generalize elementName c = r
  cases r <;> rfl

omit hr in
theorem attrOf_rt (c : Ctx) : attrOf (rt φ c) = (attrOf c).map (Ser.retexted φ) := by
  show attrOf c = _
  unfold attrOf
  simp only
  generalize selectNs [c.ns, if c.nsAttrs = true then c.parentNs else none] = ns
  split
  · rfl
  · generalize strOr c.path (strOr c.fieldAlias c.fieldName) = name
    cases name with
    | none => rfl
    | some name =>
      simp only
      generalize QName.fromAlias _ _ _ _ = r
      cases r <;> rfl

omit hr in
theorem primOf_rt (c : Ctx) : primOf (rt φ c) = (primOf c).map (Ser.retexted φ) := by
  unfold primOf
  rw [elemOf_rt, attrOf_rt]
  have hl : (rt φ c).location = c.location := rfl
  rw [hl]
  generalize c.location = l
  rcases l with _ | l
  · rfl
  · cases l <;> rfl

omit hr in
theorem mappingOf_rt (c : Ctx) : mappingOf (rt φ c) = (mappingOf c).map (Ser.retexted φ) := by
  show mappingOf c = _
  unfold mappingOf mapElemOf
  generalize elementName c = r
  generalize c.location = l
  rcases l with _ | l
  · rfl
  · cases l <;> cases r <;> rfl

omit hr in
theorem rawOf_rt (c : Ctx) : rawOf (rt φ c) = (rawOf c).map (Ser.retexted φ) := by
  show rawOf c = _
  unfold rawOf rawElemOf
  generalize elementName c = r
  generalize c.location = l
  rcases l with _ | l
  · cases r <;> rfl
  · cases l <;> cases r <;> rfl

theorem select_rt (hinj : ∀ a b, φ a = φ b → a = b) {classes classes' : Classes} (hc : classes.Retexts φ classes') {built built' : Built} (hb : BuiltRt φ built built') (n : Nat)
    (s : Schema) (c : Ctx) : select classes' built' rec' n (s.retexted φ) (rt φ c) = (select classes built rec n s c).map (Ser.retexted φ) := by
  unfold select
  have hl : (rt φ c).location = c.location := rfl
  rw [hl]
  split
  · exact wrapOf_rt hr _ _
  · cases s with
    | prim ty => exact primOf_rt c
    | model cls r => exact modelOf_rt hc cls c
    | list i => exact homogOf_rt hr _ _ _
    | tuple is v =>
      simp only [Schema.retexted, all_eq]
      cases v with
      | none => exact heteroOf_rt hr _ _ _
      | some k =>
        cases k with
        | succ k => rfl
        | zero =>
          cases is with
          | nil => rfl
          | cons i is => cases is with
            | nil => exact homogOf_rt hr _ _ _
            | cons j js => rfl
    | dict k v =>
      simp only [Schema.retexted]
      have := primitives_rt (φ := φ) n c [k, v]
      simp only [List.map_cons, List.map_nil] at this
      rw [this, mappingOf_rt]
      cases primitives n c [k, v] <;> rfl
    | typedDict vs =>
      simp only [Schema.retexted, all_eq]
      rw [primitives_rt, mappingOf_rt]
      cases primitives n c vs <;> rfl
    | union cs =>
      simp only [Schema.retexted, all_eq]
      exact unionOf_rt hr _ _ _
    | tagged d cs => exact taggedOf_rt hr hinj hb _ _ _ _
    | isInst native =>
      cases native with
      | true => exact rawOf_rt c
      | false => exact primOf_rt c
    | call b args =>
      simp only [Schema.retexted, all_eq]
      cases b with
      | true => exact heteroOf_rt hr _ _ _
      | false => rfl
    | funcPlain o => cases o <;> rfl
    | _ => rfl

end

/-- Both fail with the same error, or both succeed with related results. -/
def Both {α β : Type} (R : α → β → Prop) : Except DefErr α → Except DefErr β → Prop
  | .error e, .error e' => e = e'
  | .ok x, .ok y => R x y
  | _, _ => False

theorem fields_append {as as' bs bs' : List Field} (ha : Fields.Retexts φ as as') (hb : Fields.Retexts φ bs bs') :
    Fields.Retexts φ (as ++ bs) (as' ++ bs') := by
  induction ha with
  | nil => exact hb
  | cons h _ ih => exact .cons h ih

section
variable {rec rec' : Schema → Ctx → Except DefErr Ser} (hr : ∀ s c, rec' (s.retexted φ) (rt φ c) = (rec s c).map (Ser.retexted φ))
include hr

theorem compileFields_rt {cd cd' : ClassDef} (h : cd.Retexts φ cd') (c : Ctx) :
    ∀ fs : List FieldDef, Both (Fields.Retexts φ) (compileFields rec cd c fs)
      (compileFields rec' cd' (rt φ c) (fs.map fun f => { f with schema := f.schema.retexted φ }))
  | [] => .nil
  | f :: fs => by
    have ih := compileFields_rt h c fs
    simp only [List.map_cons, compileFields]
    split
    · exact ih
    · have hctx : ({ f with schema := f.schema.retexted φ } : FieldDef).ctx (rt φ c) = rt φ (f.ctx c) := rfl
      rw [hctx, hr]
      cases rec f.schema (f.ctx c) with
      | error e => exact rfl
      | ok x =>
        simp only [Except.map]
        generalize compileFields rec cd c fs = a at ih
        generalize compileFields rec' cd' (rt φ c) _ = b at ih
        cases a <;> cases b <;> simp only [Both] at ih
        · subst ih
          exact rfl
        · exact .cons ⟨rfl, rfl, rfl, rfl, h.validators f.name, h.serializers f.name⟩ ih

theorem compileComputed_rt {cd cd' : ClassDef} (h : cd.Retexts φ cd') (c : Ctx) :
    ∀ fs : List ComputedDef, Both (Fields.Retexts φ) (compileComputed rec cd c fs)
      (compileComputed rec' cd' (rt φ c) (fs.map fun f => { f with schema := f.schema.retexted φ }))
  | [] => .nil
  | f :: fs => by
    have ih := compileComputed_rt h c fs
    simp only [List.map_cons, compileComputed]
    have hctx : ({ f with schema := f.schema.retexted φ } : ComputedDef).ctx (rt φ c) = rt φ (f.ctx c) := rfl
    rw [hctx, hr]
    cases rec f.schema (f.ctx c) with
    | error e => exact rfl
    | ok x =>
      simp only [Except.map]
      generalize compileComputed rec cd c fs = a at ih
      generalize compileComputed rec' cd' (rt φ c) _ = b at ih
      cases a <;> cases b <;> simp only [Both] at ih
      · subst ih
        exact rfl
      · exact .cons ⟨rfl, rfl, rfl, rfl, h.validators f.name, h.serializers f.name⟩ ih

theorem compileClass_rt {cd cd' : ClassDef} (h : cd.Retexts φ cd') (c : Ctx) :
    Both (ModelSer.Retexts φ) (compileClass rec cd c) (compileClass rec' cd' (rt φ c)) := by
  have hin : cd'.inside (rt φ c) = rt φ (cd.inside c) := by
    unfold ClassDef.inside
    rw [h.hideInput]
    rfl
  unfold compileClass
  rw [hin]
  have h1 := fun fs => compileFields_rt hr h (cd.inside c) fs
  have h2 := fun fs => compileComputed_rt hr h (cd.inside c) fs
  have h3 := fun s infos => hr s { (cd.inside c).child (EntityInfo.extract infos) with fieldName := none }
  rw [h.name, h.params, h.extraForbid]
  have key : ∀ {x y : Except DefErr Body} (b b' : Bool) (nm nm' : String), Both (Body.Retexts φ) x y → Both (ModelSer.Retexts φ)
      (match x with
        | .error e => (.error e : Except DefErr ModelSer)
        | .ok body =>
          (QName.fromAlias ((strOr cd.params.tag (some cd.name)).getD cd.name) cd.params.ns cd.params.nsmap false).map fun q : QName =>
            ({ name := nm, elementName := q.uri, nsmap := cd.params.nsmap, body := body, skipEmpty := cd.params.skipEmpty,
               extraForbid := cd.extraForbid, hideInput := b } : ModelSer))
      (match y with
        | .error e => (.error e : Except DefErr ModelSer)
        | .ok body =>
          (QName.fromAlias ((strOr cd.params.tag (some cd.name)).getD cd.name) cd.params.ns cd.params.nsmap false).map fun q : QName =>
            ({ name := nm', elementName := q.uri, nsmap := cd.params.nsmap, body := body, skipEmpty := cd.params.skipEmpty,
               extraForbid := cd.extraForbid, hideInput := b' } : ModelSer)) := by
    intro x y b b' nm nm' hxy
    cases x <;> cases y <;> simp only [Both] at hxy
    · exact hxy
    · simp only
      generalize QName.fromAlias _ _ _ _ = r
      cases r with
      | error e => exact rfl
      | ok q => exact ⟨rfl, rfl, hxy, rfl, rfl⟩
  refine key _ _ _ _ ?_
  clear key
  generalize cd.inside c = c at h1 h2 h3
  rw [h.body]
  cases cd.body with
  | fields fs cs =>
    have h1 := h1 fs
    have h2 := h2 cs
    simp only [BodyDef.retexted] at h1 h2 ⊢
    generalize compileFields rec cd c fs = a at h1
    generalize compileFields rec' cd' (rt φ c) _ = a' at h1
    cases a <;> cases a' <;> simp only [Both] at h1
    · exact h1
    · simp only
      generalize compileComputed rec cd c cs = b at h2
      generalize compileComputed rec' cd' (rt φ c) _ = b' at h2
      cases b <;> cases b' <;> simp only [Both] at h2
      · exact h2
      · exact .fields (fields_append h1 h2)
  | root s infos =>
    have := h3 s infos
    simp only [BodyDef.retexted]
    show Both _ _ (Except.map Body.root (rec' (s.retexted φ) (rt φ { c.child (EntityInfo.extract infos) with fieldName := none })))
    rw [this]
    generalize rec s _ = r
    cases r with
    | error e => exact rfl
    | ok x => exact .root x

end

section
variable {classes classes' : Classes} (hc : classes.Retexts φ classes') (hinj : ∀ a b, φ a = φ b → a = b)
include hc hinj

theorem parse_rt {built built' : Built} (hb : BuiltRt φ built built') : ∀ (n : Nat) (s : Schema) (c : Ctx),
    parse classes' built' n (s.retexted φ) (rt φ c) = (parse classes built n s c).map (Ser.retexted φ)
  | 0, _, _ => rfl
  | n + 1, s, c => by
    unfold parse
    rw [preprocess_rt n s c]
    cases preprocess n s c with
    | error e => rfl
    | ok x => exact select_rt (parse_rt hb n) hinj hc hb n x.1 x.2

theorem buildClass_rt {built built' : Built} (hb : BuiltRt φ built built') (n : Nat) {cd cd' : ClassDef} (h : cd.Retexts φ cd') :
    Both (fun o o' => (o = none ∧ o' = none) ∨ ∃ m m', o = some m ∧ o' = some m' ∧ m.Retexts φ m')
      (buildClass classes built n cd) (buildClass classes' built' n cd') := by
  have hx : cd'.ctx = rt φ cd.ctx := by
    unfold ClassDef.ctx
    rw [h.name, h.params]
    rfl
  unfold buildClass
  rw [hx, h.schema, h.complete, preprocess_rt]
  split
  · cases preprocess n cd.schema cd.ctx with
    | error e => exact rfl
    | ok x =>
      obtain ⟨t, c⟩ := x
      cases t with
      | model cls r =>
        simp only [Except.map, Schema.retexted]
        rcases hc cls with ⟨h1, h2⟩ | ⟨cd, cd', h1, h2, h⟩
        · rw [h1, h2]
          exact rfl
        · rw [h1, h2]
          simp only
          have := compileClass_rt (parse_rt hc hinj hb n) h c
          generalize compileClass _ cd c = a at this
          generalize compileClass _ cd' _ = b at this
          cases a <;> cases b <;> simp only [Both] at this
          · exact this
          · exact .inr ⟨_, _, rfl, rfl, this⟩
      | funcPlain o => cases o <;> exact rfl
      | _ => exact rfl
  · exact .inl ⟨rfl, rfl⟩

theorem setSerializer_rt {built built' : Built} (hb : BuiltRt φ built built') (n : Nat) (c : String) (k : Bool) :
    Both (BuiltRt φ) (setSerializer classes n built c k) (setSerializer classes' n built' c k) := by
  unfold setSerializer
  rcases hc c with ⟨h1, h2⟩ | ⟨cd, cd', h1, h2, h⟩
  · rw [h1, h2]
    exact hb
  · rw [h1, h2]
    simp only
    have h' : ClassDef.Retexts φ { cd with complete := cd.complete && k } { cd' with complete := cd'.complete && k } :=
      { name := h.name, params := h.params, schema := h.schema, body := h.body, extraForbid := h.extraForbid, hideInput := h.hideInput,
        complete := by simp only [h.complete], validators := h.validators, serializers := h.serializers }
    have := buildClass_rt hc hinj hb n h'
    generalize buildClass classes built n _ = a at this
    generalize buildClass classes' built' n _ = b at this
    cases a <;> cases b <;> simp only [Both] at this
    · exact this
    · intro x
      by_cases hx : x = c
      · subst hx
        simpa only [if_true] using this
      · simpa only [hx, if_false] using hb x

theorem run_rt {built built' : Built} (hb : BuiltRt φ built built') (n : Nat) (e : Event) :
    Both (BuiltRt φ) (e.run classes n built) (e.run classes' n built') := by
  cases e with
  | statement c k => exact setSerializer_rt hc hinj hb n c k
  | rebuild c k =>
    simp only [Event.run]
    have : (built' c).isNone = (built c).isNone := by
      rcases hb c with ⟨h1, h2⟩ | ⟨m, m', h1, h2, _⟩ <;> rw [h1, h2] <;> rfl
    rw [this]
    split
    · exact setSerializer_rt hc hinj hb n c k
    · exact hb

theorem history_rt (n : Nat) : ∀ (es : List Event) {built built' : Built}, BuiltRt φ built built' →
    BuiltRt φ (history classes n es built) (history classes' n es built')
  | [], _, _, hb => hb
  | e :: es, built, built', hb => by
    have := run_rt hc hinj hb n e
    simp only [history]
    generalize e.run classes n built = a at this
    generalize e.run classes' n built' = b at this
    cases a <;> cases b <;> simp only [Both] at this
    · exact history_rt n es hb
    · exact history_rt n es this

end

end RetextCompile
end PXml
