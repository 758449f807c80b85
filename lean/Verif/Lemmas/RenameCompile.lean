import Verif.SpecRename
import Verif.Props.History

/-! Definitions are accepted or not whatever the names of the classes are, and give the same serializers but for them. -/

namespace PXml
namespace RenameCompile

variable {ρ τ : String → String}

theorem serAll_eq : ∀ ss : List Ser, Ser.renamedAll ρ τ ss = ss.map (Ser.renamed ρ τ)
  | [] => rfl
  | s :: ss => by simp [Ser.renamedAll, serAll_eq ss]

theorem all_eq : ∀ ss : List Schema, Schema.renamedAll ρ ss = ss.map (Schema.renamed ρ)
  | [] => rfl
  | s :: ss => by simp [Schema.renamedAll, all_eq ss]

theorem choices_eq : ∀ ss : List (Option String × Schema), Schema.renamedChoices ρ ss = ss.map fun x => (x.1, x.2.renamed ρ)
  | [] => rfl
  | (t, s) :: ss => by simp [Schema.renamedChoices, choices_eq ss]

theorem family_rn (s : Schema) : (s.renamed ρ).family = s.family := by
  cases s <;> first | rfl | (rename_i o; cases o <;> rfl)

theorem defs_get (r : String) : ∀ d : Dict String Schema,
    Dict.get? (Schema.renamedDefs ρ d) r = (Dict.get? d r).map (Schema.renamed ρ)
  | [] => rfl
  | (k, s) :: d => by
    simp only [Schema.renamedDefs, Dict.get?]
    split
    · rfl
    · exact defs_get r d

theorem defs_set (r : String) (s : Schema) : ∀ d : Dict String Schema,
    Schema.renamedDefs ρ (Dict.set d r s) = Dict.set (Schema.renamedDefs ρ d) r (s.renamed ρ)
  | [] => rfl
  | (k, t) :: d => by
    simp only [Schema.renamedDefs, Dict.set]
    split
    · rfl
    · simp only [Schema.renamedDefs, defs_set r s d]

theorem defs_update : ∀ (e d : Dict String Schema),
    Schema.renamedDefs ρ (Dict.update d e) = Dict.update (Schema.renamedDefs ρ d) (Schema.renamedDefs ρ e)
  | [], _ => rfl
  | (k, s) :: e, d => by
    show Schema.renamedDefs ρ (Dict.update (Dict.set d k s) e) =
      Dict.update (Dict.set (Schema.renamedDefs ρ d) k (s.renamed ρ)) (Schema.renamedDefs ρ e)
    rw [defs_update e, defs_set]

/-- The context with the classes renamed. -/
def rn (ρ τ : String → String) (c : Ctx) : Ctx := { c with modelName := τ c.modelName, defs := Schema.renamedDefs ρ c.defs }

theorem preprocess_rn : ∀ (n : Nat) (s : Schema) (c : Ctx),
    preprocess n (s.renamed ρ) (rn ρ τ c) = (preprocess n s c).map fun x => (x.1.renamed ρ, rn ρ τ x.2)
  | 0, _, _ => rfl
  | n + 1, s, c => by
    cases s with
    | func i => exact preprocess_rn n i c
    | funcPlain o =>
      cases o with
      | none => rfl
      | some i => exact preprocess_rn n i c
    | default i => exact preprocess_rn n i c
    | nullable i => exact preprocess_rn n i c
    | jsonOrPython i => exact preprocess_rn n i c
    | definitions defs i =>
      have := preprocess_rn n i { c with defs := Dict.update c.defs defs }
      simp only [rn, defs_update] at this
      exact this
    | ref r =>
      have hd : (rn ρ τ c).defs = Schema.renamedDefs ρ c.defs := rfl
      simp only [preprocess, Schema.renamed, hd, defs_get]
      cases Dict.get? c.defs r with
      | some s => exact preprocess_rn n s c
      | none => rfl
    | _ => rfl

theorem tupleItems_rn (n : Nat) : ∀ (ss : List Schema) (c : Ctx),
    tupleItems n (ss.map (Schema.renamed ρ)) (rn ρ τ c) = (tupleItems n ss c).map (rn ρ τ)
  | [], _ => rfl
  | s :: ss, c => by
    simp only [List.map_cons, tupleItems]
    rw [preprocess_rn]
    cases preprocess n s c with
    | error e => rfl
    | ok x =>
      simp only [Except.map, family_rn]
      have hl : (rn ρ τ x.2).location = x.2.location := rfl
      rw [hl]
      split
      · rfl
      · split
        · rfl
        · exact tupleItems_rn n ss x.2

theorem primitives_rn (n : Nat) (c : Ctx) : ∀ ss : List Schema, primitives n (rn ρ τ c) (ss.map (Schema.renamed ρ)) = primitives n c ss
  | [] => rfl
  | s :: ss => by
    simp only [List.map_cons, primitives]
    rw [preprocess_rn]
    cases preprocess n s c with
    | error e => rfl
    | ok x =>
      simp only [Except.map, family_rn]
      rw [primitives_rn n c ss]

theorem unionFamilies_rn (n : Nat) : ∀ (ss : List Schema) (c : Ctx),
    unionFamilies n (ss.map (Schema.renamed ρ)) (rn ρ τ c) = (unionFamilies n ss c).map fun x => (x.1, rn ρ τ x.2)
  | [], _ => rfl
  | s :: ss, c => by
    simp only [List.map_cons, unionFamilies]
    rw [preprocess_rn]
    cases preprocess n s c with
    | error e => rfl
    | ok x =>
      have := unionFamilies_rn n ss x.2
      simp only [Except.map, family_rn]
      split
      all_goals first | rfl | skip
      all_goals
        rw [this]
        cases unionFamilies n ss x.2 with
        | error e => rfl
        | ok y => rfl

theorem taggedChoices_rn (n : Nat) : ∀ (ss : List Schema) (c : Ctx),
    taggedChoices n (ss.map (Schema.renamed ρ)) (rn ρ τ c) = (taggedChoices n ss c).map (rn ρ τ)
  | [], _ => rfl
  | s :: ss, c => by
    simp only [List.map_cons, taggedChoices]
    rw [preprocess_rn]
    cases preprocess n s c with
    | error e => rfl
    | ok x =>
      obtain ⟨t, c'⟩ := x
      cases t with
      | model cls r => cases r with
        | true => rfl
        | false => exact taggedChoices_rn n ss c'
      | funcPlain o => cases o <;> rfl
      | _ => rfl

/-- The classes built so far are the same up to the renaming. -/
def BuiltRn (ρ τ : String → String) (built built' : Built) : Prop :=
  ∀ c, (built c = none ∧ built' (ρ c) = none) ∨ ∃ m m', built c = some m ∧ built' (ρ c) = some m' ∧ m.Renames ρ τ m'

section
variable {rec rec' : Schema → Ctx → Except DefErr Ser} (hr : ∀ s c, rec' (s.renamed ρ) (rn ρ τ c) = (rec s c).map (Ser.renamed ρ τ))
include hr

theorem parseAll_rn (c : Ctx) : ∀ ss : List Schema,
    parseAll rec' (rn ρ τ c) (ss.map (Schema.renamed ρ)) = (parseAll rec c ss).map (List.map (Ser.renamed ρ τ))
  | [] => rfl
  | s :: ss => by
    simp only [List.map_cons, parseAll]
    rw [hr, parseAll_rn c ss]
    cases rec s c with
    | error e => rfl
    | ok x => cases parseAll rec c ss with
      | error e => rfl
      | ok xs => rfl

theorem parseProxy_rn (c : Ctx) (s : Schema) : parseProxy rec' (rn ρ τ c) (s.renamed ρ) = (parseProxy rec c s).map (Proxy.renamed ρ) := by
  unfold parseProxy
  rw [hr]
  cases rec s c with
  | error e => rfl
  | ok x => cases x <;> rfl

theorem parseProxies_rn (c : Ctx) : ∀ ss : List Schema,
    parseProxies rec' (rn ρ τ c) (ss.map (Schema.renamed ρ)) = (parseProxies rec c ss).map (List.map (Proxy.renamed ρ))
  | [] => rfl
  | s :: ss => by
    simp only [List.map_cons, parseProxies]
    rw [parseProxy_rn hr, parseProxies_rn c ss]
    cases parseProxy rec c s with
    | error e => rfl
    | ok x => cases parseProxies rec c ss with
      | error e => rfl
      | ok xs => rfl

omit hr in
theorem collectionOf_rn {r r' : Except DefErr Ser} (c : Ctx) (h : r' = r.map (Ser.renamed ρ τ)) :
    collectionOf (rn ρ τ c) r' = (collectionOf c r).map (Ser.renamed ρ τ) := by
  subst h
  unfold collectionOf
  have hl : (rn ρ τ c).location = c.location := rfl
  rw [hl]
  generalize c.location = l
  rcases l with _ | l
  · rfl
  · cases l <;> rfl

omit hr in
theorem map_map {r : Except DefErr Ser} {f g : Ser → Ser} (h : ∀ x, f (x.renamed ρ τ) = (g x).renamed ρ τ) :
    (r.map (Ser.renamed ρ τ)).map f = (r.map g).map (Ser.renamed ρ τ) := by
  cases r with
  | error e => rfl
  | ok x => exact congrArg Except.ok (h x)

theorem homogOf_rn (n : Nat) (items : Schema) (c : Ctx) :
    homogOf rec' n (items.renamed ρ) (rn ρ τ c) = (homogOf rec n items c).map (Ser.renamed ρ τ) := by
  unfold homogOf
  rw [preprocess_rn n items c]
  cases preprocess n items c with
  | error e => rfl
  | ok x =>
    simp only [Except.map, family_rn]
    have hl : (rn ρ τ x.2).location = x.2.location := rfl
    rw [hl]
    split
    · rfl
    · split
      · rfl
      · exact collectionOf_rn _ (by rw [hr]; exact map_map fun x => rfl)

theorem heteroOf_rn (n : Nat) (items : List Schema) (c : Ctx) :
    heteroOf rec' n (items.map (Schema.renamed ρ)) (rn ρ τ c) = (heteroOf rec n items c).map (Ser.renamed ρ τ) := by
  unfold heteroOf
  rw [tupleItems_rn n items c]
  cases tupleItems n items c with
  | error e => rfl
  | ok x =>
    refine collectionOf_rn _ ?_
    rw [parseAll_rn hr]
    cases parseAll rec x items with
    | error e => rfl
    | ok xs => exact congrArg Except.ok (by simp only [Ser.renamed, serAll_eq]; rfl)

omit hr in
theorem kind_rn (x : Ser) : (x.renamed ρ τ).kind = x.kind := by cases x <;> rfl

theorem primUnionOf_rn (cs : List Schema) (c : Ctx) :
    primUnionOf rec' (cs.map (Schema.renamed ρ)) (rn ρ τ c) = (primUnionOf rec cs c).map (Ser.renamed ρ τ) := by
  unfold primUnionOf
  rw [parseAll_rn hr]
  cases parseAll rec c cs with
  | error e => rfl
  | ok xs => cases xs with
    | nil => rfl
    | cons x xs =>
      simp only [Except.map, List.map_cons, List.all_map, Function.comp_def, kind_rn]
      split <;> rfl

theorem modelUnionOf_rn (cs : List Schema) (c : Ctx) :
    modelUnionOf rec' (cs.map (Schema.renamed ρ)) (rn ρ τ c) = (modelUnionOf rec cs c).map (Ser.renamed ρ τ) := by
  unfold modelUnionOf
  rw [parseProxies_rn hr]
  cases parseProxies rec c cs with
  | error e => rfl
  | ok xs => cases xs <;> rfl

theorem unionOf_rn (n : Nat) (cs : List Schema) (c : Ctx) :
    unionOf rec' n (cs.map (Schema.renamed ρ)) (rn ρ τ c) = (unionOf rec n cs c).map (Ser.renamed ρ τ) := by
  unfold unionOf
  rw [unionFamilies_rn n cs c]
  cases unionFamilies n cs c with
  | error e => rfl
  | ok x =>
    simp only [Except.map]
    split
    · rfl
    · split
      · rfl
      · split
        · exact modelUnionOf_rn hr _ _
        · split
          · exact primUnionOf_rn hr _ _
          · rfl

omit hr in
theorem find_field (discr : String) {fs fs' : List Field} (h : Fields.Renames ρ τ fs fs') :
    (fs.find? (fun f => f.name = discr) = none ∧ fs'.find? (fun f => f.name = discr) = none) ∨
    ∃ f f', fs.find? (fun f => f.name = discr) = some f ∧ fs'.find? (fun f => f.name = discr) = some f' ∧ f.Renames ρ τ f' := by
  induction h with
  | nil => exact .inl ⟨rfl, rfl⟩
  | @cons f f' fs fs' hf _ ih =>
    simp only [List.find?_cons, hf.name]
    cases decide (f.name = discr)
    · exact ih
    · exact .inr ⟨f, f', rfl, rfl, hf⟩

omit hr in
theorem discriminatorAttr_rn {built built' : Built} (hb : BuiltRn ρ τ built built') (discr cls : String) :
    discriminatorAttr built' discr (ρ cls) = discriminatorAttr built discr cls := by
  unfold discriminatorAttr
  rcases hb cls with ⟨h1, h2⟩ | ⟨m, m', h1, h2, hm⟩
  · rw [h1, h2]
  · rw [h1, h2]
    have hbody := hm.body
    obtain ⟨name, el, nsm, body, sk, ex, hi⟩ := m
    obtain ⟨name', el', nsm', body', sk', ex', hi'⟩ := m'
    simp only at hbody
    cases hbody with
    | root s => rfl
    | fields hfs =>
      simp only
      rcases find_field discr hfs with ⟨g1, g2⟩ | ⟨f, f', g1, g2, hf⟩
      · rw [g1, g2]
      · rw [g1, g2]
        have hs := hf.ser
        obtain ⟨fname, fser, al, exc, va, se⟩ := f
        obtain ⟨fname', fser', al', exc', va', se'⟩ := f'
        simp only at hs
        subst hs
        cases fser <;> rfl

omit hr in
theorem set_rn (tag : String) (p : Proxy) : ∀ acc : Dict String Proxy,
    (acc.set tag p).map (fun kp => (kp.1, kp.2.renamed ρ)) = Dict.set (acc.map fun kp => (kp.1, kp.2.renamed ρ)) tag (p.renamed ρ)
  | [] => rfl
  | (k, q) :: acc => by
    simp only [Dict.set, List.map_cons]
    split
    · rfl
    · rw [List.map_cons, set_rn tag p acc]

theorem taggedLoopOf_rn {built built' : Built} (hb : BuiltRn ρ τ built built') (discr : String) (c : Ctx) :
    ∀ (cs : List (Option String × Schema)) (a : Option String) (acc : Dict String Proxy),
      taggedLoopOf rec' built' discr (rn ρ τ c) (Schema.renamedChoices ρ cs) a (acc.map fun kp => (kp.1, kp.2.renamed ρ)) =
        (taggedLoopOf rec built discr c cs a acc).map fun r => (r.1, r.2.map fun kp => (kp.1, kp.2.renamed ρ))
  | [], _, _ => rfl
  | (none, _) :: _, _, _ => rfl
  | (some tag, s) :: cs, a, acc => by
    simp only [Schema.renamedChoices, taggedLoopOf]
    rw [parseProxy_rn hr]
    cases parseProxy rec c s with
    | error e => rfl
    | ok p =>
      simp only [Except.map]
      show (match discriminatorAttr built' discr (ρ p.cls) with | .error e => _ | .ok a' => _) = _
      rw [discriminatorAttr_rn hb]
      cases discriminatorAttr built discr p.cls with
      | error e => rfl
      | ok a' =>
        simp only
        split
        · rfl
        · rw [← set_rn, taggedLoopOf_rn hb discr c cs]
          rfl

theorem taggedOf_rn {built built' : Built} (hb : BuiltRn ρ τ built built') (n : Nat) (discr : Option String) (cs : List (Option String × Schema))
    (c : Ctx) : taggedOf rec' n built' discr (Schema.renamedChoices ρ cs) (rn ρ τ c) = (taggedOf rec n built discr cs c).map (Ser.renamed ρ τ) := by
  unfold taggedOf
  have hc : (Schema.renamedChoices ρ cs).map Prod.snd = (cs.map Prod.snd).map (Schema.renamed ρ) := by
    rw [choices_eq, List.map_map, List.map_map]
    rfl
  rw [hc, taggedChoices_rn n _ c]
  cases taggedChoices n (cs.map Prod.snd) c with
  | error e => rfl
  | ok x =>
    cases discr with
    | none => rfl
    | some d =>
      simp only [Except.map]
      have := taggedLoopOf_rn hr hb d x cs none []
      simp only [List.map_nil] at this
      rw [this]
      cases taggedLoopOf rec built d x cs none [] with
      | error e => rfl
      | ok r =>
        obtain ⟨a, alts⟩ := r
        cases a <;> rfl

theorem wrapOf_rn (s : Schema) (c : Ctx) : wrapOf rec' (s.renamed ρ) (rn ρ τ c) = (wrapOf rec s c).map (Ser.renamed ρ τ) := by
  unfold wrapOf
  have h1 : (rn ρ τ c).path = c.path := rfl
  have h2 : (rn ρ τ c).child (rn ρ τ c).wrapped = rn ρ τ (c.child c.wrapped) := rfl
  rw [h1, h2, hr]
  cases c.path with
  | none => rfl
  | some p =>
    simp only
    cases rec s (c.child c.wrapped) with
    | error e => rfl
    | ok x =>
      simp only [Except.map]
      show (match pathNames (selectNs [c.ns, c.parentNs]) (mergeNsmaps [c.nsmap, c.parentNsmap]) (splitPath p) with
        | .error e => _
        | .ok names => _) = _
      generalize pathNames (selectNs [c.ns, c.parentNs]) (mergeNsmaps [c.nsmap, c.parentNsmap]) (splitPath p) = r
      cases r <;> rfl

omit hr in
theorem strOr_tag {cd cd' : ClassDef} (h : cd.Renames ρ τ cd') (a x y : Option String) (hx : x = some cd.name ∧ y = some cd'.name ∨ ∃ b b',
    x = strOr b (strOr b' (some cd.name)) ∧ y = strOr b (strOr b' (some cd'.name))) :
    (strOr a (strOr cd'.params.tag y)).getD cd'.name = (strOr a (strOr cd.params.tag x)).getD cd.name := by
  rw [h.params, h.name] at *
  rcases h.tag with ht | ht
  · have h1 : ∀ z, strOr cd.params.tag z = cd.params.tag := fun z => by unfold strOr; rw [if_pos ht]
    rw [h1, h1]
    have h2 : ∀ d, (strOr a cd.params.tag).getD d = (strOr a cd.params.tag).getD "" := by
      intro d
      have h3 : ∀ z, Elem.truthy z = true → ∃ w, z = some w := by
        intro z hz
        cases z with
        | none => cases hz
        | some w => exact ⟨w, rfl⟩
      obtain ⟨w, hw⟩ := h3 _ ht
      unfold strOr
      split
      · rename_i ha
        obtain ⟨u, hu⟩ := h3 _ ha
        rw [hu]
        rfl
      · rw [hw]
        rfl
    rw [h2 (τ cd.name), h2 cd.name]
  · rcases hx with ⟨rfl, rfl⟩ | ⟨b, b', rfl, rfl⟩ <;> rw [ht]

omit hr in
theorem modelOf_rn {classes classes' : Classes} (hc : classes.Renames ρ τ classes') (cls : String) (c : Ctx) :
    modelOf classes' (ρ cls) (rn ρ τ c) = (modelOf classes cls c).map (Ser.renamed ρ τ) := by
  unfold modelOf
  have : proxyOf classes' (ρ cls) (rn ρ τ c) = (proxyOf classes cls c).map (Proxy.renamed ρ) := by
    unfold proxyOf
    rcases hc cls with ⟨h1, h2⟩ | ⟨cd, cd', h1, h2, h⟩
    · rw [h1, h2]
      rfl
    · rw [h1, h2]
      simp only
      rw [strOr_tag h _ _ _ (.inr ⟨_, _, rfl, rfl⟩), h.params]
      show (QName.fromAlias ((strOr c.path (strOr cd.params.tag (strOr c.fieldAlias (strOr c.fieldName (some cd.name))))).getD cd.name)
        (selectNs [c.ns, cd.params.ns, c.parentNs]) (some (mergeNsmaps [c.nsmap, cd.params.nsmap, c.parentNsmap])) false).map _ = _
      generalize QName.fromAlias _ _ _ _ = r
      cases r <;> rfl
  rw [this]
  have hl : (rn ρ τ c).location = c.location := rfl
  rw [hl]
  generalize c.location = l
  rcases l with _ | l
  · generalize proxyOf classes cls c = r; cases r <;> rfl
  · cases l
    · generalize proxyOf classes cls c = r; cases r <;> rfl
    · rfl
    · rfl

omit hr in
theorem elemOf_rn (c : Ctx) : elemOf (rn ρ τ c) = (elemOf c).map (Ser.renamed ρ τ) := by
  show elemOf c = _
  unfold elemOf
  generalize elementName c = r
  cases r <;> rfl

omit hr in
theorem attrOf_rn (c : Ctx) : attrOf (rn ρ τ c) = (attrOf c).map (Ser.renamed ρ τ) := by
  show attrOf c = _
  unfold attrOf
  simp only
  generalize selectNs [c.ns, if c.nsAttrs = true then c.parentNs else none] = ns
  split
  · rfl
  · generalize strOr c.path (strOr c.fieldAlias c.fieldName) = name
    cases name with
    | none => rfl
    | some name =>
      simp only
      generalize QName.fromAlias _ _ _ _ = r
      cases r <;> rfl

omit hr in
theorem primOf_rn (c : Ctx) : primOf (rn ρ τ c) = (primOf c).map (Ser.renamed ρ τ) := by
  unfold primOf
  rw [elemOf_rn, attrOf_rn]
  have hl : (rn ρ τ c).location = c.location := rfl
  rw [hl]
  generalize c.location = l
  rcases l with _ | l
  · rfl
  · cases l <;> rfl

omit hr in
theorem mappingOf_rn (c : Ctx) : mappingOf (rn ρ τ c) = (mappingOf c).map (Ser.renamed ρ τ) := by
  show mappingOf c = _
  unfold mappingOf mapElemOf
  generalize elementName c = r
  generalize c.location = l
  rcases l with _ | l
  · rfl
  · cases l <;> cases r <;> rfl

omit hr in
theorem rawOf_rn (c : Ctx) : rawOf (rn ρ τ c) = (rawOf c).map (Ser.renamed ρ τ) := by
  show rawOf c = _
  unfold rawOf rawElemOf
  generalize elementName c = r
  generalize c.location = l
  rcases l with _ | l
  · cases r <;> rfl
  · cases l <;> cases r <;> rfl

theorem select_rn {classes classes' : Classes} (hc : classes.Renames ρ τ classes') {built built' : Built} (hb : BuiltRn ρ τ built built') (n : Nat)
    (s : Schema) (c : Ctx) : select classes' built' rec' n (s.renamed ρ) (rn ρ τ c) = (select classes built rec n s c).map (Ser.renamed ρ τ) := by
  unfold select
  have hl : (rn ρ τ c).location = c.location := rfl
  rw [hl]
  split
  · exact wrapOf_rn hr _ _
  · cases s with
    | prim ty => exact primOf_rn c
    | model cls r => exact modelOf_rn hc cls c
    | list i => exact homogOf_rn hr _ _ _
    | tuple is v =>
      simp only [Schema.renamed, all_eq]
      cases v with
      | none => exact heteroOf_rn hr _ _ _
      | some k =>
        cases k with
        | succ k => rfl
        | zero =>
          cases is with
          | nil => rfl
          | cons i is => cases is with
            | nil => exact homogOf_rn hr _ _ _
            | cons j js => rfl
    | dict k v =>
      simp only [Schema.renamed]
      have := primitives_rn (ρ := ρ) (τ := τ) n c [k, v]
      simp only [List.map_cons, List.map_nil] at this
      rw [this, mappingOf_rn]
      cases primitives n c [k, v] <;> rfl
    | typedDict vs =>
      simp only [Schema.renamed, all_eq]
      rw [primitives_rn, mappingOf_rn]
      cases primitives n c vs <;> rfl
    | union cs =>
      simp only [Schema.renamed, all_eq]
      exact unionOf_rn hr _ _ _
    | tagged d cs => exact taggedOf_rn hr hb _ _ _ _
    | isInst native =>
      cases native with
      | true => exact rawOf_rn c
      | false => exact primOf_rn c
    | call b args =>
      simp only [Schema.renamed, all_eq]
      cases b with
      | true => exact heteroOf_rn hr _ _ _
      | false => rfl
    | funcPlain o => cases o <;> rfl
    | _ => rfl

end

/-- Both fail with the same error, or both succeed with related results. -/
def Both {α β : Type} (R : α → β → Prop) : Except DefErr α → Except DefErr β → Prop
  | .error e, .error e' => e = e'
  | .ok x, .ok y => R x y
  | _, _ => False

theorem fields_append {as as' bs bs' : List Field} (ha : Fields.Renames ρ τ as as') (hb : Fields.Renames ρ τ bs bs') :
    Fields.Renames ρ τ (as ++ bs) (as' ++ bs') := by
  induction ha with
  | nil => exact hb
  | cons h _ ih => exact .cons h ih

section
variable {rec rec' : Schema → Ctx → Except DefErr Ser} (hr : ∀ s c, rec' (s.renamed ρ) (rn ρ τ c) = (rec s c).map (Ser.renamed ρ τ))
include hr

theorem compileFields_rn {cd cd' : ClassDef} (h : cd.Renames ρ τ cd') (c : Ctx) :
    ∀ fs : List FieldDef, Both (Fields.Renames ρ τ) (compileFields rec cd c fs)
      (compileFields rec' cd' (rn ρ τ c) (fs.map fun f => { f with schema := f.schema.renamed ρ }))
  | [] => .nil
  | f :: fs => by
    have ih := compileFields_rn h c fs
    simp only [List.map_cons, compileFields]
    split
    · exact ih
    · have hctx : ({ f with schema := f.schema.renamed ρ } : FieldDef).ctx (rn ρ τ c) = rn ρ τ (f.ctx c) := rfl
      rw [hctx, hr]
      cases rec f.schema (f.ctx c) with
      | error e => exact rfl
      | ok x =>
        simp only [Except.map]
        generalize compileFields rec cd c fs = a at ih
        generalize compileFields rec' cd' (rn ρ τ c) _ = b at ih
        cases a <;> cases b <;> simp only [Both] at ih
        · subst ih
          exact rfl
        · exact .cons ⟨rfl, rfl, rfl, rfl, h.validators f.name, h.serializers f.name⟩ ih

theorem compileComputed_rn {cd cd' : ClassDef} (h : cd.Renames ρ τ cd') (c : Ctx) :
    ∀ fs : List ComputedDef, Both (Fields.Renames ρ τ) (compileComputed rec cd c fs)
      (compileComputed rec' cd' (rn ρ τ c) (fs.map fun f => { f with schema := f.schema.renamed ρ }))
  | [] => .nil
  | f :: fs => by
    have ih := compileComputed_rn h c fs
    simp only [List.map_cons, compileComputed]
    have hctx : ({ f with schema := f.schema.renamed ρ } : ComputedDef).ctx (rn ρ τ c) = rn ρ τ (f.ctx c) := rfl
    rw [hctx, hr]
    cases rec f.schema (f.ctx c) with
    | error e => exact rfl
    | ok x =>
      simp only [Except.map]
      generalize compileComputed rec cd c fs = a at ih
      generalize compileComputed rec' cd' (rn ρ τ c) _ = b at ih
      cases a <;> cases b <;> simp only [Both] at ih
      · subst ih
        exact rfl
      · exact .cons ⟨rfl, rfl, rfl, rfl, h.validators f.name, h.serializers f.name⟩ ih

theorem compileClass_rn {cd cd' : ClassDef} (h : cd.Renames ρ τ cd') (c : Ctx) :
    Both (ModelSer.Renames ρ τ) (compileClass rec cd c) (compileClass rec' cd' (rn ρ τ c)) := by
  have hin : cd'.inside (rn ρ τ c) = rn ρ τ (cd.inside c) := by
    unfold ClassDef.inside
    rw [h.hideInput]
    rfl
  unfold compileClass
  rw [hin]
  have h1 := fun fs => compileFields_rn hr h (cd.inside c) fs
  have h2 := fun fs => compileComputed_rn hr h (cd.inside c) fs
  have h3 := fun s infos => hr s { (cd.inside c).child (EntityInfo.extract infos) with fieldName := none }
  have hn : (strOr cd'.params.tag (some cd'.name)).getD cd'.name = (strOr cd.params.tag (some cd.name)).getD cd.name :=
    strOr_tag h none _ _ (.inl ⟨rfl, rfl⟩)
  rw [hn, h.params, h.extraForbid]
  have key : ∀ {x y : Except DefErr Body} (b b' : Bool) (nm nm' : String), Both (Body.Renames ρ τ) x y → Both (ModelSer.Renames ρ τ)
      (match x with
        | .error e => (.error e : Except DefErr ModelSer)
        | .ok body =>
          (QName.fromAlias ((strOr cd.params.tag (some cd.name)).getD cd.name) cd.params.ns cd.params.nsmap false).map fun q : QName =>
            ({ name := nm, elementName := q.uri, nsmap := cd.params.nsmap, body := body, skipEmpty := cd.params.skipEmpty,
               extraForbid := cd.extraForbid, hideInput := b } : ModelSer))
      (match y with
        | .error e => (.error e : Except DefErr ModelSer)
        | .ok body =>
          (QName.fromAlias ((strOr cd.params.tag (some cd.name)).getD cd.name) cd.params.ns cd.params.nsmap false).map fun q : QName =>
            ({ name := nm', elementName := q.uri, nsmap := cd.params.nsmap, body := body, skipEmpty := cd.params.skipEmpty,
               extraForbid := cd.extraForbid, hideInput := b' } : ModelSer)) := by
    intro x y b b' nm nm' hxy
    cases x <;> cases y <;> simp only [Both] at hxy
    · exact hxy
    · simp only
      generalize QName.fromAlias _ _ _ _ = r
      cases r with
      | error e => exact rfl
      | ok q => exact ⟨rfl, rfl, hxy, rfl, rfl⟩
  refine key _ _ _ _ ?_
  clear key
  generalize cd.inside c = c at h1 h2 h3
  rw [h.body]
  cases cd.body with
  | fields fs cs =>
    have h1 := h1 fs
    have h2 := h2 cs
    simp only [BodyDef.renamed] at h1 h2 ⊢
    generalize compileFields rec cd c fs = a at h1
    generalize compileFields rec' cd' (rn ρ τ c) _ = a' at h1
    cases a <;> cases a' <;> simp only [Both] at h1
    · exact h1
    · simp only
      generalize compileComputed rec cd c cs = b at h2
      generalize compileComputed rec' cd' (rn ρ τ c) _ = b' at h2
      cases b <;> cases b' <;> simp only [Both] at h2
      · exact h2
      · exact .fields (fields_append h1 h2)
  | root s infos =>
    have := h3 s infos
    simp only [BodyDef.renamed]
    show Both _ _ (Except.map Body.root (rec' (s.renamed ρ) (rn ρ τ { c.child (EntityInfo.extract infos) with fieldName := none })))
    rw [this]
    generalize rec s _ = r
    cases r with
    | error e => exact rfl
    | ok x => exact .root x

end

section
variable {classes classes' : Classes} (hc : classes.Renames ρ τ classes')
include hc

theorem parse_rn {built built' : Built} (hb : BuiltRn ρ τ built built') : ∀ (n : Nat) (s : Schema) (c : Ctx),
    parse classes' built' n (s.renamed ρ) (rn ρ τ c) = (parse classes built n s c).map (Ser.renamed ρ τ)
  | 0, _, _ => rfl
  | n + 1, s, c => by
    unfold parse
    rw [preprocess_rn n s c]
    cases preprocess n s c with
    | error e => rfl
    | ok x => exact select_rn (parse_rn hb n) hc hb n x.1 x.2

theorem buildClass_rn {built built' : Built} (hb : BuiltRn ρ τ built built') (n : Nat) {cd cd' : ClassDef} (h : cd.Renames ρ τ cd') :
    Both (fun o o' => (o = none ∧ o' = none) ∨ ∃ m m', o = some m ∧ o' = some m' ∧ m.Renames ρ τ m')
      (buildClass classes built n cd) (buildClass classes' built' n cd') := by
  have hx : cd'.ctx = rn ρ τ cd.ctx := by
    unfold ClassDef.ctx
    rw [h.name, h.params]
    rfl
  unfold buildClass
  rw [hx, h.schema, h.complete, preprocess_rn]
  split
  · cases preprocess n cd.schema cd.ctx with
    | error e => exact rfl
    | ok x =>
      obtain ⟨t, c⟩ := x
      cases t with
      | model cls r =>
        simp only [Except.map, Schema.renamed]
        rcases hc cls with ⟨h1, h2⟩ | ⟨cd, cd', h1, h2, h⟩
        · rw [h1, h2]
          exact rfl
        · rw [h1, h2]
          simp only
          have := compileClass_rn (parse_rn hc hb n) h c
          generalize compileClass _ cd c = a at this
          generalize compileClass _ cd' _ = b at this
          cases a <;> cases b <;> simp only [Both] at this
          · exact this
          · exact .inr ⟨_, _, rfl, rfl, this⟩
      | funcPlain o => cases o <;> exact rfl
      | _ => exact rfl
  · exact .inl ⟨rfl, rfl⟩

theorem setSerializer_rn (hinj : ∀ a b, ρ a = ρ b → a = b) {built built' : Built} (hb : BuiltRn ρ τ built built') (n : Nat) (c : String) (k : Bool) :
    Both (BuiltRn ρ τ) (setSerializer classes n built c k) (setSerializer classes' n built' (ρ c) k) := by
  unfold setSerializer
  rcases hc c with ⟨h1, h2⟩ | ⟨cd, cd', h1, h2, h⟩
  · rw [h1, h2]
    exact hb
  · rw [h1, h2]
    simp only
    have h' : ClassDef.Renames ρ τ { cd with complete := cd.complete && k } { cd' with complete := cd'.complete && k } :=
      { name := h.name, tag := h.tag, params := h.params, schema := h.schema, body := h.body, extraForbid := h.extraForbid, hideInput := h.hideInput,
        complete := by simp only [h.complete], validators := h.validators, serializers := h.serializers }
    have := buildClass_rn hc hb n h'
    generalize buildClass classes built n _ = a at this
    generalize buildClass classes' built' n _ = b at this
    cases a <;> cases b <;> simp only [Both] at this
    · exact this
    · intro x
      by_cases hx : x = c
      · subst hx
        simpa only [if_true] using this
      · have hx' : ρ x ≠ ρ c := fun he => hx (hinj _ _ he)
        simpa only [hx, hx', if_false] using hb x

theorem run_rn (hinj : ∀ a b, ρ a = ρ b → a = b) {built built' : Built} (hb : BuiltRn ρ τ built built') (n : Nat) (e : Event) :
    Both (BuiltRn ρ τ) (e.run classes n built) ((e.renamed ρ).run classes' n built') := by
  cases e with
  | statement c k => exact setSerializer_rn hc hinj hb n c k
  | rebuild c k =>
    simp only [Event.renamed, Event.run]
    have : (built' (ρ c)).isNone = (built c).isNone := by
      rcases hb c with ⟨h1, h2⟩ | ⟨m, m', h1, h2, _⟩ <;> rw [h1, h2] <;> rfl
    rw [this]
    split
    · exact setSerializer_rn hc hinj hb n c k
    · exact hb

theorem history_rn (hinj : ∀ a b, ρ a = ρ b → a = b) (n : Nat) : ∀ (es : List Event) {built built' : Built}, BuiltRn ρ τ built built' →
    BuiltRn ρ τ (history classes n es built) (history classes' n (es.map (Event.renamed ρ)) built')
  | [], _, _, hb => hb
  | e :: es, built, built', hb => by
    have := run_rn hc hinj hb n e
    simp only [List.map_cons, history]
    generalize e.run classes n built = a at this
    generalize (e.renamed ρ).run classes' n built' = b at this
    cases a <;> cases b <;> simp only [Both] at this
    · exact history_rn hinj n es hb
    · exact history_rn hinj n es this

end

end RenameCompile
end PXml
