import Verif.Lemmas.CompileSupported
import Verif.Props.Names
import Verif.Props.Reading
import Verif.Example

/-!
# What a class definition means

C23, C27: names and namespaces.  C20, C21, C33: computed fields, fields that are not XML entities, discriminators.
C28, C46, C47: which definitions are accepted.
-/

namespace PXml

/-! ## A set of class definitions -/

namespace Def

/-- `class Address(BaseXmlModel, tag='address', ns='a', nsmap={'a': 'urn:address'}): zip: str = attr(); street: Optional[str]` -/
def address : ClassDef where
  name := "Address"
  params := { tag := some "address", ns := some "a", nsmap := some [("a", "urn:address")] }
  schema := .model "Address" false
  body := .fields
    [{ name := "zip", schema := .prim "str", infos := [.mk (some .attribute) none none none none none] },
     { name := "street", schema := .nullable (.prim "str") }] []

/-- `class Dog(BaseXmlModel, tag='pet'): kind: Literal['dog'] = attr(); name: str = element()` -/
def dog : ClassDef where
  name := "Dog"
  params := { tag := some "pet" }
  schema := .model "Dog" false
  body := .fields
    [{ name := "kind", schema := .prim "literal", infos := [.mk (some .attribute) none none none none none] },
     { name := "name", schema := .prim "str", infos := [.mk (some .element) none none none none none] }] []

/-- `class Cat(BaseXmlModel, tag='pet'): kind: Literal['cat'] = attr(); lives: int = element()` -/
def cat : ClassDef where
  name := "Cat"
  params := { tag := some "pet" }
  schema := .model "Cat" false
  body := .fields
    [{ name := "kind", schema := .prim "literal", infos := [.mk (some .attribute) none none none none none] },
     { name := "lives", schema := .prim "int", infos := [.mk (some .element) none none none none none] }] []

/-- A class with most kinds of fields:
`class Person(BaseXmlModel, ns='p', nsmap={'p': 'urn:person', '': 'urn:default'}, search_mode='ordered')`. -/
def person : ClassDef where
  name := "Person"
  params := { ns := some "p", nsmap := some [("p", "urn:person"), ("", "urn:default")], searchMode := .ordered }
  schema := .definitions [("Person", .model "Person" false)] (.ref "Person")
  body := .fields
    [{ name := "id", schema := .func (.prim "int"), infos := [.mk (some .attribute) none none none none none] },
     { name := "name", schema := .prim "str", alias := some "Name", infos := [.mk (some .element) none none none none none] },
     { name := "mails", schema := .default (.list (.prim "str")),
       infos := [.mk (some .element) (some "mail") (some "") none none none] },
     { name := "phone", schema := .nullable (.prim "str"),
       infos := [.mk (some .wrapped) (some "contact/phones") none none none
         (some (.mk (some .element) (some "phone") (some "q") (some [("q", "urn:phone")]) none none))] },
     { name := "home", schema := .model "Address" false },
     { name := "pet", schema := .nullable (.tagged (some "kind")
         [(some "dog", .model "Dog" false), (some "cat", .model "Cat" false)]) },
     { name := "cache", schema := .other "any", noXml := true }]
    [{ name := "size", schema := .prim "int", info := some (.mk (some .attribute) none none none none none) }]

def classes : Classes
  | "Address" => some address
  | "Dog" => some dog
  | "Cat" => some cat
  | "Person" => some person
  | _ => none

/-- The serializers after the class statements. -/
def built : Built := history classes 9 (["Address", "Dog", "Cat", "Person"].map fun c => .statement c true) fun _ => none

theorem infos_ok {l p n nl} : (EntityInfo.mk l p n none nl none).WellFormed :=
  .mk (fun m hm => by cases hm) (fun w hw => by cases hw)

theorem proper : classes.Proper := by
  intro c cd h
  unfold classes at h
  split at h <;> cases h
  · exact ⟨by decide, fun m hm => by cases hm; decide⟩
  · exact ⟨by decide, fun m hm => by cases hm⟩
  · exact ⟨by decide, fun m hm => by cases hm⟩
  · exact ⟨by decide, fun m hm => by cases hm; decide⟩

end Def

/-! ## C23, C27 -/

theorem wellFormed_merge {is : List EntityInfo} (h : ∀ i ∈ is, i.WellFormed) : (EntityInfo.merge is).WellFormed := by
  have hw : ∀ i ∈ is, i.WF := fun i hi => by cases h i hi with | mk h1 _ => exact h1
  refine .mk (merge_wf hw) ?_
  intro w hw'
  rw [(C25_last_wins is).2.2.2.2] at hw'
  have := List.mem_of_getLast? hw'
  obtain ⟨i, hi, he⟩ := List.mem_filterMap.1 this
  cases h i hi with | mk _ h2 => exact h2 w he

theorem wellFormed_extract {is : List EntityInfo} (h : ∀ i ∈ is, i.WellFormed) :
    ∀ i, EntityInfo.extract is = some i → i.WellFormed := by
  intro i hi
  cases is with
  | nil => cases hi
  | cons a is => cases hi; exact wellFormed_merge h

/-- C23, C27: the serializer of a field has the names that the annotations prescribe, at all levels: the local name is the
path, else the alias, else the name of the field (for a sub-model the tag of its class comes after the path, the name of
the class last); the prefix is that of the entity, else of the sub-model, else the nearest one around the entity; it is
looked up in the namespace map of the entity, then of the sub-model, then in those around the entity; attributes have a
namespace only by their own prefix or, with `ns_attrs`, that around them (`Ser.Fits`). -/
theorem C23_C27_field (classes : Classes) (hc : classes.Proper) (built : Built) (n : Nat) (s : Schema) (ctx : Ctx) (x : Ser)
    (hp : ctx.place.Proper) (hf : ctx.fieldName ≠ some "") (h : parse classes built n s ctx = .ok x) :
    x.Fits classes ctx.place := parse_fits hc built n s ctx hp hf h

theorem compileFields_fits {classes : Classes} {rec : Schema → Ctx → Except DefErr Ser} {cd : ClassDef} {ctx : Ctx} :
    ∀ {fs : List FieldDef},
    (∀ f ∈ fs, ∀ x, rec f.schema (f.ctx ctx) = .ok x → x.Fits classes (f.place cd)) → ∀ {xs : List Field},
    compileFields rec cd ctx fs = .ok xs → Each (fun f x => x.Fits classes cd f) (fs.filter fun f => !f.noXml) xs := by
  intro fs
  induction fs with
  | nil => intro _ xs h; cases h; exact .nil
  | cons f fs ih =>
    intro hrec xs h
    have ih := @ih fun f hf => hrec f (by simp [hf])
    simp only [compileFields] at h
    cases hno : f.noXml with
    | true =>
      rw [hno, if_pos rfl] at h
      simp only [List.filter_cons, hno, Bool.not_true, Bool.false_eq_true, if_false]
      exact ih h
    | false =>
      rw [hno, if_neg (by simp)] at h
      simp only [List.filter_cons, hno, Bool.not_false, if_true]
      split at h
      · cases h
      · rename_i s hs
        split at h
        · cases h
        · rename_i rest hr
          cases h
          refine .cons ⟨rfl, hrec f (by simp) s hs, ?_, rfl, rfl, rfl⟩ (ih hr)
          show (if Elem.truthy f.validationAlias then f.validationAlias else none) = _
          cases f.validationAlias with
          | none => simp [Elem.truthy]
          | some a => by_cases ha : a = "" <;> simp [Elem.truthy, ha]

theorem compileComputed_fits {classes : Classes} {rec : Schema → Ctx → Except DefErr Ser} {cd : ClassDef} {ctx : Ctx} :
    ∀ {cs : List ComputedDef},
    (∀ c ∈ cs, ∀ x, rec c.schema (c.ctx ctx) = .ok x → x.Fits classes (c.place cd)) → ∀ {xs : List Field},
    compileComputed rec cd ctx cs = .ok xs → Each (fun c x => x.FitsComputed classes cd c) cs xs := by
  intro cs
  induction cs with
  | nil => intro _ xs h; cases h; exact .nil
  | cons c cs ih =>
    intro hrec xs h
    have ih := @ih fun f hf => hrec f (by simp [hf])
    simp only [compileComputed] at h
    split at h
    · cases h
    · rename_i s hs
      split at h
      · cases h
      · rename_i rest hr
        cases h
        exact .cons ⟨rfl, hrec c (by simp) s hs, rfl, rfl, rfl, rfl⟩ (ih hr)

/-- The root element name, given that it can be formed. -/
theorem rootName_eq {cd : ClassDef} (hn : cd.name ≠ "") {q : QName}
    (h : QName.fromAlias ((strOr cd.params.tag (some cd.name)).getD cd.name) cd.params.ns cd.params.nsmap false = .ok q) :
    q.uri = cd.rootName := by
  obtain ⟨t, ht⟩ := strOr_some (a := cd.params.tag) (b := some cd.name) ⟨_, rfl⟩
  have hg : givenName [cd.params.tag, some cd.name] = some t := by
    rw [givenName_cons, givenName_singleton (by simpa using hn), ht]
  unfold ClassDef.rootName
  rw [hg]
  rw [ht] at h
  simp only [Option.getD_some] at h ⊢
  cases hm : cd.params.nsmap with
  | some m =>
    rw [hm] at h
    rw [fromAlias_element h]
    simp only [uriIn, List.findSome?_cons, List.findSome?_nil, Option.getD_some]
    cases Dict.get? m (cd.params.ns.getD "") <;> rfl
  | none =>
    rw [hm] at h
    unfold QName.fromAlias at h
    cases hns : cd.params.ns with
    | none =>
      rw [hns] at h
      cases h
      rfl
    | some a =>
      rw [hns] at h
      cases h
      rfl

/-- C23, C27, C20, C21: the serializer of a class has a field for every field of the class that is an XML entity and for every
computed field, in this order, with the settings that the annotations prescribe, and the name of the root element is the tag
of the class, else its name, in the namespace of the prefix of the class. -/
theorem C23_C27_class (classes : Classes) (hc : classes.Proper) (built : Built) (n : Nat) (cls : String) (cd : ClassDef)
    (m : ModelSer) (hcd : classes cls = some cd) (hp : cd.Proper) (r : Bool) (d : Dict String Schema)
    (hs : Strips [] cd.schema d (.model cls r)) (h : buildClass classes built n cd = .ok (some m)) :
    m.Fits classes cd := by
  unfold buildClass at h
  split at h
  · split at h
    · cases h
    · rename_i cls' r' ctx hpre
      obtain ⟨h1, h2⟩ := preprocess_strips _ _ _ hpre
      obtain ⟨h3, h4⟩ := h1.det hs
      cases h4
      rw [hcd] at h
      simp only at h
      obtain ⟨hname, hmap, hbody⟩ := hp
      have hinfo : ∀ i ∈ [some cd.info], EntityInfo.Proper i := by
        intro i hi
        simp only [List.mem_singleton] at hi
        subst hi
        intro m hm
        exact hmap m hm
      cases hcc : compileClass (parse classes built n) cd ctx with
      | error e => rw [hcc] at h; cases h
      | ok m' =>
        rw [hcc] at h
        cases h
        cases hbd : cd.body with
        | fields fs cs =>
          rw [hbd] at hbody
          simp only at hbody
          simp only [compileClass, hbd] at hcc
          cases ha : compileFields (parse classes built n) cd (cd.inside ctx) fs with
          | error e => rw [ha] at hcc; cases hcc
          | ok a =>
            cases hb : compileComputed (parse classes built n) cd (cd.inside ctx) cs with
            | error e => rw [ha, hb] at hcc; cases hcc
            | ok b =>
              rw [ha, hb] at hcc
              simp only at hcc
              cases hq : QName.fromAlias ((strOr cd.params.tag (some cd.name)).getD cd.name) cd.params.ns cd.params.nsmap false with
              | error e => rw [hq] at hcc; cases hcc
              | ok q =>
                rw [hq] at hcc
                cases hcc
                refine ⟨rfl, rootName_eq hname hq, rfl, rfl, rfl, by rw [h2]; rfl, ?_⟩
                rw [hbd]
                refine ⟨a, b, rfl, compileFields_fits ?_ ha, compileComputed_fits ?_ hb⟩
                · intro f hf x hx
                  have e : (f.ctx (cd.inside ctx)).place = f.place cd := by rw [h2]; rfl
                  have hpl : (f.place cd).Proper := ⟨wellFormed_extract (hbody.1 f hf).2, hinfo⟩
                  rw [← e] at hpl ⊢
                  exact parse_fits hc built n _ _ hpl (by simpa [FieldDef.ctx] using (hbody.1 f hf).1) hx
                · intro c hcm x hx
                  have e : (c.ctx (cd.inside ctx)).place = c.place cd := by rw [h2]; rfl
                  have hpl : (c.place cd).Proper := ⟨(hbody.2 c hcm).2, hinfo⟩
                  rw [← e] at hpl ⊢
                  exact parse_fits hc built n _ _ hpl (by simpa [ComputedDef.ctx] using (hbody.2 c hcm).1) hx
        | root s infos =>
          rw [hbd] at hbody
          simp only at hbody
          simp only [compileClass, hbd] at hcc
          cases hx : parse classes built n s { (cd.inside ctx).child (EntityInfo.extract infos) with fieldName := none } with
          | error e => rw [hx] at hcc; cases hcc
          | ok x =>
            rw [hx] at hcc
            simp only [Except.map] at hcc
            cases hq : QName.fromAlias ((strOr cd.params.tag (some cd.name)).getD cd.name) cd.params.ns cd.params.nsmap false with
            | error e => rw [hq] at hcc; cases hcc
            | ok q =>
              rw [hq] at hcc
              cases hcc
              refine ⟨rfl, rootName_eq hname hq, rfl, rfl, rfl, by rw [h2]; rfl, ?_⟩
              rw [hbd]
              refine ⟨x, rfl, ?_⟩
              have e : ({ (cd.inside ctx).child (EntityInfo.extract infos) with fieldName := none } : Ctx).place = cd.rootPlace infos := by
                rw [h2]; rfl
              have hpl : (cd.rootPlace infos).Proper := ⟨wellFormed_extract hbody, hinfo⟩
              rw [← e] at hpl ⊢
              exact parse_fits hc built n _ _ hpl (by simp) hx
    · cases h
  · cases h

/-- Non-vacuity: the class `Person` above is accepted; these are its root element and its fields. -/
example : (Def.built "Person").map (fun m => (m.elementName, m.body)) = some ("{urn:person}Person", .fields
    [{ name := "id", ser := .attr "id" false },
     { name := "name", ser := .elem "{urn:person}Name" (some [("p", "urn:person"), ("", "urn:default")]) .ordered false false },
     { name := "mails", ser := .homog "Person" false
         (.elem "{urn:default}mail" (some [("p", "urn:person"), ("", "urn:default")]) .ordered false false) },
     { name := "phone", ser := .wrap ["{urn:person}contact", "{urn:person}phones"]
         (some [("p", "urn:person"), ("", "urn:default")]) .ordered false
         (.elem "{urn:phone}phone" (some [("p", "urn:person"), ("", "urn:default"), ("q", "urn:phone")]) .ordered false false) },
     { name := "home", ser := .proxy { cls := "Address", name := "{urn:address}address", nsmap := some [("p", "urn:person"), ("", "urn:default"), ("a", "urn:address")], mode := .ordered } },
     { name := "pet", ser := .tagged false "kind" "kind" .ordered
         [("dog", { cls := "Dog", name := "{urn:person}pet", nsmap := some [("p", "urn:person"), ("", "urn:default")], mode := .ordered }),
          ("cat", { cls := "Cat", name := "{urn:person}pet", nsmap := some [("p", "urn:person"), ("", "urn:default")], mode := .ordered })] },
     { name := "size", ser := .attr "size" true }]) := by kernel_rfl

/-- Non-vacuity: the hypotheses of C23 and C27 about the class hold for it. -/
example : Def.person.Proper ∧ Strips [] Def.person.schema [("Person", .model "Person" false)] (.model "Person" false) := by
  refine ⟨⟨by decide, fun m hm => by cases hm; decide, ?_, ?_⟩, .definitions (.ref (s := .model "Person" false) rfl (.done rfl))⟩
  · intro f hf
    simp only [List.mem_cons, List.not_mem_nil, or_false] at hf
    rcases hf with rfl | rfl | rfl | rfl | rfl | rfl | rfl <;> refine ⟨by decide, fun i hi => ?_⟩
    all_goals simp only [List.mem_cons, List.not_mem_nil, or_false] at hi
    · subst hi; exact Def.infos_ok
    · subst hi; exact Def.infos_ok
    · subst hi; exact Def.infos_ok
    · subst hi
      exact .mk (fun m hm => by cases hm) fun w hw => by
        cases hw
        exact .mk (fun m hm => by cases hm; decide) (fun w hw => by cases hw)
  · intro c hcm
    simp only [List.mem_cons, List.not_mem_nil, or_false] at hcm
    subst hcm
    exact ⟨by decide, fun i hi => by cases hi; exact Def.infos_ok⟩

/-- C23: an attribute is never in the default namespace: without a prefix of its own, and without `ns_attrs` or a prefix around
it, its name is the local name; asking for the default namespace is an error. -/
theorem C23_attribute (classes : Classes) (hc : classes.Proper) (built : Built) (n : Nat) (s : Schema) (ctx : Ctx) (name : String)
    (c : Bool) (hp : ctx.place.Proper) (hf : ctx.fieldName ≠ some "") (h : parse classes built n s ctx = .ok (.attr name c)) :
    ∃ tag, ctx.place.given = some tag ∧ ctx.place.attrPrefix? ≠ some "" ∧
      (ctx.place.attrPrefix? = none → name = tag) := by
  have hfit := parse_fits hc built n s ctx hp hf h
  have hd : ctx.place.attrPrefix? ≠ some "" := by
    cases n with
    | zero => cases h
    | succ n =>
      obtain ⟨t, d, -, hsel⟩ := parse_sel h
      have hpr : primOf { ctx with defs := d } = .ok (.attr name c) := by
        cases hsel with
        | prim h => exact h
        | inst h => exact h
        | raw h => exact absurd (rawOf_kind h) (by simp [Ser.kind])
        | dict _ h =>
          exfalso
          have : Ser.Fits classes ctx.place (.attr name c) → True := fun _ => trivial
          unfold mappingOf at h
          split at h
          · unfold mapElemOf at h
            cases hn : PXml.elementName { ctx with defs := d } with
            | error e => rw [hn] at h; cases h
            | ok nm => rw [hn] at h; cases h
          · cases h
          · cases h
          · cases h
        | typedDict _ h =>
          exfalso
          unfold mappingOf at h
          split at h
          · unfold mapElemOf at h
            cases hn : PXml.elementName { ctx with defs := d } with
            | error e => rw [hn] at h; cases h
            | ok nm => rw [hn] at h; cases h
          · cases h
          · cases h
          · cases h
      have hk := primOf_kind hpr
      have hl : ctx.location = some .attribute := by
        change SerKind.attr = scalarKind ctx.location at hk
        unfold scalarKind at hk
        split at hk
        · cases hk
        · assumption
        · cases hk
      have := (primOf_iff (ctx := { ctx with defs := d }) hp hf).1 ⟨_, hpr⟩
      rcases this with h | ⟨h, -⟩ | ⟨-, h⟩
      · rw [location_eq] at h
        exact absurd (h.symm.trans hl) (by simp)
      · rw [location_eq] at h
        exact absurd (h.symm.trans hl) (by simp)
      · exact h.2.1
  cases hfit with
  | @attr _ tag hg =>
    refine ⟨tag, hg, hd, fun hn => ?_⟩
    unfold Place.attrName
    rw [hn]
    rfl

/-! ## C20, C21, C33 -/

/-- C20: a computed field is computed at all levels of its serializer, other fields are not; so C20 applies to the computed fields
of every class. -/
theorem C20_definition (classes : Classes) (p : Place) (x : Ser) (h : x.Fits classes p) :
    x.Everywhere fun s => s.computed = p.computed := by
  induction h with
  | text | attr | elem | raw => exact .mk rfl (by simp [Ser.subs])
  | attrs h => exact .mk h.2.2.2 (by simp [Ser.subs])
  | mapElem _ h => exact .mk h.2.2.2 (by simp [Ser.subs])
  | proxy => exact .mk rfl (by simp [Ser.subs])
  | primUnion _ ih => exact .mk rfl (by simpa [Ser.subs] using ih)
  | modelUnion _ ih =>
    refine .mk rfl ?_
    intro t ht
    obtain ⟨q, hq, rfl⟩ := List.mem_map.1 ht
    exact ih q hq
  | tagged _ ih =>
    refine .mk rfl ?_
    intro t ht
    obtain ⟨q, hq, rfl⟩ := List.mem_map.1 ht
    exact ih q hq
  | wrap _ _ _ _ ih => exact .mk rfl (by simpa [Ser.subs, Place.inside] using ih)
  | homog _ ih => exact .mk rfl (by simpa [Ser.subs] using ih)
  | hetero _ ih => exact .mk rfl ih

/-- C21: a field that is not an XML entity does not matter, whatever its type. -/
theorem C21_not_xml (rec : Schema → Ctx → Except DefErr Ser) (cd : ClassDef) (ctx : Ctx) (fs : List FieldDef)
    (cs : List ComputedDef) (h : cd.body = .fields fs cs) :
    compileClass rec cd ctx = compileClass rec { cd with body := .fields (fs.filter fun f => !f.noXml) cs } ctx := by
  have key : ∀ (cd' : ClassDef) (fs : List FieldDef), cd'.validators = cd.validators → cd'.serializers = cd.serializers →
      ∀ ctx, compileFields rec cd ctx fs = compileFields rec cd' ctx (fs.filter fun f => !f.noXml) := by
    intro cd' fs hv hs ctx
    induction fs with
    | nil => rfl
    | cons f fs ih =>
      cases hno : f.noXml with
      | true => simp only [compileFields, hno, if_true, List.filter_cons, Bool.not_true, Bool.false_eq_true, if_false, ih]
      | false =>
        simp only [compileFields, hno, Bool.false_eq_true, if_false, List.filter_cons, Bool.not_false, if_true, ih, hv, hs]
  have key2 : ∀ (cd' : ClassDef) (cs : List ComputedDef), cd'.validators = cd.validators → cd'.serializers = cd.serializers →
      ∀ ctx, compileComputed rec cd ctx cs = compileComputed rec cd' ctx cs := by
    intro cd' cs hv hs ctx
    induction cs with
    | nil => rfl
    | cons f fs ih => simp only [compileComputed, ih, hv, hs]
  have hi : ({ cd with body := .fields (fs.filter fun f => !f.noXml) cs } : ClassDef).inside ctx = cd.inside ctx := rfl
  simp only [compileClass, h, hi]
  generalize cd.inside ctx = ctx
  rw [key { cd with body := .fields (fs.filter fun f => !f.noXml) cs } fs rfl rfl,
    key2 { cd with body := .fields (fs.filter fun f => !f.noXml) cs } cs rfl rfl]

/-- C33: the attribute that a discriminated union looks at is the attribute of the discriminator field in every alternative;
the alternatives have the tags of the definition, every tag once. -/
theorem C33_definition (classes : Classes) (built : Built) (n : Nat) (s : Schema) (ctx : Ctx) (c : Bool)
    (discr attr : String) (mode : Mode) (alts : List (String × Proxy))
    (h : parse classes built n s ctx = .ok (.tagged c discr attr mode alts)) :
    (alts.map Prod.fst).Nodup ∧ (∃ d choices, Strips ctx.defs s d (.tagged (some discr) choices) ∧
      ∀ a ∈ alts, some a.1 ∈ choices.map Prod.fst) ∧
    ∀ a ∈ alts, ∃ m fs f comp, built a.2.cls = some m ∧ m.body = .fields fs ∧
      fs.find? (fun f => f.name = discr) = some f ∧ f.ser = .attr attr comp := by
  cases n with
  | zero => cases h
  | succ n =>
    obtain ⟨t, d, hst, hsel⟩ := parse_sel h
    have hno : ∀ {r : Except DefErr Ser} {x : Ser}, r = .ok x → r = .ok (.tagged c discr attr mode alts) → x = .tagged c discr attr mode alts := by
      intro r x h1 h2; rw [h1] at h2; cases h2; rfl
    cases hsel with
    | prim h =>
      have := primOf_kind h
      unfold scalarKind at this
      split at this <;> cases this
    | inst h =>
      have := primOf_kind h
      unfold scalarKind at this
      split at this <;> cases this
    | raw h => exact absurd (rawOf_kind h) (by simp [Ser.kind])
    | dict _ h =>
      exfalso
      unfold mappingOf at h
      split at h
      · unfold mapElemOf at h
        cases hn : PXml.elementName { ctx with defs := d } with
        | error e => rw [hn] at h; cases h
        | ok nm => rw [hn] at h; cases h
      · cases h
      · cases h
      · cases h
    | typedDict _ h =>
      exfalso
      unfold mappingOf at h
      split at h
      · unfold mapElemOf at h
        cases hn : PXml.elementName { ctx with defs := d } with
        | error e => rw [hn] at h; cases h
        | ok nm => rw [hn] at h; cases h
      · cases h
      · cases h
      · cases h
    | @tagged _ _ choices _ _ h1 h2 h3 =>
      refine ⟨?_, ⟨d, choices, hst, ?_⟩, ?_⟩
      · have key : ∀ (cs : List (Option String × Schema)) (a a' : Option String) (acc acc' : Dict String Proxy) ctx', Dict.WF acc →
            taggedLoopOf (parse classes built n) built discr ctx' cs a acc = .ok (a', acc') → Dict.WF acc' := by
          intro cs
          induction cs with
          | nil => intro a a' acc acc' ctx' hw h; cases h; exact hw
          | cons c cs ih =>
            intro a a' acc acc' ctx' hw h
            obtain ⟨o, s⟩ := c
            cases o with
            | none => cases h
            | some tag =>
              simp only [taggedLoopOf] at h
              split at h
              · cases h
              · split at h
                · cases h
                · split at h
                  · cases h
                  · exact ih _ _ _ _ _ (Dict.wf_set hw _ _) h
        exact key _ _ _ _ _ _ Dict.wf_nil h3
      · intro a ha
        rcases (taggedLoopOf_ok h3).2.1 a ha with h | ⟨s, hs, -⟩
        · simp at h
        · exact List.mem_map.2 ⟨_, hs, rfl⟩
      · intro a ha
        rcases (taggedLoopOf_ok h3).2.1 a ha with h | ⟨s, -, -, b, hb, he⟩
        · simp at h
        · cases he
          exact discriminatorAttr_ok hb

end PXml
