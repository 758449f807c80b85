import Verif.Lemmas.CompileBecomes
import Verif.Props.Program

/-!
# The representation of types (C75)
-/

namespace PXml

variable {classes : Classes}

theorem compileFields_becomes {keyed : String → String → String → Prop} {d : Dict String Schema} {rec : Schema → Ctx → Except DefErr Ser}
    {cd : ClassDef} {ctx : Ctx} : ∀ {fs : List FieldDef}, (∀ f ∈ fs, ∀ x, rec f.schema (f.ctx ctx) = .ok x →
      x.Fits classes (f.place cd) ∧ f.schema.Becomes classes keyed d (f.place cd) x) → ∀ {xs : List Field},
    compileFields rec cd ctx fs = .ok xs →
    Each (fun f x => x.Fits classes cd f ∧ f.schema.Becomes classes keyed d (f.place cd) x.ser) (fs.filter fun f => !f.noXml) xs := by
  intro fs
  induction fs with
  | nil => intro _ xs h; cases h; exact .nil
  | cons f fs ih =>
    intro hrec xs h
    have ih := @ih fun f hf => hrec f (by simp [hf])
    simp only [compileFields] at h
    cases hno : f.noXml with
    | true =>
      rw [hno, if_pos rfl] at h
      simp only [List.filter_cons, hno, Bool.not_true, Bool.false_eq_true, if_false]
      exact ih h
    | false =>
      rw [hno, if_neg (by simp)] at h
      simp only [List.filter_cons, hno, Bool.not_false, if_true]
      split at h
      · cases h
      · rename_i s hs
        split at h
        · cases h
        · rename_i rest hr
          cases h
          refine .cons ⟨⟨rfl, (hrec f (by simp) s hs).1, ?_, rfl, rfl, rfl⟩, (hrec f (by simp) s hs).2⟩ (ih hr)
          show (if Elem.truthy f.validationAlias then f.validationAlias else none) = _
          cases f.validationAlias with
          | none => simp [Elem.truthy]
          | some a => by_cases ha : a = "" <;> simp [Elem.truthy, ha]

theorem compileComputed_becomes {keyed : String → String → String → Prop} {d : Dict String Schema} {rec : Schema → Ctx → Except DefErr Ser}
    {cd : ClassDef} {ctx : Ctx} : ∀ {cs : List ComputedDef}, (∀ c ∈ cs, ∀ x, rec c.schema (c.ctx ctx) = .ok x →
      x.Fits classes (c.place cd) ∧ c.schema.Becomes classes keyed d (c.place cd) x) → ∀ {xs : List Field},
    compileComputed rec cd ctx cs = .ok xs →
    Each (fun c x => x.FitsComputed classes cd c ∧ c.schema.Becomes classes keyed d (c.place cd) x.ser) cs xs := by
  intro cs
  induction cs with
  | nil => intro _ xs h; cases h; exact .nil
  | cons c cs ih =>
    intro hrec xs h
    have ih := @ih fun f hf => hrec f (by simp [hf])
    simp only [compileComputed] at h
    split at h
    · cases h
    · rename_i s hs
      split at h
      · cases h
      · rename_i rest hr
        cases h
        exact .cons ⟨⟨rfl, (hrec c (by simp) s hs).1, rfl, rfl, rfl, rfl⟩, (hrec c (by simp) s hs).2⟩ (ih hr)

/-- C75: the representation of a field is the one of its type at its place: the field constructor and the type decide whether it is text,
an attribute, an element, the attributes or the content of an element, and the annotations decide the names. -/
theorem C75_field (hc : classes.Proper) (built : Built) (n : Nat) (s : Schema) (ctx : Ctx) (x : Ser) (hd : PlainDefs ctx.defs) (hs : s.Plain)
    (hp : ctx.place.Proper) (hf : ctx.fieldName ≠ some "") (h : parse classes built n s ctx = .ok x) :
    s.Becomes classes built.Keyed ctx.defs ctx.place x := parse_becomes hc n s ctx hd hs hp hf h

/-- C75: so it is for all fields of a class, in their order. -/
theorem C75_class (hc : classes.Proper) (built : Built) (n : Nat) (cls : String) (cd : ClassDef)
    (m : ModelSer) (hcd : classes cls = some cd) (hp : cd.Proper) (hpl : cd.Plain) (r : Bool) (d : Dict String Schema)
    (hs : Strips [] cd.schema d (.model cls r)) (hd : PlainDefs d) (h : buildClass classes built n cd = .ok (some m)) :
    m.Becomes classes built.Keyed d cd := by
  unfold buildClass at h
  split at h
  · split at h
    · cases h
    · rename_i cls' r' ctx hpre
      obtain ⟨h1, h2⟩ := preprocess_strips _ _ _ hpre
      obtain ⟨h3, h4⟩ := h1.det hs
      cases h4
      rw [hcd] at h
      simp only at h
      obtain ⟨hname, hmap, hbody⟩ := hp
      have hinfo : ∀ i ∈ [some cd.info], EntityInfo.Proper i := by
        intro i hi
        simp only [List.mem_singleton] at hi
        subst hi
        intro m hm
        exact hmap m hm
      cases hcc : compileClass (parse classes built n) cd ctx with
      | error e => rw [hcc] at h; cases h
      | ok m' =>
        rw [hcc] at h
        cases h
        unfold ModelSer.Becomes
        cases hbd : cd.body with
        | fields fs cs =>
          rw [hbd] at hbody
          simp only [ClassDef.Plain, hbd] at hpl
          simp only at hbody
          simp only [compileClass, hbd] at hcc
          cases ha : compileFields (parse classes built n) cd (cd.inside ctx) fs with
          | error e => rw [ha] at hcc; cases hcc
          | ok a =>
            cases hb : compileComputed (parse classes built n) cd (cd.inside ctx) cs with
            | error e => rw [ha, hb] at hcc; cases hcc
            | ok b =>
              rw [ha, hb] at hcc
              simp only at hcc
              cases hq : QName.fromAlias ((strOr cd.params.tag (some cd.name)).getD cd.name) cd.params.ns cd.params.nsmap false with
              | error e => rw [hq] at hcc; cases hcc
              | ok q =>
                rw [hq] at hcc
                cases hcc
                refine ⟨a, b, rfl, compileFields_becomes ?_ ha, compileComputed_becomes ?_ hb⟩
                · intro f hf x hx
                  have e : (f.ctx (cd.inside ctx)).place = f.place cd := by rw [h2]; rfl
                  have e' : (f.ctx (cd.inside ctx)).defs = d := by rw [← h3, h2]; rfl
                  have hpl' : (f.place cd).Proper := ⟨wellFormed_extract (hbody.1 f hf).2, hinfo⟩
                  have hn : (f.ctx (cd.inside ctx)).fieldName ≠ some "" := by simpa [FieldDef.ctx] using (hbody.1 f hf).1
                  rw [← e] at hpl'
                  rw [← e]
                  have hb' := parse_becomes hc n _ _ (by rw [e']; exact hd) (hpl.1 f hf) hpl' hn hx
                  rw [e'] at hb'
                  exact ⟨parse_fits hc built n _ _ hpl' hn hx, hb'⟩
                · intro c hcm x hx
                  have e : (c.ctx (cd.inside ctx)).place = c.place cd := by rw [h2]; rfl
                  have e' : (c.ctx (cd.inside ctx)).defs = d := by rw [← h3, h2]; rfl
                  have hpl' : (c.place cd).Proper := ⟨(hbody.2 c hcm).2, hinfo⟩
                  have hn : (c.ctx (cd.inside ctx)).fieldName ≠ some "" := by simpa [ComputedDef.ctx] using (hbody.2 c hcm).1
                  rw [← e] at hpl'
                  rw [← e]
                  have hb' := parse_becomes hc n _ _ (by rw [e']; exact hd) (hpl.2 c hcm) hpl' hn hx
                  rw [e'] at hb'
                  exact ⟨parse_fits hc built n _ _ hpl' hn hx, hb'⟩
        | root s infos =>
          rw [hbd] at hbody
          simp only [ClassDef.Plain, hbd] at hpl
          simp only at hbody
          simp only [compileClass, hbd] at hcc
          cases hx : parse classes built n s { (cd.inside ctx).child (EntityInfo.extract infos) with fieldName := none } with
          | error e => rw [hx] at hcc; cases hcc
          | ok x =>
            rw [hx] at hcc
            simp only [Except.map] at hcc
            cases hq : QName.fromAlias ((strOr cd.params.tag (some cd.name)).getD cd.name) cd.params.ns cd.params.nsmap false with
            | error e => rw [hq] at hcc; cases hcc
            | ok q =>
              rw [hq] at hcc
              cases hcc
              refine ⟨x, rfl, ?_⟩
              have e : ({ (cd.inside ctx).child (EntityInfo.extract infos) with fieldName := none } : Ctx).place = cd.rootPlace infos := by
                rw [h2]; rfl
              have e' : ({ (cd.inside ctx).child (EntityInfo.extract infos) with fieldName := none } : Ctx).defs = d := by rw [← h3, h2]; rfl
              have hpl' : (cd.rootPlace infos).Proper := ⟨wellFormed_extract hbody, hinfo⟩
              rw [← e] at hpl'
              rw [← e]
              have hb' := parse_becomes hc n _ _ (by rw [e']; exact hd) hpl hpl' (by simp) hx
              rw [e'] at hb'
              exact hb'
    · cases h
  · cases h

theorem Schema.Becomes.mono {keyed keyed' : String → String → String → Prop} {d : Dict String Schema} {p : Place} {s : Schema} {x : Ser}
    (hk : ∀ c a b, keyed c a b → keyed' c a b) (h : s.Becomes classes keyed d p x) : s.Becomes classes keyed' d p x := by
  induction h with
  | wrapped h1 h2 h3 h4 _ ih => exact .wrapped h1 h2 h3 h4 ih
  | text h1 h2 => exact .text h1 h2
  | attr h1 h2 h3 => exact .attr h1 h2 h3
  | elem h1 h2 h3 h4 => exact .elem h1 h2 h3 h4
  | attrs h1 h2 h3 => exact .attrs h1 h2 h3
  | mapElem h1 h2 h3 h4 => exact .mapElem h1 h2 h3 h4
  | raw h1 h2 h3 => exact .raw h1 h2 h3
  | model h1 h2 h3 h4 h5 => exact .model h1 h2 h3 h4 h5
  | list h1 h2 h3 _ ih => exact .list h1 h2 h3 ih
  | tuple h1 h2 h3 _ ih => exact .tuple h1 h2 h3 ih
  | primUnion h1 h2 h3 _ ih => exact .primUnion h1 h2 h3 ih
  | modelUnion h1 h2 h3 h4 _ ih => exact .modelUnion h1 h2 h3 h4 ih
  | tagged h1 h2 h3 h4 h5 h6 h7 h8 _ ih => exact .tagged h1 h2 h3 h4 h5 h6 h7 (fun a ha => hk _ _ _ (h8 a ha)) ih

theorem Each.imp {α β : Type} {R S : α → β → Prop} (h : ∀ a b, R a b → S a b) {as : List α} {bs : List β} (he : Each R as bs) : Each S as bs := by
  induction he with
  | nil => exact .nil
  | cons h1 _ ih => exact .cons (h _ _ h1) ih

theorem ModelSer.Becomes.mono {keyed keyed' : String → String → String → Prop} {d : Dict String Schema} {cd : ClassDef} {m : ModelSer}
    (hk : ∀ c a b, keyed c a b → keyed' c a b) (h : m.Becomes classes keyed d cd) : m.Becomes classes keyed' d cd := by
  unfold ModelSer.Becomes at h ⊢
  split at h
  · obtain ⟨a, b, h1, h2, h3⟩ := h
    exact ⟨a, b, h1, h2.imp fun _ _ h => ⟨h.1, h.2.mono hk⟩, h3.imp fun _ _ h => ⟨h.1, h.2.mono hk⟩⟩
  · obtain ⟨x, h1, h2⟩ := h
    exact ⟨x, h1, h2.mono hk⟩

/-- Every class of a program is built when some classes have been built. -/
theorem history_built {n : Nat} : ∀ (es : List Event) {b : Built}, b.From classes →
    (∀ c m, b c = some m → ∃ cd b' k, classes c = some cd ∧ b'.From classes ∧ buildClass classes b' k cd = .ok (some m)) →
    ∀ c m, history classes n es b c = some m →
      ∃ cd b' k, classes c = some cd ∧ b'.From classes ∧ buildClass classes b' k cd = .ok (some m)
  | [], _, _, hb => hb
  | e :: es, b, hfrom, hb => by
    unfold history
    cases hr : e.run classes n b with
    | error _ => exact history_built es hfrom hb
    | ok b' =>
      have hfrom' : b'.From classes := by
        have := history_from (n := n) [e] hfrom
        simpa only [history, hr] using this
      refine history_built es hfrom' fun c m hm => ?_
      rcases run_cases hr c m hm with h | ⟨rfl, cd, h1, h2, -, h4⟩
      · exact hb c m h
      · exact ⟨cd, b, n, h1, hfrom, h4⟩

/-- C75: whenever a class of a program is complete, after whatever statements, its serializer is the one that the declarations
prescribe. -/
theorem C75_program (hst : classes.Standard) (n : Nat) (es : List Event) (cls : String) (m : ModelSer)
    (h : history classes n es .empty cls = some m) :
    ∃ cd r d, classes cls = some cd ∧ Strips [] cd.schema d (.model cls r) ∧ m.Fits classes cd ∧
      m.Becomes classes classes.Keyed d cd := by
  obtain ⟨cd, b, k, h1, h2, h3⟩ := history_built es empty_from (fun _ _ h => by cases h) cls m h
  obtain ⟨hp, hpl, r, d, hs, hd⟩ := hst cls cd h1
  refine ⟨cd, r, d, h1, hs, C23_C27_class classes hst.proper b k cls cd m h1 hp r d hs h3, ?_⟩
  exact (C75_class hst.proper b k cls cd m h1 hp hpl r d hs hd h3).mono fun c a b' hk => (h2.keyed_iff hst).1 hk |>.2

/-! ## Non-vacuity -/

namespace Def

/-- `Person` is complete after the program `forward`, so its serializer is the declared one. -/
example : ∃ m r d, history Def.classes 9 forward .empty "Person" = some m ∧ Strips [] person.schema d (.model "Person" r) ∧
    m.Fits Def.classes person ∧ m.Becomes Def.classes Def.classes.Keyed d person := by
  obtain ⟨m, hm⟩ := Option.isSome_iff_exists.1 (forward_all "Person" rfl)
  obtain ⟨cd, r, d, h1, h2, h3, h4⟩ := C75_program standard 9 forward "Person" m hm
  cases h1
  exact ⟨m, r, d, hm, h2, h3, h4⟩

/-- The names that the specification prescribes for its fields: `wrapped('contact/phones', element('phone', ns='q'))` is inside elements
of the namespace of the class, `mail` is in the default namespace, and the attribute `id` is in none. -/
example :
    let p : FieldDef := { name := "phone", schema := .nullable (.prim "str"),
                          infos := [.mk (some .wrapped) (some "contact/phones") none none none
                            (some (.mk (some .element) (some "phone") (some "q") (some [("q", "urn:phone")]) none none))] }
    (p.place person).elementName "contact" = "{urn:person}contact" ∧ (p.place person).inside.given = some "phone" ∧
    (p.place person).inside.elementName "phone" = "{urn:phone}phone" ∧ (p.place person).inside.location = some .element ∧
    (p.place person).mode = .ordered :=
  ⟨by kernel_rfl, by kernel_rfl, by kernel_rfl, rfl, rfl⟩

end Def

end PXml
