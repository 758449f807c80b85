import Verif.Props.History
import Verif.SpecProgram

/-! # Discriminators of classes that have been built -/

namespace PXml

section
variable {classes : Classes} {built : Built}

theorem Classes.Standard.proper (h : classes.Standard) : classes.Proper :=
  fun c cd hcd => ⟨(h c cd hcd).1.1, (h c cd hcd).1.2.1⟩

/-- Exactly the attributes of primitive type are built as attributes. -/
theorem parse_attr_iff (hc : classes.Proper) {n : Nat} {s : Schema} {ctx : Ctx} {x : Ser} (hd : PlainDefs ctx.defs) (hs : s.Plain)
    (hp : ctx.place.Proper) (hf : ctx.fieldName ≠ some "") (h : parse classes built n s ctx = .ok x) (attr : String) :
    (∃ comp, x = .attr attr comp) ↔ s.AttrAt ctx.defs ctx.place attr := by
  have hfit := parse_fits hc built n s ctx hp hf h
  obtain ⟨k, t, hk, hst, htp, hsel⟩ := parse_sel_plain hd hs h
  have hprim : ∀ {y : Ser} {a : String} {c : Bool}, primOf ctx = .ok y → y = .attr a c → ctx.location = some .attribute := by
    intro y a c hy he
    subst he
    have := primOf_kind hy
    unfold scalarKind at this
    split at this
    · cases this
    · assumption
    · cases this
  constructor
  · rintro ⟨comp, rfl⟩
    have hloc : ctx.place.location = some .attribute ∧ ((∃ ty, t = .prim ty) ∨ t = .isInst false) := by
      cases hsel with
      | prim h => exact ⟨hprim h rfl, .inl ⟨_, rfl⟩⟩
      | inst h => exact ⟨hprim h rfl, .inr rfl⟩
      | raw h => have := rawOf_kind h; cases this
      | dict _ h | typedDict _ h =>
        unfold mappingOf at h
        repeat' split at h
        all_goals first | (cases h; done) | skip
        all_goals (revert h; unfold mapElemOf; try unfold Except.map; split <;> intro h <;> cases h)
    refine ⟨hloc.1, ?_, ?_⟩
    · rcases hloc.2 with ⟨ty, rfl⟩ | rfl
      · exact .inl ⟨ty, hst⟩
      · exact .inr hst
    · generalize hx : Ser.attr attr comp = y at hfit
      cases hfit with
      | attr hg => cases hx; exact ⟨_, hg, rfl⟩
      | _ => cases hx
  · rintro ⟨hl, hty, tag, hg, rfl⟩
    have hw : ctx.location ≠ some .wrapped := by
      have hl' : ctx.location = some .attribute := hl
      rw [hl']; simp
    have hpr : primOf ctx = .ok x := by
      rcases hty with ⟨ty, h1⟩ | h1
      · exact parse_prim hd hs h1 hw h
      · exact parse_inst hd hs h1 hw h
    have hk := primOf_kind hpr
    have hl' : ctx.location = some .attribute := hl
    rw [hl'] at hk
    cases hfit with
    | attr hg' => rw [hg] at hg'; cases hg'; exact ⟨_, rfl⟩
    | _ => cases hk

theorem compileFields_each {rec : Schema → Ctx → Except DefErr Ser} {cd : ClassDef} {ctx : Ctx} :
    ∀ {fs : List FieldDef} {xs : List Field}, compileFields rec cd ctx fs = .ok xs →
    Each (fun f x => x.name = f.name ∧ rec f.schema (f.ctx ctx) = .ok x.ser) (fs.filter fun f => !f.noXml) xs := by
  intro fs
  induction fs with
  | nil => intro xs h; cases h; exact .nil
  | cons f fs ih =>
    intro xs h
    simp only [compileFields] at h
    cases hno : f.noXml with
    | true =>
      rw [hno, if_pos rfl] at h
      simp only [List.filter_cons, hno, Bool.not_true, Bool.false_eq_true, if_false]
      exact ih h
    | false =>
      rw [hno, if_neg (by simp)] at h
      simp only [List.filter_cons, hno, Bool.not_false, if_true]
      split at h
      · cases h
      · rename_i s hs
        split at h
        · cases h
        · rename_i rest hr
          cases h
          exact .cons ⟨rfl, hs⟩ (ih hr)

theorem compileComputed_each {rec : Schema → Ctx → Except DefErr Ser} {cd : ClassDef} {ctx : Ctx} :
    ∀ {cs : List ComputedDef} {xs : List Field}, compileComputed rec cd ctx cs = .ok xs →
    Each (fun c x => x.name = c.name ∧ rec c.schema (c.ctx ctx) = .ok x.ser) cs xs := by
  intro cs
  induction cs with
  | nil => intro xs h; cases h; exact .nil
  | cons c cs ih =>
    intro xs h
    simp only [compileComputed] at h
    split at h
    · cases h
    · rename_i s hs
      split at h
      · cases h
      · rename_i rest hr
        cases h
        exact .cons ⟨rfl, hs⟩ (ih hr)

/-- Corresponding items are found. -/
theorem Each.find {α β : Type} {R : α → β → Prop} {p : α → Bool} {q : β → Bool} {as : List α} {bs : List β} (h : Each R as bs)
    (hpq : ∀ a b, R a b → p a = q b) :
    match as.find? p with
    | some a => ∃ b, bs.find? q = some b ∧ a ∈ as ∧ R a b
    | none => bs.find? q = none := by
  induction h with
  | nil => rfl
  | @cons a b as bs hab _ ih =>
    simp only [List.find?_cons, hpq a b hab]
    cases hq : q b with
    | true => exact ⟨b, rfl, by simp, hab⟩
    | false =>
      simp only
      revert ih
      cases as.find? p with
      | none => exact id
      | some a' => rintro ⟨b', h1, h2, h3⟩; exact ⟨b', h1, by simp [h2], h3⟩

/-- What the serializer of a class is made of. -/
theorem buildClass_parts {n : Nat} {cls : String} {cd : ClassDef} (hcd : classes cls = some cd) {r : Bool}
    {d : Dict String Schema} (hs : Strips [] cd.schema d (.model cls r)) {m : ModelSer}
    (h : buildClass classes built n cd = .ok (some m)) :
    match cd.body with
    | .fields fs cs => ∃ a b, m.body = .fields (a ++ b) ∧
      Each (fun f x => x.name = f.name ∧ parse classes built n f.schema (f.ctx (cd.inside { cd.ctx with defs := d })) = .ok x.ser)
        (fs.filter fun f => !f.noXml) a ∧
      Each (fun c x => x.name = c.name ∧ parse classes built n c.schema (c.ctx (cd.inside { cd.ctx with defs := d })) = .ok x.ser) cs b
    | .root _ _ => ∃ x, m.body = .root x := by
  unfold buildClass at h
  split at h
  · split at h
    · cases h
    · rename_i cls' r' ctx hpre
      obtain ⟨h1, h2⟩ := preprocess_strips _ _ _ hpre
      obtain ⟨h3, h4⟩ := h1.det hs
      cases h4
      rw [h3] at h2
      rw [hcd] at h
      simp only at h
      cases hcc : compileClass (parse classes built n) cd ctx with
      | error e => rw [hcc] at h; cases h
      | ok m' =>
        rw [hcc] at h
        cases h
        cases hbd : cd.body with
        | fields fs cs =>
          simp only [compileClass, hbd] at hcc
          cases ha : compileFields (parse classes built n) cd (cd.inside ctx) fs with
          | error e => rw [ha] at hcc; cases hcc
          | ok a =>
            cases hb : compileComputed (parse classes built n) cd (cd.inside ctx) cs with
            | error e => rw [ha, hb] at hcc; cases hcc
            | ok b =>
              rw [ha, hb] at hcc
              simp only at hcc
              cases hq : QName.fromAlias ((strOr cd.params.tag (some cd.name)).getD cd.name) cd.params.ns cd.params.nsmap false with
              | error e => rw [hq] at hcc; cases hcc
              | ok q =>
                rw [hq] at hcc
                cases hcc
                subst h2
                exact ⟨a, b, rfl, compileFields_each ha, compileComputed_each hb⟩
        | root s infos =>
          simp only [compileClass, hbd] at hcc
          cases hx : parse classes built n s { (cd.inside ctx).child (EntityInfo.extract infos) with fieldName := none } with
          | error e => rw [hx] at hcc; cases hcc
          | ok x =>
            rw [hx] at hcc
            simp only [Except.map] at hcc
            split at hcc
            · cases hcc
            · cases hcc; exact ⟨x, rfl⟩
    · cases h
  · cases h

/-- A class that has been built has a discriminator exactly if it declares it. -/
theorem keyed_iff (hst : classes.Standard) {n : Nat} {cls : String} {cd : ClassDef} (hcd : classes cls = some cd) {m : ModelSer}
    (h : buildClass classes built n cd = .ok (some m)) (discr attr : String) :
    classes.Keyed cls discr attr ↔ ∃ fs f comp, m.body = .fields fs ∧ fs.find? (fun f => f.name = discr) = some f ∧
      f.ser = .attr attr comp := by
  obtain ⟨hp, hpl, r, d, hs, hd⟩ := hst cls cd hcd
  have hparts := buildClass_parts hcd hs h
  have hinfo : ∀ i ∈ [some cd.info], EntityInfo.Proper i := by
    intro i hi
    simp only [List.mem_singleton] at hi
    subst hi
    intro m hm
    exact hp.2.1 m hm
  obtain ⟨-, -, hbody⟩ := hp
  unfold ClassDef.Plain at hpl
  have hk : classes.Keyed cls discr attr ↔ ∃ fs cs, cd.body = .fields fs cs ∧
      match (fs.filter fun f => !f.noXml).find? fun f => f.name = discr with
      | some f => f.schema.AttrAt d (f.place cd) attr
      | none => ∃ c, cs.find? (fun c => c.name = discr) = some c ∧ c.schema.AttrAt d (c.place cd) attr := by
    constructor
    · rintro ⟨cd', r', d', fs, cs, h1, h2, h3, h4⟩
      rw [hcd] at h1
      cases h1
      obtain ⟨rfl, -⟩ := h2.det hs
      exact ⟨fs, cs, h3, h4⟩
    · rintro ⟨fs, cs, h1, h2⟩
      exact ⟨cd, r, d, fs, cs, hcd, hs, h1, h2⟩
  rw [hk]
  clear hk
  cases hbd : cd.body with
  | root s infos =>
    rw [hbd] at hparts
    obtain ⟨x, hx⟩ := hparts
    rw [hx]
    constructor
    · rintro ⟨_, _, h, _⟩; cases h
    · rintro ⟨_, _, _, h, _⟩; cases h
  | fields fs cs =>
    rw [hbd] at hparts hbody hpl
    obtain ⟨a, b, hm, ha, hb⟩ := hparts
    have h1 := ha.find (p := fun f => f.name = discr) (q := fun f => f.name = discr) fun f x hx => by rw [hx.1]
    have h2 := hb.find (p := fun f => f.name = discr) (q := fun f => f.name = discr) fun f x hx => by rw [hx.1]
    have e : (∃ (fs' : List FieldDef) (cs' : List ComputedDef), BodyDef.fields fs cs = .fields fs' cs' ∧
        match (fs'.filter fun f => !f.noXml).find? fun f => f.name = discr with
        | some f => f.schema.AttrAt d (f.place cd) attr
        | none => ∃ c, cs'.find? (fun c => c.name = discr) = some c ∧ c.schema.AttrAt d (c.place cd) attr) ↔
        match (fs.filter fun f => !f.noXml).find? fun f => f.name = discr with
        | some f => f.schema.AttrAt d (f.place cd) attr
        | none => ∃ c, cs.find? (fun c => c.name = discr) = some c ∧ c.schema.AttrAt d (c.place cd) attr := by
      constructor
      · rintro ⟨_, _, h, h'⟩; cases h; exact h'
      · intro h; exact ⟨_, _, rfl, h⟩
    rw [e, hm]
    clear e
    have e : (∃ fs f comp, Body.fields (a ++ b) = .fields fs ∧ fs.find? (fun f => f.name = discr) = some f ∧
        f.ser = .attr attr comp) ↔ ∃ f comp, (a ++ b).find? (fun f => f.name = discr) = some f ∧ f.ser = .attr attr comp := by
      constructor
      · rintro ⟨_, _, _, h, h', h''⟩; cases h; exact ⟨_, _, h', h''⟩
      · rintro ⟨_, _, h, h'⟩; exact ⟨_, _, _, rfl, h, h'⟩
    rw [e]
    clear e
    rw [List.find?_append]
    cases hfa : (fs.filter fun f => !f.noXml).find? fun f => f.name = discr with
    | some f =>
      rw [hfa] at h1
      obtain ⟨x, hx, hmem, -, hpx⟩ := h1
      have hmem := (List.mem_filter.1 hmem).1
      rw [hx]
      simp only [Option.some_or, Option.some.injEq]
      have := parse_attr_iff hst.proper (ctx := f.ctx (cd.inside { cd.ctx with defs := d })) hd (hpl.1 f hmem)
        ⟨wellFormed_extract (hbody.1 f hmem).2, hinfo⟩ (by simpa [FieldDef.ctx] using (hbody.1 f hmem).1) hpx attr
      constructor
      · intro h
        obtain ⟨c, hc⟩ := this.2 h
        exact ⟨x, c, rfl, hc⟩
      · rintro ⟨_, c, rfl, hc⟩
        exact this.1 ⟨c, hc⟩
    | none =>
      rw [hfa] at h1
      rw [h1]
      simp only [Option.none_or]
      cases hfb : cs.find? fun f => f.name = discr with
      | none =>
        rw [hfb] at h2
        rw [h2]
        simp
      | some f =>
        rw [hfb] at h2
        obtain ⟨x, hx, hmem, -, hpx⟩ := h2
        rw [hx]
        simp only [Option.some.injEq]
        have := parse_attr_iff hst.proper (ctx := f.ctx (cd.inside { cd.ctx with defs := d })) hd (hpl.2 f hmem)
          ⟨(hbody.2 f hmem).2, hinfo⟩ (by simpa [ComputedDef.ctx] using (hbody.2 f hmem).1) hpx attr
        constructor
        · rintro ⟨_, rfl, h⟩
          obtain ⟨c, hc⟩ := this.2 h
          exact ⟨x, c, rfl, hc⟩
        · rintro ⟨_, c, rfl, hc⟩
          exact ⟨f, rfl, this.1 ⟨c, hc⟩⟩

end

end PXml
