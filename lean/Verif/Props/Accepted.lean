import Verif.Props.Definition
import Verif.Lemmas.CompileFinite

/-!
# Which class definitions are accepted

C28: exactly those whose types have an XML representation; C46, C47: namespace declarations; C48: `Optional`, defaults and
validators; C49: class definitions terminate.
-/

namespace PXml

namespace Def

/-- The serializers after each class statement. -/
def after (cs : List String) : Built := history classes 9 (cs.map fun c => .statement c true) fun _ => none

theorem built_eq : built = fun x => if x = "Person" then built "Person" else if x = "Cat" then built "Cat" else
    if x = "Dog" then built "Dog" else if x = "Address" then built "Address" else none := by kernel_rfl

/-- The environment of the classes above. -/
def env : Env := { Ex.env .ordered with model := built }

end Def

variable {classes : Classes} {built : Built}

/-! ## C28 -/

theorem compileFields_iff {rec : Schema → Ctx → Except DefErr Ser} {cd : ClassDef} {ctx : Ctx} : ∀ {fs : List FieldDef},
    (∃ a, compileFields rec cd ctx fs = .ok a) ↔ ∀ f ∈ fs, f.noXml = false → ∃ x, rec f.schema (f.ctx ctx) = .ok x
  | [] => by simp [compileFields]
  | f :: fs => by
    have ih := compileFields_iff (rec := rec) (cd := cd) (ctx := ctx) (fs := fs)
    cases hno : f.noXml with
    | true => simp [compileFields, hno, ih]
    | false =>
      simp only [compileFields, hno, Bool.false_eq_true, if_false, List.mem_cons, forall_eq_or_imp, true_implies, ← ih]
      cases rec f.schema (f.ctx ctx) with
      | error e => simp
      | ok x => cases compileFields rec cd ctx fs with
        | error e => simp
        | ok a => simp

theorem compileComputed_iff {rec : Schema → Ctx → Except DefErr Ser} {cd : ClassDef} {ctx : Ctx} : ∀ {cs : List ComputedDef},
    (∃ a, compileComputed rec cd ctx cs = .ok a) ↔ ∀ c ∈ cs, ∃ x, rec c.schema (c.ctx ctx) = .ok x
  | [] => by simp [compileComputed]
  | c :: cs => by
    have ih := compileComputed_iff (rec := rec) (cd := cd) (ctx := ctx) (cs := cs)
    simp only [compileComputed, List.mem_cons, forall_eq_or_imp, ← ih]
    cases rec c.schema (c.ctx ctx) with
    | error e => simp
    | ok x => cases compileComputed rec cd ctx cs with
      | error e => simp
      | ok a => simp

theorem rootName_iff {cd : ClassDef} {tag : String} :
    (∃ q, QName.fromAlias tag cd.params.ns cd.params.nsmap false = .ok q) ↔ Declared [cd.params.nsmap] cd.params.ns := by
  cases h : cd.params.nsmap with
  | some m => exact fromAlias_iff (fun a => by cases hg : Dict.get? m a <;> simp [uriIn, hg])
  | none =>
    constructor
    · intro _ a _
      exact Or.inr fun b => by simp [uriIn]
    · intro _
      unfold QName.fromAlias
      cases cd.params.ns with
      | none => exact ⟨_, rfl⟩
      | some a => exact ⟨_, rfl⟩

/-- C28: a field definition is accepted exactly if its type has an XML representation at the place of the field. -/
theorem C28_field_accepted (hc : classes.Proper) (s : Schema) (ctx : Ctx) (hd : PlainDefs ctx.defs) (hs : s.Plain)
    (hp : ctx.place.Proper) (hf : ctx.fieldName ≠ some "") :
    (∃ n x, parse classes built n s ctx = .ok x) ↔ s.Supported classes built.Keyed ctx.defs ctx.place := by
  constructor
  · rintro ⟨n, x, h⟩
    exact parse_supported hc n s ctx hd hs hp hf h
  · intro h
    obtain ⟨N, hN⟩ := supported_parse hc h
    exact ⟨N, hN N (Nat.le_refl _) ctx rfl rfl hp hf⟩

theorem compileClass_iff {rec : Schema → Ctx → Except DefErr Ser} {cd : ClassDef} {ctx : Ctx} :
    (∃ m, compileClass rec cd ctx = .ok m) ↔ Declared [cd.params.nsmap] cd.params.ns ∧
      match cd.body with
      | .fields fs cs => (∀ f ∈ fs, f.noXml = false → ∃ x, rec f.schema (f.ctx (cd.inside ctx)) = .ok x) ∧
          ∀ c ∈ cs, ∃ x, rec c.schema (c.ctx (cd.inside ctx)) = .ok x
      | .root s infos => ∃ x, rec s { (cd.inside ctx).child (EntityInfo.extract infos) with fieldName := none } = .ok x := by
  rw [← rootName_iff (tag := (strOr cd.params.tag (some cd.name)).getD cd.name)]
  unfold compileClass
  cases cd.body with
  | fields fs cs =>
    simp only [← compileFields_iff (cd := cd), ← compileComputed_iff (cd := cd)]
    cases compileFields rec cd (cd.inside ctx) fs with
    | error e => simp
    | ok a => cases compileComputed rec cd (cd.inside ctx) cs with
      | error e => simp
      | ok b =>
        simp only [map_ok_iff, Except.ok.injEq, exists_eq', and_true]
  | root s infos =>
    simp only
    cases rec s { (cd.inside ctx).child (EntityInfo.extract infos) with fieldName := none } with
    | error e => simp [Except.map]
    | ok x =>
      have e : (Except.ok x : Except DefErr Ser).map Body.root = .ok (.root x) := rfl
      simp only [e, map_ok_iff, Except.ok.injEq, exists_eq', and_true]

/-- C28: a class statement is accepted exactly if all fields of the class have an XML representation. -/
theorem C28_class_accepted (hc : classes.Proper) (cls : String) (cd : ClassDef) (hcd : classes cls = some cd)
    (hcomp : cd.complete = true) (hp : cd.Proper) (hpl : cd.Plain) (r : Bool) (d : Dict String Schema)
    (hs : Strips [] cd.schema d (.model cls r)) (hd : PlainDefs d) :
    (∃ n m, buildClass classes built n cd = .ok (some m)) ↔ cd.Supported classes built.Keyed d := by
  have hinfo : ∀ i ∈ [some cd.info], EntityInfo.Proper i := by
    intro i hi
    simp only [List.mem_singleton] at hi
    subst hi
    intro m hm
    exact hp.2.1 m hm
  have hpre : ∀ n ctx, preprocess n cd.schema cd.ctx = .ok (.model cls r, ctx) → ctx = { cd.ctx with defs := d } := by
    intro n ctx h
    obtain ⟨h1, h2⟩ := preprocess_strips _ _ _ h
    obtain ⟨h3, -⟩ := h1.det hs
    rw [h2, h3]
  let ctx : Ctx := { cd.ctx with defs := d }
  have hb : ∀ n, (∃ m, buildClass classes built n cd = .ok (some m)) ↔
      (preprocess n cd.schema cd.ctx = .ok (.model cls r, ctx) ∧ ∃ m, compileClass (parse classes built n) cd ctx = .ok m) := by
    intro n
    unfold buildClass
    rw [hcomp, if_pos rfl]
    constructor
    · rintro ⟨m, h⟩
      split at h
      · cases h
      · rename_i cls' r' ctx' hpp
        obtain ⟨h1, h2⟩ := preprocess_strips _ _ _ hpp
        obtain ⟨h3, h4⟩ := h1.det hs
        cases h4
        rw [hcd] at h
        simp only at h
        have := hpre n ctx' hpp
        subst this
        refine ⟨hpp, ?_⟩
        cases hcc : compileClass (parse classes built n) cd { cd.ctx with defs := d } with
        | error e => rw [hcc] at h; cases h
        | ok m' => exact ⟨m', rfl⟩
      · cases h
    · rintro ⟨h1, m, h2⟩
      refine ⟨m, ?_⟩
      rw [h1]
      simp only [hcd, h2]
      rfl
  have hN : ∃ N, ∀ n, N ≤ n → preprocess n cd.schema cd.ctx = .ok (.model cls r, ctx) := by
    obtain ⟨N, hN⟩ := hs.preprocess
    exact ⟨N, fun n hn => hN n hn cd.ctx rfl⟩
  have hfp : ∀ f : FieldDef, (f.ctx (cd.inside ctx)).place = f.place cd ∧ (f.ctx (cd.inside ctx)).defs = d := fun f => ⟨rfl, rfl⟩
  have hcp : ∀ c : ComputedDef, (c.ctx (cd.inside ctx)).place = c.place cd ∧ (c.ctx (cd.inside ctx)).defs = d := fun c => ⟨rfl, rfl⟩
  obtain ⟨-, -, hbody⟩ := hp
  constructor
  · rintro ⟨n, h⟩
    obtain ⟨-, h⟩ := (hb n).1 h
    obtain ⟨h1, h2⟩ := compileClass_iff.1 h
    refine ⟨h1, ?_⟩
    unfold ClassDef.Plain at hpl
    cases hbd : cd.body with
    | fields fs cs =>
      rw [hbd] at hbody h2 hpl
      refine ⟨fun f hf hno => ?_, fun c hc' => ?_⟩
      · obtain ⟨x, hx⟩ := h2.1 f hf hno
        exact parse_supported hc n _ (f.ctx (cd.inside ctx)) hd (hpl.1 f hf) ⟨wellFormed_extract (hbody.1 f hf).2, hinfo⟩
          (by simpa [FieldDef.ctx] using (hbody.1 f hf).1) hx
      · obtain ⟨x, hx⟩ := h2.2 c hc'
        exact parse_supported hc n _ (c.ctx (cd.inside ctx)) hd (hpl.2 c hc') ⟨(hbody.2 c hc').2, hinfo⟩
          (by simpa [ComputedDef.ctx] using (hbody.2 c hc').1) hx
    | root s infos =>
      rw [hbd] at hbody h2 hpl
      obtain ⟨x, hx⟩ := h2
      exact parse_supported hc n s { (cd.inside ctx).child (EntityInfo.extract infos) with fieldName := none } hd hpl
        ⟨wellFormed_extract hbody, hinfo⟩ (by simp) hx
  · rintro ⟨h1, h2⟩
    obtain ⟨N0, hN0⟩ := hN
    cases hbd : cd.body with
    | fields fs cs =>
      rw [hbd] at hbody h2
      obtain ⟨N1, hN1⟩ := exists_bound (l := fs) (P := fun f n => f.noXml = false → ∃ x, parse classes built n f.schema (f.ctx (cd.inside ctx)) = .ok x)
        (fun f hf => by
          cases hno : f.noXml with
          | true => exact ⟨0, fun n _ h => by cases h⟩
          | false =>
            obtain ⟨N, hN⟩ := supported_parse hc (h2.1 f hf hno)
            exact ⟨N, fun n hn _ => hN n hn (f.ctx (cd.inside ctx)) rfl rfl ⟨wellFormed_extract (hbody.1 f hf).2, hinfo⟩
              (by simpa [FieldDef.place] using (hbody.1 f hf).1)⟩)
      obtain ⟨N2, hN2⟩ := exists_bound (l := cs) (P := fun c n => ∃ x, parse classes built n c.schema (c.ctx (cd.inside ctx)) = .ok x)
        (fun c hc' => by
          obtain ⟨N, hN⟩ := supported_parse hc (h2.2 c hc')
          exact ⟨N, fun n hn => hN n hn (c.ctx (cd.inside ctx)) rfl rfl ⟨(hbody.2 c hc').2, hinfo⟩
              (by simpa [ComputedDef.place] using (hbody.2 c hc').1)⟩)
      refine ⟨max N0 (max N1 N2), (hb _).2 ⟨hN0 _ (by omega), compileClass_iff.2 ⟨h1, ?_⟩⟩⟩
      rw [hbd]
      exact ⟨fun f hf hno => hN1 _ (by omega) f hf hno, fun c hc' => hN2 _ (by omega) c hc'⟩
    | root s infos =>
      rw [hbd] at hbody h2
      obtain ⟨N, hN⟩ := supported_parse hc h2
      refine ⟨max N0 N, (hb _).2 ⟨hN0 _ (by omega), compileClass_iff.2 ⟨h1, ?_⟩⟩⟩
      rw [hbd]
      exact hN _ (by omega) { (cd.inside ctx).child (EntityInfo.extract infos) with fieldName := none } rfl rfl
        ⟨wellFormed_extract hbody, hinfo⟩ (by simp [ClassDef.rootPlace])


/-- C28: what is rejected. As attributes: everything but primitive types and unions of them. Collections of lists or sets. Tuples
of lists, sets or tuples. Unions that are neither of primitive types nor of models. Discriminated unions of anything but models.
Types that the library does not know. -/
theorem C28_rejected (hc : classes.Proper) (n : Nat) (s t : Schema) (ctx : Ctx) (x : Ser) (hd : PlainDefs ctx.defs)
    (hs : s.Plain) (hp : ctx.place.Proper) (hf : ctx.fieldName ≠ some "") (ht : Strips ctx.defs s ctx.defs t)
    (hw : ctx.location ≠ some .wrapped) (h : parse classes built n s ctx = .ok x) :
    (ctx.location = some .attribute → (∃ ty, t = .prim ty) ∨ t = .isInst false ∨ ∃ cs, t = .union cs) ∧
    (∀ item it, t = .list item ∨ t = .tuple [item] (some 0) → Strips ctx.defs item ctx.defs it → ∀ i, it ≠ .list i) ∧
    (∀ items, t = .tuple items none ∨ t = .call true items → ∀ i ∈ items, ∀ it, Strips ctx.defs i ctx.defs it →
      (∀ j, it ≠ .list j) ∧ ∀ js v, it ≠ .tuple js v) ∧
    (∀ cs, t = .union cs →
      (∀ c ∈ cs, (∃ ty, Strips ctx.defs c ctx.defs (.prim ty)) ∨ Strips ctx.defs c ctx.defs (.isInst false)) ∨
      (ctx.location ≠ some .attribute ∧ ∀ c ∈ cs, ∃ cls r, Strips ctx.defs c ctx.defs (.model cls r))) ∧
    (∀ discr cs, t = .tagged discr cs → ∀ c ∈ cs, ∃ cls, Strips ctx.defs c.2 ctx.defs (.model cls false)) ∧
    (∀ args, t ≠ .call false args) := by
  have hsup := parse_supported hc n s ctx hd hs hp hf h
  have scal : ∀ {p : Place}, p.Compound → p.location ≠ some .attribute := by
    rintro p (h | h) <;> simp [h]
  cases hsup with
  | wrapped _ h => exact absurd h hw
  | prim h1 _ =>
    obtain ⟨-, rfl⟩ := ht.det h1
    simp
  | inst h1 _ =>
    obtain ⟨-, rfl⟩ := ht.det h1
    simp
  | raw h1 h2 =>
    obtain ⟨-, rfl⟩ := ht.det h1
    exact ⟨fun h => absurd h (scal h2), by simp⟩
  | model h1 _ h2 =>
    obtain ⟨-, rfl⟩ := ht.det h1
    exact ⟨fun h => absurd h (scal h2), by simp⟩
  | dict h1 _ _ h2 =>
    obtain ⟨-, rfl⟩ := ht.det h1
    refine ⟨fun h => ?_, by simp⟩
    rcases h2 with h2 | ⟨h2, -⟩ <;> exact absurd (h2.symm.trans h) (by simp)
  | typedDict h1 _ h2 =>
    obtain ⟨-, rfl⟩ := ht.det h1
    refine ⟨fun h => ?_, by simp⟩
    rcases h2 with h2 | ⟨h2, -⟩ <;> exact absurd (h2.symm.trans h) (by simp)
  | collection h1 h2 h3 h4 h5 =>
    obtain ⟨-, rfl⟩ := ht.det h1
    refine ⟨fun h => absurd (h5.symm.trans h) (by simp), ?_, ?_⟩
    · intro item' it' hi hit i he
      rcases h2 with rfl | rfl <;> rcases hi with hi | hi <;> cases hi <;> exact h4 i ((hit.det h3).2 ▸ he)
    · rcases h2 with rfl | rfl <;> simp
  | elements h1 h2 h3 h4 h5 =>
    obtain ⟨-, rfl⟩ := ht.det h1
    refine ⟨fun h => absurd (h5.symm.trans h) (by simp), ?_, ?_⟩
    · intro item' it' hi hit i he
      rcases h2 with rfl | rfl <;> rcases hi with hi | hi <;> cases hi <;> exact h4 i ((hit.det h3).2 ▸ he)
    · rcases h2 with rfl | rfl <;> simp
  | tuple h1 h2 h3 h4 =>
    obtain ⟨-, rfl⟩ := ht.det h1
    refine ⟨fun h => absurd h (scal h4), ?_, ?_, ?_⟩
    · rcases h2 with rfl | rfl <;> simp
    · intro items' hi i him it hit
      obtain ⟨it', hst, h5, h6, -⟩ := h3 i (by
        rcases h2 with rfl | rfl <;> rcases hi with hi | hi <;> cases hi <;> exact him)
      obtain ⟨-, rfl⟩ := hit.det hst
      exact ⟨h5, h6⟩
    · rcases h2 with rfl | rfl <;> simp
  | primUnion h1 h2 =>
    obtain ⟨-, rfl⟩ := ht.det h1
    refine ⟨by simp, by simp, by simp, ?_, by simp, by simp⟩
    intro cs' he
    cases he
    exact Or.inl h2
  | modelUnion h1 _ h2 h3 =>
    obtain ⟨-, rfl⟩ := ht.det h1
    refine ⟨fun h => absurd h (scal h2), by simp, by simp, ?_, by simp, by simp⟩
    intro cs' he
    cases he
    refine Or.inr ⟨scal h2, fun c hcm => ?_⟩
    obtain ⟨cls, r, cd, h, -⟩ := h3 c hcm
    exact ⟨cls, r, h⟩
  | tagged h1 _ h2 h3 =>
    obtain ⟨-, rfl⟩ := ht.det h1
    refine ⟨fun h => absurd h (scal h2), by simp, by simp, by simp, ?_, by simp⟩
    intro discr' cs' he c hcm
    cases he
    obtain ⟨tag, cls, cd, -, h, -⟩ := h3 c hcm
    exact ⟨cls, h⟩

/-- Everything that a serializer refers to is a class. -/
theorem Ser.Fits.refers {p : Place} {x : Ser} (h : x.Fits classes p) :
    x.Everywhere fun s => ∀ q, s = .proxy q → (classes q.cls).isSome = true := by
  induction h with
  | text | attr | elem | raw => exact .mk (by simp) (by simp [Ser.subs])
  | attrs h => exact .mk (by simp) (by simp [Ser.subs])
  | mapElem _ h => exact .mk (by simp) (by simp [Ser.subs])
  | proxy h => exact .mk (fun q hq => by cases hq; simp [h]) (by simp [Ser.subs])
  | primUnion _ ih => exact .mk (by simp) (by simpa [Ser.subs] using ih)
  | modelUnion _ ih =>
    refine .mk (by simp) ?_
    intro t ht
    obtain ⟨q, hq, rfl⟩ := List.mem_map.1 ht
    exact ih q hq
  | tagged _ ih =>
    refine .mk (by simp) ?_
    intro t ht
    obtain ⟨q, hq, rfl⟩ := List.mem_map.1 ht
    exact ih q hq
  | wrap _ _ _ _ ih => exact .mk (by simp) (by simpa [Ser.subs] using ih)
  | homog _ ih => exact .mk (by simp) (by simpa [Ser.subs] using ih)
  | hetero _ ih => exact .mk (by simp) ih

/-- The classes of the environment are those of the program, all of them accepted. -/
def Env.Accepts (env : Env) (classes : Classes) : Prop :=
  (∀ cls m, env.model cls = some m → ∃ cd r d built n, classes cls = some cd ∧ cd.Proper ∧
    Strips [] cd.schema d (.model cls r) ∧ buildClass classes built n cd = .ok (some m)) ∧
  ∀ cls, (classes cls).isSome = true → (env.model cls).isSome = true

theorem Env.Accepts.resolved {env : Env} (hc : classes.Proper) (h : env.Accepts classes) :
    env.Everywhere (Ser.Resolved env) := by
  have key : ∀ {x : Ser} {p : Place}, x.Fits classes p → x.Everywhere (Ser.Resolved env) := by
    intro x p hx
    have h1 := hx.refers
    clear hx
    induction h1 with
    | mk h1 _ ih =>
      refine .mk ?_ ih
      rename_i s _
      cases s with
      | proxy q => exact h.2 _ (h1 q rfl)
      | _ => trivial
  intro cls m hm
  obtain ⟨cd, r, d, built, n, h1, h2, h3, h4⟩ := h.1 cls m hm
  have hfit := C23_C27_class classes hc built n cls cd m h1 h2 r d h3 h4
  have hb := hfit.body
  unfold ModelSer.Everywhere
  cases hbd : cd.body with
  | fields fs cs =>
    rw [hbd] at hb
    obtain ⟨a, b, hb, ha, hb'⟩ := hb
    rw [hb]
    intro f hf
    rcases List.mem_append.1 hf with hf | hf
    · obtain ⟨fd, -, hfd⟩ := ha.mem_right f hf
      exact key hfd.ser
    · obtain ⟨cd', -, hfd⟩ := hb'.mem_right f hf
      exact key hfd.ser
  | root s infos =>
    rw [hbd] at hb
    obtain ⟨x, hb, hx⟩ := hb
    rw [hb]
    exact key hx

/-- C28: if all classes of a program have been accepted, reading a document raises nothing but validation errors and, exactly
for a root element of another name, a `ParsingError`. -/
theorem C28_accepted_reads (env : Env) (hc : classes.Proper) (ha : env.Accepts classes) (hv : env.ValidatorsRead)
    (hr : env.ValidatorsRaise) (eas : Bool) (n : Nat) (cls : String) (m : ModelSer) (hm : env.model cls = some m)
    (root : Node) (x : PyErr) :
    (fromXmlTree env eas n cls root).1 = .crash x ↔ root.tag ≠ m.elementName ∧ x = .parsingError :=
  C22_C28_only_validation_errors env (ha.resolved hc) hv hr eas n cls m hm root x

/-- Non-vacuity: the classes of `Def` are accepted. -/
example : Def.env.Accepts Def.classes := by
  have hinfos : ∀ {l p n nl}, ∀ i ∈ [EntityInfo.mk l p n none nl none], i.WellFormed := by
    intro l p n nl i hi
    simp only [List.mem_singleton] at hi
    subst hi
    exact Def.infos_ok
  refine ⟨fun cls m hm => ?_, fun cls hcls => ?_⟩
  · change Def.built cls = some m at hm
    rw [Def.built_eq] at hm
    simp only at hm
    split at hm
    · subst_vars
      refine ⟨Def.person, false, [("Person", .model "Person" false)], Def.after ["Address", "Dog", "Cat"], 9, rfl, ?_,
        .definitions (.ref (s := .model "Person" false) rfl (.done rfl)), by rw [← hm]; kernel_rfl⟩
      refine ⟨by decide, fun m hm => by cases hm; decide, ?_, ?_⟩
      · intro f hf
        simp only [List.mem_cons, List.not_mem_nil, or_false] at hf
        rcases hf with rfl | rfl | rfl | rfl | rfl | rfl | rfl
        · exact ⟨by decide, hinfos⟩
        · exact ⟨by decide, hinfos⟩
        · exact ⟨by decide, hinfos⟩
        · refine ⟨by decide, fun i hi => ?_⟩
          simp only [List.mem_singleton] at hi
          subst hi
          exact .mk (fun m hm => by cases hm) fun w hw => by
            cases hw
            exact .mk (fun m hm => by cases hm; decide) (fun w hw => by cases hw)
        · exact ⟨by decide, by simp⟩
        · exact ⟨by decide, by simp⟩
        · exact ⟨by decide, by simp⟩
      · intro c hcm
        simp only [List.mem_cons, List.not_mem_nil, or_false] at hcm
        subst hcm
        exact ⟨by decide, fun i hi => by cases hi; exact Def.infos_ok⟩
    · split at hm
      · subst_vars
        refine ⟨Def.cat, false, [], Def.after ["Address", "Dog"], 9, rfl, ⟨by decide, (fun m hm => by cases hm), ?_, by simp⟩, .done rfl,
          by rw [← hm]; kernel_rfl⟩
        intro f hf
        simp only [List.mem_cons, List.not_mem_nil, or_false] at hf
        rcases hf with rfl | rfl <;> exact ⟨by decide, hinfos⟩
      · split at hm
        · subst_vars
          refine ⟨Def.dog, false, [], Def.after ["Address"], 9, rfl, ⟨by decide, (fun m hm => by cases hm), ?_, by simp⟩, .done rfl,
            by rw [← hm]; kernel_rfl⟩
          intro f hf
          simp only [List.mem_cons, List.not_mem_nil, or_false] at hf
          rcases hf with rfl | rfl <;> exact ⟨by decide, hinfos⟩
        · split at hm
          · subst_vars
            refine ⟨Def.address, false, [], Def.after [], 9, rfl, ⟨by decide, fun m hm => by cases hm; decide, ?_, by simp⟩, .done rfl,
              by rw [← hm]; kernel_rfl⟩
            intro f hf
            simp only [List.mem_cons, List.not_mem_nil, or_false] at hf
            rcases hf with rfl | rfl
            · exact ⟨by decide, hinfos⟩
            · exact ⟨by decide, by simp⟩
          · cases hm
  · change (Def.built cls).isSome = true
    unfold Def.classes at hcls
    split at hcls
    · kernel_rfl
    · kernel_rfl
    · kernel_rfl
    · kernel_rfl
    · cases hcls

/-- C28, the part that is false: a list of tuples of any length is accepted, although the items of the tuples cannot be told
apart in the XML document (a list of lists is rejected). -/
theorem C28_counterexample_list_of_tuples :
    let ctx : Ctx := { modelName := "M", fieldName := some "x", info := some (.mk (some .element) none none none none none) }
    (∃ m, parse (fun _ => none) (fun _ => none) 9 (.list (.tuple [.prim "str"] (some 0))) ctx =
      .ok (.homog "M" false (.homog "M" false (.elem "x" m .strict false false)))) ∧
    ∃ e, parse (fun _ => none) (fun _ => none) 9 (.list (.list (.prim "str"))) ctx = .error (.fieldError e) :=
  ⟨⟨some [], by kernel_rfl⟩, ⟨_, rfl⟩⟩

/-- Non-vacuity: a field of the class `Person` of `Def`, at its place; here the conditions of the theorems above hold. -/
example : ∃ n x, parse Def.classes Def.built n (.nullable (.tagged (some "kind") [(some "dog", .model "Dog" false), (some "cat", .model "Cat" false)]))
    { Def.person.ctx with fieldName := some "pet", info := none, parents := [Def.person.ctx.info] } = .ok (.tagged false "kind" "kind" .ordered x) :=
  ⟨9, _, rfl⟩

/-! ## C46, C47 namespace declarations -/

/-- The namespace maps in scope of an entity, the nearest declaration first. -/
def Place.nearest (p : Place) : List (Option NsMap) := p.nsmap :: p.around.map fun i => i.bind EntityInfo.nsmap

/-- No two of the maps around the entity bind a prefix to different namespaces. -/
def Place.Agree (p : Place) : Prop :=
  ∀ i ∈ p.around, ∀ j ∈ p.around, ∀ a u v, ((i.bind EntityInfo.nsmap).getD []).get? a = some u →
    ((j.bind EntityInfo.nsmap).getD []).get? a = some v → u = v

theorem findSome?_reverse {α β : Type} (f : α → Option β) (l : List α)
    (h : ∀ i ∈ l, ∀ j ∈ l, ∀ u v, f i = some u → f j = some v → u = v) : l.reverse.findSome? f = l.findSome? f := by
  cases h1 : l.reverse.findSome? f with
  | none =>
    rw [List.findSome?_eq_none_iff] at h1
    exact (List.findSome?_eq_none_iff.2 fun x hx => h1 x (List.mem_reverse.2 hx)).symm
  | some u =>
    obtain ⟨i, hi, hu⟩ := List.exists_of_findSome?_eq_some h1
    cases h2 : l.findSome? f with
    | none =>
      rw [List.findSome?_eq_none_iff] at h2
      rw [h2 i (List.mem_reverse.1 hi)] at hu
      cases hu
    | some v =>
      obtain ⟨j, hj, hv⟩ := List.exists_of_findSome?_eq_some h2
      rw [h i (List.mem_reverse.1 hi) j hj u v hu hv]

theorem Place.Agree.uriIn {p : Place} (h : p.Agree) (a : String) : uriIn p.scope a = PXml.uriIn p.nearest a := by
  unfold PXml.uriIn Place.scope Place.nearest Place.maps
  simp only [List.findSome?_cons]
  rw [findSome?_reverse]
  intro i hi j hj u v hu hv
  obtain ⟨i', hi', rfl⟩ := List.mem_map.1 hi
  obtain ⟨j', hj', rfl⟩ := List.mem_map.1 hj
  exact h i' hi' j' hj' a u v hu hv

/-- C46: a declaration of the entity itself comes before all others; and if the declarations around the entity do not contradict
each other, the nearest one counts. Missing: contradicting declarations around the entity, see
`C46_counterexample_farther_wins`. -/
theorem C46_nearest_wins_partial (hc : classes.Proper) (n : Nat) (s : Schema) (ctx : Ctx) (name : String) (m : Option NsMap)
    (mode : Mode) (c nl : Bool) (hp : ctx.place.Proper) (hf : ctx.fieldName ≠ some "")
    (h : parse classes built n s ctx = .ok (.elem name m mode c nl)) :
    ∃ tag, ctx.place.given = some tag ∧
      (∀ u, ((ctx.place.nsmap.getD []).get? (ctx.place.prefix?.getD "")) = some u → name = qualified (some u) tag) ∧
      (ctx.place.Agree → name = qualified (uriIn ctx.place.nearest (ctx.place.prefix?.getD "")) tag) := by
  cases parse_fits hc built n s ctx hp hf h with
  | @elem _ tag _ hg _ =>
    refine ⟨tag, hg, fun u hu => ?_, fun ha => ?_⟩
    · unfold Place.elementName
      have : uriIn ctx.place.scope (ctx.place.prefix?.getD "") = some u := by
        unfold uriIn Place.scope
        rw [List.findSome?_cons, hu]
      rw [this]
    · unfold Place.elementName
      rw [ha.uriIn]

/-- C46, the part that is false: inside a wrapper that binds the prefix `x` anew, in a class that binds it too, the wrapper is in
the namespace of the wrapper and its content in that of the class. -/
theorem C46_counterexample_farther_wins :
    let ctx : Ctx := {
      modelName := "M", fieldName := some "f",
      info := some (.mk (some .wrapped) (some "w") (some "x") (some [("x", "urn:near")]) none
        (some (.mk (some .element) (some "e") (some "x") none none none))),
      parents := [some (.mk (some .element) none none (some [("x", "urn:far")]) none none)] }
    ∃ m m', parse (fun _ => none) (fun _ => none) 9 (.prim "str") ctx =
      .ok (.wrap ["{urn:near}w"] m .strict false (.elem "{urn:far}e" m' .strict false false)) :=
  ⟨some [("x", "urn:near")], some [("x", "urn:far")], by kernel_rfl⟩

/-- C47: if anything is declared in its scope, an entity whose prefix is not declared is rejected: elements, attributes, sub-models
and wrappers. Missing: scopes without any declaration, see `C47_counterexample_no_declarations`. -/
theorem C47_undeclared_rejected_partial (hc : classes.Proper) (n : Nat) (s t : Schema) (ctx : Ctx) (a : String)
    (hd : PlainDefs ctx.defs) (hs : s.Plain) (hp : ctx.place.Proper) (hf : ctx.fieldName ≠ some "")
    (ht : Strips ctx.defs s ctx.defs t) :
    (∀ ty, t = .prim ty → ctx.location = some .element → ctx.place.prefix? = some a → uriIn ctx.place.scope a = none →
      (∃ b, uriIn ctx.place.scope b ≠ none) → ∀ x, parse classes built n s ctx ≠ .ok x) ∧
    (ctx.location = some .attribute → ctx.place.attrPrefix? = some a → uriIn ctx.place.scope a = none →
      (∃ b, uriIn ctx.place.scope b ≠ none) → ∀ x, parse classes built n s ctx ≠ .ok x) ∧
    (∀ cls r cd, t = .model cls r → classes cls = some cd → ctx.location ≠ some .wrapped → ctx.place.modelPrefix? cd = some a →
      uriIn (ctx.place.modelScope cd) a = none → (∃ b, uriIn (ctx.place.modelScope cd) b ≠ none) →
      ∀ x, parse classes built n s ctx ≠ .ok x) ∧
    (ctx.location = some .wrapped → ctx.place.prefix? = some a → uriIn ctx.place.scope a = none →
      (∃ b, uriIn ctx.place.scope b ≠ none) → ∀ x, parse classes built n s ctx ≠ .ok x) := by
  have key : ∀ {scope : List (Option NsMap)} {pre : Option String}, Declared scope pre → pre = some a → uriIn scope a = none →
      (∃ b, uriIn scope b ≠ none) → False := by
    intro scope pre hdec ha hn ⟨b, hb⟩
    rcases hdec a ha with h | h
    · exact h hn
    · exact hb (h b)
  refine ⟨?_, ?_, ?_, ?_⟩
  · rintro ty rfl hl ha hn hb x hx
    have hcomp : ctx.place.location = some .element := hl
    cases parse_supported hc n s ctx hd hs hp hf hx with
    | wrapped _ h => rw [h] at hcomp; cases hcomp
    | prim _ h =>
      rcases h with h | ⟨-, h⟩ | ⟨h, -⟩
      · rw [h] at hcomp; cases hcomp
      · exact key h.2 ha hn hb
      · rw [h] at hcomp; cases hcomp
    | inst h1 => cases (ht.det h1).2
    | raw h1 => cases (ht.det h1).2
    | model h1 => cases (ht.det h1).2
    | dict h1 => cases (ht.det h1).2
    | typedDict h1 => cases (ht.det h1).2
    | collection h1 h2 => obtain ⟨-, rfl⟩ := ht.det h1; rcases h2 with h2 | h2 <;> cases h2
    | elements h1 h2 => obtain ⟨-, rfl⟩ := ht.det h1; rcases h2 with h2 | h2 <;> cases h2
    | tuple h1 h2 => obtain ⟨-, rfl⟩ := ht.det h1; rcases h2 with h2 | h2 <;> cases h2
    | primUnion h1 => cases (ht.det h1).2
    | modelUnion h1 => cases (ht.det h1).2
    | tagged h1 => cases (ht.det h1).2
  · intro hl ha hn hb x hx
    have hcomp : ctx.place.location = some .attribute := hl
    have scal : ctx.place.Scalar → False := by
      rintro (h | ⟨h, -⟩ | ⟨-, h⟩)
      · rw [h] at hcomp; cases hcomp
      · rw [h] at hcomp; cases hcomp
      · exact key h.2.2 ha hn hb
    have comp : ctx.place.Compound → False := by
      rintro (h | h) <;> (rw [h] at hcomp; cases hcomp)
    have mapp : ctx.place.Mapping → False := by
      rintro (h | ⟨h, -⟩) <;> (rw [h] at hcomp; cases hcomp)
    cases parse_supported hc n s ctx hd hs hp hf hx with
    | wrapped _ h => rw [h] at hcomp; cases hcomp
    | prim _ h => exact scal h
    | inst _ h => exact scal h
    | raw _ h => exact comp h
    | model _ _ h => exact comp h
    | dict _ _ _ h => exact mapp h
    | typedDict _ _ h => exact mapp h
    | collection _ _ _ _ h => rw [h] at hcomp; cases hcomp
    | elements _ _ _ _ h => rw [h] at hcomp; cases hcomp
    | tuple _ _ _ h => exact comp h
    | primUnion _ _ _ h => exact scal h
    | modelUnion _ _ h => exact comp h
    | tagged _ _ h => exact comp h
  · rintro cls r cd rfl hcd hl ha hn hb x hx
    cases parse_supported hc n s ctx hd hs hp hf hx with
    | wrapped _ h => exact hl h
    | model h1 h2 _ h =>
      cases (ht.det h1).2
      rw [hcd] at h2
      cases h2
      exact key h ha hn hb
    | prim h1 => cases (ht.det h1).2
    | inst h1 => cases (ht.det h1).2
    | raw h1 => cases (ht.det h1).2
    | dict h1 => cases (ht.det h1).2
    | typedDict h1 => cases (ht.det h1).2
    | collection h1 h2 => obtain ⟨-, rfl⟩ := ht.det h1; rcases h2 with h2 | h2 <;> cases h2
    | elements h1 h2 => obtain ⟨-, rfl⟩ := ht.det h1; rcases h2 with h2 | h2 <;> cases h2
    | tuple h1 h2 => obtain ⟨-, rfl⟩ := ht.det h1; rcases h2 with h2 | h2 <;> cases h2
    | primUnion h1 => cases (ht.det h1).2
    | modelUnion h1 => cases (ht.det h1).2
    | tagged h1 => cases (ht.det h1).2
  · intro hl ha hn hb x hx
    have hcomp : ctx.place.location = some .wrapped := hl
    have scal : ctx.place.Scalar → False := by
      rintro (h | ⟨h, -⟩ | ⟨h, -⟩) <;> (rw [h] at hcomp; cases hcomp)
    have comp : ctx.place.Compound → False := by
      rintro (h | h) <;> (rw [h] at hcomp; cases hcomp)
    have mapp : ctx.place.Mapping → False := by
      rintro (h | ⟨h, -⟩) <;> (rw [h] at hcomp; cases hcomp)
    cases parse_supported hc n s ctx hd hs hp hf hx with
    | wrapped _ _ _ h => exact key h ha hn hb
    | prim _ h => exact scal h
    | inst _ h => exact scal h
    | raw _ h => exact comp h
    | model _ _ h => exact comp h
    | dict _ _ _ h => exact mapp h
    | typedDict _ _ h => exact mapp h
    | collection _ _ _ _ h => rw [h] at hcomp; cases hcomp
    | elements _ _ _ _ h => rw [h] at hcomp; cases hcomp
    | tuple _ _ _ h => exact comp h
    | primUnion _ _ _ h => exact scal h
    | modelUnion _ _ h => exact comp h
    | tagged _ _ h => exact comp h

/-- C47, the part that is false: if nothing is declared, an undeclared prefix is ignored. -/
theorem C47_counterexample_no_declarations :
    let ctx : Ctx := {
      modelName := "M", fieldName := some "f",
      info := some (.mk (some .element) none (some "x") none none none),
      parents := [some (.mk (some .element) none none none none none)] }
    ctx.place.prefix? = some "x" ∧ uriIn ctx.place.scope "x" = none ∧
    parse (fun _ => none) (fun _ => none) 9 (.prim "str") ctx = .ok (.elem "f" (some []) .strict false false) :=
  ⟨rfl, rfl, by kernel_rfl⟩

/-- Non-vacuity of C47: a class that declares `y` only, and a field with prefix `x`. -/
example : let ctx : Ctx := {
      modelName := "M", fieldName := some "f",
      info := some (.mk (some .element) none (some "x") none none none),
      parents := [some (.mk (some .element) none none (some [("y", "urn:y")]) none none)] }
    ctx.place.prefix? = some "x" ∧ uriIn ctx.place.scope "x" = none ∧ uriIn ctx.place.scope "y" ≠ none ∧
    ∃ e, parse (fun _ => none) (fun _ => none) 9 (.prim "str") ctx = .error e :=
  ⟨rfl, rfl, by simp [uriIn, Place.scope, Place.maps, Ctx.place, EntityInfo.nsmap, Dict.get?], _, rfl⟩

/-! ## C48 `Optional`, defaults, validators -/

theorem parse_step {s i : Schema} {ctx : Ctx} (hs : ∀ n, preprocess (n + 1) s ctx = preprocess n i ctx)
    (r : Except DefErr Ser) (hr : r ≠ .error .diverge) :
    (∃ n, parse classes built n s ctx = r) ↔ ∃ n, parse classes built n i ctx = r := by
  have up : ∀ {a b : Except DefErr Ser}, Below a b → a = r → b = r := by
    rintro a b (h | h) rfl
    · exact absurd h hr
    · exact h
  constructor
  · rintro ⟨n, h⟩
    cases n with
    | zero => exact absurd h.symm hr
    | succ n =>
      cases n with
      | zero =>
        rw [parse] at h
        exact absurd h.symm hr
      | succ n =>
        refine ⟨n + 2, up ?_ h⟩
        rw [parse, hs, parse]
        rcases preprocess_mono n i ctx with h | h
        · rw [h]; exact Or.inl rfl
        · rw [h]; exact .refl _
  · rintro ⟨n, h⟩
    cases n with
    | zero => exact absurd h.symm hr
    | succ n =>
      refine ⟨n + 2, up ?_ h⟩
      rw [parse, parse, hs]
      cases preprocess n i ctx with
      | error e => exact .refl _
      | ok x => exact select_mono (parse_mono classes built n) classes built n _ _

/-- C48: `Optional`, defaults and validators do not change how a field is mapped to XML: the definition with them has the same
outcome, a serializer or an error, as the definition without them. A reference has the outcome of its definition. -/
theorem C48_transparent (s : Schema) (ctx : Ctx) (r : Except DefErr Ser) (hr : r ≠ .error .diverge) :
    ((∃ n, parse classes built n (.nullable s) ctx = r) ↔ ∃ n, parse classes built n s ctx = r) ∧
    ((∃ n, parse classes built n (.default s) ctx = r) ↔ ∃ n, parse classes built n s ctx = r) ∧
    ((∃ n, parse classes built n (.func s) ctx = r) ↔ ∃ n, parse classes built n s ctx = r) ∧
    ((∃ n, parse classes built n (.jsonOrPython s) ctx = r) ↔ ∃ n, parse classes built n s ctx = r) ∧
    (∀ name, ctx.defs.get? name = some s →
      ((∃ n, parse classes built n (.ref name) ctx = r) ↔ ∃ n, parse classes built n s ctx = r)) := by
  refine ⟨parse_step (fun _ => rfl) r hr, parse_step (fun _ => rfl) r hr, parse_step (fun _ => rfl) r hr,
    parse_step (fun _ => rfl) r hr, fun name hn => parse_step (fun n => ?_) r hr⟩
  rw [preprocess]
  simp only [hn]

/-- Non-vacuity: the outcome for the field `phone` of `Def.person`. -/
example : ∃ n x, parse Def.classes Def.built n (.nullable (.prim "str"))
    { Def.person.ctx with fieldName := some "phone", info := some (.mk (some .element) none none none none none), parents := [Def.person.ctx.info] } =
      .ok x := ⟨9, _, rfl⟩

/-! ## C49 class definitions terminate -/

/-- C49: for a type that unfolds to a finite tree (references may lead back through model classes only) the definition of a field
ends, with exactly one outcome. Missing: types that refer to themselves otherwise, see
`C49_counterexample_recursive_named_tuple`. -/
theorem C49_field_terminates_partial (s : Schema) (ctx : Ctx) (hs : s.Finite ctx.defs) :
    ∃ r, r ≠ .error .diverge ∧ (∃ N, ∀ n, N ≤ n → parse classes built n s ctx = r) ∧
      ∀ n, parse classes built n s ctx = .error .diverge ∨ parse classes built n s ctx = r := by
  obtain ⟨N, hN⟩ := finite_ends (classes := classes) (built := built) hs ctx rfl
  refine ⟨parse classes built N s ctx, hN N (Nat.le_refl _), ⟨N, fun n hn => ?_⟩, fun n => ?_⟩
  · rcases parse_mono_le hn s ctx with h | h
    · exact absurd h (hN N (Nat.le_refl _))
    · exact h
  · rcases Nat.le_total n N with h | h
    · rcases parse_mono_le h s ctx with h | h
      · exact Or.inl h
      · exact Or.inr h.symm
    · rcases parse_mono_le h s ctx with h | h
      · exact absurd h (hN N (Nat.le_refl _))
      · exact Or.inr h

theorem compileFields_congr {rec rec' : Schema → Ctx → Except DefErr Ser} {cd : ClassDef} {ctx : Ctx} : ∀ {fs : List FieldDef},
    (∀ f ∈ fs, rec' f.schema (f.ctx ctx) = rec f.schema (f.ctx ctx) ∧ Stops (rec f.schema (f.ctx ctx))) →
    compileFields rec' cd ctx fs = compileFields rec cd ctx fs ∧ Stops (compileFields rec cd ctx fs)
  | [], _ => ⟨rfl, by intro h; cases h⟩
  | f :: fs, h => by
    obtain ⟨h1, h2⟩ := h f (by simp)
    obtain ⟨ih1, ih2⟩ := compileFields_congr (cd := cd) fun f hf => h f (List.mem_cons_of_mem _ hf)
    unfold compileFields
    rw [h1, ih1]
    refine ⟨rfl, ?_⟩
    split
    · exact ih2
    · cases hp : rec f.schema (f.ctx ctx) with
      | error e => rw [hp] at h2; exact fun h' => by cases h'; exact h2 rfl
      | ok x =>
        cases hq : compileFields rec cd ctx fs with
        | error e => rw [hq] at ih2; exact fun h' => by cases h'; exact ih2 rfl
        | ok x => intro h; cases h

theorem compileComputed_congr {rec rec' : Schema → Ctx → Except DefErr Ser} {cd : ClassDef} {ctx : Ctx} : ∀ {fs : List ComputedDef},
    (∀ f ∈ fs, rec' f.schema (f.ctx ctx) = rec f.schema (f.ctx ctx) ∧ Stops (rec f.schema (f.ctx ctx))) →
    compileComputed rec' cd ctx fs = compileComputed rec cd ctx fs ∧ Stops (compileComputed rec cd ctx fs)
  | [], _ => ⟨rfl, by intro h; cases h⟩
  | f :: fs, h => by
    obtain ⟨h1, h2⟩ := h f (by simp)
    obtain ⟨ih1, ih2⟩ := compileComputed_congr (cd := cd) fun f hf => h f (List.mem_cons_of_mem _ hf)
    unfold compileComputed
    rw [h1, ih1]
    refine ⟨rfl, ?_⟩
    cases hp : rec f.schema (f.ctx ctx) with
    | error e => rw [hp] at h2; exact fun h' => by cases h'; exact h2 rfl
    | ok x =>
      cases hq : compileComputed rec cd ctx fs with
      | error e => rw [hq] at ih2; exact fun h' => by cases h'; exact ih2 rfl
      | ok x => intro h; cases h

/-- The types of all fields of the class unfold to finite trees. -/
def ClassDef.Finite (d : Dict String Schema) (cd : ClassDef) : Prop :=
  match cd.body with
  | .fields fs cs => (∀ f ∈ fs, f.schema.Finite d) ∧ ∀ c ∈ cs, c.schema.Finite d
  | .root s _ => s.Finite d

theorem compileClass_ends {cd : ClassDef} {d : Dict String Schema} (hfin : cd.Finite d) (ctx : Ctx) (hd : ctx.defs = d) :
    ∃ r, Stops r ∧ ∃ N, ∀ n, N ≤ n → compileClass (parse classes built n) cd ctx = r := by
  have hset : ∀ {s : Schema} {c : Ctx}, s.Finite d → c.defs = d →
      ∃ N, ∀ n, N ≤ n → ∀ m, N ≤ m → parse classes built n s c = parse classes built m s c ∧ Stops (parse classes built m s c) := by
    intro s c hs hc
    subst hc
    obtain ⟨r, hr, ⟨N, hN⟩, -⟩ := C49_field_terminates_partial (classes := classes) (built := built) s c hs
    exact ⟨N, fun n hn m hm => by rw [hN n hn, hN m hm]; exact ⟨rfl, hr⟩⟩
  have fin : ∀ {b b' : Except DefErr Body}, b' = b → Stops b → ∀ {q : Except DefErr QName}, Stops q → ∀ {g : Body → QName → ModelSer},
      Stops (match b with | .error e => .error e | .ok b => q.map (g b)) := by
    intro b b' _ hb q hq g
    cases b with
    | error e => exact fun h' => by cases h'; exact hb rfl
    | ok b => exact hq.map
  unfold ClassDef.Finite at hfin
  cases hbd : cd.body with
  | fields fs cs =>
    rw [hbd] at hfin
    obtain ⟨N1, hN1⟩ := exists_bound (l := fs) (P := fun f n => ∀ m, n ≤ m →
        parse classes built m f.schema (f.ctx (cd.inside ctx)) = parse classes built n f.schema (f.ctx (cd.inside ctx)) ∧ Stops (parse classes built n f.schema (f.ctx (cd.inside ctx))))
      (fun f hf => by
        obtain ⟨N, hN⟩ := hset (hfin.1 f hf) (c := f.ctx (cd.inside ctx)) hd
        exact ⟨N, fun n hn m hm => hN m (by omega) n hn⟩)
    obtain ⟨N2, hN2⟩ := exists_bound (l := cs) (P := fun f n => ∀ m, n ≤ m →
        parse classes built m f.schema (f.ctx (cd.inside ctx)) = parse classes built n f.schema (f.ctx (cd.inside ctx)) ∧ Stops (parse classes built n f.schema (f.ctx (cd.inside ctx))))
      (fun f hf => by
        obtain ⟨N, hN⟩ := hset (hfin.2 f hf) (c := f.ctx (cd.inside ctx)) hd
        exact ⟨N, fun n hn m hm => hN m (by omega) n hn⟩)
    have e1 : ∀ n, max N1 N2 ≤ n → _ := fun n hn =>
      compileFields_congr (rec' := parse classes built n) (rec := parse classes built (max N1 N2)) (cd := cd) (ctx := cd.inside ctx) (fs := fs)
        fun f hf => hN1 (max N1 N2) (by omega) f hf n hn
    have e2 : ∀ n, max N1 N2 ≤ n → _ := fun n hn =>
      compileComputed_congr (rec' := parse classes built n) (rec := parse classes built (max N1 N2)) (cd := cd) (ctx := cd.inside ctx) (fs := cs)
        fun f hf => hN2 (max N1 N2) (by omega) f hf n hn
    refine ⟨compileClass (parse classes built (max N1 N2)) cd ctx, ?_, max N1 N2, fun n hn => ?_⟩
    rotate_left
    · simp only [compileClass, hbd, (e1 n hn).1, (e2 n hn).1]
    · simp only [compileClass, hbd]
      refine fin rfl ?_ (fromAlias_stops _ _ _ _)
      have s1 := (e1 _ (Nat.le_refl _)).2
      have s2 := (e2 _ (Nat.le_refl _)).2
      cases hp : compileFields (parse classes built (max N1 N2)) cd (cd.inside ctx) fs with
      | error e => rw [hp] at s1; exact fun h' => by cases h'; exact s1 rfl
      | ok x =>
        cases hq : compileComputed (parse classes built (max N1 N2)) cd (cd.inside ctx) cs with
        | error e => rw [hq] at s2; exact fun h' => by cases h'; exact s2 rfl
        | ok x => intro h; cases h
  | root s infos =>
    rw [hbd] at hfin
    obtain ⟨N, hN⟩ := hset hfin (c := { (cd.inside ctx).child (EntityInfo.extract infos) with fieldName := none }) hd
    refine ⟨compileClass (parse classes built N) cd ctx, ?_, N, fun n hn => ?_⟩
    rotate_left
    · simp only [compileClass, hbd, (hN n hn N (Nat.le_refl _)).1]
    · simp only [compileClass, hbd]
      exact fin rfl (hN N (Nat.le_refl _) N (Nat.le_refl _)).2.map (fromAlias_stops _ _ _ _)

/-- C49: a class statement ends, with exactly one outcome, if the types of its fields unfold to finite trees. -/
theorem C49_class_terminates_partial (cls : String) (cd : ClassDef) (hcd : classes cls = some cd) (r : Bool)
    (d : Dict String Schema) (hs : Strips [] cd.schema d (.model cls r)) (hfin : cd.Finite d) :
    ∃ out, out ≠ .error .diverge ∧ ∃ N, ∀ n, N ≤ n → buildClass classes built n cd = out := by
  obtain ⟨N1, hN1⟩ := hs.preprocess
  obtain ⟨out, h1, N2, hN2⟩ := compileClass_ends (classes := classes) (built := built) hfin { cd.ctx with defs := d } rfl
  by_cases hc : cd.complete = true
  · refine ⟨out.map some, Stops.map h1, max N1 N2, fun n hn => ?_⟩
    unfold buildClass
    rw [if_pos hc, hN1 n (by omega) cd.ctx rfl]
    simp only [hcd]
    rw [hN2 n (by omega)]
  · refine ⟨.ok none, by simp, 0, fun n _ => ?_⟩
    unfold buildClass
    rw [if_neg hc]

/-- C49, the part that is false: `class N(NamedTuple): next: Optional['N']` as the type of an element field. -/
theorem C49_counterexample_recursive_named_tuple (n : Nat) :
    let ctx : Ctx := {
      modelName := "M", fieldName := some "f",
      info := some (.mk (some .element) none none none none none),
      defs := [("N", .call true [.nullable (.ref "N")])] }
    parse (fun _ => none) (fun _ => none) n (.ref "N") ctx = .error .diverge := by
  intro ctx
  have key : ∀ n, parse (fun _ => none) (fun _ => none) n (.ref "N") ctx = .error .diverge ∧
      parse (fun _ => none) (fun _ => none) n (.nullable (.ref "N")) ctx = .error .diverge := by
    intro n
    induction n with
    | zero => exact ⟨rfl, rfl⟩
    | succ n ih =>
      have hsel : ∀ m, 3 ≤ m → select (fun _ => none) (fun _ => none) (parse (fun _ => none) (fun _ => none) n) m
          (.call true [.nullable (.ref "N")]) ctx = .error .diverge := by
        intro m hm
        obtain ⟨k, rfl⟩ : ∃ k, m = k + 3 := ⟨m - 3, by omega⟩
        have : tupleItems (k + 3) [.nullable (.ref "N")] ctx = .ok ctx := rfl
        unfold select
        rw [if_neg (by simp [ctx, Ctx.location, EntityInfo.location])]
        simp only [if_true]
        unfold heteroOf
        rw [this]
        simp only
        unfold parseAll
        rw [ih.2]
        rfl
      rcases Nat.lt_or_ge n 3 with h | h
      · obtain rfl | rfl | rfl : n = 0 ∨ n = 1 ∨ n = 2 := by omega
        · exact ⟨rfl, rfl⟩
        · exact ⟨rfl, rfl⟩
        · exact ⟨by kernel_rfl, rfl⟩
      · have := hsel n h
        obtain ⟨k, rfl⟩ : ∃ k, n = k + 3 := ⟨n - 3, by omega⟩
        exact ⟨this, this⟩
  exact (key n).1

/-- Non-vacuity: the class `Person` of `Def`. -/
example : Def.person.Finite [("Person", .model "Person" false)] := by
  refine ⟨?_, ?_⟩
  · intro f hf
    simp only [List.mem_cons, List.not_mem_nil, or_false] at hf
    rcases hf with rfl | rfl | rfl | rfl | rfl | rfl | rfl
    · exact .func .prim
    · exact .prim
    · exact .default (.list .prim)
    · exact .nullable .prim
    · exact .model
    · refine .nullable (.tagged fun c hc => ?_)
      simp only [List.mem_cons, List.not_mem_nil, or_false] at hc
      rcases hc with rfl | rfl <;> exact .model
    · exact .other
  · intro c hc
    simp only [List.mem_cons, List.not_mem_nil, or_false] at hc
    subst hc
    exact .prim

end PXml
