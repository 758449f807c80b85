import Verif.Lemmas.Hidden

/-! Definitions are accepted or not whatever `hide_input_in_errors` is, and give the same serializers but for that setting. -/

namespace PXml
namespace Hidden

/-- The context with another setting. -/
abbrev hid (b : Bool) (c : Ctx) : Ctx := { c with hide := b }

/-- The same error, or related results. -/
inductive Def {α : Type} (R : α → α → Prop) : Except DefErr α → Except DefErr α → Prop
  | error {e : DefErr} : Def R (.error e) (.error e)
  | ok {a a' : α} : R a a' → Def R (.ok a) (.ok a')

theorem Def.refl {α : Type} {R : α → α → Prop} (h : ∀ a, R a a) (r : Except DefErr α) : Def R r r := by
  cases r
  · exact .error
  · exact .ok (h _)

theorem Def.same {r : Except DefErr Ser} : Def Ser.SameBut r r := .refl (fun _ => .refl) r

theorem Def.map {α β : Type} {R : α → α → Prop} {S : β → β → Prop} {r r' : Except DefErr α} (h : Def R r r') {f g : α → β}
    (hf : ∀ a a', R a a' → S (f a) (g a')) : Def S (r.map f) (r'.map g) := by
  cases h
  · exact .error
  · exact .ok (hf _ _ ‹_›)

theorem preprocess_hid (b : Bool) : ∀ (n : Nat) (s : Schema) (c : Ctx),
    preprocess n s (hid b c) = (preprocess n s c).map fun x => (x.1, hid b x.2)
  | 0, _, _ => rfl
  | n + 1, s, c => by
    cases s with
    | func i => exact preprocess_hid b n i c
    | funcPlain o =>
      cases o with
      | none => rfl
      | some i => exact preprocess_hid b n i c
    | default i => exact preprocess_hid b n i c
    | nullable i => exact preprocess_hid b n i c
    | jsonOrPython i => exact preprocess_hid b n i c
    | definitions defs i => exact preprocess_hid b n i { c with defs := Dict.update c.defs defs }
    | ref r =>
      simp only [preprocess]
      split
      · exact preprocess_hid b n _ c
      · rfl
    | _ => rfl

theorem tupleItems_hid (b : Bool) (n : Nat) : ∀ (ss : List Schema) (c : Ctx), tupleItems n ss (hid b c) = (tupleItems n ss c).map (hid b)
  | [], _ => rfl
  | s :: ss, c => by
    unfold tupleItems
    rw [preprocess_hid]
    cases preprocess n s c with
    | error e => rfl
    | ok x =>
      simp only [Except.map]
      split
      · rfl
      · split <;> rename_i h
        · have h' : (!(decide (x.1.family = some .model) || decide (x.1.family = some .union)) && decide (x.2.location = none)) = true := h
          rw [if_pos h']
        · have h' : ¬(!(decide (x.1.family = some .model) || decide (x.1.family = some .union)) && decide (x.2.location = none)) = true := h
          rw [if_neg h']
          exact tupleItems_hid b n ss x.2

theorem primitives_hid (b : Bool) (n : Nat) (c : Ctx) : ∀ ss : List Schema, primitives n (hid b c) ss = primitives n c ss
  | [] => rfl
  | s :: ss => by
    unfold primitives
    rw [preprocess_hid]
    cases preprocess n s c with
    | error e => rfl
    | ok x =>
      simp only [Except.map]
      rw [primitives_hid b n c ss]

theorem unionFamilies_hid (b : Bool) (n : Nat) : ∀ (ss : List Schema) (c : Ctx),
    unionFamilies n ss (hid b c) = (unionFamilies n ss c).map fun x => (x.1, hid b x.2)
  | [], _ => rfl
  | s :: ss, c => by
    unfold unionFamilies
    rw [preprocess_hid]
    cases preprocess n s c with
    | error e => rfl
    | ok x =>
      have := unionFamilies_hid b n ss x.2
      simp only [Except.map]
      split
      all_goals first | rfl | skip
      all_goals
        rw [this]
        cases unionFamilies n ss x.2 with
        | error e => rfl
        | ok y => rfl

theorem taggedChoices_hid (b : Bool) (n : Nat) : ∀ (ss : List Schema) (c : Ctx),
    taggedChoices n ss (hid b c) = (taggedChoices n ss c).map (hid b)
  | [], _ => rfl
  | s :: ss, c => by
    unfold taggedChoices
    rw [preprocess_hid]
    cases preprocess n s c with
    | error e => rfl
    | ok x =>
      obtain ⟨t, c'⟩ := x
      cases t with
      | model cls r => cases r with
        | true => rfl
        | false => exact taggedChoices_hid b n ss c'
      | _ => rfl

section
variable {rec rec' : Schema → Ctx → Except DefErr Ser} {b : Bool}
  (hr : ∀ s c, Def Ser.SameBut (rec s c) (rec' s (hid b c)))
include hr

theorem parseAll_hid (c : Ctx) : ∀ ss : List Schema, Def (Each Ser.SameBut) (parseAll rec c ss) (parseAll rec' (hid b c) ss)
  | [] => .ok .nil
  | s :: ss => by
    have ih := parseAll_hid c ss
    unfold parseAll
    have := hr s c
    revert this ih
    generalize rec s c = x
    generalize rec' s (hid b c) = y
    generalize parseAll rec c ss = x'
    generalize parseAll rec' (hid b c) ss = y'
    intro ih h
    cases h with
    | error => exact .error
    | ok h => cases ih with
      | error => exact .error
      | ok ih => exact .ok (.cons h ih)

theorem parseProxy_hid (c : Ctx) (s : Schema) : parseProxy rec' (hid b c) s = parseProxy rec c s := by
  unfold parseProxy
  have := hr s c
  revert this
  generalize rec s c = x
  generalize rec' s (hid b c) = y
  intro h
  cases h with
  | error => rfl
  | ok h => cases h <;> rfl

theorem parseProxies_hid (c : Ctx) : ∀ ss : List Schema, parseProxies rec' (hid b c) ss = parseProxies rec c ss
  | [] => rfl
  | s :: ss => by
    unfold parseProxies
    rw [parseProxy_hid hr, parseProxies_hid c ss]

omit hr in
theorem collectionOf_hid {r r' : Except DefErr Ser} (c : Ctx) (h : Def Ser.SameBut r r') :
    Def Ser.SameBut (collectionOf c r) (collectionOf (hid b c) r') := by
  unfold collectionOf
  show Def Ser.SameBut _ (match c.location with
    | some .attribute => .error (.fieldError "attributes of collection types are not supported")
    | some .wrapped => .error (.assertion "unreachable")
    | _ => r')
  generalize c.location = l
  rcases l with _ | l
  · exact h
  · cases l
    · exact h
    · exact .error
    · exact .error

theorem homogOf_hid (n : Nat) (items : Schema) (c : Ctx) : Def Ser.SameBut (homogOf rec n items c) (homogOf rec' n items (hid b c)) := by
  unfold homogOf
  rw [preprocess_hid b n items c]
  cases preprocess n items c with
  | error e => exact .error
  | ok x =>
    simp only [Except.map]
    split
    · exact .error
    · split <;> rename_i h
      · have h' : (!Family.namedItem x.1.family && decide ((hid b x.2).location = none)) = true := h
        rw [if_pos h']
        exact .error
      · have h' : ¬(!Family.namedItem x.1.family && decide ((hid b x.2).location = none)) = true := h
        rw [if_neg h']
        exact collectionOf_hid _ ((hr _ _).map fun a a' h => .homog h)

omit hr in
theorem each_rows {xs ys : List Ser} (h : Each Ser.SameBut xs ys) : ∃ rows : List (Ser × Ser), rows.map Prod.fst = xs ∧
    rows.map Prod.snd = ys ∧ ∀ r ∈ rows, r.1.SameBut r.2 := by
  induction h with
  | nil => exact ⟨[], rfl, rfl, by simp⟩
  | @cons a a' as as' h _ ih =>
    obtain ⟨rows, h1, h2, h3⟩ := ih
    refine ⟨(a, a') :: rows, by simp [h1], by simp [h2], fun r hr => ?_⟩
    rcases List.mem_cons.1 hr with rfl | hr
    · exact h
    · exact h3 r hr

theorem heteroOf_hid (n : Nat) (items : List Schema) (c : Ctx) :
    Def Ser.SameBut (heteroOf rec n items c) (heteroOf rec' n items (hid b c)) := by
  unfold heteroOf
  rw [tupleItems_hid b n items c]
  cases tupleItems n items c with
  | error e => exact .error
  | ok x =>
    refine collectionOf_hid _ ((parseAll_hid hr _ _).map fun a a' h => ?_)
    obtain ⟨rows, rfl, rfl, h3⟩ := each_rows h
    exact .hetero h3

omit hr in
theorem kind_same {x y : Ser} (h : x.SameBut y) : x.kind = y.kind := by cases h <;> rfl

omit hr in
theorem all_kind {xs ys : List Ser} (h : Each Ser.SameBut xs ys) (k : SerKind) :
    (xs.all fun t => t.kind = k) = ys.all fun t => t.kind = k := by
  induction h with
  | nil => rfl
  | cons h _ ih => simp only [List.all_cons, ih, kind_same h]

theorem primUnionOf_hid (cs : List Schema) (c : Ctx) : Def Ser.SameBut (primUnionOf rec cs c) (primUnionOf rec' cs (hid b c)) := by
  unfold primUnionOf
  have := parseAll_hid hr c cs
  revert this
  generalize parseAll rec c cs = x
  generalize parseAll rec' (hid b c) cs = y
  intro h
  cases h with
  | error => exact .error
  | ok h => cases h with
    | nil => exact .error
    | cons h1 h2 =>
      simp only [all_kind h2, kind_same h1]
      split
      · exact .ok (.primUnion h1)
      · exact .error

theorem modelUnionOf_hid (cs : List Schema) (c : Ctx) : Def Ser.SameBut (modelUnionOf rec cs c) (modelUnionOf rec' cs (hid b c)) := by
  unfold modelUnionOf
  rw [parseProxies_hid hr]
  split
  · exact .error
  · exact .error
  · exact .ok .modelUnion

theorem unionOf_hid (n : Nat) (cs : List Schema) (c : Ctx) : Def Ser.SameBut (unionOf rec n cs c) (unionOf rec' n cs (hid b c)) := by
  unfold unionOf
  rw [unionFamilies_hid b n cs c]
  cases unionFamilies n cs c with
  | error e => exact .error
  | ok x =>
    simp only [Except.map]
    split
    · exact .error
    · split
      · exact .error
      · split
        · exact modelUnionOf_hid hr _ _
        · split
          · exact primUnionOf_hid hr _ _
          · exact .error

/-- The classes built so far are the same but for the setting. -/
def BuiltSame (built built' : Built) : Prop := ∀ c, match built c, built' c with
  | some m, some m' => m.SameBut m'
  | o, o' => o = o'

omit hr in
theorem find_same {fs fs' : List Field} (h : Each Field.SameBut fs fs') (p : Field → Bool) (hp : ∀ f s, p { f with ser := s } = p f) :
    match fs.find? p, fs'.find? p with
    | some f, some f' => f.SameBut f'
    | none, none => True
    | _, _ => False := by
  induction h with
  | nil => trivial
  | @cons f f' fs fs' h _ ih =>
    have e : p f' = p f := by rw [h.2, hp]
    simp only [List.find?_cons, e]
    cases p f with
    | true => exact h
    | false => exact ih

omit hr in
theorem discriminatorAttr_hid {built built' : Built} (hb : BuiltSame built built') (discr cls : String) :
    discriminatorAttr built' discr cls = discriminatorAttr built discr cls := by
  have h := hb cls
  unfold discriminatorAttr
  revert h
  cases built cls with
  | none =>
    cases built' cls with
    | none => intro _; rfl
    | some m' => intro h; cases h
  | some m =>
    cases built' cls with
    | none => intro h; cases h
    | some m' =>
      intro h
      obtain ⟨name, el, nsm, body, sk, ex, hi⟩ := m
      obtain ⟨name', el', nsm', body', sk', ex', hi'⟩ := m'
      have hbody : body.SameBut body' := h.1
      cases hbody with
      | root _ => rfl
      | @fields fs fs' hf =>
        simp only
        have := find_same hf (fun f => f.name = discr) (fun _ _ => rfl)
        revert this
        cases fs.find? (fun f => decide (f.name = discr)) with
        | none =>
          cases fs'.find? (fun f => decide (f.name = discr)) with
          | none => intro _; rfl
          | some f' => exact False.elim
        | some f =>
          cases fs'.find? (fun f => decide (f.name = discr)) with
          | none => exact False.elim
          | some f' =>
            intro h
            obtain ⟨h1, h2⟩ := h
            generalize f'.ser = s at h1 h2
            subst h2
            cases f with
            | mk fname fser al exc va se =>
              simp only at h1 ⊢
              cases h1 <;> rfl

theorem taggedLoopOf_hid {built built' : Built} (hb : BuiltSame built built') (discr : String) (c : Ctx) :
    ∀ (cs : List (Option String × Schema)) (a : Option String) (acc : Dict String Proxy),
      taggedLoopOf rec' built' discr (hid b c) cs a acc = taggedLoopOf rec built discr c cs a acc
  | [], _, _ => rfl
  | (none, _) :: _, _, _ => rfl
  | (some tag, s) :: cs, a, acc => by
    unfold taggedLoopOf
    rw [parseProxy_hid hr]
    simp only [discriminatorAttr_hid hb, taggedLoopOf_hid hb discr c cs]

theorem taggedOf_hid {built built' : Built} (hb : BuiltSame built built') (n : Nat) (discr : Option String)
    (cs : List (Option String × Schema)) (c : Ctx) :
    Def Ser.SameBut (taggedOf rec n built discr cs c) (taggedOf rec' n built' discr cs (hid b c)) := by
  unfold taggedOf
  rw [taggedChoices_hid b n _ c]
  cases taggedChoices n (cs.map Prod.snd) c with
  | error e => exact .error
  | ok x =>
    cases discr with
    | none => exact .error
    | some d =>
      simp only [Except.map]
      rw [taggedLoopOf_hid hr hb]
      exact .same

theorem wrapOf_hid (s : Schema) (c : Ctx) : Def Ser.SameBut (wrapOf rec s c) (wrapOf rec' s (hid b c)) := by
  unfold wrapOf
  show Def Ser.SameBut _ (match c.path with
    | none => _
    | some path => _)
  cases c.path with
  | none => exact .error
  | some p =>
    simp only
    have := hr s (c.child c.wrapped)
    revert this
    show Def Ser.SameBut (rec s (c.child c.wrapped)) (rec' s ((hid b c).child (hid b c).wrapped)) → _
    generalize rec s (c.child c.wrapped) = x
    generalize rec' s ((hid b c).child (hid b c).wrapped) = y
    intro h
    cases h with
    | error => exact .error
    | ok h =>
      simp only
      show Def Ser.SameBut _ (match pathNames (selectNs [c.ns, c.parentNs]) (mergeNsmaps [c.nsmap, c.parentNsmap]) (splitPath p) with
        | .error e => _
        | .ok names => _)
      generalize pathNames (selectNs [c.ns, c.parentNs]) (mergeNsmaps [c.nsmap, c.parentNsmap]) (splitPath p) = r
      cases r with
      | error e => exact .error
      | ok names => exact .ok (Ser.SameBut.wrap h)

/-- The classes are the same but for the setting. -/
def TableSame (classes classes' : Classes) : Prop := ∀ c, ∃ h, classes' c = (classes c).map fun cd => { cd with hideInput := h }

omit hr in
theorem modelOf_hid {classes classes' : Classes} (hc : TableSame classes classes') (cls : String) (c : Ctx) :
    modelOf classes' cls (hid b c) = modelOf classes cls c := by
  unfold modelOf
  have : proxyOf classes' cls (hid b c) = proxyOf classes cls c := by
    unfold proxyOf
    obtain ⟨h, e⟩ := hc cls
    rw [e]
    cases classes cls with
    | none => rfl
    | some cd => rfl
  rw [this]
  rfl

theorem select_hid {classes classes' : Classes} (hc : TableSame classes classes') {built built' : Built} (hb : BuiltSame built built') (n : Nat)
    (s : Schema) (c : Ctx) : Def Ser.SameBut (select classes built rec n s c) (select classes' built' rec' n s (hid b c)) := by
  unfold select
  show Def Ser.SameBut _ (if c.location = some .wrapped then _ else _)
  split
  · exact wrapOf_hid hr _ _
  · cases s with
    | model cls r => simp only; rw [modelOf_hid hc]; exact .same
    | list i => exact homogOf_hid hr _ _ _
    | tuple is v =>
      cases v with
      | none => exact heteroOf_hid hr _ _ _
      | some k =>
        cases k with
        | succ k => exact .same
        | zero =>
          cases is with
          | nil => exact .same
          | cons i is => cases is with
            | nil => exact homogOf_hid hr _ _ _
            | cons j js => exact .same
    | dict k v => simp only; rw [primitives_hid b]; exact .same
    | typedDict vs => simp only; rw [primitives_hid b]; exact .same
    | union cs => exact unionOf_hid hr _ _ _
    | tagged d cs => exact taggedOf_hid hr hb _ _ _ _
    | call b args =>
      cases b with
      | true => exact heteroOf_hid hr _ _ _
      | false => exact .same
    | _ => exact .same

theorem compileFields_hid {cd cd' : ClassDef} (hv : cd'.validators = cd.validators) (hs : cd'.serializers = cd.serializers) (c : Ctx) :
    ∀ fs : List FieldDef, Def (Each Field.SameBut) (compileFields rec cd c fs) (compileFields rec' cd' (hid b c) fs)
  | [] => .ok .nil
  | f :: fs => by
    have ih := compileFields_hid hv hs c fs
    unfold compileFields
    split
    · exact ih
    · have := hr f.schema (f.ctx c)
      revert this ih
      show _ → Def _ _ (rec' f.schema (f.ctx (hid b c))) → _
      generalize rec f.schema (f.ctx c) = x
      generalize rec' f.schema (f.ctx (hid b c)) = y
      generalize compileFields rec cd c fs = x'
      generalize compileFields rec' cd' (hid b c) fs = y'
      intro ih h
      cases h with
      | error => exact .error
      | ok h => cases ih with
        | error => exact .error
        | ok ih => exact .ok (.cons ⟨h, by rw [hv, hs]⟩ ih)

theorem compileComputed_hid {cd cd' : ClassDef} (hv : cd'.validators = cd.validators) (hs : cd'.serializers = cd.serializers) (c : Ctx) :
    ∀ fs : List ComputedDef, Def (Each Field.SameBut) (compileComputed rec cd c fs) (compileComputed rec' cd' (hid b c) fs)
  | [] => .ok .nil
  | f :: fs => by
    have ih := compileComputed_hid hv hs c fs
    unfold compileComputed
    have := hr f.schema (f.ctx c)
    revert this ih
    show _ → Def _ _ (rec' f.schema (f.ctx (hid b c))) → _
    generalize rec f.schema (f.ctx c) = x
    generalize rec' f.schema (f.ctx (hid b c)) = y
    generalize compileComputed rec cd c fs = x'
    generalize compileComputed rec' cd' (hid b c) fs = y'
    intro ih h
    cases h with
    | error => exact .error
    | ok h => cases ih with
      | error => exact .error
      | ok ih => exact .ok (.cons ⟨h, by rw [hv, hs]⟩ ih)

omit hr in
theorem each_append {α : Type} {R : α → α → Prop} {as as' bs bs' : List α} (h1 : Each R as as') (h2 : Each R bs bs') :
    Each R (as ++ bs) (as' ++ bs') := by
  induction h1 with
  | nil => exact h2
  | cons h _ ih => exact .cons h ih

end

theorem compileClass_hid {rec rec' : Schema → Ctx → Except DefErr Ser} (hr : ∀ b s c, Def Ser.SameBut (rec s c) (rec' s (hid b c)))
    (cd : ClassDef) (h : Option Bool) (c : Ctx) (b : Bool) :
    Def ModelSer.SameBut (compileClass rec cd c) (compileClass rec' { cd with hideInput := h } (hid b c)) := by
  have hin : ({ cd with hideInput := h } : ClassDef).inside (hid b c) = hid (h.getD b) (cd.inside c) := rfl
  unfold compileClass
  rw [hin]
  have key : ∀ {x y : Except DefErr Body}, Def Body.SameBut x y → Def ModelSer.SameBut
      (match x with
        | .error e => .error e
        | .ok body =>
          (QName.fromAlias ((strOr cd.params.tag (some cd.name)).getD cd.name) cd.params.ns cd.params.nsmap false).map fun q =>
            ({ name := cd.name, elementName := q.uri, nsmap := cd.params.nsmap, body := body, skipEmpty := cd.params.skipEmpty,
               extraForbid := cd.extraForbid, hideInput := (cd.inside c).hide } : ModelSer))
      (match y with
        | .error e => .error e
        | .ok body =>
          (QName.fromAlias ((strOr cd.params.tag (some cd.name)).getD cd.name) cd.params.ns cd.params.nsmap false).map fun q =>
            ({ name := cd.name, elementName := q.uri, nsmap := cd.params.nsmap, body := body, skipEmpty := cd.params.skipEmpty,
               extraForbid := cd.extraForbid, hideInput := h.getD b } : ModelSer)) := by
    intro x y hxy
    cases hxy with
    | error => exact .error
    | ok hb =>
      simp only
      cases QName.fromAlias ((strOr cd.params.tag (some cd.name)).getD cd.name) cd.params.ns cd.params.nsmap false with
      | error e => exact .error
      | ok q => exact .ok ⟨hb, rfl⟩
  refine key ?_
  generalize cd.inside c = c
  have h1 := fun fs => compileFields_hid (hr (h.getD b)) (cd := cd) (cd' := { cd with hideInput := h }) rfl rfl c fs
  have h2 := fun fs => compileComputed_hid (hr (h.getD b)) (cd := cd) (cd' := { cd with hideInput := h }) rfl rfl c fs
  obtain ⟨name, params, schema, body, ex, hi, co, va, se⟩ := cd
  cases body with
  | fields fs cs =>
    have h1 := h1 fs
    have h2 := h2 cs
    simp only
    revert h1 h2
    generalize compileFields rec ⟨name, params, schema, .fields fs cs, ex, hi, co, va, se⟩ c fs = x
    generalize compileFields rec' ⟨name, params, schema, .fields fs cs, ex, h, co, va, se⟩ (hid (h.getD b) c) fs = y
    generalize compileComputed rec ⟨name, params, schema, .fields fs cs, ex, hi, co, va, se⟩ c cs = x'
    generalize compileComputed rec' ⟨name, params, schema, .fields fs cs, ex, h, co, va, se⟩ (hid (h.getD b) c) cs = y'
    intro h1 h2
    cases h1 with
    | error => exact .error
    | ok h1 => cases h2 with
      | error => exact .error
      | ok h2 => exact .ok (.fields (each_append h1 h2))
  | root s infos =>
    exact (hr (h.getD b) s { c.child (EntityInfo.extract infos) with fieldName := none }).map fun _ _ h => .root h

theorem parse_hid {classes classes' : Classes} (hc : TableSame classes classes') {built built' : Built} (hb : BuiltSame built built') (b : Bool) :
    ∀ (n : Nat) (s : Schema) (c : Ctx), Def Ser.SameBut (parse classes built n s c) (parse classes' built' n s (hid b c))
  | 0, _, _ => .error
  | n + 1, s, c => by
    unfold parse
    rw [preprocess_hid b n s c]
    cases preprocess n s c with
    | error e => exact .error
    | ok x => exact select_hid (parse_hid hc hb b n) hc hb n x.1 x.2

/-- The serializers are the same but for the setting, or there is none. -/
def OptSame : Option ModelSer → Option ModelSer → Prop
  | some m, some m' => m.SameBut m'
  | o, o' => o = o'

theorem buildClass_hid {classes classes' : Classes} (hc : TableSame classes classes') {built built' : Built} (hb : BuiltSame built built')
    (n : Nat) (cd : ClassDef) (h : Option Bool) :
    Def OptSame (buildClass classes built n cd) (buildClass classes' built' n { cd with hideInput := h }) := by
  unfold buildClass
  show Def OptSame _ (if cd.complete then (match preprocess n cd.schema cd.ctx with
    | .error e => _
    | .ok (.model cls _, ctx) => _
    | .ok _ => _) else _)
  split
  · cases preprocess n cd.schema cd.ctx with
    | error e => exact .error
    | ok x =>
      obtain ⟨t, c⟩ := x
      cases t with
      | model cls r =>
        simp only
        obtain ⟨h, e⟩ := hc cls
        rw [e]
        cases classes cls with
        | none => exact .error
        | some cd => exact (compileClass_hid (fun b => parse_hid hc hb b n) cd h c c.hide).map fun _ _ h => h
      | _ => exact .error
  · exact .ok rfl

theorem setSerializer_hid {classes classes' : Classes} (hc : TableSame classes classes') {built built' : Built} (hb : BuiltSame built built')
    (n : Nat) (c : String) (k : Bool) : Def BuiltSame (setSerializer classes n built c k) (setSerializer classes' n built' c k) := by
  unfold setSerializer
  obtain ⟨h, e⟩ := hc c
  rw [e]
  cases classes c with
  | none => exact .ok hb
  | some cd =>
    have := buildClass_hid hc hb n { cd with complete := cd.complete && k } h
    simp only [Option.map]
    revert this
    generalize buildClass classes built n { cd with complete := cd.complete && k } = x
    generalize buildClass classes' built' n { { cd with complete := cd.complete && k } with hideInput := h } = y
    intro hxy
    cases hxy with
    | error => exact .error
    | ok hm =>
      refine .ok fun d => ?_
      by_cases hd : d = c
      · simp only [hd, if_true]; exact hm
      · simp only [hd, if_false]; exact hb d

theorem isNone_hid {built built' : Built} (hb : BuiltSame built built') (c : String) : (built' c).isNone = (built c).isNone := by
  have := hb c
  revert this
  cases built c <;> cases built' c <;> intro h <;> first | rfl | cases h

theorem run_hid {classes classes' : Classes} (hc : TableSame classes classes') {built built' : Built} (hb : BuiltSame built built')
    (n : Nat) (e : Event) : Def BuiltSame (e.run classes n built) (e.run classes' n built') := by
  cases e with
  | statement c k => exact setSerializer_hid hc hb n c k
  | rebuild c k =>
    unfold Event.run
    simp only [isNone_hid hb]
    split
    · exact setSerializer_hid hc hb n c k
    · exact .ok hb

theorem history_hid {classes classes' : Classes} (hc : TableSame classes classes') (n : Nat) :
    ∀ (es : List Event) {built built' : Built}, BuiltSame built built' → BuiltSame (history classes n es built) (history classes' n es built')
  | [], _, _, hb => hb
  | e :: es, built, built', hb => by
    unfold history
    have := run_hid hc hb n e
    revert this
    generalize e.run classes n built = x
    generalize e.run classes' n built' = y
    intro h
    cases h with
    | error => exact history_hid hc n es hb
    | ok h => exact history_hid hc n es h

theorem tableSame_hiding (classes : Classes) (h : String → Option Bool) : TableSame classes (classes.hiding h) := fun c => ⟨h c, rfl⟩

end Hidden
end PXml
