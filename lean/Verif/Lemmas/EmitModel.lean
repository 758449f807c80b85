import Verif.Lemmas.EmitWrap

/-! Instances of classes, and the induction. -/

namespace PXml

open Elem

variable {wh : Bool}

/-- A new element. -/
structure Elem.Fresh (w : Elem) : Prop where
  text : w.text = none
  tail : w.tail = none
  attrib : w.attrib = none
  elements : w.elements = []
  next : w.next = 0

theorem Elem.Fresh.atEnd {w : Elem} (h : w.Fresh) : w.AtEnd := by unfold AtEnd; rw [h.next, h.elements]; rfl

theorem fresh_make (b : Backend) (t : String) (ns : Option NsMap) : (makeElement b t ns).Fresh := ⟨rfl, rfl, rfl, rfl, rfl⟩

def ModelSer.NilFree (m : ModelSer) : Prop :=
  (∀ fs, m.body = .fields fs → ∀ f ∈ fs, Slot.attr nilAttr ∉ f.ser.slots) ∧ ∀ s, m.body = .root s → Slot.attr nilAttr ∉ s.slots

/-- What is known of an instance. -/
structure ModelEmits (wh : Bool) (env : Env) (eas : Bool) (fl : Flags) (cls : String) (m : ModelSer) (v enc v' : Val) (M : Em) : Prop where
  nil : m.NilFree → nilAttr ∉ M.attrs.keys
  wf : M.attrs.WF
  writes : ∀ w : Elem, w.Fresh → ∃ w', (∃ N, ∀ n ≥ N, serModel (ser env n) m fl w v enc = .ok w') ∧ Adds M w w'
  reads : ∀ w w' : Elem, w.Fresh → Adds M w w' → ∃ r', r'.Clean wh ∧ r'.tag = w'.tag ∧
    ∃ N, ∀ n ≥ N, ∀ loc sm, ∃ sm', deserModel env (deser env eas n) cls m loc ⟨w'.reread, sm⟩ = (.ok v', ⟨r', sm'⟩)
  carries : ∀ fs f c fields set d k x y, m.body = .fields fs → f ∈ fs → v = .model c fields set → enc = .dict d →
    f.ser = .attr k false → f.Writes fl fields set d (some (y, .str x)) → y ≠ .none → (k, x) ∈ M.attrs

def ModelSem (wh : Bool) (env : Env) (eas : Bool) (fl : Flags) (so : Bool) (cls : String) (v enc v' : Val) : Prop :=
  ∃ m M, env.model cls = some m ∧ ModelEmits wh env eas fl cls m v enc v' M ∧ (so = true → M.Solid)

theorem checkExtra_clean {e : Elem} (h : e.Clean true) (t : Title) : checkExtra t e = none := by unfold checkExtra; rw [h rfl]

theorem validateModel_clean {env : Env} {cls : String} {m : ModelSer} {data : Val} {st : St} {fs : List (String × Val)} {set : List String}
    (h : st.el.Clean wh) (hx : wh = false → m.extraForbid = false) (hv : env.validate cls data = .ok (fs, set)) :
    validateModel env cls m data st = .ok (.model cls fs set) := by
  unfold validateModel
  cases wh with
  | true => rw [checkExtra_clean h, hv]; simp
  | false => rw [hx rfl, hv]; simp

/-- Reading back what was written into a new element. -/
theorem Level.reread {env : Env} {eas : Bool} {fl : Flags} {L : List Entry} {M : Em} (h : Level wh env eas fl L M) {w w' : Elem}
    (hw : w.Fresh) (ha : Adds M w w') : ∃ r', RSeq env eas L w'.reread r' ∧ r'.Clean wh ∧ r'.tag = w'.tag := by
  obtain ⟨r', h1, h2⟩ := h.reads [] [] [] w'.reread (faces_reread ha hw.text hw.attrib hw.elements) (by simp) (by simp)
  refine ⟨r', h1, h2.clean (fun ht => ?_) (by rw [reread_tail, ha.tail, hw.tail]), by rw [h2.tag, reread_tag]⟩
  rw [reread_text, ha.text, hw.text]
  cases hx : M.text with
  | none => rfl
  | some x => exact absurd (h.text (by simp [hx])) ht

theorem Level.fresh {env : Env} {eas : Bool} {fl : Flags} {L : List Entry} {M : Em} (h : Level wh env eas fl L M) {w : Elem}
    (hw : w.Fresh) : ∃ w', WSeq env fl L w w' ∧ Adds M w w' :=
  h.writes w hw.atEnd (by simp [hw.attrib, Dict.keys]) (fun _ => by simp [hw.attrib]) (by simp [hw.elements])

theorem Level.nil_keys {env : Env} {eas : Bool} {fl : Flags} {L : List Entry} {M : Em} (h : Level wh env eas fl L M)
    (hn : Slot.attr nilAttr ∉ places L) : nilAttr ∉ M.attrs.keys := by
  intro hk
  rcases h.keys _ hk with h1 | ⟨_, h1⟩
  · exact hn h1
  · exact h1 rfl

/-! ## Fields of a class -/

abbrev Row := Field × Option (Val × Val) × Val

def entries (rows : List Row) : List Entry := rows.map fun r => (r.1.ser, r.2.1, r.2.2)

theorem serFields_rows {env : Env} {fl : Flags} {self : Val} {fields : Dict String Val} {set : List String} {enc : Dict String Val}
    (rows : List Row) (hs : ∀ r ∈ rows, r.1.serializer = none) (hw : ∀ r ∈ rows, r.1.Writes fl fields set enc r.2.1) {w w' : Elem}
    (h : WSeq env fl (entries rows) w w') :
    ∃ N, ∀ n ≥ N, serFields (ser env n fl) fl self fields set (.dict enc) (rows.map fun r => r.1) w = .ok w' := by
  induction rows generalizing w with
  | nil => cases h; exact ⟨0, fun _ _ => rfl⟩
  | cons r rows ih =>
    obtain ⟨w1, h1, h2⟩ := h
    obtain ⟨N2, hN2⟩ := ih (fun x hx => hs x (by simp [hx])) (fun x hx => hw x (by simp [hx])) h2
    have hwr := hw r (by simp)
    have hsr := hs r (by simp)
    obtain ⟨f, val, d⟩ := r
    simp only at h1 hwr hsr
    match val with
    | none =>
      have := h1.none_eq
      subst this
      refine ⟨N2, fun n hn => ?_⟩
      simp only [List.map_cons, serFields]
      rcases hwr with hwr | ⟨hu, hwr⟩
      · simp only [hwr, if_true, hN2 n hn]
      · have : (fl.excludeUnset && !set.contains f.name) = true := by simp [hu, hwr]
        simp only [this, if_true, hN2 n hn, ite_self]
    | some (x, y) =>
      obtain ⟨g1, g2, g3, g4⟩ := hwr
      obtain ⟨_, N1, hN1⟩ := h1
      refine ⟨N1 + N2, fun n hn => ?_⟩
      have : (fl.excludeUnset && !set.contains f.name) = false := by
        cases hu : fl.excludeUnset with
        | false => rfl
        | true => simp [g2 hu]
      simp only [List.map_cons, serFields, g1, Bool.false_eq_true, if_false, this, hsr, getAttr, g3, getItem, g4, Out.bind,
        hN1 n (by omega), hN2 n (by omega)]

theorem deserFields_rows {env : Env} {eas : Bool} (rows : List Row) (hv : ∀ r ∈ rows, r.1.validator = none) {r r' : Elem}
    (h : RSeq env eas (entries rows) r r') :
    ∃ N, ∀ n ≥ N, ∀ sm res, ∃ sm', deserFields (deser env eas n) (rows.map fun r => r.1) res [] ⟨r, sm⟩ =
      (.ok (rows.foldl (fun res r => if r.2.2.isNone then res else res.set (r.1.alias.getD r.1.name) r.2.2) res, []), ⟨r', sm'⟩) := by
  induction rows generalizing r with
  | nil => cases h; exact ⟨0, fun _ _ sm res => ⟨sm, rfl⟩⟩
  | cons row rows ih =>
    obtain ⟨r1, ⟨_, N1, hN1⟩, h2⟩ := h
    obtain ⟨N2, hN2⟩ := ih (fun x hx => hv x (by simp [hx])) h2
    have hvr := hv row (by simp)
    refine ⟨N1 + N2, fun n hn sm res => ?_⟩
    obtain ⟨sm1, g1⟩ := hN1 n (by omega) [.name row.1.name] (Dict.set sm [.name row.1.name] r.line)
    obtain ⟨sm2, g2⟩ := hN2 n (by omega) sm1 (if row.2.2.isNone then res else res.set (row.1.alias.getD row.1.name) row.2.2)
    refine ⟨sm2, ?_⟩
    simp only at g1
    simp only [List.map_cons, deserFields, hvr, g1, g2, List.foldl_cons]

theorem writes_flagsIn {f : Field} {fl : Flags} (m : ModelSer) {fields enc : Dict String Val} {set : List String} {val : Option (Val × Val)}
    (h : f.Writes fl fields set enc val) : f.Writes (m.flagsIn fl) fields set enc val := by
  match val with
  | none => exact h
  | some (_, _) => exact h

theorem writes_unique {f : Field} {fl : Flags} {fields enc : Dict String Val} {set : List String} {val : Option (Val × Val)} {p : Val × Val}
    (h1 : f.Writes fl fields set enc val) (h2 : f.Writes fl fields set enc (some p)) : val = some p := by
  obtain ⟨a, b⟩ := p
  match val with
  | none =>
    rcases h1 with h | ⟨h, h'⟩
    · rw [h2.1] at h; cases h
    · exact absurd (h2.2.1 h) h'
  | some (x, y) =>
    have g1 := h1.2.2.1.symm.trans h2.2.2.1
    have g2 := h1.2.2.2.symm.trans h2.2.2.2
    injection g1 with g1
    injection g2 with g2
    rw [g1, g2]

theorem model_fields {env : Env} {eas : Bool} {fl : Flags} {cls c : String} {m : ModelSer} {rows : List Row}
    {fields enc fields' : List (String × Val)} {set set' : List String} (hb : m.body = .fields (rows.map fun r => r.1))
    (hforbid : wh = false → m.extraForbid = false) (hvs : ∀ r ∈ rows, r.1.validator = none ∧ r.1.serializer = none)
    (hw : ∀ r ∈ rows, r.1.Writes fl fields set enc r.2.1) (hval : env.validate cls (.dict (handedData rows)) = .ok (fields', set'))
    {M : Em} (h : Level wh env eas (m.flagsIn fl) (entries rows) M) :
    ModelEmits wh env eas fl cls m (.model c fields set) (.dict enc) (.model cls fields' set') M := by
  refine ⟨fun hn => h.nil_keys ?_, h.wf, fun w hwf => ?_, fun w w' hwf ha => ?_, ?_⟩
  · rw [places_mem]
    rintro ⟨e, he, hx⟩
    obtain ⟨r, hr, rfl⟩ := List.mem_map.1 he
    exact hn.1 _ hb r.1 (List.mem_map_of_mem hr) hx
  · obtain ⟨w', h1, h2⟩ := h.fresh hwf
    obtain ⟨N, hN⟩ := serFields_rows (self := .model c fields set) rows (fun r hr => (hvs r hr).2)
      (fun r hr => writes_flagsIn m (hw r hr)) h1
    refine ⟨w', ⟨N, fun n hn => ?_⟩, h2⟩
    simp only [serModel, hb]
    exact hN n hn
  · obtain ⟨r', h1, h2, h3⟩ := h.reread hwf ha
    obtain ⟨N, hN⟩ := deserFields_rows rows (fun r hr => (hvs r hr).1) h1
    refine ⟨r', h2, h3, N, fun n hn loc sm => ?_⟩
    obtain ⟨sm', hsm⟩ := hN n hn sm []
    refine ⟨sm', ?_⟩
    simp only [deserModel, hb, hsm, List.isEmpty_nil, if_true]
    exact congrArg (·, _) (validateModel_clean (st := ⟨r', sm'⟩) h2 hforbid hval)
  · rintro fs f c' fields2 set2 d k x y hb2 hf hv hd hser hwr hy
    injection hv with _ hv1 hv2
    injection hd with hd
    subst hv1 hv2 hd
    rw [hb] at hb2
    injection hb2 with hb2
    subst hb2
    obtain ⟨r, hr, rfl⟩ := List.mem_map.1 hf
    have hval := writes_unique (hw r hr) hwr
    have := h.carries k y (.str x) r.2.2 (by
      refine List.mem_map.2 ⟨r, hr, ?_⟩
      rw [hser, hval]) hy
    exact this

theorem model_root {env : Env} {eas : Bool} {fl : Flags} {cls c : String} {m : ModelSer} {s : Ser}
    {val : Option (Val × Val)} {x d enc : Val} {fields fields' : List (String × Val)} {set set' : List String}
    (hb : m.body = .root s) (hforbid : wh = false → m.extraForbid = false) (hx : Dict.get? fields "root" = some x)
    (hv : val = (if fl.excludeUnset = true ∧ "root" ∉ set then none else some (x, enc)))
    (hval : env.validate cls (if d.isNone then .undef else d) = .ok (fields', set'))
    {M : Em} (h : Level wh env eas (m.flagsIn fl) [(s, val, d)] M) :
    ModelEmits wh env eas fl cls m (.model c fields set) enc (.model cls fields' set') M := by
  refine ⟨fun hn => h.nil_keys ?_, h.wf, fun w hwf => ?_, fun w w' hwf ha => ?_, ?_⟩
  · rw [places_mem]
    rintro ⟨e, he, hx⟩
    simp only [List.mem_singleton] at he
    subst he
    exact hn.2 _ hb hx
  · obtain ⟨w', ⟨w1, h1, hw1⟩, h2⟩ := h.fresh hwf
    have : w' = w1 := hw1
    subst this
    simp only at h1
    by_cases hu : fl.excludeUnset = true ∧ "root" ∉ set
    · rw [if_pos hu] at hv
      subst hv
      have := h1.none_eq
      subst this
      refine ⟨w', ⟨0, fun n _ => ?_⟩, h2⟩
      have : (fl.excludeUnset && !set.contains "root") = true := by simp [hu.1, hu.2]
      simp only [serModel, hb, this, if_true]
    · rw [if_neg hu] at hv
      subst hv
      obtain ⟨_, N, hN⟩ := h1
      refine ⟨w', ⟨N, fun n hn => ?_⟩, h2⟩
      have : (fl.excludeUnset && !set.contains "root") = false := by
        cases hu' : fl.excludeUnset with
        | false => rfl
        | true =>
          have : "root" ∈ set := by
            exact Classical.byContradiction fun hnot => hu ⟨hu', hnot⟩
          simp [this]
      simp only [serModel, hb, this, Bool.false_eq_true, if_false, getAttr, hx, Out.bind]
      exact hN n hn
  · obtain ⟨r', ⟨r1, h1, hr1⟩, h2, h3⟩ := h.reread hwf ha
    have : r' = r1 := hr1
    subst this
    obtain ⟨_, N, hN⟩ := h1
    refine ⟨r', h2, h3, N, fun n hn loc sm => ?_⟩
    obtain ⟨sm', hsm⟩ := hN n hn loc sm
    refine ⟨sm', ?_⟩
    simp only at hsm
    simp only [deserModel, hb, hsm]
    exact congrArg (·, _) (validateModel_clean (st := ⟨r', sm'⟩) h2 hforbid hval)
  · intro fs f _ _ _ _ _ _ _ hb2
    rw [hb] at hb2
    cases hb2

/-! ## Computed fields -/

def Field.stored (f : Field) : Field := { f with ser := f.ser.stored }

theorem storedList_eq (ss : List Ser) : Ser.storedList ss = ss.map Ser.stored := by
  induction ss with
  | nil => rfl
  | cons s ss ih => simp [Ser.storedList, ih]

theorem slots_storedList {ss : List Ser} (h : ∀ s ∈ ss, s.stored.slots = s.slots) :
    Ser.slotsList (Ser.storedList ss) = Ser.slotsList ss := by
  induction ss with
  | nil => rfl
  | cons s ss ih => simp [Ser.storedList, Ser.slotsList, h s (by simp), ih fun x hx => h x (by simp [hx])]

mutual
theorem slots_stored (s : Ser) : s.stored.slots = s.slots := by
  cases s with
  | text | attr | elem | attrs | mapElem | raw | proxy => rfl
  | primUnion c inner => simpa [Ser.stored, Ser.slots] using slots_stored inner
  | modelUnion t c alts => simp [Ser.stored, Ser.slots, Function.comp_def]
  | tagged c d a m alts => simp [Ser.stored, Ser.slots, Function.comp_def]
  | wrap path ns m c inner =>
    cases path with
    | nil => simpa [Ser.stored, Ser.slots] using slots_stored inner
    | cons => rfl
  | homog t c inner => simpa [Ser.stored, Ser.slots] using slots_stored inner
  | hetero t c inners => simpa [Ser.stored, Ser.slots] using slots_storeds inners
theorem slots_storeds (ss : List Ser) : Ser.slotsList (Ser.storedList ss) = Ser.slotsList ss := by
  cases ss with
  | nil => rfl
  | cons s ss =>
    have h1 := slots_stored s
    have h2 := slots_storeds ss
    simp [Ser.storedList, Ser.slotsList, h1, h2]
end

theorem stored_subs (s : Ser) : s.stored.subs = s.subs.map Ser.stored := by
  cases s <;> simp [Ser.stored, Ser.subs, Function.comp_def, storedList_eq]

theorem stored_resolved {env : Env} {s : Ser} (h : s.Everywhere (Ser.Resolved env)) : s.stored.Everywhere (Ser.Resolved env) := by
  induction h with
  | @mk s h1 _ ih =>
    refine ⟨by cases s <;> exact h1, fun t ht => ?_⟩
    rw [stored_subs] at ht
    obtain ⟨u, hu, rfl⟩ := List.mem_map.1 ht
    exact ih u hu

theorem dict_get?_map {α β γ : Type} [DecidableEq α] (d : Dict α β) (g : β → γ) (k : α) :
    Dict.get? (d.map fun kv => (kv.1, g kv.2)) k = (Dict.get? d k).map g := by
  induction d with
  | nil => rfl
  | cons kv d ih =>
    simp only [List.map_cons, Dict.get?] at ih ⊢
    split
    · rfl
    · exact ih

/-- Writing does not depend on whether a field is computed. -/
theorem ser_stored (env : Env) (n : Nat) : ∀ (fl : Flags) (s : Ser) (w : Elem) (v enc : Val),
    ser env n fl s.stored w v enc = ser env n fl s w v enc := by
  induction n with
  | zero => intros; rfl
  | succ n ih =>
    intro fl s w v enc
    change serStep env (ser env n) fl s.stored w v enc = serStep env (ser env n) fl s w v enc
    cases s with
    | text | attr | elem | attrs | mapElem | raw | proxy => rfl
    | primUnion c inner => exact ih fl inner w v enc
    | modelUnion t c alts =>
      have hp : ∀ p : Proxy, ser env n fl (.proxy { p with computed := false }) w v enc = ser env n fl (.proxy p) w v enc :=
        fun p => ih fl (.proxy p) w v enc
      cases v with
      | model cls fields set =>
        simp only [Ser.stored, serStep, List.find?_map, Function.comp_def]
        cases alts.find? (fun p => decide (p.cls = cls)) with
        | none => rfl
        | some p => exact hp p
      | _ => rfl
    | tagged c d a m alts =>
      have hp : ∀ p : Proxy, ser env n fl (.proxy { p with computed := false }) w v enc = ser env n fl (.proxy p) w v enc :=
        fun p => ih fl (.proxy p) w v enc
      simp only [Ser.stored, serStep, dict_get?_map alts fun p => { p with computed := false }]
      cases enc with
      | dict e =>
        simp only
        cases Dict.get? e d with
        | none => rfl
        | some x =>
          cases x with
          | str tag =>
            simp only
            split
            · rfl
            · cases Dict.get? alts tag with
              | none => rfl
              | some p => exact hp p
          | _ => rfl
      | _ => rfl
    | wrap path ns m c inner =>
      have : (fun x => ser env n fl inner.stored x v enc) = fun x => ser env n fl inner x v enc := funext fun x => ih fl inner x v enc
      simp only [Ser.stored, serStep, this]
    | homog t c inner =>
      have : ser env n fl inner.stored = ser env n fl inner := funext fun x => funext fun y => funext fun z => ih fl inner x y z
      simp only [Ser.stored, serStep, this]
    | hetero t c inners =>
      have : ∀ (ss : List Ser) (vs encs : List Val) (x : Elem),
          serTuple (ser env n fl) (Ser.storedList ss) vs encs x = serTuple (ser env n fl) ss vs encs x := by
        intro ss
        induction ss with
        | nil => intros; rfl
        | cons s ss ihs =>
          intro vs encs x
          cases vs with
          | nil => rfl
          | cons v vs =>
            cases encs with
            | nil => rfl
            | cons e encs =>
              simp only [Ser.storedList, serTuple, ih]
              cases ser env n fl s x v e <;> simp [Out.bind, ihs]
      simp only [Ser.stored, serStep, storedList_eq, List.length_map]
      simp only [← storedList_eq, this]

theorem serFields_stored (env : Env) (n : Nat) (fl fl' : Flags) (self : Val) (fields : Dict String Val) (set : List String) (enc : Val)
    (fs : List Field) (w : Elem) : serFields (ser env n fl) fl' self fields set enc (fs.map Field.stored) w =
      serFields (ser env n fl) fl' self fields set enc fs w := by
  induction fs generalizing w with
  | nil => rfl
  | cons f fs ih =>
    have : serFields (ser env n fl) fl' self fields set enc (fs.map Field.stored) = serFields (ser env n fl) fl' self fields set enc fs :=
      funext ih
    simp only [List.map_cons, serFields, Field.stored, ser_stored] at this ⊢
    simp only [this]

theorem bind_bind {α β γ : Type} (o : Out α) (f : α → Out β) (g : β → Out γ) : (o.bind f).bind g = o.bind fun x => (f x).bind g := by
  cases o <;> rfl

theorem serFields_append {rec : Ser → Elem → Val → Val → Out Elem} {fl : Flags} {self : Val} {fields : Dict String Val} {set : List String}
    {enc : Val} {fs gs : List Field} {w : Elem} : serFields rec fl self fields set enc (fs ++ gs) w =
      (serFields rec fl self fields set enc fs w).bind (serFields rec fl self fields set enc gs) := by
  induction fs generalizing w with
  | nil => rfl
  | cons f fs ih =>
    simp only [List.cons_append, serFields]
    split
    · exact ih
    split
    · exact ih
    · have : serFields rec fl self fields set enc (fs ++ gs) =
          fun x => (serFields rec fl self fields set enc fs x).bind (serFields rec fl self fields set enc gs) := funext fun x => ih
      rw [this]
      exact (bind_bind _ _ _).symm

theorem deserFields_computed {env : Env} {eas : Bool} {n : Nat} {fs : List Field}
    (h : ∀ f ∈ fs, f.ser.computed = true ∧ f.ser.Resolved env ∧ f.validator = none) {res : Dict String Val} {r : Elem} (sm : SMap) :
    ∃ sm', deserFields (deser env eas (n + 1)) fs res [] ⟨r, sm⟩ = (.ok (res, []), ⟨r, sm'⟩) := by
  induction fs generalizing sm with
  | nil => exact ⟨sm, rfl⟩
  | cons f fs ih =>
    obtain ⟨h1, h2, h3⟩ := h f (by simp)
    obtain ⟨sm', hsm⟩ := ih (fun x hx => h x (by simp [hx])) (Dict.set sm [.name f.name] r.line)
    refine ⟨sm', ?_⟩
    simp only [deserFields, h3, C20_never_read env eas n f.ser h1 h2, Val.isNone, if_true, hsm]

def storedRows (rows : List Row) : List Row := rows.map fun r => (r.1.stored, r.2)

theorem model_computed {env : Env} {eas : Bool} {fl : Flags} {cls c : String} {m : ModelSer} {rows more : List Row}
    {fields enc fields' : List (String × Val)} {set set' : List String}
    (hb : m.body = .fields (rows.map (fun r => r.1) ++ more.map fun r => r.1))
    (hforbid : m.extraForbid = false) (hcomp : ∀ u ∈ more, u.1.ser.computed = true ∧ u.1.ser.Resolved env)
    (hvs : ∀ r ∈ rows ++ more, r.1.validator = none ∧ r.1.serializer = none)
    (hw : ∀ r ∈ rows ++ more, r.1.Writes fl fields set enc r.2.1)
    (hval : env.validate cls (.dict (handedData rows)) = .ok (fields', set'))
    (hc : ∀ a ∈ places (entries rows), ∀ b ∈ places (entries (storedRows more)), ¬ a.Competes b)
    {M1 M2 : Em} (h1 : Level false env eas (m.flagsIn fl) (entries rows) M1)
    (h2 : Level false env eas (m.flagsIn fl) (entries (storedRows more)) M2) :
    ModelEmits false env eas fl cls m (.model c fields set) (.dict enc) (.model cls fields' set') (M1.append M2) := by
  have h := h1.append h2 hc
  refine ⟨fun hn => h.nil_keys ?_, h.wf, fun w hwf => ?_, fun w w' hwf ha => ?_, ?_⟩
  · rw [places_append, places_mem, places_mem]
    rintro (⟨e, he, hx⟩ | ⟨e, he, hx⟩)
    · obtain ⟨r, hr, rfl⟩ := List.mem_map.1 he
      exact hn.1 _ hb r.1 (List.mem_append_left _ (List.mem_map_of_mem hr)) hx
    · obtain ⟨r', hr', rfl⟩ := List.mem_map.1 he
      obtain ⟨r, hr, rfl⟩ := List.mem_map.1 hr'
      refine hn.1 _ hb r.1 (List.mem_append_right _ (List.mem_map_of_mem hr)) ?_
      simpa only [Field.stored, slots_stored] using hx
  · obtain ⟨w', g1, g2⟩ := h.fresh hwf
    have he : entries rows ++ entries (storedRows more) = entries (rows ++ storedRows more) := by simp [entries]
    rw [he] at g1
    obtain ⟨N, hN⟩ := serFields_rows (self := .model c fields set) (rows ++ storedRows more) (fun r hr => by
        rcases List.mem_append.1 hr with hr | hr
        · exact (hvs r (by simp [hr])).2
        · obtain ⟨u, hu, rfl⟩ := List.mem_map.1 hr
          exact (hvs u (by simp [hu])).2) (fun r hr => by
        rcases List.mem_append.1 hr with hr | hr
        · exact writes_flagsIn m (hw r (by simp [hr]))
        · obtain ⟨u, hu, rfl⟩ := List.mem_map.1 hr
          have := writes_flagsIn m (hw u (by simp [hu]))
          exact this) g1
    refine ⟨w', ⟨N, fun n hn => ?_⟩, g2⟩
    simp only [serModel, hb]
    change serFields (ser env n (m.flagsIn fl)) (m.flagsIn fl) _ _ _ _ _ _ = _
    rw [← hN n hn, List.map_append, serFields_append, serFields_append]
    congr 1
    funext x
    rw [← serFields_stored]
    simp [storedRows, Function.comp_def]
  · obtain ⟨r', g1, g2⟩ := h1.reads [] (M2.kids.map reread) M2.attrs w'.reread
      (by
        have hf := faces_reread ha hwf.text hwf.attrib hwf.elements (ss := places (entries rows ++ entries (storedRows more)))
        refine ⟨by rw [hf.elements]; simp [Em.append], hf.next, by rw [hf.attrib]; simp [Em.append], fun hx => ?_, fun k hk hx => ?_, fun hx => ?_⟩
        · refine ⟨(hf.all (places_append.2 (.inl hx))).1, ?_⟩
          cases ha : M2.attrs with
          | nil => rfl
          | cons kv l =>
            rcases h2.keys kv.1 (by simp [ha, Dict.keys]) with hb | ⟨hb, _⟩ <;> exact absurd (by simp [Slot.Competes]) (hc _ hx _ hb)
        · rcases h2.keys k hk with hb | ⟨hb, _⟩ <;> exact hc _ hx _ hb (by simp [Slot.Competes])
        · rw [hf.text (places_append.2 (.inl hx))]
          have : M2.text = none := by
            cases ht : M2.text with
            | none => rfl
            | some x => exact absurd (by simp [Slot.Competes]) (hc _ hx _ (h2.text (by simp [ht])))
          simp [Em.append, this])
      (fun c hcm h' => by
        obtain ⟨x, hx, rfl⟩ := List.mem_map.1 hcm
        rw [reread_tag] at h'
        exact hc _ h' _ (h2.tags x hx) (by simp [Slot.Competes])) (by simp)
    obtain ⟨N, hN⟩ := deserFields_rows rows (fun r hr => (hvs r (by simp [hr])).1) g1
    refine ⟨r', fun h => (by cases h), by rw [g2.tag, reread_tag], N + 1, fun n hn loc sm => ?_⟩
    obtain ⟨sm1, hsm1⟩ := hN n (by omega) sm []
    obtain ⟨k, rfl⟩ : ∃ k, n = k + 1 := ⟨n - 1, by omega⟩
    obtain ⟨sm2, hsm2⟩ := deserFields_computed (env := env) (eas := eas) (n := k) (fs := more.map fun r => r.1) (res := handedData rows)
      (r := r') (fun f hf => by
        obtain ⟨u, hu, rfl⟩ := List.mem_map.1 hf
        exact ⟨(hcomp u hu).1, (hcomp u hu).2, (hvs u (by simp [hu])).1⟩) sm1
    refine ⟨sm2, ?_⟩
    change _ = (Out.ok (handedData rows, []), St.mk r' sm1) at hsm1
    simp only [deserModel, hb, deserFields_append, hsm1, hsm2, List.isEmpty_nil, if_true]
    exact congrArg (·, _) (validateModel_clean (wh := false) (st := ⟨r', sm2⟩) (fun h => by cases h) (fun _ => hforbid) hval)
  · rintro fs f c' fields2 set2 d k x y hb2 hf hv hd hser hwr hy
    injection hv with _ hv1 hv2
    injection hd with hd
    subst hv1 hv2 hd
    rw [hb] at hb2
    injection hb2 with hb2
    subst hb2
    rcases List.mem_append.1 hf with hf | hf
    · obtain ⟨r, hr, rfl⟩ := List.mem_map.1 hf
      have hval := writes_unique (hw r (by simp [hr])) hwr
      have := h.carries k y (.str x) r.2.2 (List.mem_append_left _ (by
        refine List.mem_map.2 ⟨r, hr, ?_⟩
        rw [hser, hval])) hy
      exact this
    · obtain ⟨r, hr, rfl⟩ := List.mem_map.1 hf
      have := (hcomp r hr).1
      rw [hser] at this
      cases this

/-! ## Less to check -/

theorem Elem.Clean.mono {e : Elem} (_ : e.Clean true) : e.Clean false := fun h => by cases h

theorem Takes.mono {ss : List Slot} {M : Em} {S rest : List Elem} {A2 : Dict String String} {r r' : Elem}
    (h : Takes true ss M S rest A2 r r') : Takes false ss M S rest A2 r r' := by
  obtain ⟨K, h1, h2, h3, h4⟩ := h.kids
  exact ⟨h.tag, h.tail, h.blank, h.text, h.attrib, h.some, K, h1, h2, fun c hc => (h3 c hc).mono, h4⟩

theorem Emits.mono {env : Env} {eas : Bool} {fl : Flags} {s : Ser} {val : Option (Val × Val)} {d : Val} {M : Em}
    (h : Emits true env eas fl s val d M) : Emits false env eas fl s val d M :=
  ⟨h.keys, h.wf, h.tags, h.text, h.item, h.writes, fun S rest A2 r hf hr =>
    have ⟨r', h1, h2⟩ := h.reads S rest A2 r hf hr
    ⟨r', h1, h2.mono⟩, h.carries, h.attr⟩

theorem FieldSem.mono {env : Env} {eas : Bool} {fl : Flags} {so : Bool} {s : Ser} {val : Option (Val × Val)} {d : Val}
    (h : FieldSem true env eas fl so s val d) : FieldSem false env eas fl so s val d := by
  induction h with
  | single hn h => obtain ⟨M, h, hs⟩ := h; exact .single hn ⟨M, h.mono, hs⟩
  | wrapSilent h1 h2 => exact .wrapSilent h1 h2
  | wrap hv _ ih => exact .wrap hv ih

theorem ModelEmits.mono {env : Env} {eas : Bool} {fl : Flags} {cls : String} {m : ModelSer} {v enc v' : Val} {M : Em}
    (h : ModelEmits true env eas fl cls m v enc v' M) : ModelEmits false env eas fl cls m v enc v' M :=
  ⟨h.nil, h.wf, h.writes, fun w w' hw ha =>
    have ⟨r', h1, h2⟩ := h.reads w w' hw ha
    ⟨r', h1.mono, h2⟩, h.carries⟩

/-! ## Sub-models -/

theorem emits_proxy {env : Env} {eas : Bool} {fl : Flags} {p : Proxy} {m : ModelSer} {v enc v' : Val}
    (hc : p.computed = false) (hv : v ≠ .none) (hm : env.model p.cls = some m) (hn : m.NilFree)
    (h : ModelSem wh env eas fl fl.skipEmpty p.cls v enc v') : ∃ M, Emits wh env eas fl (.proxy p) (some (v, enc)) v' M ∧ M.Solid := by
  obtain ⟨m', M, hm', h, hsol⟩ := h
  rw [hm] at hm'
  injection hm' with hm'
  subst hm'
  obtain ⟨c, ⟨N1, h1⟩, h2⟩ := h.writes (makeElement env.backend p.name p.nsmap) (fresh_make _ _ _)
  obtain ⟨c', h3, h4, N2, h5⟩ := h.reads _ c (fresh_make _ _ _) h2
  have hct : c.tag = p.name := h2.tag
  have hca : c.attrib.getD [] = M.attrs := by rw [h2.attrib]; rfl
  refine ⟨_, emits_child (t := p.name) (mode := p.mode) (c := c) (by simp [Ser.item?, hc]) (by simp [Ser.Resolved, hm]) hct
    ⟨N1 + 1, fun n hn w => ?_⟩ ⟨N2, fun n hn loc sm => ?_⟩ h3 (by rw [h4, hct]) ?_,
    .inr (.inr (by simp))⟩
  · obtain ⟨k, rfl⟩ : ∃ k, n = k + 1 := ⟨n - 1, by omega⟩
    change serStep env (ser env k) fl (.proxy p) w v enc = _
    simp only [serStep, hm, Val.isNone_of_ne hv, Bool.and_false, Bool.false_eq_true, if_false, h1 k (by omega), Out.bind,
      append_solid fun hfl => h2.solid ⟨rfl, rfl⟩ (hsol hfl)]
  · have hnil : c.reread.isNil = (false, c.reread) := by
      unfold isNil
      rw [popAttrib_absent (getAttrib_absent (A := M.attrs) (by simp [hca]) (h.nil ‹_›))]
      simp
    obtain ⟨sm', hsm⟩ := h5 n hn loc (Dict.set sm loc c.reread.line)
    refine ⟨sm', ?_⟩
    simp only [Ser.onItem, hm, hnil, hsm]
  · rintro k x ⟨q, m2, fs, f, cls, fields, set, d, y, hq, hval, hm2, hb, hf, hser, hwr, hy⟩
    injection hq with hq
    subst hq
    rw [hm] at hm2
    injection hm2 with hm2
    subst hm2
    injection hval with hval
    injection hval with hval1 hval2
    have := h.carries fs f cls fields set d k x y hb hf hval1 hval2 hser hwr hy
    unfold getAttrib
    rw [hca]
    exact Dict.get?_of_mem h.wf this

theorem emits_proxyNone {env : Env} {eas : Bool} {fl : Flags} {p : Proxy} (hc : p.computed = false)
    (hr : (Ser.proxy p).Everywhere (Ser.Resolved env)) (enc : Val) :
    ∃ M, Emits wh env eas fl (.proxy p) (some (.none, enc)) .none M ∧ (fl.excludeNone = false ∧ p.nillable = true → M.Solid) := by
  have hm : (env.model p.cls).isSome = true := by cases hr with | mk h _ => exact h
  obtain ⟨m, hm⟩ := Option.isSome_iff_exists.1 hm
  by_cases hx : fl.excludeNone = false ∧ p.nillable = true
  · refine ⟨_, emits_child (t := p.name) (mode := p.mode) (c := (makeElement env.backend p.name p.nsmap).makeNil)
      (c' := { (makeElement env.backend p.name p.nsmap).makeNil.reread with attrib := some [] }) (by simp [Ser.item?, hc])
      (by simp [Ser.Resolved, hm]) rfl ⟨1, fun n hn w => ?_⟩ ⟨0, fun n _ loc sm => ?_⟩ ?_ ?_ ?_,
      fun _ => .inr (.inr (by simp))⟩
    · obtain ⟨k, rfl⟩ : ∃ k, n = k + 1 := ⟨n - 1, by omega⟩
      change serStep env (ser env k) fl (.proxy p) w .none enc = _
      simp [serStep, hm, hx.1, hx.2, Val.isNone]
    · refine ⟨Dict.set sm loc (makeElement env.backend p.name p.nsmap).makeNil.reread.line, ?_⟩
      have hat : (makeElement env.backend p.name p.nsmap).makeNil.reread.attrib.getD [] = [(nilAttr, "true")] := by
        simp [makeNil, setAttribute, makeElement, Dict.set]
      simp only [Ser.onItem, hm, isNil, popAttrib_head hat, decide_true]
    · exact clean_of (.inl (by simp [makeNil, setAttribute, makeElement])) (.inl (by simp [makeNil, setAttribute, makeElement])) rfl
        (by simp [makeNil, setAttribute, makeElement])
    · simp [makeNil, setAttribute, makeElement]
    · rintro k x ⟨q, m2, fs, f, cls, fields, set, d, y, hq, hval, _⟩
      cases hval
  · refine ⟨_, emits_nothing hr (.item .proxy) trivial _ (fun w => ⟨rfl, 1, fun n hn => ?_⟩) ?_ (fun k v enc h => by cases h),
      fun h => absurd h hx⟩
    · obtain ⟨k, rfl⟩ : ∃ k, n = k + 1 := ⟨n - 1, by omega⟩
      change serStep env (ser env k) fl (.proxy p) w .none enc = _
      simp only [serStep, hm, Val.isNone, Bool.and_true, if_true]
      cases h1 : fl.excludeNone with
      | true => simp
      | false =>
        have : p.nillable = false := by
          cases h2 : p.nillable with
          | false => rfl
          | true => exact absurd ⟨h1, h2⟩ hx
        simp [this]
    · rintro _ _ v enc h; injection h with h; injection h with h; exact h.symm

/-! ## The induction -/

theorem FieldSem.emits {env : Env} {eas : Bool} {fl : Flags} {so : Bool} {s : Ser} {val : Option (Val × Val)} {d : Val}
    (h : FieldSem wh env eas fl so s val d) (hn : s.NotWrapped) : ∃ M, Emits wh env eas fl s val d M ∧ (so = true → M.Solid) := by
  cases h with
  | single _ h => exact h
  | wrapSilent => exact absurd hn id
  | wrap => exact absurd hn id

theorem item_notWrapped {s : Ser} (h : s.Item) : s.NotWrapped := by cases h <;> trivial

theorem leaf_notWrapped {s : Ser} (h : s.Leaf) : s.NotWrapped := by cases s <;> first | trivial | exact absurd h id

def Sem (wh : Bool) (env : Env) (eas : Bool) (fl : Flags) (so : Bool) : Thing → Prop
  | .field s val d => s.Everywhere (Ser.Resolved env) → FieldSem wh env eas fl so s val d
  | .model cls v enc v' => ModelSem wh env eas fl so cls v enc v'

theorem sub_resolved {P : Ser → Prop} {s t : Ser} (h : s.Everywhere P) (ht : t ∈ s.subs) : t.Everywhere P := by
  cases h with | mk _ h => exact h t ht

theorem emits_none {env : Env} {eas : Bool} {fl : Flags} {s : Ser} (hr : s.Everywhere (Ser.Resolved env)) (hs : s.Silent eas)
    (hn : s.NotWrapped) (enc : Val) (h : ∀ n w, serStep env (ser env n) fl s w .none enc = .ok w) :
    FieldSem wh env eas fl false s (some (.none, enc)) .none := by
  refine .single hn ⟨_, emits_nothing hr hs hn _ (fun w => ⟨rfl, 1, fun n hn => ?_⟩) ?_ ?_, fun h => (by cases h)⟩
  · obtain ⟨k, rfl⟩ : ∃ k, n = k + 1 := ⟨n - 1, by omega⟩
    exact h k w
  · rintro _ _ v enc h; injection h with h; injection h with h; exact h.symm
  · rintro _ v enc _ h; injection h with h; injection h with h; exact h.symm

def Thing.IsThere : Thing → Prop
  | .field (.proxy _) (some (v, _)) d => v ≠ .none → d ≠ .none
  | .field _ _ _ => True
  | .model _ _ _ v' => v' ≠ .none

theorem handed_isThere {env : Env} {eas : Bool} {fl : Flags} {so : Bool} {t : Thing} (h : Handed env eas fl wh so t) : t.IsThere := by
  induction h with
  | proxy _ _ _ _ _ _ ih => exact fun _ => ih
  | proxyNone => exact fun h => absurd rfl h
  | @silent _ _ s _ => cases s <;> trivial
  | whole _ ih => exact ih
  | fields | root | computed => exact fun h => by cases h
  | _ => trivial

theorem Sem.mono {env : Env} {eas : Bool} {fl : Flags} {so : Bool} {t : Thing} (h : Sem true env eas fl so t) : Sem false env eas fl so t := by
  cases t with
  | field => exact fun hr => (h hr).mono
  | model =>
    obtain ⟨m, M, hm, h, hs⟩ := h
    exact ⟨m, M, hm, h.mono, hs⟩

theorem truthy_of_ne {t : String} (h : t ≠ "") : truthy (some t) = true := by simp [truthy, h]

theorem so_false {P : Prop} {so : Bool} (h : so = true → ¬P) (hp : P) : so = false := Bool.eq_false_iff.2 fun hs => h hs hp

theorem handed_sem {env : Env} {eas : Bool} (henv : env.Everywhere (Ser.Resolved env)) {fl : Flags} {so : Bool}
    {t : Thing} (h : Handed env eas fl wh so t) : Sem wh env eas fl so t := by
  induction h with
  | text hv hs => exact fun _ => .single trivial ⟨_, emits_text hv, fun h => .inl (truthy_of_ne (hs h))⟩
  | textNone he hs =>
    subst he
    intro _
    obtain ⟨M, hM, hsol⟩ := emits_textNone
    exact .single trivial ⟨M, hM, fun h => hsol (hs h)⟩
  | attr hv => exact fun _ => .single trivial ⟨_, emits_attr (.inl hv), fun _ => .inr (.inl (by simp))⟩
  | @attrNone fl wh so name enc he hs =>
    subst he
    intro hr
    by_cases hx : fl.NoneSkipped
    · have := so_false hs hx
      subst this
      rw [if_pos hx]
      have hb : (fl.skipEmpty || fl.excludeNone) = true := by rcases hx with h | h <;> simp [h]
      exact emits_none hr .attr trivial _ fun n w => by simp only [serStep, Val.isNone, hb, Bool.and_true, if_true]
    · rw [if_neg hx]
      exact .single trivial ⟨_, emits_attr (.inr hx), fun _ => .inr (.inl (by simp))⟩
  | @elem fl wh so name nsmap mode nl v enc hv hs =>
    intro _
    by_cases hx : fl.skipEmpty = true ∧ encodePrimitive env enc = ""
    · have : so = false := Bool.eq_false_iff.2 fun h => hs h hx.1 hx.2
      subst this
      rw [if_pos hx]
      exact .single trivial ⟨_, emits_elem_skip hv hx.1 hx.2, fun h => (by cases h)⟩
    · rw [if_neg hx]
      obtain ⟨M, hM, hsol⟩ := emits_elem (name := name) (nsmap := nsmap) (mode := mode) (nl := nl) (.inl hv)
        (fun h => .inl (truthy_of_ne fun he => hx ⟨h, he⟩)) (emits_text (wh := wh) (env := env) (eas := eas) (fl := fl) (enc := enc) hv)
      exact .single trivial ⟨M, hM, fun _ => hsol⟩
  | @elemNone fl wh so name nsmap mode nl enc he hs =>
    subst he
    intro hr
    by_cases hx : fl.NoneSkipped
    · have := so_false hs hx
      subst this
      rw [if_pos (.inl hx)]
      have hb : (fl.skipEmpty || fl.excludeNone) = true := by rcases hx with h | h <;> simp [h]
      exact emits_none hr (.item .elem) trivial _ fun n w => by simp only [serStep, Val.isNone, hb, Bool.and_true, if_true]
    · obtain ⟨M, hM, _⟩ := emits_textNone (wh := wh) (env := env) (eas := eas) (fl := fl) (nl := nl)
      obtain ⟨M', hM', hsol⟩ := emits_elem (name := name) (nsmap := nsmap) (mode := mode) (.inr hx) (fun h => absurd (.inr h) hx) hM
      refine .single trivial ⟨M', ?_, fun _ => hsol⟩
      simpa [hx] using hM'
  | attrs hc hv hd hs => exact fun _ => .single trivial ⟨_, emits_attrs hc hv hd, fun h => .inr (.inl (by simpa using hs h))⟩
  | @mapElem fl wh so a name mode v d hc hv hd hl hs =>
    intro _
    by_cases hx : fl.skipEmpty = true ∧ d = []
    · have : so = false := Bool.eq_false_iff.2 fun h => hs h hx.1 hx.2
      subst this
      rw [if_pos hx]
      exact .single trivial ⟨_, emits_mapElem_skip hx.1 (by rw [hl hx.1, hx.2]; rfl), fun h => (by cases h)⟩
    · rw [if_neg hx]
      obtain ⟨M, hM, hsol⟩ := emits_mapElem (name := name) (mode := mode) hc
        (fun h => by
          rw [hl h]
          cases d with
          | nil => exact absurd ⟨h, rfl⟩ hx
          | cons _ l => exact ⟨l.length, rfl⟩)
        (fun h => .inr (.inl (by
          cases d with
          | nil => exact absurd ⟨h, rfl⟩ hx
          | cons => simp)))
        (emits_attrs (wh := wh) (env := env) (eas := eas) (fl := fl) hc hv hd)
      exact .single trivial ⟨M, hM, fun _ => hsol⟩
  | raw h1 h2 h3 h4 =>
    intro _
    obtain ⟨M, hM, hsol⟩ := emits_raw h1 h2 h3 h4
    exact .single trivial ⟨M, hM, fun _ => hsol⟩
  | rawNone => exact fun hr => emits_none hr (.item .raw) trivial _ fun n w => rfl
  | proxy hc hv hm hn1 hn2 _ ih =>
    intro _
    obtain ⟨M, hM, hsol⟩ := emits_proxy hc hv hm ⟨hn1, hn2⟩ ih
    exact .single trivial ⟨M, hM, fun _ => hsol⟩
  | proxyNone hc hs =>
    intro hr
    obtain ⟨M, hM, hsol⟩ := emits_proxyNone hc hr _
    exact .single trivial ⟨M, hM, fun h => hsol (hs h)⟩
  | primUnion hl _ ih =>
    intro hr
    obtain ⟨M, hM, hsol⟩ := (ih (sub_resolved hr (by simp [Ser.subs]))).emits (leaf_notWrapped hl)
    exact .single trivial ⟨_, emits_primUnion hM, hsol⟩
  | @modelUnion fl wh so title cls pre post p fields set enc v' hp hpre hh ih =>
    intro hr
    obtain ⟨M, hM, hsol⟩ := (ih (sub_resolved hr (by simp [Ser.subs]))).emits trivial
    have hsol := hsol rfl
    refine .single trivial ⟨_, emits_modelUnion ?_ hp hpre ?_ (fun _ => hsol) hM, fun _ => hsol⟩
    · intro q hq
      have := sub_resolved hr (t := .proxy q) (by simp [Ser.subs, hq])
      cases this with | mk h _ => exact h
    · exact handed_isThere hh (by simp)
  | modelUnionNone => exact fun hr => emits_none hr .modelUnion trivial _ fun n w => rfl
  | @tagged fl wh so discr attrName tag mode pre post p m fs f cls fields d set x v' htag hpre hd hm hb hf hser hname hwr hx hh ih =>
    intro hr
    obtain ⟨M, hM, hsol⟩ := (ih (sub_resolved hr (by simp [Ser.subs]))).emits trivial
    have hsol := hsol rfl
    exact .single trivial ⟨_, emits_tagged htag hpre hd (fun _ => hsol) hM
      (hM.carries attrName tag ⟨p, m, fs, f, cls, fields, set, d, x, rfl, rfl, hm, hb, hf, hser, hwr, hx⟩), fun _ => hsol⟩
  | wrap hv hl _ ih =>
    refine fun hr => .wrap ?_ (ih (sub_resolved hr (by simp [Ser.subs])))
    rintro (h | ⟨h1, h2⟩)
    · exact hv h
    · exact hl h1 h2
  | wrapNone hq hs => exact fun _ => .wrapSilent hs hq
  | homog hi hv hs _ ih =>
    intro hr
    have hr' := sub_resolved hr (t := _) (by simp only [Ser.subs, List.mem_singleton]; rfl)
    obtain ⟨M, hM, hsol⟩ := emits_homog hr' hi _ hv fun r h => (ih r h hr').emits (item_notWrapped hi)
    exact .single trivial ⟨M, hM, fun h => hsol (hs h)⟩
  | homogNone hi => exact fun hr => emits_none hr (.homog hi) trivial _ fun n w => rfl
  | hetero hne hi hv _ ih =>
    intro hr
    obtain ⟨M, hM, hsol⟩ := emits_hetero _ hne hi hv fun r h => (ih r h
      (sub_resolved hr (by simp only [Ser.subs]; exact List.mem_map_of_mem h))).emits (item_notWrapped (hi r h))
    exact .single trivial ⟨M, hM, fun _ => hsol⟩
  | heteroNone hne hi => exact fun hr => emits_none hr (.item (.hetero hne hi)) trivial _ fun n w => rfl
  | silent hs => exact fun hr => silent_sem hr hs
  | @fields fl wh so cls c m rows solid fields enc fields' set set' hm hb hforbid htidy hvs hw hs _ hval ih =>
    have hres := henv cls m hm
    unfold ModelSer.Everywhere at hres
    rw [hb] at hres
    simp only at hres
    have hL : ∀ e ∈ entries rows, e.1.Everywhere (Ser.Resolved env) := by
      intro e he
      obtain ⟨r, hr, rfl⟩ := List.mem_map.1 he
      exact hres r.1 (List.mem_map_of_mem hr)
    obtain ⟨M, hM, hsol⟩ := level_tidy htidy (entries rows) (by simp [entries, Function.comp_def]) hL (by
      intro e he
      have := hL e he
      obtain ⟨r, hr, rfl⟩ := List.mem_map.1 he
      exact ⟨_, ih r hr this⟩)
    refine ⟨m, M, hm, model_fields hb hforbid hvs hw hval hM, fun h => hsol ?_⟩
    obtain ⟨r, hr, hrs⟩ := hs h
    have := ih r hr (hres r.1 (List.mem_map_of_mem hr))
    rw [hrs] at this
    exact ⟨_, List.mem_map_of_mem hr, this⟩
  | @root fl wh so cls c m s val x d enc fields fields' set set' hm hb hforbid htidy hx hv _ hval ih =>
    have hres := henv cls m hm
    unfold ModelSer.Everywhere at hres
    rw [hb] at hres
    simp only at hres
    obtain ⟨M, hM, hsol⟩ := level_tidy htidy [(s, val, d)] (by simp) (by simpa using hres) (by
      intro e he
      simp only [List.mem_singleton] at he
      subst he
      exact ⟨so, ih hres⟩)
    refine ⟨m, M, hm, model_root hb hforbid hx hv hval hM, fun h => hsol ⟨_, List.mem_singleton_self _, ?_⟩⟩
    subst h
    exact ih hres
  | @computed fl so cls c m rows more solid fields enc fields' set set' hm hb hforbid ht1 ht2 hc hcomp hvs hw hs _ _ hval ih1 ih2 =>
    have hres := henv cls m hm
    unfold ModelSer.Everywhere at hres
    rw [hb] at hres
    simp only at hres
    have hL1 : ∀ r ∈ rows, r.1.ser.Everywhere (Ser.Resolved env) := fun r hr =>
      hres r.1 (List.mem_append_left _ (List.mem_map_of_mem hr))
    have hL2 : ∀ u ∈ more, u.1.ser.Everywhere (Ser.Resolved env) := fun u hu =>
      hres u.1 (List.mem_append_right _ (List.mem_map_of_mem hu))
    obtain ⟨M1, hM1, hsol1⟩ := level_tidy ht1 (entries rows) (by simp [entries, Function.comp_def])
      (by
        intro e he
        obtain ⟨r, hr, rfl⟩ := List.mem_map.1 he
        exact hL1 r hr)
      (by
        intro e he
        obtain ⟨r, hr, rfl⟩ := List.mem_map.1 he
        exact ⟨_, ih1 r hr (hL1 r hr)⟩)
    obtain ⟨M2, hM2, hsol2⟩ := level_tidy ht2 (entries (storedRows more)) (by simp [entries, storedRows, Function.comp_def, Field.stored])
      (by
        intro e he
        obtain ⟨r', hr', rfl⟩ := List.mem_map.1 he
        obtain ⟨r, hr, rfl⟩ := List.mem_map.1 hr'
        exact stored_resolved (hL2 r hr))
      (by
        intro e he
        obtain ⟨r', hr', rfl⟩ := List.mem_map.1 he
        obtain ⟨r, hr, rfl⟩ := List.mem_map.1 hr'
        exact ⟨_, ih2 r hr (stored_resolved (hL2 r hr))⟩)
    have hcc : ∀ a ∈ places (entries rows), ∀ b ∈ places (entries (storedRows more)), ¬ a.Competes b := by
      intro a ha b hb
      obtain ⟨e, he, ha⟩ := places_mem.1 ha
      obtain ⟨e', he', hb⟩ := places_mem.1 hb
      obtain ⟨r, hr, rfl⟩ := List.mem_map.1 he
      obtain ⟨u', hu', rfl⟩ := List.mem_map.1 he'
      obtain ⟨u, hu, rfl⟩ := List.mem_map.1 hu'
      simp only [Field.stored, slots_stored] at hb
      exact hc r hr a ha u hu b hb
    refine ⟨m, _, hm, model_computed hb hforbid (fun u hu => ⟨hcomp u hu, ?_⟩) hvs hw hval hcc hM1 hM2, fun h => hM1.append_solid hM2 hcc ?_⟩
    · cases hL2 u hu with | mk h _ => exact h
    · obtain ⟨r, hr, hrs⟩ := hs h
      rcases List.mem_append.1 hr with hr | hr
      · have := ih1 r hr (hL1 r hr)
        rw [hrs] at this
        exact .inl (hsol1 ⟨_, List.mem_map_of_mem hr, this⟩)
      · have := ih2 r hr (stored_resolved (hL2 r hr))
        rw [hrs] at this
        exact .inr (hsol2 ⟨_, List.mem_map_of_mem (List.mem_map_of_mem (f := fun r : Row => (r.1.stored, r.2)) hr), this⟩)
  | whole _ ih => exact ih.mono

end PXml
