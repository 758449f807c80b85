import Verif.Lemmas.Write
import Verif.Example

/-!
# Writing fields: C17, C18, C21, C22, C34, C36, C37, C41, C42
-/

namespace PXml

open Elem

/-! ## C41 -/

theorem search_atEnd {e : Elem} (h : e.AtEnd) (t : String) (m : Mode) (step : Bool) : e.search t m step = (none, e) := by
  have h1 : e.elements.drop e.next = [] := by rw [h]; exact List.drop_length
  have h2 : e.elements[e.next]? = none := by rw [h]; simp
  have h3 : e.firstMatch t = none := by rw [firstMatch_none_iff, h1]; simp
  cases m with
  | strict => simp [search, strictSearch, h2]
  | ordered => simp [search, orderedSearch, h3]
  | unordered => simp [search, unorderedSearch, h3]

/-- C41: at the end of the children, a wrapped field finds the last child, if that has the tag, and nothing else; the lookup
never fails and does not move the position. -/
theorem C41_finds_last_only (e : Elem) (h : e.AtEnd) (t : String) (m : Mode) :
    e.findElement t m = .ok ((e.lastNamed t).map (fun _ => e.elements.length - 1), e) := by
  unfold findElement lookBehind lastNamed
  rw [List.getLast?_eq_getElem?]
  by_cases h0 : e.next = 0
  · have : e.elements = [] := by
      have := h.symm.trans h0
      simpa using this
    rw [if_pos h0]
    simp only [bind, Except.bind, Bool.false_eq_true, if_false, search_atEnd h]
    simp [this]
  · rw [if_neg h0]
    rw [show e.elements.length - 1 = e.next - 1 by rw [← h]]
    cases hc : e.elements[e.next - 1]? with
    | none =>
      have : e.next ≤ e.next - 1 := by rw [List.getElem?_eq_none_iff, ← h] at hc; exact hc
      omega
    | some c =>
      simp only [bind, Except.bind]
      by_cases ht : c.tag = t
      · simp [ht, Option.filter]
      · simp [ht, search_atEnd h, Option.filter]

theorem Elem.Writes.atEnd {P : List String → Slot → Prop} {e e' : Elem} (h : Writes P e e') : e.AtEnd → e'.AtEnd := by
  induction h with
  | refl => exact id
  | trans _ _ ih1 ih2 => exact ih2 ∘ ih1
  | setText e t _ => exact id
  | setAttribute e k v _ => exact id
  | setAttributes e d _ => exact id
  | append e c hc => intro h; simpa [AtEnd, Elem.append] using h
  | find e t m o e' hf =>
    intro h
    rw [C41_finds_last_only e h] at hf
    injection hf with hf
    injection hf with _ hf
    subst hf
    exact h
  | child e i c c' hc _ _ ih => intro h; simpa [AtEnd, setChild] using h

/-- C41: whatever field is written, the position stays at the end of the children. -/
theorem C41_at_end (env : Env) (hs : env.SerializersWrite) (n : Nat) (fl : Flags) (s : Ser) (el el' : Elem) (v enc : Val)
    (hel : el.AtEnd) (h : ser env n fl s el v enc = .ok el') : el'.AtEnd := (ser_writes hs n fl s h).atEnd hel

/-- C41: the same for all the fields of a model together, starting with the new element of a model. -/
theorem C41_at_end_model (env : Env) (hs : env.SerializersWrite) (n : Nat) (fl : Flags) (cls : String) (m : ModelSer)
    (hm : env.model cls = some m) (el el' : Elem) (v enc : Val) (hel : el.AtEnd)
    (h : serModel (ser env n) m fl el v enc = .ok el') : el'.AtEnd :=
  (serModel_writes (P := anywhere) (fun _ _ _ _ _ _ _ _ _ _ h => (ser_writes hs _ _ _ h).all)
    (fun _ hb f hf g hg _ _ _ _ h => hs _ _ _ hm hb f hf g hg _ _ _ _ h)
    (fun _ _ _ _ _ _ _ h => (ser_writes hs _ _ _ h).all) h).atEnd hel

theorem noSerializers {mode : Mode} {b : Backend} : (Ex.env mode b).NoSerializers := by
  intro cls m fs h
  revert h fs
  suffices h : ∀ cls m, (Ex.env mode b).model cls = some m → ∀ fs, m.body = .fields fs → ∀ f ∈ fs, f.serializer = none from
    fun fs h' hb => h cls m h' fs hb
  apply Ex.model_cases <;> (intro fs hb; injection hb with hb; subst hb; simp)

/-- Non-vacuity of C41: the wrapped field `phone` is written into a person element. -/
example : ∃ el', ser Ex.env 2 {} (.wrap ["contact", "phones"] none .strict false (.elem "phone" none .strict false false))
    { tag := "person" } (.str "123") (.str "123") = .ok el' ∧ el'.AtEnd := ⟨_, rfl, rfl⟩

/-! ## C36 -/

theorem Elem.Writes.tag {P : List String → Slot → Prop} {e e' : Elem} (h : Writes P e e') : e'.tag = e.tag := by
  induction h with
  | refl => rfl
  | trans _ _ ih1 ih2 => exact ih2.trans ih1
  | find e t m o e' hf =>
    unfold findElement at hf
    cases hl : e.lookBehind t with
    | error x => rw [hl] at hf; cases hf
    | ok b =>
      rw [hl] at hf
      simp only [bind, Except.bind] at hf
      split at hf
      · injection hf with hf; injection hf with _ hf; rw [← hf]
      · injection hf with hf
        obtain ⟨l, k, h1, _⟩ := search_spec e t m true
        rw [hf] at h1
        simp only at h1
        rw [h1]
  | _ => rfl

theorem getElem?_setChild {e : Elem} {i j : Nat} {c' : Elem} : (e.setChild i c').elements[j]? =
    if i = j then (if i < e.elements.length then some c' else none) else e.elements[j]? := by
  simp only [setChild, List.getElem?_set]

theorem Elem.Writes.children {P : List String → Slot → Prop} {e e' : Elem} (h : Writes P e e') : e.AtEnd →
    ∀ (i : Nat) (c : Elem), e.elements[i]? = some c →
      ∃ c', e'.elements[i]? = some c' ∧ (i + 1 < e.elements.length → c' = c) ∧ Writes anywhere c c' := by
  induction h with
  | refl => intro _ i c hc; exact ⟨c, hc, fun _ => rfl, .refl _⟩
  | @trans P a b d h1 h2 ih1 ih2 =>
    intro he i c hc
    obtain ⟨c1, h3, h4, h5⟩ := ih1 he i c hc
    obtain ⟨c2, h6, h7, h8⟩ := ih2 (h1.atEnd he) i c1 h3
    refine ⟨c2, h6, fun hi => ?_, h5.trans h8⟩
    have hlen : a.elements.length ≤ b.elements.length := by
      by_cases h0 : a.elements.length = 0
      · omega
      · have hlt : a.elements.length - 1 < a.elements.length := by omega
        obtain ⟨x, hx, _⟩ := ih1 he _ _ (List.getElem?_eq_getElem hlt)
        have := (List.getElem?_eq_some_iff.1 hx).1
        omega
    rw [h7 (by omega), h4 hi]
  | setText e t _ => intro _ i c hc; exact ⟨c, hc, fun _ => rfl, .refl _⟩
  | setAttribute e k v _ => intro _ i c hc; exact ⟨c, hc, fun _ => rfl, .refl _⟩
  | setAttributes e d _ => intro _ i c hc; exact ⟨c, hc, fun _ => rfl, .refl _⟩
  | append e x hx =>
    intro _ i c hc
    refine ⟨c, ?_, fun _ => rfl, .refl _⟩
    have := (List.getElem?_eq_some_iff.1 hc).1
    simp only [Elem.append]
    rw [List.getElem?_append_left this]
    exact hc
  | find e t m o e' hf =>
    intro he i c hc
    rw [C41_finds_last_only e he] at hf
    injection hf with hf
    injection hf with _ hf
    subst hf
    exact ⟨c, hc, fun _ => rfl, .refl _⟩
  | child e j x x' hx hj hw ih =>
    intro he i c hc
    rw [getElem?_setChild]
    by_cases hij : j = i
    · subst hij
      rw [hx] at hc
      injection hc with hc
      subst hc
      have := (List.getElem?_eq_some_iff.1 hx).1
      refine ⟨x', by simp [this], fun hi => ?_, hw.all⟩
      rw [AtEnd] at he
      omega
    · rw [if_neg hij]
      exact ⟨c, hc, fun _ => rfl, .refl _⟩

/-- C36: children written before keep their place, and all but the last one stay exactly as they are; the last one can only be
written to (it is the wrapper element of the field).  In particular no child is lost or moved. -/
theorem C36_children (env : Env) (hs : env.SerializersWrite) (n : Nat) (fl : Flags) (s : Ser) (el el' : Elem) (v enc : Val)
    (hel : el.AtEnd) (h : ser env n fl s el v enc = .ok el') (i : Nat) (c : Elem) (hc : el.elements[i]? = some c) :
    ∃ c', el'.elements[i]? = some c' ∧ c'.tag = c.tag ∧ (i + 1 < el.elements.length → c' = c) ∧ Writes anywhere c c' := by
  obtain ⟨c', h1, h2, h3⟩ := (ser_writes hs n fl s h).children hel i c hc
  exact ⟨c', h1, h3.tag, h2, h3⟩

theorem Elem.Writes.text {P : List String → Slot → Prop} {e e' : Elem} (h : Writes P e e') (hP : ¬P [] .text) :
    e'.text = e.text := by
  induction h with
  | refl => rfl
  | trans _ _ ih1 ih2 => exact (ih2 hP).trans (ih1 hP)
  | setText e t h => exact absurd h hP
  | find e t m o e' hf =>
    unfold findElement at hf
    cases hl : e.lookBehind t with
    | error x => rw [hl] at hf; cases hf
    | ok b =>
      rw [hl] at hf
      simp only [bind, Except.bind] at hf
      split at hf
      · injection hf with hf; injection hf with _ hf; rw [← hf]
      · injection hf with hf
        obtain ⟨l, k, h1, _⟩ := search_spec e t m true
        rw [hf] at h1
        simp only at h1
        rw [h1]
  | _ => rfl

/-- C36: the text stays as it is, unless the field is a text field (C36: it has its place there). -/
theorem C36_text (env : Env) (hs : env.SerializersWrite) (n : Nat) (fl : Flags) (s : Ser) (el el' : Elem) (v enc : Val)
    (hc : ¬s.Claims [] .text) (h : ser env n fl s el v enc = .ok el') : el'.text = el.text :=
  (ser_writes hs n fl s h).text hc

theorem search_attrib (e : Elem) (t : String) (m : Mode) (step : Bool) : (e.search t m step).2.attrib = e.attrib := by
  cases m with
  | strict => simp only [search, strictSearch]; repeat' split <;> try rfl
  | ordered => simp only [search, orderedSearch]; repeat' split <;> try rfl
  | unordered => simp only [search, unorderedSearch]; repeat' split <;> try rfl

theorem Elem.Writes.attribute {P : List String → Slot → Prop} {e e' : Elem} (h : Writes P e e') (k : String)
    (hP : ¬P [] (.attr k)) (hQ : ¬P [] .attrs) : e'.getAttrib k = e.getAttrib k := by
  induction h with
  | refl => rfl
  | trans _ _ ih1 ih2 => exact (ih2 hP hQ).trans (ih1 hP hQ)
  | setText e t h => rfl
  | setAttribute e k' v h =>
    have : k' ≠ k := fun hk => hP (hk ▸ h)
    simp only [getAttrib, Elem.setAttribute, Option.getD_some]
    exact Dict.get?_set_ne _ _ this
  | setAttributes e d h => exact absurd h hQ
  | append e c h => rfl
  | find e t m o e' hf =>
    unfold findElement at hf
    cases hl : e.lookBehind t with
    | error x => rw [hl] at hf; cases hf
    | ok b =>
      rw [hl] at hf
      simp only [bind, Except.bind] at hf
      split at hf
      · injection hf with hf; injection hf with _ hf; rw [← hf]
      · injection hf with hf
        have := search_attrib e t m true
        rw [hf] at this
        simp only at this
        unfold getAttrib
        rw [this]
  | child e i c c' _ _ _ _ => rfl

/-- C36: the attributes stay as they are, except the one the field writes, as long as the field does not take all attributes
(a dictionary). -/
theorem C36_attributes_partial (env : Env) (hs : env.SerializersWrite) (n : Nat) (fl : Flags) (s : Ser) (el el' : Elem)
    (v enc : Val) (k : String) (hk : ¬s.Claims [] (.attr k)) (hd : ¬s.Claims [] .attrs)
    (h : ser env n fl s el v enc = .ok el') : el'.getAttrib k = el.getAttrib k := (ser_writes hs n fl s h).attribute k hk hd

/-- C36 is false for a dictionary field: it wipes the attributes written by the fields before. -/
theorem C36_counterexample : ∃ (el el' : Elem), el.getAttrib "id" = some "7" ∧
    ser Ex.env 1 {} (.attrs {}) el (.dict [("k", .str "v")]) (.dict [("k", .str "v")]) = .ok el' ∧ el'.getAttrib "id" = none :=
  ⟨{ tag := "a", attrib := some [("id", "7")] }, _, rfl, rfl, rfl⟩

/-- Non-vacuity of C36: the wrapped field `phone` is written after `name` and a wrapper `contact` that is reused. -/
example : ∃ el', ser Ex.env 2 {} (.wrap ["contact", "phones"] none .strict false (.elem "phone" none .strict false false))
      { tag := "person", text := some "x", attrib := some [("id", "7")], next := 2,
        elements := [{ tag := "name", text := some "Ann" }, { tag := "contact" }] } (.str "123") (.str "123") = .ok el' ∧
    el'.elements.length = 2 ∧ el'.elements[0]? = some { tag := "name", text := some "Ann" } ∧ el'.text = some "x" ∧
    el'.getAttrib "id" = some "7" := ⟨_, rfl, rfl, rfl, rfl, rfl⟩

/-! ## C22 -/

/-- C22: the root element written for a model has the qualified name of its class. -/
theorem C22_written_name (env : Env) (hs : env.SerializersWrite) (n : Nat) (fl : Flags) (cls : String) (v : Val) (root : Node)
    (h : toXmlTree env n fl cls v = .ok root) : ∃ m, env.model cls = some m ∧ root.tag = m.elementName := by
  unfold toXmlTree at h
  cases hm : env.model cls with
  | none => rw [hm] at h; cases h
  | some m =>
    simp only [hm] at h
    obtain ⟨e, h1, h2⟩ := bind_ok h
    injection h2 with h2
    subst h2
    refine ⟨m, rfl, ?_⟩
    have := (serModel_writes (P := anywhere) (fun _ _ _ _ _ _ _ _ _ _ h => (ser_writes hs _ _ _ h).all)
      (fun _ hb f hf g hg _ _ _ _ h => hs _ _ _ hm hb f hf g hg _ _ _ _ h)
      (fun _ _ _ _ _ _ _ h => (ser_writes hs _ _ _ h).all) h1).tag
    cases e
    exact this

/-- C22: so the output of a class is never rejected by the name check of the same class. -/
theorem C22_output_accepted (env : Env) (hs : env.SerializersWrite) (n : Nat) (fl : Flags) (cls : String) (v : Val) (root : Node)
    (h : toXmlTree env n fl cls v = .ok root) (eas : Bool) (n' : Nat) : ∃ m, env.model cls = some m ∧
      fromXmlTree env eas n' cls root = ((deserModel env (deser env eas n') cls m [] ⟨fromNative env.backend root, []⟩).1,
        (deserModel env (deser env eas n') cls m [] ⟨fromNative env.backend root, []⟩).2.el) := by
  obtain ⟨m, hm, ht⟩ := C22_written_name env hs n fl cls v root h
  refine ⟨m, hm, ?_⟩
  simp only [fromXmlTree, hm, ht, if_true]

/-- Non-vacuity of C22. -/
example : ∃ root, toXmlTree Ex.env 9 {} "Person" Ex.ann = .ok root ∧ root.tag = "person" := ⟨_, rfl, rfl⟩

/-! ## C17 -/

/-- Fields that write nothing for `None` with `exclude_none`: all but a dictionary in an element and a tagged union. -/
def Ser.Skips : Ser → Prop
  | .mapElem _ _ _ | .tagged _ _ _ _ _ => False
  | _ => True

/-- C17: with `exclude_none` a field whose value is `None` writes nothing.  Missing: dictionaries in an element and tagged
unions. -/
theorem C17_none_partial (env : Env) (n : Nat) (fl : Flags) (hfl : fl.excludeNone = true) (s : Ser) (hs : s.Everywhere Ser.Skips)
    (hr : s.Everywhere (Ser.Resolved env)) (el : Elem) (enc : Val) (h : ser env n fl s el .none enc ≠ .diverge) :
    ser env n fl s el .none enc = .ok el := by
  induction n generalizing s with
  | zero => exact absurd rfl h
  | succ n ih =>
    change serStep env (ser env n) fl s el .none enc ≠ .diverge at h
    change serStep env (ser env n) fl s el .none enc = .ok el
    cases s with
    | text c nl => simp [serStep, serText, hfl, Val.isNone]
    | attr k c => simp [serStep, hfl, Val.isNone]
    | elem nm ns m c nl => simp [serStep, hfl, Val.isNone]
    | attrs a => simp [serStep, serAttrs, Val.isNone]
    | mapElem a nm m => exact absurd (Ser.everywhere_iff.1 hs).1 id
    | raw nm m c => simp [serStep]
    | proxy p =>
      have := (Ser.everywhere_iff.1 hr).1
      simp only [Ser.Resolved, Option.isSome_iff_exists] at this
      obtain ⟨m, hm⟩ := this
      simp [serStep, hm, hfl, Val.isNone]
    | primUnion c inner =>
      exact ih inner ((Ser.everywhere_iff.1 hs).2 inner (by simp [Ser.subs]))
        ((Ser.everywhere_iff.1 hr).2 inner (by simp [Ser.subs])) h
    | modelUnion t c alts => simp [serStep]
    | tagged c d a m alts => exact absurd (Ser.everywhere_iff.1 hs).1 id
    | wrap path ns m c inner => simp [serStep, Val.isNone]
    | homog t c inner => simp [serStep, Val.isNone]
    | hetero t c inners => simp [serStep, Val.isNone]

/-- C17, for a whole model: its output is that of the class without the fields that are `None`. -/
theorem C17_model_partial (env : Env) (n : Nat) (fl : Flags) (hfl : fl.excludeNone = true) (fields : Dict String Val)
    (set : List String) (cls : String) (d : Dict String Val) (fs : List Field) (hserializer : ∀ f ∈ fs, f.serializer = none)
    (hs : ∀ f ∈ fs, f.ser.Everywhere Ser.Skips) (hr : ∀ f ∈ fs, f.ser.Everywhere (Ser.Resolved env))
    (hd : ∀ f ∈ fs, (Dict.get? d f.name).isSome) (el : Elem)
    (hdiv : ∀ f ∈ fs, ∀ el enc, ser env n fl f.ser el .none enc ≠ .diverge) :
    serFields (ser env n fl) fl (.model cls fields set) fields set (.dict d) fs el =
      serFields (ser env n fl) fl (.model cls fields set) fields set (.dict d)
        (fs.filter fun f => !(match fields.get? f.name with | some .none => true | _ => false)) el := by
  induction fs generalizing el with
  | nil => rfl
  | cons f fs ih =>
    have ih' := ih (fun f hf => hserializer f (by simp [hf])) (fun f hf => hs f (by simp [hf])) (fun f hf => hr f (by simp [hf]))
      (fun f hf => hd f (by simp [hf]))
    have hdiv' : ∀ f ∈ fs, ∀ el enc, ser env n fl f.ser el .none enc ≠ .diverge := fun f hf => hdiv f (by simp [hf])
    by_cases hnone : fields.get? f.name = some .none
    · rw [List.filter_cons_of_neg (by simp [hnone]), ← ih' el hdiv']
      conv => lhs; unfold serFields
      split
      · rfl
      · split
        · rfl
        · have h1 := hserializer f (by simp)
          obtain ⟨e, he⟩ := Option.isSome_iff_exists.1 (hd f (by simp))
          simp only [h1, getAttr, hnone, Out.bind, getItem, he,
            C17_none_partial env n fl hfl f.ser (hs f (by simp)) (hr f (by simp)) el e (hdiv f (by simp) el e)]
    · rw [List.filter_cons_of_pos (by
        cases hv : fields.get? f.name with
        | none => rfl
        | some v => cases v <;> first | rfl | exact absurd hv hnone)]
      conv => lhs; unfold serFields
      conv => rhs; unfold serFields
      split
      · exact ih' el hdiv'
      · split
        · exact ih' el hdiv'
        · congr 1
          funext el'
          exact ih' el' hdiv'

/-- C17 is false for a dictionary in an element: `None` is written as an empty element. -/
theorem C17_counterexample_mapping : ser Ex.env 1 { excludeNone := true } (.mapElem {} "extra" .strict) { tag := "person" }
    .none .none = .ok (({ tag := "person" } : Elem).append { tag := "extra" }) := rfl

/-- C17 is false for a dictionary in an element: with `skip_empty` as well, writing fails. -/
theorem C17_counterexample_mapping_skip : ser Ex.env 1 { excludeNone := true, skipEmpty := true } (.mapElem {} "extra" .strict)
    { tag := "person" } .none .none = .crash .typeError := rfl

/-- C17 is false for a tagged union: writing `None` fails. -/
theorem C17_counterexample_tagged : ser Ex.env 2 { excludeNone := true }
    (.tagged false "kind" "kind" .strict [("dog", { cls := "Dog", name := "pet" }), ("cat", { cls := "Cat", name := "pet" })])
    { tag := "owner" } .none .none = .crash .attributeError := rfl

/-- Non-vacuity of C17. -/
example : ∀ s ∈ [Ser.elem "nick" none .strict false true, .homog "Person" false (.elem "mail" none .strict false false),
      .wrap ["contact", "phones"] none .strict false (.elem "phone" none .strict false false),
      .proxy { cls := "Address", name := "home" }],
    s.Everywhere Ser.Skips ∧ s.Everywhere (Ser.Resolved Ex.env) ∧
      ser Ex.env 2 { excludeNone := true } s { tag := "person" } .none .none ≠ .diverge := by
  intro s hs
  simp only [List.mem_cons, List.not_mem_nil, or_false] at hs
  rcases hs with rfl | rfl | rfl | rfl <;> refine ⟨?_, ?_, by intro h; cases h⟩ <;>
    simp [Ser.everywhere_elem, Ser.everywhere_homog, Ser.everywhere_wrap, Ser.everywhere_proxy, Ser.Skips, Ser.Resolved,
      Ex.env, Ex.model]

/-! ## C18 -/

theorem serFields_filter {rec : Ser → Elem → Val → Val → Out Elem} {fl : Flags} {self : Val} {fields : Dict String Val}
    {set : List String} {enc : Val} (K : Field → Bool) (fs : List Field)
    (hK : ∀ f ∈ fs, K f = true → f.exclude = true ∨ (fl.excludeUnset = true ∧ f.name ∉ set)) (el : Elem) :
    serFields rec fl self fields set enc fs el = serFields rec fl self fields set enc (fs.filter fun f => !K f) el := by
  induction fs generalizing el with
  | nil => rfl
  | cons f fs ih =>
    have ih' := ih fun f hf => hK f (by simp [hf])
    by_cases hf : K f = true
    · rw [List.filter_cons_of_neg (by simp [hf]), ← ih' el]
      conv => lhs; unfold serFields
      rcases hK f (by simp) hf with h1 | ⟨h1, h2⟩
      · rw [if_pos h1]
      · split
        · rfl
        · rw [if_pos (by simp [h1, h2])]
    · rw [List.filter_cons_of_pos (by simpa using hf)]
      conv => lhs; unfold serFields
      conv => rhs; unfold serFields
      split
      · exact ih' el
      · split
        · exact ih' el
        · congr 1
          funext el'
          exact ih' el'

theorem serFields_unset {rec : Ser → Elem → Val → Val → Out Elem} {fl : Flags} {self : Val} {fields : Dict String Val}
    {set : List String} {enc : Val} (fs : List Field) (hall : ∀ f ∈ fs, f.name ∈ set) (b : Bool) (el : Elem) :
    serFields rec { fl with excludeUnset := b } self fields set enc fs el = serFields rec fl self fields set enc fs el := by
  induction fs generalizing el with
  | nil => rfl
  | cons f fs ih =>
    have ih' := ih fun f hf => hall f (by simp [hf])
    have hf : set.contains f.name = true := by simpa using hall f (by simp)
    conv => lhs; unfold serFields
    conv => rhs; unfold serFields
    simp only [hf, Bool.not_true, Bool.and_false, Bool.false_eq_true, if_false]
    split
    · exact ih' el
    · congr 1
      funext el'
      exact ih' el'

/-- C18: with `exclude_unset` a model writes what a class with the explicitly set fields only would write, and there the option
makes no difference for the fields of the model itself.  (The fields of sub-models are written with the option on, so the
same applies to them.) -/
theorem C18_unset (rec : Flags → Ser → Elem → Val → Val → Out Elem) (m : ModelSer) (fs : List Field) (hb : m.body = .fields fs)
    (fl : Flags) (hfl : fl.excludeUnset = true) (el : Elem) (cls : String) (fields : Dict String Val) (set : List String)
    (enc : Val) :
    serModel rec m fl el (.model cls fields set) enc =
      serModel rec (m.without fun f => !set.contains f.name) fl el (.model cls fields set) enc ∧
    serModel rec (m.without fun f => !set.contains f.name) fl el (.model cls fields set) enc =
      serModel (fun f => rec { f with excludeUnset := true }) (m.without fun f => !set.contains f.name)
        { fl with excludeUnset := false } el (.model cls fields set) enc := by
  unfold ModelSer.without
  simp only [hb]
  constructor
  · unfold serModel
    simp only [hb]
    exact serFields_filter (fl := { fl with skipEmpty := m.skipEmpty.getD fl.skipEmpty }) (fun f => !set.contains f.name) fs
      (fun f _ hf => .inr ⟨hfl, by simpa using hf⟩) el
  · unfold serModel
    simp only
    have h1 : ∀ f ∈ fs.filter (fun f => !!set.contains f.name), f.name ∈ set := by
      intro f hf
      simpa using (List.mem_filter.1 hf).2
    obtain ⟨se, en, eu⟩ := fl
    simp only at hfl
    subst hfl
    exact (serFields_unset (fl := ⟨m.skipEmpty.getD se, en, true⟩) _ h1 false el).symm

/-- C18, for root models. -/
theorem C18_unset_root (rec : Flags → Ser → Elem → Val → Val → Out Elem) (m : ModelSer) (s : Ser) (hb : m.body = .root s)
    (fl : Flags) (hfl : fl.excludeUnset = true) (el : Elem) (cls : String) (fields : Dict String Val) (set : List String)
    (enc : Val) (hset : "root" ∉ set) : serModel rec m fl el (.model cls fields set) enc = .ok el := by
  unfold serModel
  simp [hb, hfl, hset]

/-- Non-vacuity of C18: a person with two explicitly set fields. -/
example : toXmlTree Ex.env 9 { excludeUnset := true } "Person"
      (.model "Person" [("id", .str "7"), ("name", .str "Ann"), ("nick", .none), ("mails", .none), ("phone", .none),
        ("home", .none), ("extra", .none)] ["id", "name"]) =
    .ok (Ex.el "person" none [Ex.el "name" (some "Ann")] [("id", "7")]) := rfl

/-! ## C21 -/

/-- C21: excluded fields write nothing: the output is that of the class without them. -/
theorem C21_excluded (rec : Flags → Ser → Elem → Val → Val → Out Elem) (m : ModelSer) (fl : Flags) (el : Elem) (v enc : Val) :
    serModel rec m fl el v enc = serModel rec (m.without fun f => f.exclude) fl el v enc := by
  unfold ModelSer.without
  cases hb : m.body with
  | root s => rfl
  | fields fs =>
    unfold serModel
    cases v with
    | model cls fields set =>
      simp only [hb]
      exact serFields_filter (fun f => f.exclude) fs (fun f _ hf => .inl hf) el
    | _ => rfl

/-- C21: excluded fields are read like any other: the flag has no influence on reading. -/
theorem C21_read (env : Env) (rec : Ser → Loc → St → Out Val × St) (cls : String) (m : ModelSer) (fs : List Field)
    (hb : m.body = .fields fs) (loc : Loc) (st : St) :
    deserModel env rec cls m loc st =
      deserModel env rec cls { m with body := .fields (fs.map fun f => { f with exclude := false }) } loc st := by
  have h : ∀ (fs : List Field) res errs st, deserFields rec fs res errs st =
      deserFields rec (fs.map fun f => { f with exclude := false }) res errs st := by
    intro fs
    induction fs with
    | nil => intro _ _ _; rfl
    | cons f fs ih =>
      intro res errs st
      conv => lhs; unfold deserFields
      conv => rhs; rw [List.map_cons]; unfold deserFields
      simp only [ih]
  unfold deserModel
  simp only [hb, ← h]
  rfl

/-- Non-vacuity of C21: the excluded field comes first, and is not written. -/
example : serModel (ser Ex.env 3)
      { name := "A", elementName := "a", body := .fields [{ name := "x", ser := .elem "x" none .strict false false, exclude := true },
        { name := "y", ser := .elem "y" none .strict false false }] } {} { tag := "a" }
      (.model "A" [("x", .str "1"), ("y", .str "2")] []) (.dict [("y", .str "2")]) =
    .ok (({ tag := "a" } : Elem).append { tag := "y", text := some "2" }) := rfl

/-! ## C42 -/

/-- C42: a class that declares `skip_empty` writes the same, whatever the caller passes. -/
theorem C42_override (rec : Flags → Ser → Elem → Val → Val → Out Elem) (m : ModelSer) (b : Bool) (hm : m.skipEmpty = some b)
    (fl : Flags) (c : Bool) (el : Elem) (v enc : Val) :
    serModel rec m { fl with skipEmpty := c } el v enc = serModel rec m fl el v enc := by
  unfold serModel
  simp only [hm, Option.getD_some]

/-- C42: a class that declares `skip_empty` writes like a class that does not, called with that setting; without a declaration
the setting of the caller is used. -/
theorem C42_inherit (rec : Flags → Ser → Elem → Val → Val → Out Elem) (m : ModelSer) (fl : Flags) (el : Elem) (v enc : Val) :
    serModel rec m fl el v enc =
      serModel rec { m with skipEmpty := none } { fl with skipEmpty := m.skipEmpty.getD fl.skipEmpty } el v enc := by
  unfold serModel
  rfl

/-- Non-vacuity of C42: the class keeps its empty element although `skip_empty` is passed. -/
example : serModel (ser Ex.env 3)
      { name := "A", elementName := "a", skipEmpty := some false,
        body := .fields [{ name := "x", ser := .elem "x" none .strict false false }] } { skipEmpty := true } { tag := "a" }
      (.model "A" [("x", .str "")] []) (.dict [("x", .str "")]) =
    .ok (({ tag := "a" } : Elem).append { tag := "x", text := some "" }) := rfl

end PXml
