import Verif.SpecRoundTrip
import Verif.Props.Special
import Verif.Props.Wrapped

/-! What a field writes and reads back: definitions and basic facts for the round trip. -/

namespace PXml

open Elem

variable {wh : Bool}

/-- What is added to an element. -/
structure Em where
  text : Option String := none
  attrs : Dict String String := []
  kids : List Elem := []

/-- Something that is not empty is added. -/
def Em.Solid (M : Em) : Prop := truthy M.text = true ∨ M.attrs ≠ [] ∨ M.kids ≠ []

def Em.append (a b : Em) : Em := ⟨b.text.or a.text, a.attrs ++ b.attrs, a.kids ++ b.kids⟩

structure Adds (M : Em) (w w' : Elem) : Prop where
  tag : w'.tag = w.tag
  tail : w'.tail = w.tail
  text : w'.text = M.text.or w.text
  attrib : w'.attrib.getD [] = w.attrib.getD [] ++ M.attrs
  elements : w'.elements = w.elements ++ M.kids
  next : w'.next = w.next + M.kids.length

theorem Adds.refl (w : Elem) : Adds {} w w := ⟨rfl, rfl, by simp, by simp, by simp, by simp⟩

theorem Adds.trans {M1 M2 : Em} {a b c : Elem} (h1 : Adds M1 a b) (h2 : Adds M2 b c) : Adds (M1.append M2) a c := by
  refine ⟨h2.tag.trans h1.tag, h2.tail.trans h1.tail, ?_, ?_, ?_, ?_⟩
  · rw [h2.text, h1.text]; simp only [Em.append]; cases M2.text <;> rfl
  · rw [h2.attrib, h1.attrib]; simp [Em.append]
  · rw [h2.elements, h1.elements]; simp [Em.append]
  · rw [h2.next, h1.next]; simp [Em.append]; omega

theorem Em.append_solid {M1 M2 : Em} (ht : M1.text ≠ none → M2.text = none) (h : M1.Solid ∨ M2.Solid) : (M1.append M2).Solid := by
  unfold Em.Solid Em.append at *
  rcases h with (h | h | h) | (h | h | h)
  · left
    cases h1 : M1.text with
    | none => rw [h1] at h; cases h
    | some x =>
      have := ht (by simp [h1])
      rw [h1] at h
      simpa [this] using h
  · simp [h]
  · simp [h]
  · left
    cases h2 : M2.text with
    | none => rw [h2] at h; cases h
    | some x => rw [h2] at h; simpa using h
  · simp [h]
  · simp [h]

/-- What is added to a new element makes it non-empty. -/
theorem Adds.solid {M : Em} {w w' : Elem} (h : Adds M w w') (hw : w.text = none ∧ w.elements = []) (hs : M.Solid) : w'.isEmpty = false := by
  unfold isEmpty
  rcases hs with hs | hs | hs
  · have : w'.text = M.text := by rw [h.text, hw.1]; simp
    simp [this, hs]
  · have : truthyMap w'.attrib = true := by
      have h1 := h.attrib
      cases ha : w'.attrib with
      | none => rw [ha] at h1; simp at h1; exact absurd h1.2 hs
      | some d =>
        rw [ha] at h1
        simp only [Option.getD_some] at h1
        rw [h1]
        cases hm : M.attrs with
        | nil => exact absurd hm hs
        | cons => cases w.attrib.getD [] <;> rfl
    simp [this]
  · have : w'.elements ≠ [] := by rw [h.elements, hw.2]; simpa using hs
    cases hx : w'.elements with
    | nil => exact absurd hx this
    | cons => simp

theorem Adds.atEnd {M : Em} {w w' : Elem} (h : Adds M w w') (hw : w.AtEnd) : w'.AtEnd := by
  unfold AtEnd at *
  rw [h.next, h.elements, hw]; simp

theorem Adds.append (w c : Elem) : Adds { kids := [c] } w (w.append c) := ⟨rfl, rfl, by simp [Elem.append], by simp [Elem.append], rfl, rfl⟩

/-- Nothing is left in the element, if the whole of what was written is to be read. -/
def Elem.Clean (wh : Bool) (e : Elem) : Prop := wh = true → ∀ path, e.getUnbound path = []

def Blank (t : Option String) : Prop := t = none ∨ t = some ""

theorem unboundText_blank {t : Option String} (h : Blank t) (path : List (String × Int)) : unboundText path t = [] := by
  rcases h with rfl | rfl
  · rfl
  · simp [unboundText, strip]

theorem getUnboundList_clean {l : List Elem} (hwh : wh = true) (h : ∀ c ∈ l, c.Clean wh) (path : List (String × Int)) : getUnboundList path l = [] := by
  induction l with
  | nil => rfl
  | cons c l ih => simp [getUnboundList, h c (by simp) hwh, ih fun x hx => h x (by simp [hx])]

theorem clean_of {e : Elem} (h1 : Blank e.text) (h2 : Blank e.tail) (h3 : e.attrib.getD [] = []) (h4 : ∀ c ∈ e.elements, c.Clean wh) :
    e.Clean wh := by
  intro hwh path
  rw [Elem.eta e]
  simp only [getUnbound, unboundText_blank h1, unboundText_blank h2, h3, getUnboundList_clean hwh h4]
  rfl

/-- The element as a field finds it: what was added for the field, then what was added for the following ones. -/
structure Faces (ss : List Slot) (M : Em) (S rest : List Elem) (A2 : Dict String String) (r : Elem) : Prop where
  elements : r.elements = S ++ (M.kids.map reread ++ rest)
  next : r.next = S.length
  attrib : r.attrib.getD [] = M.attrs ++ A2
  all : .attrs ∈ ss → r.attrib.isSome = true ∧ A2 = []
  others : ∀ k ∈ A2.keys, .attr k ∉ ss
  text : .text ∈ ss → r.text = M.text

/-- The element as the field leaves it. -/
structure Takes (wh : Bool) (ss : List Slot) (M : Em) (S rest : List Elem) (A2 : Dict String String) (r r' : Elem) : Prop where
  tag : r'.tag = r.tag
  tail : r'.tail = r.tail
  blank : .text ∈ ss → Blank r'.text
  text : .text ∉ ss → r'.text = r.text
  attrib : r'.attrib.getD [] = A2
  some : .attrs ∉ ss → r.attrib.isSome = true → r'.attrib.isSome = true
  kids : ∃ K' : List Elem, r'.elements = S ++ (K' ++ rest) ∧ r'.next = S.length + K'.length ∧ (∀ c ∈ K', c.Clean wh) ∧
    K'.map Elem.tag = M.kids.map Elem.tag

/-- Writing succeeds, with enough fuel. -/
def Wr (env : Env) (fl : Flags) (s : Ser) (val : Option (Val × Val)) (w w' : Elem) : Prop :=
  w'.tag = w.tag ∧ match val with
    | none => w' = w
    | some (v, enc) => ∃ N, ∀ n ≥ N, ser env n fl s w v enc = .ok w'

/-- Reading succeeds, with enough fuel. -/
def Rd (env : Env) (eas : Bool) (s : Ser) (d : Val) (r r' : Elem) : Prop :=
  r'.tag = r.tag ∧ ∃ N, ∀ n ≥ N, ∀ loc sm, ∃ sm', deser env eas n s loc ⟨r, sm⟩ = (.ok d, ⟨r', sm'⟩)

/-- The field is a sub-model whose class writes the attribute `k` with the value `x`. -/
def Carries (env : Env) (fl : Flags) (s : Ser) (val : Option (Val × Val)) (k x : String) : Prop :=
  ∃ p m fs f cls fields set d y, s = .proxy p ∧ val = some (.model cls fields set, .dict d) ∧ env.model p.cls = some m ∧
    m.body = .fields fs ∧ f ∈ fs ∧ f.ser = .attr k false ∧ f.Writes fl fields set d (some (y, .str x)) ∧ y ≠ .none

/-- The field writes `M` and reads it back as `d`. -/
structure Emits (wh : Bool) (env : Env) (eas : Bool) (fl : Flags) (s : Ser) (val : Option (Val × Val)) (d : Val) (M : Em) : Prop where
  keys : ∀ k ∈ M.attrs.keys, .attr k ∈ s.slots ∨ (.attrs ∈ s.slots ∧ k ≠ nilAttr)
  wf : M.attrs.WF
  tags : ∀ c ∈ M.kids, .child c.tag ∈ s.slots
  text : M.text ≠ none → .text ∈ s.slots
  item : fl.skipEmpty = false → s.Item → (∃ v enc, val = some (v, enc) ∧ v ≠ .none) → M.kids ≠ []
  writes : ∀ w : Elem, w.AtEnd → (∀ k ∈ M.attrs.keys, k ∉ (w.attrib.getD []).keys) → (.attrs ∈ s.slots → w.attrib.getD [] = []) →
    ∃ w', Wr env fl s val w w' ∧ Adds M w w'
  reads : ∀ S rest A2 r, Faces s.slots M S rest A2 r → (s.Item ∧ M.kids ≠ []) ∨ (∀ c ∈ rest, .child c.tag ∉ s.slots) →
    ∃ r', Rd env eas s d r r' ∧ Takes wh s.slots M S rest A2 r r'
  carries : ∀ k x, Carries env fl s val k x → ∀ c ∈ M.kids, c.getAttrib k = some x
  attr : ∀ k v enc, s = .attr k false → val = some (v, enc) → v ≠ .none → (k, encodePrimitive env enc) ∈ M.attrs

theorem Val.isNone_of_ne {v : Val} (h : v ≠ .none) : v.isNone = false := by cases v <;> first | rfl | exact absurd rfl h

/-! ## Absent fields -/

theorem candidate_of_unread {e : Elem} {t : String} {m : Mode} (h : ∀ c ∈ e.unread, c.tag ≠ t) : e.candidate t m = none := by
  cases hc : e.candidate t m with
  | none => rfl
  | some c => exact absurd (candidate_tag hc) (h c (candidate_mem hc))

theorem slotsList_mem {ss : List Ser} {a : Slot} : a ∈ Ser.slotsList ss ↔ ∃ s ∈ ss, a ∈ s.slots := by
  induction ss with
  | nil => simp [Ser.slotsList]
  | cons s ss ih => simp [Ser.slotsList, ih]

theorem item_absent {s : Ser} (h : s.Item) {eas : Bool} {r : Elem} (hu : ∀ c ∈ r.unread, Slot.child c.tag ∉ s.slots) :
    s.Absent eas r := by
  induction h with
  | elem => exact .elem (candidate_of_unread fun c hc h => hu c hc (by simp [Ser.slots, h]))
  | mapElem => exact .mapElem (candidate_of_unread fun c hc h => hu c hc (by simp [Ser.slots, h]))
  | raw => exact .raw (candidate_of_unread fun c hc h => hu c hc (by simp [Ser.slots, h]))
  | proxy => exact .proxy (candidate_of_unread fun c hc h => hu c hc (by simp [Ser.slots, h]))
  | primUnion _ ih => exact .primUnion (ih (by simpa [Ser.slots] using hu))
  | modelUnion _ =>
    refine .modelUnion fun p hp => candidate_of_unread fun c hc h => hu c hc ?_
    simp only [Ser.slots, List.mem_map, Slot.child.injEq]
    exact ⟨p, hp, h.symm⟩
  | tagged _ =>
    refine .tagged fun p hp => candidate_of_unread fun c hc h => hu c hc ?_
    simp only [Ser.slots, List.mem_map, Slot.child.injEq]
    exact ⟨p, hp, h.symm⟩
  | hetero _ _ ih =>
    refine .hetero fun s hs => ih s hs fun c hc h => hu c hc ?_
    simp only [Ser.slots, slotsList_mem]
    exact ⟨s, hs, h⟩

theorem silent_absent {eas : Bool} {s : Ser} (h : s.Silent eas) {r : Elem} (hu : ∀ c ∈ r.unread, Slot.child c.tag ∉ s.slots)
    (ha : ∀ k, .attr k ∈ s.slots → r.getAttrib k = none) (ht : .text ∈ s.slots → r.text = none) (hn : r.next ≤ r.elements.length)
    (hs : ∀ t, s.Under t → ∀ w, r.seen.getLast? = some w → w.tag ≠ t) : s.Absent eas r := by
  induction h with
  | @text c nl h =>
    refine .text h (ht ?_) (fun hnl => ha _ ?_)
    · unfold Ser.slots; split <;> simp
    · subst hnl; simp [Ser.slots]
  | attr => exact .attr (ha _ (by simp [Ser.slots]))
  | item h => exact item_absent h hu
  | modelUnion =>
    refine .modelUnion fun p hp => candidate_of_unread fun c hc h => hu c hc ?_
    simp only [Ser.slots, List.mem_map, Slot.child.injEq]
    exact ⟨p, hp, h.symm⟩
  | tagged =>
    refine .tagged fun p hp => candidate_of_unread fun c hc h => hu c hc ?_
    simp only [Ser.slots, List.mem_map, Slot.child.injEq]
    exact ⟨p, hp, h.symm⟩
  | @primUnion c inner hl _ ih =>
    refine .primUnion (ih (by simpa [Ser.slots] using hu) (by simpa [Ser.slots] using ha) (by simpa [Ser.slots] using ht) ?_)
    intro t hu
    cases inner <;> first | exact absurd hl id | exact absurd hu id
  | homog h => exact .homog (item_absent h (by simpa [Ser.slots] using hu))
  | wrap _ _ =>
    exact .wrap hn (hs _ rfl) (candidate_of_unread fun c hc h => hu c hc (by simp [Ser.slots, h]))

theorem rd_absent {env : Env} {eas : Bool} {s : Ser} (hr : s.Everywhere (Ser.Resolved env)) {r : Elem} (h : s.Absent eas r) :
    Rd env eas s .none r r := by
  obtain ⟨N, hN⟩ := C43_absent env eas s hr r h
  exact ⟨rfl, N, fun n hn loc sm => ⟨sm, hN n hn loc sm⟩⟩

theorem Faces.unread {ss : List Slot} {M : Em} {S rest : List Elem} {A2 : Dict String String} {r : Elem} (h : Faces ss M S rest A2 r) :
    r.unread = M.kids.map reread ++ rest := by
  unfold Elem.unread
  rw [h.elements, h.next]; simp

theorem Faces.seen {ss : List Slot} {M : Em} {S rest : List Elem} {A2 : Dict String String} {r : Elem} (h : Faces ss M S rest A2 r) :
    r.seen = S := by
  unfold Elem.seen
  rw [h.elements, h.next]; simp

theorem Faces.le {ss : List Slot} {M : Em} {S rest : List Elem} {A2 : Dict String String} {r : Elem} (h : Faces ss M S rest A2 r) :
    r.next ≤ r.elements.length := by
  rw [h.elements, h.next]; simp

theorem Takes.refl {ss : List Slot} {S rest : List Elem} {A2 : Dict String String} {r : Elem} (h : Faces ss {} S rest A2 r) :
    Takes wh ss {} S rest A2 r r :=
  ⟨rfl, rfl, fun ht => .inl (h.text ht), fun _ => rfl, by simpa using h.attrib, fun _ h => h, [], by simpa using h.elements,
    by simpa using h.next, by simp, rfl⟩

/-- A field that writes nothing and reads as `None` then. -/
theorem emits_nothing {env : Env} {eas : Bool} {fl : Flags} {s : Ser} (hr : s.Everywhere (Ser.Resolved env)) (hs : s.Silent eas)
    (hw : s.NotWrapped) (val : Option (Val × Val)) (hwr : ∀ w, Wr env fl s val w w)
    (hv : fl.skipEmpty = false → s.Item → ∀ v enc, val = some (v, enc) → v = .none)
    (hattr : ∀ k v enc, s = .attr k false → val = some (v, enc) → v = .none) : Emits wh env eas fl s val .none {} := by
  refine ⟨by simp [Dict.keys], Dict.wf_nil, by simp, by simp, ?_, ?_, ?_, by simp, ?_⟩
  · rintro hfl hi ⟨v, enc, h1, h2⟩
    exact absurd (hv hfl hi v enc h1) h2
  · exact fun w _ _ _ => ⟨w, hwr w, Adds.refl w⟩
  · intro S rest A2 r hf hrest
    refine ⟨r, rd_absent hr (silent_absent hs ?_ ?_ ?_ hf.le ?_), Takes.refl hf⟩
    · rw [hf.unread]
      rcases hrest with ⟨_, h⟩ | h
      · exact absurd rfl h
      · simpa using h
    · intro k hk
      have : k ∉ A2.keys := fun h => hf.others k h hk
      unfold getAttrib
      rw [hf.attrib, Dict.get?_eq_none_iff]
      simpa using this
    · exact hf.text
    · intro t hu
      cases s <;> first | exact absurd hu id | exact absurd hw id
  · intro k v enc h1 h2 h3
    exact absurd (hattr k v enc h1 h2) h3

/-! ## Text and attributes -/

theorem setText_adds (w : Elem) (t : String) : Adds { text := some t } w (w.setText t) :=
  ⟨rfl, rfl, rfl, by simp [setText], by simp [setText], rfl⟩

theorem setAttribute_adds (w : Elem) (k v : String) (hk : k ∉ (w.attrib.getD []).keys) :
    Adds { attrs := [(k, v)] } w (w.setAttribute k v) :=
  ⟨rfl, rfl, by simp [setAttribute], by simp [setAttribute, Dict.set_of_not_mem hk], by simp [setAttribute], rfl⟩

theorem getAttrib_absent {e : Elem} {k : String} {A : Dict String String} (h : e.attrib.getD [] = A) (hk : k ∉ A.keys) :
    e.getAttrib k = none := by
  unfold getAttrib; rw [h, Dict.get?_eq_none_iff]; exact hk

theorem popAttrib_head {e : Elem} {k v : String} {A : Dict String String} (h : e.attrib.getD [] = (k, v) :: A) :
    e.popAttrib k = (some v, { e with attrib := some A }) := by
  cases ha : e.attrib with
  | none => rw [ha] at h; cases h
  | some d =>
    rw [ha] at h
    simp only [Option.getD_some] at h
    subst h
    simp [popAttrib, ha, truthyMap, Dict.get?_cons, Dict.erase]

theorem textVal_means (eas : Bool) (t : String) : textVal eas (some t) = textMeans eas t := rfl

theorem slots_text (c nl : Bool) : Slot.text ∈ (Ser.text c nl).slots := by unfold Ser.slots; split <;> simp

theorem slots_text_mem (c nl : Bool) {a : Slot} (h : a ∈ (Ser.text c nl).slots) : a = .text ∨ (nl = true ∧ a = .attr nilAttr) := by
  unfold Ser.slots at h; split at h <;> simp_all

theorem text_not_attrs (c nl : Bool) : Slot.attrs ∉ (Ser.text c nl).slots := by
  intro h; rcases slots_text_mem c nl h with h | ⟨_, h⟩ <;> cases h

theorem not_item_text (c nl : Bool) : ¬(Ser.text c nl).Item := by intro h; cases h

/-- The text as it was written, whatever the value. -/
theorem text_reads (env : Env) (eas nl : Bool) (t : Option String) (S rest : List Elem) (A2 : Dict String String) (r : Elem)
    (hf : Faces (Ser.text false nl).slots { text := t } S rest A2 r) :
    ∃ r', Rd env eas (.text false nl) (textVal eas t) r r' ∧ Takes wh (Ser.text false nl).slots { text := t } S rest A2 r r' := by
  have ht := hf.text (slots_text _ _)
  refine ⟨{ r with text := none }, ⟨rfl, 1, fun n hn loc sm => ⟨sm, ?_⟩⟩, ?_⟩
  · obtain ⟨k, rfl⟩ : ∃ k, n = k + 1 := ⟨n - 1, by omega⟩
    change deserText eas false nl ⟨r, sm⟩ = _
    unfold deserText
    simp only [Bool.false_eq_true, if_false]
    cases nl with
    | false => simp only [Bool.false_eq_true, if_false, popText, ht]
    | true =>
      have hk : r.getAttrib nilAttr = none := getAttrib_absent hf.attrib (by
        intro h
        exact hf.others nilAttr (by simpa using h) (by simp [Ser.slots]))
      simp only [if_true, isNil, popAttrib_absent hk, reduceCtorEq, decide_false, popText, ht]
  · exact ⟨rfl, rfl, fun _ => .inl rfl, fun h => absurd (slots_text _ _) h, by simpa using hf.attrib, fun _ h => h,
      [], by simpa using hf.elements, by simpa using hf.next, by simp, rfl⟩

theorem emits_text_plain {env : Env} {eas : Bool} {fl : Flags} {nl : Bool} {v enc : Val} (t : Option String)
    (hw : ∀ w, serText env nl fl w v enc = (match t with | some t => w.setText t | none => w)) :
    Emits wh env eas fl (.text false nl) (some (v, enc)) (textVal eas t) { text := t } := by
  refine ⟨by simp [Dict.keys], Dict.wf_nil, by simp, fun _ => slots_text _ _, fun _ h => absurd h (not_item_text _ _), ?_, ?_, by simp, ?_⟩
  · intro w _ _ _
    refine ⟨serText env nl fl w v enc, ⟨?_, 1, fun n hn => ?_⟩, ?_⟩
    · rw [hw w]; cases t <;> rfl
    · obtain ⟨k, rfl⟩ : ∃ k, n = k + 1 := ⟨n - 1, by omega⟩
      rfl
    · rw [hw w]
      cases t with
      | none => exact Adds.refl w
      | some t => exact setText_adds w t
  · exact fun S rest A2 r hf _ => text_reads env eas nl t S rest A2 r hf
  · intro k v enc h; cases h

theorem emits_text {env : Env} {eas : Bool} {fl : Flags} {nl : Bool} {v enc : Val} (hv : v ≠ .none) :
    Emits wh env eas fl (.text false nl) (some (v, enc)) (textMeans eas (encodePrimitive env enc))
      { text := some (encodePrimitive env enc) } :=
  emits_text_plain (some (encodePrimitive env enc)) fun w => by simp [serText, Val.isNone_of_ne hv]

theorem emits_textNone {env : Env} {eas : Bool} {fl : Flags} {nl : Bool} :
    ∃ M, Emits wh env eas fl (.text false nl) (some (.none, .none))
      (if ¬fl.NoneSkipped ∧ nl = true then .none else textMeans eas "") M ∧ (¬fl.NoneSkipped ∧ nl = true → M.Solid) := by
  by_cases hx : fl.NoneSkipped
  · refine ⟨{}, ?_, fun h => absurd hx h.1⟩
    have hb : (fl.skipEmpty || fl.excludeNone) = true := by rcases hx with h | h <;> simp [h]
    have := emits_text_plain (wh := wh) (env := env) (eas := eas) (fl := fl) (nl := nl) (v := .none) (enc := .none) none
      (fun w => by simp only [serText, hb, Val.isNone, Bool.and_true, if_true])
    simpa [textVal, textMeans, hx] using this
  · have hx1 : fl.excludeNone = false := by cases h : fl.excludeNone with | false => rfl | true => exact absurd (.inl h) hx
    have hfl : fl.skipEmpty = false := by cases h : fl.skipEmpty with | false => rfl | true => exact absurd (.inr h) hx
    cases nl with
    | false =>
      refine ⟨{ text := some "" }, ?_, by simp⟩
      simp only [Bool.false_eq_true, and_false, if_false]
      exact emits_text_plain (env := env) (eas := eas) (fl := fl) (v := .none) (enc := .none) (some "")
        (fun w => by simp [serText, hfl, hx1, Val.isNone, encodePrimitive])
    | true =>
      refine ⟨{ text := some "", attrs := [(nilAttr, "true")] }, ?_, fun _ => .inr (.inl (by simp))⟩
      simp only [hx, not_false_eq_true, and_self, if_true]
      refine ⟨?_, by simp [Dict.WF, Dict.keys], by simp, fun _ => slots_text _ _, fun _ h => absurd h (not_item_text _ _), ?_, ?_, by simp, ?_⟩
      · intro k hk
        simp only [Dict.keys, List.map_cons, List.map_nil, List.mem_singleton] at hk
        subst hk
        left; simp [Ser.slots]
      · intro w _ hk _
        refine ⟨(w.setAttribute nilAttr "true").setText "", ⟨rfl, 1, fun n hn => ?_⟩, ?_⟩
        · obtain ⟨k, rfl⟩ : ∃ k, n = k + 1 := ⟨n - 1, by omega⟩
          change Out.ok (serText env true fl w .none .none) = _
          simp [serText, hfl, hx1, Val.isNone, encodePrimitive, makeNil]
        · exact (setAttribute_adds w nilAttr "true" (hk nilAttr (by simp [Dict.keys]))).trans (setText_adds _ "")
      · intro S rest A2 r hf _
        refine ⟨{ r with attrib := some A2 }, ⟨rfl, 1, fun n hn loc sm => ⟨sm, ?_⟩⟩, ?_⟩
        · obtain ⟨k, rfl⟩ : ∃ k, n = k + 1 := ⟨n - 1, by omega⟩
          change deserText eas false true ⟨r, sm⟩ = _
          unfold deserText
          simp only [Bool.false_eq_true, if_false, if_true, isNil, popAttrib_head hf.attrib, decide_true]
          rfl
        · exact ⟨rfl, rfl, fun _ => .inr (hf.text (slots_text _ _)), fun h => absurd (slots_text _ _) h, rfl, fun _ _ => rfl,
            [], by simpa using hf.elements, by simpa using hf.next, by simp, rfl⟩
      · intro k v enc h; cases h

theorem emits_attr {env : Env} {eas : Bool} {fl : Flags} {name : String} {v enc : Val} (hv : v ≠ .none ∨ ¬fl.NoneSkipped) :
    Emits wh env eas fl (.attr name false) (some (v, enc)) (.str (encodePrimitive env enc))
      { attrs := [(name, encodePrimitive env enc)] } := by
  refine ⟨?_, by simp [Dict.WF, Dict.keys], by simp, by simp, fun _ h => (by cases h), ?_, ?_, by simp, ?_⟩
  · intro k hk
    simp only [Dict.keys, List.map_cons, List.map_nil, List.mem_singleton] at hk
    subst hk
    left; simp [Ser.slots]
  · intro w _ hk _
    refine ⟨w.setAttribute name (encodePrimitive env enc), ⟨rfl, 1, fun n hn => ?_⟩, setAttribute_adds _ _ _ (hk name (by simp [Dict.keys]))⟩
    obtain ⟨k, rfl⟩ : ∃ k, n = k + 1 := ⟨n - 1, by omega⟩
    change serStep env (ser env k) fl (.attr name false) w v enc = _
    have : (v.isNone && (fl.skipEmpty || fl.excludeNone)) = false := by
      rcases hv with hv | hv
      · simp [Val.isNone_of_ne hv]
      · unfold Flags.NoneSkipped at hv
        simp only [not_or, Bool.not_eq_true] at hv
        simp [hv]
    simp only [serStep, this, Bool.false_eq_true, if_false]
  · intro S rest A2 r hf _
    refine ⟨{ r with attrib := some A2 }, ⟨rfl, 1, fun n hn loc sm => ⟨sm, ?_⟩⟩, ?_⟩
    · obtain ⟨k, rfl⟩ : ∃ k, n = k + 1 := ⟨n - 1, by omega⟩
      change deserStep env eas (deser env eas k) k (.attr name false) loc ⟨r, sm⟩ = _
      simp only [deserStep, Bool.false_eq_true, if_false, popAttrib_head hf.attrib]
      rfl
    · exact ⟨rfl, rfl, fun h => by simp [Ser.slots] at h, fun _ => rfl, rfl, fun _ _ => rfl,
        [], by simpa using hf.elements, by simpa using hf.next, by simp, rfl⟩
  · intro k v' enc' h1 h2 h3
    injection h1 with h1
    injection h2 with h2
    injection h2 with h2 h4
    subst h1 h4
    simp

/-! ## Mappings -/

theorem emits_attrs {env : Env} {eas : Bool} {fl : Flags} {a : AttrsSer} (hc : a.computed = false) {v : Val} (hv : v ≠ .none)
    {d : Dict String Val} (hd : a.Readable d) :
    Emits wh env eas fl (.attrs a) (some (v, .dict d)) (asStrings env d)
      { attrs := d.map fun kv => (QName.uri ⟨kv.1, a.space⟩, pyStr env kv.2) } := by
  obtain ⟨h1, h2, h3, h4⟩ := hd
  have hitems := ofItems_map d h1 (fun k => QName.uri ⟨k, a.space⟩) (fun _ _ _ _ h => uri_injective h) (fun kv => pyStr env kv.2)
  refine ⟨?_, ?_, by simp, by simp, fun _ h => (by cases h), ?_, ?_, by simp, ?_⟩
  · intro k hk
    right
    refine ⟨by simp [Ser.slots], ?_⟩
    simp only [Dict.keys, List.map_map, List.mem_map, Function.comp] at hk
    obtain ⟨kv, hkv, rfl⟩ := hk
    exact h2 kv.1 (List.mem_map_of_mem hkv)
  · rw [← hitems]; exact Dict.wf_ofItems _
  · intro w _ _ hw
    refine ⟨w.setAttributes (d.map fun kv => (QName.uri ⟨kv.1, a.space⟩, pyStr env kv.2)), ⟨rfl, 1, fun n hn => ?_⟩, ?_⟩
    · obtain ⟨k, rfl⟩ : ∃ k, n = k + 1 := ⟨n - 1, by omega⟩
      change serAttrs env a w v (.dict d) = _
      rw [serAttrs_space _ _ _ _ _ (Val.isNone_of_ne hv)]
      simp only [hitems]
    · refine ⟨rfl, rfl, by simp [setAttributes], ?_, by simp [setAttributes], rfl⟩
      rw [hw (by simp [Ser.slots])]
      rfl
  · intro S rest A2 r hf _
    obtain ⟨hsome, hA⟩ := hf.all (by simp [Ser.slots])
    have hatt : r.attrib = some (d.map fun kv => (QName.uri ⟨kv.1, a.space⟩, pyStr env kv.2)) := by
      obtain ⟨x, hx⟩ := Option.isSome_iff_exists.1 hsome
      have := hf.attrib
      rw [hx, hA] at this
      simp only [Option.getD_some, List.append_nil] at this
      rw [hx, this]
    refine ⟨{ r with attrib := none }, ⟨rfl, 1, fun n hn loc sm => ⟨sm, ?_⟩⟩, ?_⟩
    · obtain ⟨k, rfl⟩ : ∃ k, n = k + 1 := ⟨n - 1, by omega⟩
      change deserAttrs a ⟨r, sm⟩ = _
      have hm : (d.map fun kv => (kv.1, pyStr env kv.2)).map (fun kv : String × String => (QName.uri ⟨kv.1, a.space⟩, kv.2)) =
          d.map fun kv => (QName.uri ⟨kv.1, a.space⟩, pyStr env kv.2) := by simp
      have hkeys : Dict.keys (d.map fun kv => (kv.1, pyStr env kv.2)) = d.keys := by simp [Dict.keys]
      have hres := deserAttrs_mapped a hc (d.map fun kv => (kv.1, pyStr env kv.2)) (by unfold Dict.WF; rw [hkeys]; exact h1)
        (by rw [hkeys]; exact h3) h4 ⟨r, sm⟩ (by rw [hm]; exact hatt)
      have hst : (deserAttrs a ⟨r, sm⟩).2 = ⟨{ r with attrib := none }, sm⟩ := by
        simp only [deserAttrs, hc, Bool.false_eq_true, if_false, popAttributes, hatt]
      rw [show deserAttrs a ⟨r, sm⟩ = ((deserAttrs a ⟨r, sm⟩).1, (deserAttrs a ⟨r, sm⟩).2) from rfl, hres, hst]
      simp [strDict, asStrings]
    · exact ⟨rfl, rfl, fun h => by simp [Ser.slots] at h, fun _ => rfl, by simp [hA], fun h => absurd (by simp [Ser.slots]) h,
        [], by simpa using hf.elements, by simpa using hf.next, by simp, rfl⟩
  · intro k v enc h; cases h

end PXml
