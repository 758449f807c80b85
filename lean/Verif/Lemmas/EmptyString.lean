import Verif.SpecEmptyString
import Verif.Lemmas.RestOf
import Verif.Lemmas.Everywhere

/-! Reading with and without `empty_as_string`, step by step. -/

namespace PXml

open Elem

namespace EmptyString

/-- The elements at the path contain text. -/
def Intact : List String → Elem → Prop
  | [], e => truthy e.text = true
  | t :: path, e => ∀ c ∈ e.elements, c.tag = t → Intact path c

/-- What was intact at the paths in `S` still is. -/
def Keeps (S : List String → Prop) (e e' : Elem) : Prop := ∀ path, S path → Intact path e → Intact path e'

/-- Run on what is left of the node both do the same; they leave a part of it and take no text at the paths in `S`. -/
def Agree {α : Type} (S : List String → Prop) (b : Backend) (node : Node) (f g : St → Out α × St) : Prop :=
  ∀ st, RestOf b node st.el → f st = g st ∧ RestOf b node (g st).2.el ∧ Keeps S st.el (g st).2.el

variable {b : Backend} {node : Node} {T N : String → Bool} {S : List String → Prop}

theorem Agree.mono {α : Type} {S' : List String → Prop} (hS : ∀ p, S' p → S p) {f g : St → Out α × St} (h : Agree S b node f g) : Agree S' b node f g :=
  fun st hst => ⟨(h st hst).1, (h st hst).2.1, fun p hp hi => (h st hst).2.2 p (hS p hp) hi⟩

theorem leavesTextAll {ss : List Ser} {p : List String} (h : Ser.LeavesTextAll ss p) : ∀ s ∈ ss, s.LeavesText p := by
  induction ss with
  | nil => simp
  | cons s ss ih =>
    intro x hx
    rcases List.mem_cons.1 hx with rfl | hx
    · exact h.1
    · exact ih h.2 x hx

theorem Keeps.refl (e : Elem) : Keeps S e e := fun _ _ h => h

theorem Keeps.trans {e1 e2 e3 : Elem} (h1 : Keeps S e1 e2) (h2 : Keeps S e2 e3) : Keeps S e1 e3 := fun p hp h => h2 p hp (h1 p hp h)

/-- The same text and the same children, in any order. -/
theorem Keeps.same {e e' : Elem} (h1 : e'.text = e.text) (h2 : ∀ c ∈ e'.elements, c ∈ e.elements) : Keeps S e e' := by
  intro p _ h
  cases p with
  | nil => exact (h1 ▸ h : truthy e'.text = true)
  | cons t p => exact fun c hc ht => h c (h2 c hc) ht

/-- Only the text, and that of no element at a path in `S`. -/
theorem Keeps.text (h : ¬ S []) {e e' : Elem} (h2 : e'.elements = e.elements) : Keeps S e e' := by
  intro p hp hi
  cases p with
  | nil => exact absurd hp h
  | cons t p => exact fun c hc ht => hi c (h2 ▸ hc) ht

/-- A child is put back. -/
theorem Keeps.setChild {e : Elem} {i : Nat} {c c' : Elem} (hc : e.elements[i]? = some c) (ht : c'.tag = c.tag)
    (h : Keeps (fun p => S (c.tag :: p)) c c') : Keeps S e (e.setChild i c') := by
  intro p hp hi
  cases p with
  | nil => exact hi
  | cons t p =>
    intro x hx hxt
    rcases List.mem_or_eq_of_mem_set hx with hx | rfl
    · exact hi x hx hxt
    · have hct : c.tag = t := ht ▸ hxt
      exact h p (hct ▸ hp) (hi c (List.mem_of_getElem? hc) hct)

theorem Keeps.mono {S' : List String → Prop} (hS : ∀ p, S' p → S p) {e e' : Elem} (h : Keeps S e e') : Keeps S' e e' := fun p hp hi => h p (hS p hp) hi

theorem texted_text (h : node.Texted T N) (ht : T node.tag = true) : truthy node.rootText = true := by
  cases h with
  | mk h _ _ => exact h ht

theorem texted_nil (h : node.Texted T N) (ht : N node.tag = true) : truthy node.rootText = true ∨ node.Nil := by
  cases h with
  | mk _ h _ => exact h ht

theorem texted_child (h : node.Texted T N) {k : Node} (hk : k ∈ node.children) : k.Texted T N := by
  cases h with
  | mk _ _ h => exact h k hk

theorem search_keeps {e : Elem} {t : String} {m : Mode} {step : Bool} {o : Option Nat} {e' : Elem} (h : e.search t m step = (o, e')) :
    Keeps S e e' := by
  obtain ⟨l, n, h1, h2, _⟩ := search_spec e t m step
  rw [h] at h1
  simp only at h1
  subst h1
  exact .same rfl fun c hc => h2.mem_iff.1 hc

theorem find_keeps {e : Elem} {t : String} {m : Mode} {o : Option Nat} {e' : Elem} (h : e.findElement t m = .ok (o, e')) : Keeps S e e' := by
  unfold findElement at h
  cases hl : e.lookBehind t with
  | error x => rw [hl] at h; cases h
  | ok x =>
    rw [hl] at h
    cases x with
    | true =>
      simp only [bind, Except.bind, if_true] at h
      cases h
      exact .refl _
    | false =>
      simp only [bind, Except.bind, Bool.false_eq_true, if_false, Except.ok.injEq] at h
      exact search_keeps h

theorem popAttrib_text (e : Elem) (k : String) : (e.popAttrib k).2.text = e.text := by
  unfold popAttrib
  split <;> rfl

theorem popAttrib_elements (e : Elem) (k : String) : (e.popAttrib k).2.elements = e.elements := by
  unfold popAttrib
  split <;> rfl

theorem popAttrib_keeps (e : Elem) (k : String) : Keeps S e (e.popAttrib k).2 :=
  .same (popAttrib_text e k) fun c hc => popAttrib_elements e k ▸ hc

theorem isNil_text (e : Elem) : e.isNil.2.text = e.text := popAttrib_text e nilAttr

theorem fromNative_text (b : Backend) (k : Node) : (fromNative b k).text = k.rootText := by
  cases k <;> rfl

theorem isNil_fresh (b : Backend) (k : Node) (h : k.Nil) : (fromNative b k).isNil.1 = true := by
  cases k with
  | elem tag attrib nsmap text tail children line =>
    have h : attrib.get? nilAttr = some "true" := h
    cases attrib with
    | nil => cases h
    | cons x xs => simp [isNil, popAttrib, fromNative, truthyMap, h]
  | _ => cases h

theorem intact_fresh (b : Backend) {T N : String → Bool} (path : List String) (k : Node) (hk : k.Texted T N) (h : ends T k.tag path = true) :
    Intact path (fromNative b k) := by
  induction path generalizing k with
  | nil => exact (fromNative_text b k ▸ texted_text hk h : truthy (fromNative b k).text = true)
  | cons t p ih =>
    intro c hc ht
    obtain ⟨x, hx, hxc, hr⟩ := (RestOf.ofNode b k).fresh c (by cases k <;> exact hc)
    subst hr
    refine ih x (texted_child hk hx) ?_
    rw [fromNative_tag] at ht
    rw [ht]
    cases p with
    | nil => exact h
    | cons u p => simpa [ends, List.getLast?_cons_cons, List.getLast?_eq_some_getLast] using h

/-- The same for a child that is found for the first time. -/
theorem popChild_agree {f g : St → Out Val × St} (u : String) (m : Mode)
    (h : ∀ k ∈ node.children, k.tag = u → ∀ sm, f ⟨fromNative b k, sm⟩ = g ⟨fromNative b k, sm⟩ ∧ RestOf b k (g ⟨fromNative b k, sm⟩).2.el ∧
      Keeps (fun p => S (u :: p)) (fromNative b k) (g ⟨fromNative b k, sm⟩).2.el) :
    Agree S b node (fun st => match st.el.popElement u m with
      | (none, el) => (.ok .none, { st with el := el })
      | (some i, el) => onChild { st with el := el } i f) (fun st => match st.el.popElement u m with
      | (none, el) => (.ok .none, { st with el := el })
      | (some i, el) => onChild { st with el := el } i g) := by
  intro st hst
  simp only
  cases hs : st.el.popElement u m with
  | mk o e' =>
    obtain ⟨h1, h2⟩ := hst.search hs
    cases o with
    | none => exact ⟨rfl, h1, search_keeps hs⟩
    | some i =>
      obtain ⟨hi, k, hk, hkc, ht, hc⟩ := h2 rfl i rfl
      obtain ⟨g1, g2, g3⟩ := h k hk ht st.sm
      simp only [onChild, hc, g1]
      have hx : (fromNative b k).tag = u := by rw [fromNative_tag, ht]
      refine ⟨trivial, h1.setChild hi hk hkc g2, (search_keeps hs).trans (.setChild hc ?_ (hx.symm ▸ g3))⟩
      rw [g2.tag, fromNative_tag]

theorem descend_agree {f g : St → Out Val × St} (m : Mode) (h : ∀ node : Node, node.Texted T N → Agree S b node f g) (path : List String) :
    ∀ node : Node, node.Texted T N → Agree (fun p => ∀ q, p = path ++ q → S q) b node (descend m f path) (descend m g path) := by
  induction path with
  | nil =>
    intro node hn st hst
    obtain ⟨h1, h2, h3⟩ := h node hn st hst
    exact ⟨h1, h2, h3.mono fun p hp => hp p rfl⟩
  | cons t ts ih =>
    intro node hn st hst
    simp only [descend]
    cases hs : st.el.findElement t m with
    | error x => exact ⟨rfl, hst, .refl _⟩
    | ok r =>
      obtain ⟨o, e'⟩ := r
      obtain ⟨h1, h2⟩ := hst.find hs
      cases o with
      | none => exact ⟨rfl, h1, find_keeps hs⟩
      | some i =>
        obtain ⟨hi, k, hk, hkc, ht, c, hc, hr⟩ := h2 i rfl
        obtain ⟨g1, g2, g3⟩ := ih k (texted_child hn hk) ⟨c, st.sm⟩ hr
        simp only [onChild, hc, g1]
        refine ⟨trivial, h1.setChild hi hk hkc g2, (find_keeps hs).trans (.setChild hc (by rw [g2.tag, hr.tag]) (g3.mono ?_))⟩
        intro p hp q hq
        have hct : c.tag = t := by rw [hr.tag, ht]
        exact hp q (by rw [hct, hq]; rfl)

theorem homogLoop_agree {f g : Loc → St → Out Val × St} (h : ∀ l, Agree S b node (f l) (g l)) (loc : Loc) (n idx : Nat) (acc : List Val)
    (errs : Dict ErrKey VErr) : Agree S b node (homogLoop f loc n idx acc errs) (homogLoop g loc n idx acc errs) := by
  induction n generalizing idx acc errs with
  | zero => exact fun st hst => ⟨rfl, hst, .refl _⟩
  | succ n ih =>
    intro st hst
    obtain ⟨h1, h2, h3⟩ := h (loc ++ [.idx idx]) st hst
    unfold homogLoop
    rw [h1]
    cases hg : g (loc ++ [.idx idx]) st with
    | mk o st' =>
      rw [hg] at h2 h3
      cases o with
      | ok v =>
        simp only
        split
        · exact ⟨rfl, h2, h3⟩
        · obtain ⟨k1, k2, k3⟩ := ih (idx + 1) (acc ++ [v]) errs st' h2
          exact ⟨k1, k2, h3.trans k3⟩
      | verr e =>
        obtain ⟨k1, k2, k3⟩ := ih (idx + 1) acc (errs ++ [(some (.idx idx), e)]) st' h2
        exact ⟨k1, k2, h3.trans k3⟩
      | crash e => exact ⟨rfl, h2, h3⟩
      | diverge => exact ⟨rfl, h2, h3⟩

theorem heteroLoop_agree {f g : Ser → Loc → St → Out Val × St} (loc : Loc) (ss : List Ser) (h : ∀ s ∈ ss, ∀ l, Agree S b node (f s l) (g s l))
    (idx : Nat) (acc : List Val) (errs : Dict ErrKey VErr) : Agree S b node (heteroLoop f loc ss idx acc errs) (heteroLoop g loc ss idx acc errs) := by
  induction ss generalizing idx acc errs with
  | nil => exact fun st hst => ⟨rfl, hst, .refl _⟩
  | cons s ss ih =>
    intro st hst
    obtain ⟨h1, h2, h3⟩ := h s List.mem_cons_self (loc ++ [.idx idx]) st hst
    have ih := ih fun s hs => h s (List.mem_cons_of_mem _ hs)
    unfold heteroLoop
    rw [h1]
    cases hg : g s (loc ++ [.idx idx]) st with
    | mk o st' =>
      rw [hg] at h2 h3
      cases o with
      | ok v =>
        obtain ⟨k1, k2, k3⟩ := ih (idx + 1) (acc ++ [v]) errs st' h2
        exact ⟨k1, k2, h3.trans k3⟩
      | verr e =>
        obtain ⟨k1, k2, k3⟩ := ih (idx + 1) acc (errs ++ [(some (.idx idx), e)]) st' h2
        exact ⟨k1, k2, h3.trans k3⟩
      | crash e => exact ⟨rfl, h2, h3⟩
      | diverge => exact ⟨rfl, h2, h3⟩

theorem unionLoop_agree {f g : Proxy → St → Out Val × St} (title : Title) (ps : List Proxy) (h : ∀ p ∈ ps, Agree S b node (f p) (g p))
    (errs : Dict ErrKey VErr) : Agree S b node (unionLoop f title ps errs) (unionLoop g title ps errs) := by
  induction ps generalizing errs with
  | nil =>
    intro st hst
    unfold unionLoop
    split
    · exact ⟨rfl, hst, .refl _⟩
    · exact ⟨rfl, hst.stepForward, .same rfl fun _ h => h⟩
  | cons p ps ih =>
    intro st hst
    obtain ⟨h1, h2, h3⟩ := h p List.mem_cons_self ⟨st.el.createSnapshot, st.sm⟩ hst
    have ih := ih fun s hs => h s (List.mem_cons_of_mem _ hs)
    unfold unionLoop
    rw [h1]
    cases hg : g p ⟨st.el.createSnapshot, st.sm⟩ with
    | mk o st' =>
      rw [hg] at h2 h3
      cases o with
      | ok v =>
        simp only
        split
        · exact ih errs _ hst
        · exact ⟨rfl, RestOf.intro h2.tag h2.text h2.attrs h2.fresh h2.kids, h3.trans (.same rfl fun _ h => h)⟩
      | verr e => exact ih _ _ hst
      | crash e => exact ⟨rfl, hst, .refl _⟩
      | diverge => exact ⟨rfl, hst, .refl _⟩

theorem taggedLoop_agree {f g : Proxy → St → Out Val × St} (loc : Loc) (a : String) (m : Mode) (alts : List (String × Proxy))
    (h : ∀ p ∈ alts, Agree S b node (f p.2) (g p.2)) : Agree S b node (taggedLoop f loc a m alts) (taggedLoop g loc a m alts) := by
  induction alts with
  | nil => exact fun st hst => ⟨rfl, hst, .refl _⟩
  | cons x alts ih =>
    obtain ⟨tag, p⟩ := x
    intro st hst
    have ih := ih fun s hs => h s (List.mem_cons_of_mem _ hs)
    unfold taggedLoop
    cases hs : st.el.search p.name m false with
    | mk o el =>
      obtain ⟨h1, _⟩ := hst.search hs
      have ht := search_keeps (S := S) hs
      cases o with
      | none =>
        obtain ⟨k1, k2, k3⟩ := ih ⟨el, st.sm⟩ h1
        exact ⟨k1, k2, Keeps.trans ht k3⟩
      | some i =>
        simp only
        cases hc : el.elements[i]? with
        | none => exact ⟨rfl, h1, ht⟩
        | some c =>
          simp only
          split
          · obtain ⟨k1, k2, k3⟩ := h (tag, p) List.mem_cons_self ⟨el, st.sm.set loc c.line⟩ h1
            exact ⟨k1, k2, Keeps.trans ht k3⟩
          · obtain ⟨k1, k2, k3⟩ := ih ⟨el, st.sm⟩ h1
            exact ⟨k1, k2, Keeps.trans ht k3⟩

/-- A text that is not empty is read in the same way. -/
theorem deserText_agree (c nl : Bool) {st : St} (hst : RestOf b node st.el) (ht : truthy st.el.text = true) :
    deserText true c nl st = deserText false c nl st ∧ RestOf b node (deserText false c nl st).2.el ∧
      (deserText false c nl st).2.el.elements = st.el.elements := by
  have key : ∀ t, truthy t = true → textVal true t = textVal false t := by
    intro t h
    cases t with
    | none => cases h
    | some s =>
      simp only [truthy, ne_eq, decide_not, Bool.not_eq_true', decide_eq_false_iff_not] at h
      simp only [textVal, h, if_false]
  unfold deserText
  split
  · exact ⟨rfl, hst, rfl⟩
  · cases nl with
    | false =>
      simp only [Bool.false_eq_true, if_false, popText]
      exact ⟨by rw [key _ ht], hst.popText, by trivial⟩
    | true =>
      simp only [if_true]
      have h1 := isNil_text st.el
      have h2 : RestOf b node st.el.isNil.2 := hst.popAttrib nilAttr
      have h3 : st.el.isNil.2.elements = st.el.elements := popAttrib_elements st.el nilAttr
      cases hn : st.el.isNil with
      | mk x el =>
        rw [hn] at h1 h2 h3
        cases x with
        | true => exact ⟨rfl, h2, h3⟩
        | false =>
          simp only [popText]
          simp only at h1
          exact ⟨by rw [h1, key _ ht], h2.popText, h3⟩

/-- So is an element that is nil, by a nillable field. -/
theorem deserText_nil (c : Bool) {st : St} (hst : RestOf b node st.el) (ht : st.el.isNil.1 = true) :
    deserText true c true st = deserText false c true st ∧ RestOf b node (deserText false c true st).2.el ∧
      (deserText false c true st).2.el.elements = st.el.elements := by
  unfold deserText
  split
  · exact ⟨rfl, hst, rfl⟩
  · simp only [if_true]
    have h2 : RestOf b node st.el.isNil.2 := hst.popAttrib nilAttr
    have h3 : st.el.isNil.2.elements = st.el.elements := popAttrib_elements st.el nilAttr
    cases hn : st.el.isNil with
    | mk x el =>
      rw [hn] at ht h2 h3
      cases ht
      exact ⟨rfl, h2, h3⟩

theorem descend_place {f g : St → Out Val × St} (m : Mode) {p : List String}
    (h : ∀ (node : Node) (st : St), RestOf b node st.el → Intact p st.el → f st = g st ∧ RestOf b node (g st).2.el ∧ Keeps S st.el (g st).2.el)
    (path : List String) : ∀ (node : Node) (st : St), RestOf b node st.el → Intact (path ++ p) st.el →
      descend m f path st = descend m g path st ∧ RestOf b node (descend m g path st).2.el ∧
      Keeps (fun p => ∀ q, p = path ++ q → S q) st.el (descend m g path st).2.el := by
  induction path with
  | nil =>
    intro node st hst hi
    obtain ⟨h1, h2, h3⟩ := h node st hst hi
    exact ⟨h1, h2, h3.mono fun p hp => hp p rfl⟩
  | cons t ts ih =>
    intro node st hst hint
    simp only [descend]
    cases hs : st.el.findElement t m with
    | error x => exact ⟨rfl, hst, .refl _⟩
    | ok r =>
      obtain ⟨o, e'⟩ := r
      obtain ⟨h1, h2⟩ := hst.find hs
      cases o with
      | none => exact ⟨rfl, h1, find_keeps hs⟩
      | some i =>
        obtain ⟨hi, k, hk, hkc, ht, c, hc, hr⟩ := h2 i rfl
        have hct : c.tag = t := by rw [hr.tag, ht]
        have hi' : Intact (t :: ts ++ p) e' := find_keeps (S := fun _ => True) hs _ trivial hint
        obtain ⟨g1, g2, g3⟩ := ih k ⟨c, st.sm⟩ hr (hi' c (List.mem_of_getElem? hc) hct)
        simp only [onChild, hc, g1]
        refine ⟨trivial, h1.setChild hi hk hkc g2, (find_keeps hs).trans (.setChild hc (by rw [g2.tag, hr.tag]) (g3.mono ?_))⟩
        intro p hp q hq
        exact hp q (by rw [hct, hq]; rfl)

/-- The same for a field that is the text of its class or of a wrapper. -/
theorem place_agree (env : Env) (n : Nat) (s : Ser) {p : List String} (hs : s.textPath = some p) (loc : Loc) (node : Node) (st : St)
    (hst : RestOf b node st.el) (hi : Intact p st.el) :
    deser env true n s loc st = deser env false n s loc st ∧ RestOf b node (deser env false n s loc st).2.el ∧
      Keeps s.LeavesText st.el (deser env false n s loc st).2.el := by
  induction n generalizing s p node st with
  | zero => exact ⟨rfl, hst, .refl _⟩
  | succ n ih =>
    cases s with
    | text c nl =>
      cases c with
      | true => cases hs
      | false =>
        cases hs
        obtain ⟨h1, h2, h3⟩ := deserText_agree false nl hst hi
        exact ⟨h1, h2, .text (by simp [Ser.LeavesText]) h3⟩
    | primUnion c inner =>
      cases c with
      | true => cases hs
      | false =>
        obtain ⟨h1, h2, h3⟩ := ih inner (p := p) hs node st hst hi
        exact ⟨h1, h2, h3.mono fun p hp => by simpa [Ser.LeavesText] using hp⟩
    | wrap path ns m c inner =>
      cases c with
      | true => cases hs
      | false =>
        simp only [Ser.textPath, Option.map_eq_some_iff] at hs
        obtain ⟨q, hq, rfl⟩ := hs
        obtain ⟨h1, h2, h3⟩ := descend_place (S := inner.LeavesText) (f := fun k => deser env true n inner loc { k with sm := k.sm.set loc k.el.line })
          (g := fun k => deser env false n inner loc { k with sm := k.sm.set loc k.el.line }) m (p := q)
          (fun node st hst hi => ih inner hq node ⟨st.el, st.sm.set loc st.el.line⟩ hst hi) path node st hst hi
        exact ⟨h1, h2, h3.mono fun p hp => by simpa [Ser.LeavesText] using hp⟩
    | _ => cases hs

theorem deserAttrs_agree (a : AttrsSer) : Agree S b node (deserAttrs a) (deserAttrs a) := by
  intro st hst
  refine ⟨rfl, ?_⟩
  unfold deserAttrs
  split
  · exact ⟨hst, .refl _⟩
  · have h := hst.popAttributes
    cases hp : st.el.popAttributes with
    | mk o el =>
      rw [hp] at h
      have ht : Keeps S st.el el := by cases hp; exact .same rfl fun _ h => h
      cases o with
      | none => exact ⟨h, ht⟩
      | some d => exact ⟨h, ht⟩

variable {env : Env}

/-- The fields of a class: a text that is read has not been read before. -/
theorem deserFields_agree {n : Nat}
    (ih : ∀ s : Ser, s.ReadsTextsOf env T N → ∀ l, Agree s.LeavesText b node (deser env true n s l) (deser env false n s l)) (fs : List Field)
    (hno : ∀ f ∈ fs, f.validator = none) (h1 : ∀ f ∈ fs, f.ser.textPath.isSome = true ∨ f.ser.ReadsTextsOf env T N)
    (h2 : fs.Pairwise fun f g => ∀ path, g.ser.textPath = some path → f.ser.LeavesText path) (res : Dict String Val) (errs : Dict ErrKey VErr) (st : St)
    (hst : RestOf b node st.el) (ht : ∀ f ∈ fs, ∀ path, f.ser.textPath = some path → Intact path st.el) :
    deserFields (deser env true n) fs res errs st = deserFields (deser env false n) fs res errs st ∧
      RestOf b node (deserFields (deser env false n) fs res errs st).2.el := by
  induction fs generalizing res errs st with
  | nil => exact ⟨rfl, hst⟩
  | cons f fs ihf =>
    have hv := hno f List.mem_cons_self
    obtain ⟨s1, s2, s3⟩ : deser env true n f.ser [.name f.name] ⟨st.el, st.sm.set [.name f.name] st.el.line⟩ =
          deser env false n f.ser [.name f.name] ⟨st.el, st.sm.set [.name f.name] st.el.line⟩ ∧
        RestOf b node (deser env false n f.ser [.name f.name] ⟨st.el, st.sm.set [.name f.name] st.el.line⟩).2.el ∧
        Keeps f.ser.LeavesText st.el (deser env false n f.ser [.name f.name] ⟨st.el, st.sm.set [.name f.name] st.el.line⟩).2.el := by
      cases hp : f.ser.textPath with
      | some p => exact place_agree env n f.ser hp [.name f.name] node ⟨st.el, st.sm.set [.name f.name] st.el.line⟩ hst (ht f List.mem_cons_self p hp)
      | none =>
        have hr := (h1 f List.mem_cons_self).resolve_left (by rw [hp]; exact Bool.false_ne_true)
        exact ih f.ser hr [.name f.name] ⟨st.el, st.sm.set [.name f.name] st.el.line⟩ hst
    obtain ⟨h3, h4⟩ := List.pairwise_cons.1 h2
    have ihf := ihf (fun f hf => hno f (List.mem_cons_of_mem _ hf)) (fun f hf => h1 f (List.mem_cons_of_mem _ hf)) h4
    have next : ∀ g ∈ fs, ∀ path, g.ser.textPath = some path →
        Intact path (deser env false n f.ser [.name f.name] ⟨st.el, st.sm.set [.name f.name] st.el.line⟩).2.el :=
      fun g hg path hp => s3 path (h3 g hg path hp) (ht g (List.mem_cons_of_mem _ hg) path hp)
    simp only [deserFields, hv, s1]
    cases hg : deser env false n f.ser [.name f.name] ⟨st.el, st.sm.set [.name f.name] st.el.line⟩ with
    | mk o st' =>
      rw [hg] at s2 next
      cases o with
      | ok v => exact ihf _ _ st' s2 next
      | verr e => exact ihf _ _ st' s2 next
      | crash e => exact ⟨rfl, s2⟩
      | diverge => exact ⟨rfl, s2⟩

/-- A whole class. -/
theorem deserModel_agree (hno : env.NoValidators) (hr : env.ReadsTextsOf T N) {n : Nat}
    (ih : ∀ s : Ser, s.ReadsTextsOf env T N → ∀ l, Agree s.LeavesText b node (deser env true n s l) (deser env false n s l)) {cls : String} {m : ModelSer}
    (hm : env.model cls = some m) (loc : Loc) (st : St) (hst : RestOf b node st.el) (ht : ∀ path ∈ m.textPaths, Intact path st.el) :
    deserModel env (deser env true n) cls m loc st = deserModel env (deser env false n) cls m loc st ∧
      RestOf b node (deserModel env (deser env false n) cls m loc st).2.el := by
  have hc := hr cls m hm
  unfold ModelSer.ReadsTextsOf at hc
  unfold ModelSer.textPaths at ht
  unfold deserModel
  cases hb : m.body with
  | fields fs =>
    rw [hb] at hc ht
    obtain ⟨g1, g2⟩ := deserFields_agree ih fs (hno cls m fs hm hb) hc.1 hc.2 [] [] st hst
      fun f hf path hp => ht path (List.mem_filterMap.2 ⟨f, hf, hp⟩)
    dsimp only
    rw [g1]
    cases hg : deserFields (deser env false n) fs [] [] st with
    | mk o st' =>
      rw [hg] at g2
      cases o with
      | ok r =>
        obtain ⟨r, es⟩ := r
        simp only
        split
        · exact ⟨by trivial, g2⟩
        · exact ⟨by trivial, g2⟩
      | verr e => exact ⟨rfl, g2⟩
      | crash e => exact ⟨rfl, g2⟩
      | diverge => exact ⟨rfl, g2⟩
  | root s =>
    rw [hb] at hc ht
    have hx : deser env true n s loc st = deser env false n s loc st ∧ RestOf b node (deser env false n s loc st).2.el := by
      cases hp : s.textPath with
      | some p =>
        obtain ⟨a1, a2, _⟩ := place_agree env n s hp loc node st hst (ht p (by simp [hp]))
        exact ⟨a1, a2⟩
      | none =>
        obtain ⟨a1, a2, _⟩ := ih s (hc.resolve_left (by rw [hp]; exact Bool.false_ne_true)) loc st hst
        exact ⟨a1, a2⟩
    obtain ⟨g1, g2⟩ := hx
    dsimp only
    rw [g1]
    cases hg : deser env false n s loc st with
    | mk o st' =>
      rw [hg] at g2
      cases o <;> exact ⟨rfl, g2⟩

theorem deser_agree (hno : env.NoValidators) (hr : env.ReadsTextsOf T N) (n : Nat) (node : Node) (hn : node.Texted T N) (s : Ser)
    (hs : s.ReadsTextsOf env T N) (loc : Loc) : Agree s.LeavesText env.backend node (deser env true n s loc) (deser env false n s loc) := by
  induction n generalizing node s loc with
  | zero => exact fun st hst => ⟨by trivial, hst, .refl _⟩
  | succ n ih =>
    intro st hst
    change deserStep env true (deser env true n) n s loc st = deserStep env false (deser env false n) n s loc st ∧
      RestOf _ node (deserStep env false (deser env false n) n s loc st).2.el ∧
      Keeps s.LeavesText st.el (deserStep env false (deser env false n) n s loc st).2.el
    unfold Ser.ReadsTextsOf at hs
    unfold deserStep
    cases s with
    | text c nl =>
      simp only [Ser.everywhere_text] at hs
      subst hs
      exact ⟨by trivial, hst, .refl _⟩
    | attr nm c =>
      simp only
      split
      · exact ⟨by trivial, hst, .refl _⟩
      · have h1 := hst.popAttrib nm
        have h2 := popAttrib_keeps (S := (Ser.attr nm c).LeavesText) st.el nm
        cases hp : st.el.popAttrib nm with
        | mk o e' =>
          rw [hp] at h1 h2
          cases o <;> exact ⟨by trivial, h1, h2⟩
    | elem nm ns m c nl =>
      simp only [Ser.everywhere_elem] at hs
      simp only
      split
      · exact ⟨by trivial, hst, .refl _⟩
      · rename_i hc
        refine popChild_agree (f := fun k => deserText true c nl { k with sm := k.sm.set loc k.el.line })
          (g := fun k => deserText false c nl { k with sm := k.sm.set loc k.el.line }) nm m ?_ st hst
        intro k hk ht sm
        have hcase : truthy k.rootText = true ∨ nl = true ∧ k.Nil := by
          rcases hs.resolve_left hc with h | ⟨h1, h2⟩
          · exact .inl (texted_text (texted_child hn hk) (ht ▸ h))
          · exact (texted_nil (texted_child hn hk) (ht ▸ h2)).imp id fun h => ⟨h1, h⟩
        rcases hcase with h | ⟨rfl, h⟩
        · obtain ⟨a1, a2, a3⟩ := deserText_agree (st := ⟨fromNative env.backend k, sm.set loc (fromNative env.backend k).line⟩) c nl
            (RestOf.ofNode env.backend k) (by
              simp only [fromNative_text]
              exact h)
          exact ⟨a1, a2, .text (by simp [Ser.LeavesText]) a3⟩
        · obtain ⟨a1, a2, a3⟩ := deserText_nil (st := ⟨fromNative env.backend k, sm.set loc (fromNative env.backend k).line⟩) c
            (RestOf.ofNode env.backend k) (isNil_fresh env.backend k h)
          exact ⟨a1, a2, .text (by simp [Ser.LeavesText]) a3⟩
    | attrs a => exact deserAttrs_agree a st hst
    | mapElem a nm m =>
      simp only
      split
      · exact ⟨by trivial, hst, .refl _⟩
      · refine ⟨by trivial, (popChild_agree (f := fun k => deserAttrs a { k with sm := k.sm.set loc k.el.line })
          (g := fun k => deserAttrs a { k with sm := k.sm.set loc k.el.line }) nm m ?_ st hst).2⟩
        intro k hk ht sm
        exact deserAttrs_agree a ⟨fromNative env.backend k, sm.set loc (fromNative env.backend k).line⟩ (RestOf.ofNode env.backend k)
    | raw nm m c =>
      simp only
      split
      · exact ⟨by trivial, hst, .refl _⟩
      · refine ⟨trivial, ?_⟩
        simp only [popElementRemove, popElement]
        cases hq : st.el.search nm m true with
        | mk o e' =>
          obtain ⟨h1, h2⟩ := hst.search hq
          have h3 := search_keeps (S := (Ser.raw nm m c).LeavesText) hq
          cases o with
          | none => exact ⟨h1, h3⟩
          | some i =>
            obtain ⟨hi, k, hk, hkc, ht, hc⟩ := h2 rfl i rfl
            simp only [hc]
            refine ⟨h1.setChild hi hk hkc ?_, h3.trans (.setChild hc rfl fun p hp _ => ?_)⟩
            rotate_left
            · cases p with
              | nil =>
                rw [fromNative_tag, ht] at hp
                exact absurd rfl hp
              | cons u p => exact fun c hc => by simp [hollow] at hc
            exact RestOf.intro (fromNative_tag env.backend k) (.inl rfl) (by simp [hollow]) (by simp [hollow, unread]) (by simp [hollow])
    | proxy p =>
      simp only [Ser.everywhere_proxy] at hs
      simp only
      cases hm : env.model p.cls with
      | none => exact ⟨by trivial, hst, .refl _⟩
      | some m =>
        simp only
        split
        · exact ⟨by trivial, hst, .refl _⟩
        · rename_i hp
          refine popChild_agree p.name p.mode ?_ st hst
          intro k hk ht sm
          have hr' : RestOf env.backend k (fromNative env.backend k).isNil.2 := (RestOf.ofNode env.backend k).popAttrib nilAttr
          simp only
          cases hq : (fromNative env.backend k).isNil with
          | mk x el =>
            rw [hq] at hr'
            cases x with
            | true => exact ⟨rfl, hr', fun q hq => absurd rfl hq⟩
            | false =>
              obtain ⟨a1, a2⟩ := deserModel_agree hno hr (fun s hs l => ih k (texted_child hn hk) s hs l) hm loc ⟨el, sm.set loc (fromNative env.backend k).line⟩ hr' (by
                intro path hpath
                have h : Intact path (fromNative env.backend k) := by
                  rcases (hs.resolve_left hp) m hm path hpath with h | ⟨rfl, h⟩
                  · exact intact_fresh env.backend path k (texted_child hn hk) (ht ▸ h)
                  · rcases texted_nil (texted_child hn hk) (ht ▸ h) with h | h
                    · exact (fromNative_text env.backend k ▸ h : truthy (fromNative env.backend k).text = true)
                    · have := isNil_fresh env.backend k h
                      rw [hq] at this
                      cases this
                have h' := popAttrib_keeps (S := fun _ => True) (fromNative env.backend k) nilAttr path trivial h
                have he : ((fromNative env.backend k).popAttrib nilAttr).2 = el := congrArg Prod.snd hq
                exact he ▸ h')
              exact ⟨a1, a2, fun q hq => absurd rfl hq⟩
    | primUnion c s =>
      simp only [Ser.everywhere_primUnion] at hs
      simp only
      split
      · exact ⟨by trivial, hst, .refl _⟩
      · exact ih node hn s hs.2 loc st hst
    | modelUnion title c alts =>
      simp only [Ser.everywhere_modelUnion] at hs
      simp only
      split
      · exact ⟨by trivial, hst, .refl _⟩
      · exact unionLoop_agree title alts (fun p hp => ih node hn (.proxy p) (Ser.everywhere_proxy.2 (hs.2 p hp)) loc |>.mono fun q hq => by
          simp only [Ser.LeavesText] at hq ⊢
          exact hq p hp) [] st hst
    | tagged c d a m alts =>
      simp only [Ser.everywhere_tagged] at hs
      simp only
      split
      · exact ⟨by trivial, hst, .refl _⟩
      · exact taggedLoop_agree loc a m alts (fun p hp => ih node hn (.proxy p.2) (Ser.everywhere_proxy.2 (hs.2 p hp)) loc |>.mono fun q hq => by
          simp only [Ser.LeavesText] at hq ⊢
          exact hq p hp) st hst
    | wrap path ns m c s =>
      simp only [Ser.everywhere_wrap] at hs
      simp only
      split
      · exact ⟨by trivial, hst, .refl _⟩
      · exact descend_agree (T := T) (N := N) (f := fun k => deser env true n s loc { k with sm := k.sm.set loc k.el.line })
          (g := fun k => deser env false n s loc { k with sm := k.sm.set loc k.el.line }) m
          (fun node hn st hst => ih node hn s hs.2 loc ⟨st.el, st.sm.set loc st.el.line⟩ hst) path node hn st hst
    | homog title c s =>
      simp only [Ser.everywhere_homog] at hs
      simp only
      split
      · exact ⟨by trivial, hst, .refl _⟩
      · obtain ⟨h1, h2, h3⟩ := homogLoop_agree (fun l => ih node hn s hs.2 l) loc n 0 [] [] st hst
        rw [h1]
        cases hf : homogLoop (fun l st => deser env false n s l st) loc n 0 [] [] st with
        | mk o s1 =>
          rw [hf] at h2 h3
          cases o <;> exact ⟨rfl, h2, h3⟩
    | hetero title c ss =>
      simp only [Ser.everywhere_hetero] at hs
      simp only
      split
      · exact ⟨by trivial, hst, .refl _⟩
      · obtain ⟨h1, h2, h3⟩ := heteroLoop_agree (S := (Ser.hetero title c ss).LeavesText) loc ss (fun s hs' l => (ih node hn s (hs.2 s hs') l).mono fun q hq => by
          simp only [Ser.LeavesText] at hq
          exact leavesTextAll hq s hs') 0 [] [] st hst
        rw [h1]
        cases hf : heteroLoop (deser env false n) loc ss 0 [] [] st with
        | mk o s1 =>
          rw [hf] at h2 h3
          cases o <;> exact ⟨rfl, h2, h3⟩

end EmptyString
end PXml
