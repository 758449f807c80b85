import Verif.Lemmas.Content
import Verif.Lemmas.Everywhere
import Verif.Lemmas.NoCrash
import Verif.SpecIndent

/-!
# Simulation

Two elements are read alike if a relation `E` between them is respected by every elementary operation of the reader:
the outcomes are then equal (line numbers up to `norm`).  Used for comments, foreign elements, the order of children,
white space, the two backends, and for the flow of strings into validation.
-/

namespace PXml

open Elem

/-- What may be looked for: the tags with the search mode, the attributes, whether all attributes may be taken, the tags of elements
whose text may be taken, and the classes that may take the text of their element. -/
structure Looks where
  tag : String → Mode → Prop
  attr : String → Prop
  attrs : Prop
  text : String → Prop
  own : String → Prop

instance : CoeFun Looks (fun _ => String → Mode → Prop) := ⟨Looks.tag⟩

/-- Only tags are restricted. -/
abbrev Looks.tags (T : String → Mode → Prop) : Looks := ⟨T, fun _ => True, True, fun _ => True, fun _ => True⟩

/-- Nothing is restricted. -/
abbrev Looks.any : Looks := .tags fun _ _ => True

/-- The serializer only searches for allowed tags and attributes and is of an allowed kind. -/
def Ser.Allowed (T : Looks) (raw union : Prop) (s : Ser) : Prop :=
  (∀ t ∈ s.searches, T t.1 t.2) ∧ (match s with
    | .raw .. => raw
    | .modelUnion .. => union
    | .attr name _ => T.attr name
    | .attrs _ => T.attrs
    | .mapElem _ _ _ => T.attrs
    | .tagged _ _ attrName _ _ => T.attr attrName
    | .elem name _ _ _ _ => T.text name
    | .proxy p => T.own p.cls → T.text p.name
    | .wrap path _ _ _ inner => inner.OwnText → ∀ t ∈ path.getLast?, T.text t
    | _ => True)

namespace Elem

theorem findElement_index {e : Elem} {t : String} {m : Mode} {i : Nat} {e' : Elem}
    (h : e.findElement t m = .ok (some i, e')) : ∃ c, e'.elements[i]? = some c ∧ c.tag = t := by
  unfold findElement at h
  cases hl : e.lookBehind t with
  | error x => rw [hl] at h; cases h
  | ok b =>
    rw [hl] at h
    cases b with
    | true =>
      simp only [bind, Except.bind, if_true, Except.ok.injEq, Prod.mk.injEq, Option.some.injEq] at h
      obtain ⟨rfl, rfl⟩ := h
      unfold lookBehind at hl
      split at hl
      · cases hl
      · split at hl
        · rename_i c hc
          simp at hl
          exact ⟨c, hc, hl⟩
        · cases hl
    | false =>
      simp only [bind, Except.bind] at h
      injection h with h
      obtain ⟨c, hc, ht, _⟩ := search_index h
      exact ⟨c, hc, ht⟩

end Elem

theorem Ser.ownTextAny_of_mem {s : Ser} {ss : List Ser} (h : s ∈ ss) (ho : s.OwnText) : Ser.OwnTextAny ss := by
  induction ss with
  | nil => cases h
  | cons t ss ih =>
    simp only [Ser.OwnTextAny]
    rcases List.mem_cons.1 h with rfl | h
    · exact .inl ho
    · exact .inr (ih h)

/-- Children `i1`, `i2` are related and may be replaced by related ones with the same tags. -/
def Hit (E : Elem → Elem → Prop) (e1 : Elem) (i1 : Nat) (e2 : Elem) (i2 : Nat) : Prop :=
  ∃ c1 c2, e1.elements[i1]? = some c1 ∧ e2.elements[i2]? = some c2 ∧ E c1 c2 ∧
    ∀ c1' c2', E c1' c2' → c1'.tag = c1.tag → c2'.tag = c2.tag → E (e1.setChild i1 c1') (e2.setChild i2 c2')

/-- Both searches fail, or both find related children. -/
def SearchRel (E : Elem → Elem → Prop) : Option Nat × Elem → Option Nat × Elem → Prop
  | (none, e1), (none, e2) => E e1 e2
  | (some i1, e1), (some i2, e2) => E e1 e2 ∧ Hit E e1 i1 e2 i2
  | _, _ => False

/-- The same value with the property `P`, the same error up to lines, the same exception, or both out of fuel. -/
def OutRel (P : Val → Prop) (norm : Int → Int) : Out Val → Out Val → Prop
  | .ok v, .ok w => v = w ∧ P v
  | .verr e, .verr f => e.lines norm = f.lines norm
  | .crash e, .crash f => e = f
  | .diverge, .diverge => True
  | _, _ => False

/-- Source maps know the same lines, up to `norm` (an unknown line counts as -1). -/
def SmRel (norm : Int → Int) (d d' : SMap) : Prop := ∀ k, norm ((d.get? k).getD (-1)) = norm ((d'.get? k).getD (-1))

/-- The lines of equal source maps. -/
theorem lines_id {sm1 sm2 : SMap} (h : SmRel id sm1 sm2) (loc : Loc) : id (lineFor sm1 loc) = id (lineFor sm2 loc) := by
  have key : ∀ l, lineForRev sm1 l = lineForRev sm2 l := by
    intro l
    induction l with
    | nil => rfl
    | cons p ps ih =>
      have h1 := h (p :: ps).reverse
      simp only [lineForRev]
      cases h2 : sm1.get? (p :: ps).reverse <;> cases h3 : sm2.get? (p :: ps).reverse <;> rw [h2, h3] at h1 <;>
        simp only [id, Option.getD_none, Option.getD_some] at h1 <;> simp only [ih] <;> (try split) <;> grind
  simp only [id, lineFor, key]

/-- The elementary operations of the reader respect the relation. -/
structure Sim (env1 env2 : Env) (eas : Bool) (T : Looks) (raw union forbid : Prop)
    (E : Elem → Elem → Prop) (P : Val → Prop) (norm : Int → Int) : Prop where
  models : env1.model = env2.model
  line : ∀ e1 e2, E e1 e2 → norm e1.line = norm e2.line
  lines : ∀ sm1 sm2 : SMap, SmRel norm sm1 sm2 → ∀ loc, norm (lineFor sm1 loc) = norm (lineFor sm2 loc)
  text : ∀ e1 e2, T.text e1.tag → E e1 e2 → textVal eas e1.text = textVal eas e2.text ∧ P (textVal eas e1.text) ∧
    E e1.popText.2 e2.popText.2
  owns : ∀ cls m, env1.model cls = some m → m.OwnText → T.own cls
  nil : T.attr nilAttr
  attrib : ∀ e1 e2 k, T.attr k → E e1 e2 → (e1.popAttrib k).1 = (e2.popAttrib k).1 ∧
    (∀ v, (e1.popAttrib k).1 = some v → P (.str v)) ∧ E (e1.popAttrib k).2 (e2.popAttrib k).2
  attributes : T.attrs → ∀ e1 e2, E e1 e2 → e1.attrib = e2.attrib ∧
    (∀ d (ns : Bool), e1.attrib = some d → P (.dict (Dict.ofItems (d.map fun kv =>
      (if ns then (QName.fromUri kv.1).tag else kv.1, Val.str kv.2))))) ∧ E e1.popAttributes.2 e2.popAttributes.2
  search : ∀ e1 e2 t m step, T t m → E e1 e2 → SearchRel E (e1.search t m step) (e2.search t m step)
  find : ∀ e1 e2 t m, T t m → E e1 e2 →
    (∃ x, e1.findElement t m = .error x ∧ e2.findElement t m = .error x) ∨
    (∃ r1 r2, e1.findElement t m = .ok r1 ∧ e2.findElement t m = .ok r2 ∧ SearchRel E r1 r2)
  step : union → ∀ e1 e2, E e1 e2 → (∃ t m, T t m ∧ (e1.search t m true).1 ≠ none) → E e1.stepForward e2.stepForward
  snapshot : ∀ e1 e2 s1 s2, E e1 e2 → E s1 s2 → E (e1.applySnapshot s1) (e2.applySnapshot s2)
  rawElem : raw → ∀ e1 e2 i1 i2 c1 c2, E e1 e2 → Hit E e1 i1 e2 i2 → e1.elements[i1]? = some c1 →
    e2.elements[i2]? = some c2 → toNative env1.backend c1.detached = toNative env2.backend c2.detached ∧
      P (.raw (toNative env1.backend c1.detached)) ∧ E (e1.setChild i1 c1.hollow) (e2.setChild i2 c2.hollow)
  none : P .none
  list : ∀ vs, (∀ v ∈ vs, P v) → P (.list vs)
  model : ∀ cls fs set, P (.model cls fs set)
  validate : ∀ cls m d, env1.model cls = some m → m.DataOf P d → env1.validate cls d = env2.validate cls d
  extra : forbid → ∀ title e1 e2, E e1 e2 →
    (checkExtra title e1).map (VErr.lines norm) = (checkExtra title e2).map (VErr.lines norm)
  forbids : ∀ cls m, env1.model cls = some m → m.extraForbid = true → forbid
  validators : ∀ cls m fs, env1.model cls = some m → m.body = .fields fs → ∀ f ∈ fs, ∀ v, f.validator = some v →
    ∀ e1 e2, E e1 e2 → OutRel P norm (v e1).1 (v e2).1 ∧ E (v e1).2 (v e2).2
  keeps : ∀ cls m fs, env1.model cls = some m → m.body = .fields fs → ∀ f ∈ fs, ∀ v, f.validator = some v →
    ∀ e, SameChildren e (v e).2

section
variable {norm : Int → Int}

theorem VErr.lines_title (e : VErr) : (e.lines norm).title = e.title := rfl

theorem errs_set_lines {d d' : Dict ErrKey VErr}
    (h : (d.map fun kv => (kv.1, kv.2.lines norm)) = d'.map fun kv => (kv.1, kv.2.lines norm)) (k : ErrKey) {e e' : VErr}
    (he : e.lines norm = e'.lines norm) :
    ((d.set k e).map fun kv => (kv.1, kv.2.lines norm)) = (d'.set k e').map fun kv => (kv.1, kv.2.lines norm) := by
  induction d generalizing d' with
  | nil =>
    cases d' with
    | nil => simp [Dict.set, he]
    | cons y d' => simp at h
  | cons x d ih =>
    cases d' with
    | nil => simp at h
    | cons y d' =>
      obtain ⟨k1, v1⟩ := x
      obtain ⟨k2, v2⟩ := y
      simp only [List.map_cons, List.cons.injEq, Prod.mk.injEq] at h
      obtain ⟨⟨rfl, h2⟩, h3⟩ := h
      simp only [Dict.set]
      split
      · simp [he, h3]
      · simp [h2, ih h3]

theorem sm_set_lines {d d' : SMap} (h : SmRel norm d d') (k : Loc) {l l' : Int} (he : norm l = norm l') :
    SmRel norm (d.set k l) (d'.set k l') := by
  intro k'
  simp only [Dict.get?_set]
  split
  · exact he
  · exact h k'

theorem intoValidationError_lines (title : Title) (d : Dict ErrKey VErr) :
    (intoValidationError title d).lines norm = intoValidationError title (d.map fun kv => (kv.1, kv.2.lines norm)) := by
  simp only [intoValidationError, VErr.lines, VErr.mk.injEq, true_and]
  induction d with
  | nil => rfl
  | cons x d ih =>
    obtain ⟨k, e⟩ := x
    simp only [List.flatMap_cons, List.map_append, List.map_cons, ih, List.map_map]
    congr 1
    apply List.map_congr_left
    intro l _
    cases k <;> rfl

theorem isEmpty_lines {d d' : Dict ErrKey VErr}
    (h : (d.map fun kv => (kv.1, kv.2.lines norm)) = d'.map fun kv => (kv.1, kv.2.lines norm)) :
    d.isEmpty = d'.isEmpty := by
  cases d <;> cases d' <;> simp at h ⊢
end

/-- Errors gathered so far agree up to lines. -/
def ErrsRel (norm : Int → Int) (d d' : Dict ErrKey VErr) : Prop :=
  (d.map fun kv => (kv.1, kv.2.lines norm)) = d'.map fun kv => (kv.1, kv.2.lines norm)

/-- The states are related. -/
def StRel (E : Elem → Elem → Prop) (norm : Int → Int) (s1 s2 : St) : Prop := E s1.el s2.el ∧ SmRel norm s1.sm s2.sm

/-- Results of loops over items. -/
def LoopRel (P : Val → Prop) (norm : Int → Int) : Out (List Val × Dict ErrKey VErr) → Out (List Val × Dict ErrKey VErr) → Prop
  | .ok r, .ok r' => r.1 = r'.1 ∧ (∀ v ∈ r.1, P v) ∧ ErrsRel norm r.2 r'.2
  | .verr e, .verr f => e.lines norm = f.lines norm
  | .crash e, .crash f => e = f
  | .diverge, .diverge => True
  | _, _ => False

/-- Results of the loop over fields. -/
def FieldsRel (fs : List Field) (P : Val → Prop) (norm : Int → Int) :
    Out (Dict String Val × Dict ErrKey VErr) → Out (Dict String Val × Dict ErrKey VErr) → Prop
  | .ok r, .ok r' => r.1 = r'.1 ∧ (∀ kv ∈ r.1, P kv.2 ∧ ∃ f ∈ fs, kv.1 = f.alias.getD f.name) ∧ ErrsRel norm r.2 r'.2
  | .verr e, .verr f => e.lines norm = f.lines norm
  | .crash e, .crash f => e = f
  | .diverge, .diverge => True
  | _, _ => False

section
variable {env1 env2 : Env} {eas : Bool} {T : Looks} {raw union forbid : Prop}
  {E : Elem → Elem → Prop} {P : Val → Prop} {norm : Int → Int}

/-- Two reader functions agree on related states of an element with a tag in `X`. -/
def Agree (X : String → Prop) (E : Elem → Elem → Prop) (P : Val → Prop) (norm : Int → Int) (f g : St → Out Val × St) : Prop :=
  ∀ s1 s2, X s1.el.tag → StRel E norm s1 s2 → OutRel P norm (f s1).1 (g s2).1 ∧ StRel E norm (f s1).2 (g s2).2

/-- The function keeps the tag of the element. -/
def KeepsTag (f : St → Out Val × St) : Prop := ∀ st, (f st).2.el.tag = st.el.tag

theorem onChild_agree {X : String → Prop} {f g : St → Out Val × St} (h : Agree X E P norm f g) (hf : KeepsTag f) (hg : KeepsTag g)
    {s1 s2 : St} {i1 i2 : Nat} (hs : SmRel norm s1.sm s2.sm) (hh : Hit E s1.el i1 s2.el i2)
    (hX : ∃ c, s1.el.elements[i1]? = some c ∧ X c.tag) :
    OutRel P norm (onChild s1 i1 f).1 (onChild s2 i2 g).1 ∧ StRel E norm (onChild s1 i1 f).2 (onChild s2 i2 g).2 := by
  obtain ⟨c1, c2, h1, h2, h3, h4⟩ := hh
  obtain ⟨c, hc, hX⟩ := hX
  rw [h1] at hc
  injection hc with hc
  subst hc
  unfold onChild
  simp only [h1, h2]
  obtain ⟨h5, h6, h7⟩ := h ⟨c1, s1.sm⟩ ⟨c2, s2.sm⟩ hX ⟨h3, hs⟩
  exact ⟨h5, h4 _ _ h6 (hf _) (hg _), h7⟩

variable (S : Sim env1 env2 eas T raw union forbid E P norm)
include S

theorem Sim.isNil {e1 e2 : Elem} (h : E e1 e2) : e1.isNil.1 = e2.isNil.1 ∧ E e1.isNil.2 e2.isNil.2 := by
  obtain ⟨h1, h2, h3⟩ := S.attrib e1 e2 nilAttr S.nil h
  exact ⟨by simp only [Elem.isNil, h1], h3⟩

theorem deserText_agree (c n : Bool) : Agree (fun t => c = false → T.text t) E P norm (deserText eas c n) (deserText eas c n) := by
  intro s1 s2 hX h
  unfold deserText
  split
  · exact ⟨⟨rfl, S.none⟩, h⟩
  · rename_i hc
    have hX := hX (by simpa using hc)
    have key : ∀ e1 e2, e1.tag = s1.el.tag → E e1 e2 →
        OutRel P norm (.ok (textVal eas e1.popText.1)) (.ok (textVal eas e2.popText.1)) ∧
        StRel E norm { s1 with el := e1.popText.2 } { s2 with el := e2.popText.2 } := by
      intro e1 e2 ht he
      obtain ⟨h1, h2, h3⟩ := S.text e1 e2 (ht ▸ hX) he
      exact ⟨⟨h1, h2⟩, h3, h.2⟩
    cases n with
    | false => exact key _ _ rfl h.1
    | true =>
      simp only [if_true]
      obtain ⟨h1, h2⟩ := S.isNil h.1
      have ht := (sameChildren_rel.isNil s1.el).1
      cases hn1 : s1.el.isNil with
      | mk b1 el1 =>
        cases hn2 : s2.el.isNil with
        | mk b2 el2 =>
          rw [hn1] at ht
          rw [hn1, hn2] at h1 h2
          simp only at h1 h2
          subst h1
          cases b1 with
          | true => exact ⟨⟨rfl, S.none⟩, h2, h.2⟩
          | false => exact key _ _ ht h2

theorem deserAttrs_agree (hA : T.attrs) (a : AttrsSer) : Agree (fun _ => True) E P norm (deserAttrs a) (deserAttrs a) := by
  intro s1 s2 _ h
  unfold deserAttrs
  split
  · exact ⟨⟨rfl, S.none⟩, h⟩
  · obtain ⟨h1, h2, h3⟩ := S.attributes hA _ _ h.1
    simp only [popAttributes] at h3 ⊢
    rw [← h1]
    cases ha : s1.el.attrib with
    | none => exact ⟨⟨rfl, S.none⟩, h3, h.2⟩
    | some d => exact ⟨⟨rfl, h2 d a.namespaced ha⟩, h3, h.2⟩

theorem descend_agree {X : String → Prop} {f g : St → Out Val × St} (h : Agree X E P norm f g) (hf : KeepsTag f) (hg : KeepsTag g)
    (mode : Mode) (path : List String) (hp : ∀ t ∈ path, T t mode) (hX : ∀ t ∈ path.getLast?, X t) :
    Agree (fun t => path = [] → X t) E P norm (descend mode f path) (descend mode g path) := by
  induction path with
  | nil => exact fun s1 s2 hX => h s1 s2 (hX rfl)
  | cons t ts ih =>
    have ih := ih (fun x hx => hp x (by simp [hx])) (by
      intro x hx
      cases ts with
      | nil => cases hx
      | cons y ys => exact hX x (by simpa using hx))
    have ht : ts = [] → X t := by rintro rfl; exact hX t rfl
    intro s1 s2 _ hs
    have k1 : ∀ {f}, KeepsTag f → KeepsTag (descend mode f ts) := by
      intro f hf st
      exact (descend_rel (R := fun e e' => e'.tag = e.tag)
        ⟨fun _ => rfl, fun h1 h2 => h2.trans h1, fun e => rfl, fun e k => (sameChildren_rel.popAttrib e k).1,
          fun e => rfl, fun e t m s => (sameChildren_rel.search e t m s).1, fun _ _ _ _ _ _ => rfl, fun _ _ => rfl,
          fun _ _ h => h, fun _ _ _ _ => rfl⟩ hf mode ts st)
    unfold descend
    rcases S.find _ _ t mode (hp t (by simp)) hs.1 with ⟨x, h1, h2⟩ | ⟨r1, r2, h1, h2, h3⟩
    · rw [h1, h2]; exact ⟨rfl, hs⟩
    · rw [h1, h2]
      obtain ⟨o1, e1⟩ := r1
      obtain ⟨o2, e2⟩ := r2
      cases o1 <;> cases o2 <;> simp only [SearchRel] at h3
      · exact ⟨⟨rfl, S.none⟩, h3, hs.2⟩
      · obtain ⟨c, hc, hct⟩ := findElement_index h1
        exact onChild_agree (s1 := ⟨e1, s1.sm⟩) (s2 := ⟨e2, s2.sm⟩) ih (k1 hf) (k1 hg) hs.2 h3.2 ⟨c, hc, hct ▸ ht⟩

omit S in
theorem homogLoop_agree {X : String → Prop} {f g : Loc → St → Out Val × St} (h : ∀ l, Agree X E P norm (f l) (g l))
    (hf : ∀ l, KeepsTag (f l)) (loc : Loc) (n idx : Nat)
    (acc : List Val) (hacc : ∀ v ∈ acc, P v) {errs1 errs2 : Dict ErrKey VErr} (he : ErrsRel norm errs1 errs2) {s1 s2 : St}
    (hX : X s1.el.tag) (hs : StRel E norm s1 s2) :
    LoopRel P norm (homogLoop f loc n idx acc errs1 s1).1 (homogLoop g loc n idx acc errs2 s2).1 ∧
      StRel E norm (homogLoop f loc n idx acc errs1 s1).2 (homogLoop g loc n idx acc errs2 s2).2 := by
  induction n generalizing idx acc errs1 errs2 s1 s2 with
  | zero => exact ⟨trivial, hs⟩
  | succ n ih =>
    obtain ⟨h1, h2⟩ := h (loc ++ [.idx idx]) s1 s2 hX hs
    have hX' : X (f (loc ++ [.idx idx]) s1).2.el.tag := by rw [hf]; exact hX
    unfold homogLoop
    cases hf : f (loc ++ [.idx idx]) s1 with
    | mk o1 s1' =>
      cases hg : g (loc ++ [.idx idx]) s2 with
      | mk o2 s2' =>
        rw [hf] at hX'
        rw [hf, hg] at h1 h2
        simp only at h1 h2
        cases o1 <;> cases o2 <;> simp only [OutRel] at h1
        · obtain ⟨rfl, hP⟩ := h1
          simp only
          split
          · exact ⟨⟨rfl, hacc, he⟩, h2⟩
          · exact ih _ _ (by intro v hv; rcases List.mem_append.1 hv with hv | hv
                             · exact hacc v hv
                             · simp at hv; subst hv; exact hP) he hX' h2
        · exact ih _ _ hacc (by simp only [ErrsRel, List.map_append, List.map_cons, List.map_nil, h1]; rw [he]) hX' h2
        · exact ⟨h1, h2⟩
        · exact ⟨trivial, h2⟩

omit S in
theorem heteroLoop_agree {X : String → Prop} {f g : Ser → Loc → St → Out Val × St} (ss : List Ser)
    (h : ∀ s ∈ ss, ∀ l, Agree X E P norm (f s l) (g s l)) (hf : ∀ s l, KeepsTag (f s l)) (loc : Loc) (idx : Nat)
    (acc : List Val) (hacc : ∀ v ∈ acc, P v) {errs1 errs2 : Dict ErrKey VErr} (he : ErrsRel norm errs1 errs2) {s1 s2 : St}
    (hX : X s1.el.tag) (hs : StRel E norm s1 s2) :
    LoopRel P norm (heteroLoop f loc ss idx acc errs1 s1).1 (heteroLoop g loc ss idx acc errs2 s2).1 ∧
      StRel E norm (heteroLoop f loc ss idx acc errs1 s1).2 (heteroLoop g loc ss idx acc errs2 s2).2 := by
  induction ss generalizing idx acc errs1 errs2 s1 s2 with
  | nil => exact ⟨⟨rfl, hacc, he⟩, hs⟩
  | cons s ss ih =>
    have ih := fun idx => ih (fun t ht => h t (by simp [ht])) idx
    obtain ⟨h1, h2⟩ := h s (by simp) (loc ++ [.idx idx]) s1 s2 hX hs
    have hX' : X (f s (loc ++ [.idx idx]) s1).2.el.tag := by rw [hf]; exact hX
    unfold heteroLoop
    cases hf : f s (loc ++ [.idx idx]) s1 with
    | mk o1 s1' =>
      cases hg : g s (loc ++ [.idx idx]) s2 with
      | mk o2 s2' =>
        rw [hf] at hX'
        rw [hf, hg] at h1 h2
        simp only at h1 h2
        cases o1 <;> cases o2 <;> simp only [OutRel] at h1
        · obtain ⟨rfl, hP⟩ := h1
          exact ih _ _ (by intro v hv; rcases List.mem_append.1 hv with hv | hv
                           · exact hacc v hv
                           · simp at hv; subst hv; exact hP) he hX' h2
        · exact ih _ _ hacc (by simp only [ErrsRel, List.map_append, List.map_cons, List.map_nil, h1]; rw [he]) hX' h2
        · exact ⟨h1, h2⟩
        · exact ⟨trivial, h2⟩

theorem unionLoop_agree (hu : union) {f g : Proxy → St → Out Val × St} (title : Title) (ps : List Proxy)
    (h : ∀ p ∈ ps, Agree (fun _ => True) E P norm (f p) (g p))
    (hf : ∀ p ∈ ps, ∀ st e, (f p st).1 = .verr e → ∃ t m, T t m ∧ (st.el.search t m true).1 ≠ none) {errs1 errs2 : Dict ErrKey VErr}
    (he : ErrsRel norm errs1 errs2) (s1 s2 : St) (hs : StRel E norm s1 s2)
    (hh : errs1.isEmpty = false → ∃ t m, T t m ∧ (s1.el.search t m true).1 ≠ none) :
    OutRel P norm (unionLoop f title ps errs1 s1).1 (unionLoop g title ps errs2 s2).1 ∧
      StRel E norm (unionLoop f title ps errs1 s1).2 (unionLoop g title ps errs2 s2).2 := by
  induction ps generalizing errs1 errs2 s1 s2 with
  | nil =>
    unfold unionLoop
    rw [← isEmpty_lines he]
    cases hb : errs1.isEmpty with
    | true => exact ⟨⟨rfl, S.none⟩, hs⟩
    | false =>
      refine ⟨?_, S.step hu _ _ hs.1 (hh hb), hs.2⟩
      simp only [OutRel, intoValidationError_lines, Bool.false_eq_true, if_false]
      rw [he]
  | cons p ps ih =>
    have ih := fun {e1 e2} he => ih (errs1 := e1) (errs2 := e2) (fun t ht => h t (by simp [ht])) (fun t ht => hf t (by simp [ht])) he
    obtain ⟨h1, h2⟩ := h p (by simp) ⟨s1.el.createSnapshot, s1.sm⟩ ⟨s2.el.createSnapshot, s2.sm⟩ trivial hs
    have hfp := hf p (by simp) ⟨s1.el.createSnapshot, s1.sm⟩
    unfold unionLoop
    cases hf : f p ⟨s1.el.createSnapshot, s1.sm⟩ with
    | mk o1 s1' =>
      cases hg : g p ⟨s2.el.createSnapshot, s2.sm⟩ with
      | mk o2 s2' =>
        rw [hf, hg] at h1 h2
        rw [hf] at hfp
        simp only at h1 h2
        cases o1 <;> cases o2 <;> simp only [OutRel] at h1
        · obtain ⟨rfl, hP⟩ := h1
          simp only
          split
          · exact ih he _ _ ⟨hs.1, h2.2⟩ hh
          · exact ⟨⟨rfl, hP⟩, S.snapshot _ _ _ _ hs.1 h2.1, h2.2⟩
        · rename_i e1 e2
          have ht : e1.title = e2.title := by have := congrArg VErr.title h1; exact this
          simp only
          rw [ht]
          exact ih (errs_set_lines he _ h1) _ _ ⟨hs.1, h2.2⟩ fun _ => hfp _ rfl
        · exact ⟨h1, hs.1, h2.2⟩
        · exact ⟨trivial, hs.1, h2.2⟩

omit S in
/-- A sub-model with errors has been found. -/
theorem proxy_verr (env : Env) (eas : Bool) (n : Nat) (p : Proxy) (loc : Loc) (st : St) (e : VErr) (h : (deser env eas n (.proxy p) loc st).1 = .verr e) :
    (st.el.search p.name p.mode true).1 ≠ none := by
  cases n with
  | zero => cases h
  | succ n =>
    change (deserStep env eas (deser env eas n) n (.proxy p) loc st).1 = .verr e at h
    intro hn
    unfold deserStep at h
    simp only [popElement] at h
    cases hs : st.el.search p.name p.mode true with
    | mk o el =>
      rw [hs] at hn
      simp only at hn
      subst hn
      rw [hs] at h
      split at h
      · cases h
      · split at h <;> cases h

omit S in
theorem popAttrib_fst (e : Elem) (k : String) : (e.popAttrib k).1 = e.getAttrib k := by
  unfold popAttrib getAttrib
  split
  · rfl
  · rename_i h
    cases ha : e.attrib with
    | none => rfl
    | some d =>
      cases d with
      | nil => rfl
      | cons x d => rw [ha] at h; simp [truthyMap] at h

theorem taggedLoop_agree {f g : Proxy → St → Out Val × St} (loc : Loc) (a : String) (ha : T.attr a) (mode : Mode)
    (ps : List (String × Proxy)) (h : ∀ p ∈ ps, Agree (fun _ => True) E P norm (f p.2) (g p.2)) (hT : ∀ p ∈ ps, T p.2.name mode) :
    Agree (fun _ => True) E P norm (taggedLoop f loc a mode ps) (taggedLoop g loc a mode ps) := by
  induction ps with
  | nil => intro s1 s2 _ hs; exact ⟨⟨rfl, S.none⟩, hs⟩
  | cons p ps ih =>
    have ih := ih (fun t ht => h t (by simp [ht])) (fun t ht => hT t (by simp [ht]))
    intro s1 s2 _ hs
    obtain ⟨tag, p⟩ := p
    have h3 := S.search _ _ p.name mode false (hT (tag, p) (by simp)) hs.1
    unfold taggedLoop
    cases h1 : s1.el.search p.name mode false with
    | mk o1 e1 =>
      cases h2 : s2.el.search p.name mode false with
      | mk o2 e2 =>
        rw [h1, h2] at h3
        cases o1 <;> cases o2 <;> simp only [SearchRel] at h3
        · exact ih { s1 with el := e1 } { s2 with el := e2 } trivial ⟨h3, hs.2⟩
        · obtain ⟨hE, c1, c2, hc1, hc2, hE', _⟩ := h3
          have ha : c1.getAttrib a = c2.getAttrib a := by
            rw [← popAttrib_fst, ← popAttrib_fst]; exact (S.attrib c1 c2 a ha hE').1
          simp only [hc1, hc2, ha]
          split
          · exact h (tag, p) (by simp) _ _ trivial ⟨hE, sm_set_lines hs.2 _ (S.line _ _ hE')⟩
          · exact ih { s1 with el := e1 } { s2 with el := e2 } trivial ⟨hE, hs.2⟩

theorem deserFields_agree {X : Ser → String → Prop} {f g : Ser → Loc → St → Out Val × St} (all fs : List Field) (hsub : ∀ x ∈ fs, x ∈ all)
    (h : ∀ fd ∈ fs, ∀ l, Agree (X fd.ser) E P norm (f fd.ser l) (g fd.ser l)) (hk : ∀ s l, KeepsTag (f s l))
    (hv : ∀ fd ∈ fs, ∀ v, fd.validator = some v → ∀ e1 e2, E e1 e2 →
      OutRel P norm (v e1).1 (v e2).1 ∧ E (v e1).2 (v e2).2)
    (hvk : ∀ fd ∈ fs, ∀ v, fd.validator = some v → ∀ e, SameChildren e (v e).2)
    (res : Dict String Val) (hres : ∀ kv ∈ res, P kv.2 ∧ ∃ f ∈ all, kv.1 = f.alias.getD f.name)
    {errs1 errs2 : Dict ErrKey VErr} (he : ErrsRel norm errs1 errs2) {s1 s2 : St} (hX : ∀ fd ∈ fs, X fd.ser s1.el.tag)
    (hs : StRel E norm s1 s2) :
    FieldsRel all P norm (deserFields f fs res errs1 s1).1 (deserFields g fs res errs2 s2).1 ∧
      StRel E norm (deserFields f fs res errs1 s1).2 (deserFields g fs res errs2 s2).2 := by
  induction fs generalizing res errs1 errs2 s1 s2 with
  | nil => exact ⟨⟨rfl, hres, he⟩, hs⟩
  | cons fd fs ih =>
    have ih := fun r hr {e1 e2} he {s1' s2} ht hs => ih (fun t ht => hsub t (by simp [ht])) (fun t ht => h t (by simp [ht]))
      (fun t ht => hv t (by simp [ht])) (fun t ht => hvk t (by simp [ht])) r hr (errs1 := e1) (errs2 := e2) he
      (s1 := s1') (s2 := s2) (fun fd h' => (show s1'.el.tag = s1.el.tag from ht) ▸ hX fd (by simp [h'])) hs
    have hset : ∀ v, P v → ∀ kv ∈ (if v.isNone then res else res.set (fd.alias.getD fd.name) v),
        P kv.2 ∧ ∃ f ∈ all, kv.1 = f.alias.getD f.name := by
      intro v hP kv hkv
      split at hkv
      · exact hres kv hkv
      · have key : ∀ d : Dict String Val, kv ∈ d.set (fd.alias.getD fd.name) v → kv ∈ d ∨ kv = (fd.alias.getD fd.name, v) := by
          intro d
          induction d with
          | nil => intro h; simp [Dict.set] at h; exact .inr h
          | cons x d ihd =>
            obtain ⟨k', v'⟩ := x
            simp only [Dict.set]
            split
            · intro h; rcases List.mem_cons.1 h with h | h
              · exact .inr h
              · exact .inl (by simp [h])
            · intro h; rcases List.mem_cons.1 h with h | h
              · exact .inl (by simp [h])
              · rcases ihd h with h | h
                · exact .inl (by simp [h])
                · exact .inr h
        rcases key res hkv with hm | rfl
        · exact hres kv hm
        · exact ⟨hP, fd, hsub fd (by simp), rfl⟩
    have key : ∀ q1 q2 : Out Val × St, OutRel P norm q1.1 q2.1 → StRel E norm q1.2 q2.2 →
        q1.2.el.tag = s1.el.tag →
        let d1 := (match q1 with
          | (.ok v, st') => deserFields f fs (if v.isNone then res else res.set (fd.alias.getD fd.name) v) errs1 st'
          | (.verr e, st') => deserFields f fs res (errs1.set (some (.name fd.name)) e) st'
          | (.crash e, st') => (.crash e, st')
          | (.diverge, st') => (.diverge, st') : Out (Dict String Val × Dict ErrKey VErr) × St)
        let d2 := (match q2 with
          | (.ok v, st') => deserFields g fs (if v.isNone then res else res.set (fd.alias.getD fd.name) v) errs2 st'
          | (.verr e, st') => deserFields g fs res (errs2.set (some (.name fd.name)) e) st'
          | (.crash e, st') => (.crash e, st')
          | (.diverge, st') => (.diverge, st') : Out (Dict String Val × Dict ErrKey VErr) × St)
        FieldsRel all P norm d1.1 d2.1 ∧ StRel E norm d1.2 d2.2 := by
      intro q1 q2 h1 h2 ht
      obtain ⟨o1, s1'⟩ := q1
      obtain ⟨o2, s2'⟩ := q2
      simp only at h1 h2 ht
      cases o1 <;> cases o2 <;> simp only [OutRel] at h1
      · obtain ⟨rfl, hP⟩ := h1
        exact ih _ (hset _ hP) he ht h2
      · exact ih _ hres (errs_set_lines he _ h1) ht h2
      · exact ⟨h1, h2⟩
      · exact ⟨trivial, h2⟩
    have hs' : StRel E norm { s1 with sm := s1.sm.set [.name fd.name] s1.el.line }
        { s2 with sm := s2.sm.set [.name fd.name] s2.el.line } := ⟨hs.1, sm_set_lines hs.2 _ (S.line _ _ hs.1)⟩
    unfold deserFields
    simp only
    cases hval : fd.validator with
    | some v =>
      obtain ⟨h1, h2⟩ := hv fd (by simp) v hval _ _ hs.1
      exact key _ _ h1 ⟨h2, hs'.2⟩ (hvk fd (by simp) v hval _).1
    | none =>
      obtain ⟨h1, h2⟩ := h fd (by simp) [.name fd.name] { s1 with sm := s1.sm.set [.name fd.name] s1.el.line }
        { s2 with sm := s2.sm.set [.name fd.name] s2.el.line } (hX fd (by simp)) hs'
      exact key _ _ h1 h2 (hk _ _ _)

theorem validateModel_agree {cls : String} {m : ModelSer} (hm : env1.model cls = some m) {d : Val} (hd : m.DataOf P d)
    {s1 s2 : St} (hs : StRel E norm s1 s2) :
    OutRel P norm (validateModel env1 cls m d s1) (validateModel env2 cls m d s2) := by
  have key : ∀ x1 x2 : Out Val,
      x1 = (match env1.validate cls d with
        | .ok (fs, set) => .ok (.model cls fs set)
        | .error e => .verr (setSourceline m.hideInput s1.sm e)) →
      x2 = (match env2.validate cls d with
        | .ok (fs, set) => .ok (.model cls fs set)
        | .error e => .verr (setSourceline m.hideInput s2.sm e)) → OutRel P norm x1 x2 := by
    rintro x1 x2 rfl rfl
    rw [← S.validate cls m d hm hd]
    cases env1.validate cls d with
    | ok r => exact ⟨rfl, S.model _ _ _⟩
    | error e =>
      simp only [OutRel, setSourceline, VErr.lines, VErr.mk.injEq, List.map_map, true_and]
      apply List.map_congr_left
      intro l _
      simp [S.lines _ _ hs.2 l.loc]
  unfold validateModel
  cases hf : m.extraForbid with
  | false => exact key _ _ rfl rfl
  | true =>
    have hx := S.extra (S.forbids cls m hm hf) m.title _ _ hs.1
    simp only [if_true]
    cases h1 : checkExtra m.title s1.el with
    | none =>
      cases h2 : checkExtra m.title s2.el with
      | none => exact key _ _ rfl rfl
      | some e2 => rw [h1, h2] at hx; simp at hx
    | some e1 =>
      cases h2 : checkExtra m.title s2.el with
      | none => rw [h1, h2] at hx; simp at hx
      | some e2 => rw [h1, h2] at hx; simpa [OutRel] using hx

theorem deserModel_agree {f g : Ser → Loc → St → Out Val × St} (A : Ser → Prop)
    (h : ∀ s, s.Everywhere A → ∀ l, Agree (fun t => s.OwnText → T.text t) E P norm (f s l) (g s l))
    (hk : ∀ s l, KeepsTag (f s l)) (cls : String) (m : ModelSer)
    (hm : env1.model cls = some m) (hA : m.Everywhere A) (loc : Loc) :
    Agree (fun t => m.OwnText → T.text t) E P norm (deserModel env1 f cls m loc) (deserModel env2 g cls m loc) := by
  intro s1 s2 hX hs
  unfold ModelSer.OwnText at hX
  unfold deserModel
  unfold ModelSer.Everywhere at hA
  split
  · rename_i fs hb
    rw [hb] at hA hX
    obtain ⟨h1, h2⟩ := deserFields_agree S (X := fun s t => s.OwnText → T.text t) fs fs (fun _ h => h) (fun fd hfd => h _ (hA fd hfd)) hk
      (S.validators cls m fs hm hb) (S.keeps cls m fs hm hb) [] (by simp) (errs1 := []) (errs2 := []) rfl
      (fun fd hfd ho => hX ⟨fd, hfd, ho⟩) hs
    cases hf : deserFields f fs [] [] s1 with
    | mk o1 s1' =>
      cases hg : deserFields g fs [] [] s2 with
      | mk o2 s2' =>
        rw [hf, hg] at h1 h2
        simp only at h1 h2
        cases o1 <;> cases o2 <;> simp only [FieldsRel] at h1
        · obtain ⟨h3, h4, h5⟩ := h1
          simp only [h3]
          rw [isEmpty_lines h5]
          split
          · refine ⟨validateModel_agree S hm ?_ h2, h2⟩
            simp only [ModelSer.DataOf, hb]
            exact ⟨_, rfl, h3 ▸ h4⟩
          · refine ⟨?_, h2⟩
            simp only [OutRel, intoValidationError_lines]
            rw [h5]
        · exact ⟨h1, h2⟩
        · exact ⟨h1, h2⟩
        · exact ⟨trivial, h2⟩
  · rename_i s hb
    rw [hb] at hA hX
    obtain ⟨h1, h2⟩ := h s hA loc s1 s2 hX hs
    cases hf : f s loc s1 with
    | mk o1 s1' =>
      cases hg : g s loc s2 with
      | mk o2 s2' =>
        rw [hf, hg] at h1 h2
        simp only at h1 h2
        cases o1 <;> cases o2 <;> simp only [OutRel] at h1
        · obtain ⟨rfl, hP⟩ := h1
          refine ⟨validateModel_agree S hm ?_ h2, h2⟩
          simp only [ModelSer.DataOf, hb]
          split
          · exact .inl rfl
          · exact .inr hP
        · refine ⟨?_, h2⟩
          simp only [OutRel, intoValidationError_lines, List.map_cons, List.map_nil, h1]
        · exact ⟨h1, h2⟩
        · exact ⟨trivial, h2⟩

omit S in
theorem keepsTag_of_rel {f : St → Out Val × St} (h : ∀ st, SameChildren st.el (f st).2.el) : KeepsTag f :=
  fun st => (h st).1

/-- Reading related elements gives the same outcome. -/
theorem deser_agree (hE : env1.Everywhere (Ser.Allowed T raw union)) (n : Nat) (s : Ser)
    (hs : s.Everywhere (Ser.Allowed T raw union)) (loc : Loc) :
    Agree (fun t => s.OwnText → T.text t) E P norm (deser env1 eas n s loc) (deser env2 eas n s loc) := by
  have hv1 : env1.ValidatorsRespect SameChildren := S.keeps
  have hv2 : env2.ValidatorsRespect SameChildren := by
    intro cls m fs hm; rw [← S.models] at hm; exact S.keeps cls m fs hm
  induction n generalizing s loc with
  | zero => intro s1 s2 _ h; exact ⟨trivial, h⟩
  | succ n ih =>
    have hk1 : ∀ s l st, SameChildren st.el (deser env1 eas n s l st).2.el :=
      fun s l st => deser_rel sameChildren_rel env1 hv1 eas n s l st
    have hk2 : ∀ s l st, SameChildren st.el (deser env2 eas n s l st).2.el :=
      fun s l st => deser_rel sameChildren_rel env2 hv2 eas n s l st
    intro s1 s2 hX h
    change OutRel P norm (deserStep env1 eas (deser env1 eas n) n s loc s1).1
        (deserStep env2 eas (deser env2 eas n) n s loc s2).1 ∧
      StRel E norm (deserStep env1 eas (deser env1 eas n) n s loc s1).2
        (deserStep env2 eas (deser env2 eas n) n s loc s2).2
    have hfound := proxy_verr env1 eas n
    generalize deser env1 eas n = F at ih hk1 hfound ⊢
    generalize deser env2 eas n = G at ih hk2 ⊢
    obtain ⟨⟨hT, hkind⟩, hsub⟩ := Ser.everywhere_iff.1 hs
    have hsm : ∀ {X : String → Prop} {f g : St → Out Val × St}, Agree X E P norm f g →
        Agree X E P norm (fun c => f ⟨c.el, c.sm.set loc c.el.line⟩) (fun c => g ⟨c.el, c.sm.set loc c.el.line⟩) := by
      intro X f g hfg s1 s2 hX h
      exact hfg ⟨s1.el, s1.sm.set loc s1.el.line⟩ ⟨s2.el, s2.sm.set loc s2.el.line⟩
        hX ⟨h.1, sm_set_lines h.2 loc (S.line _ _ h.1)⟩
    -- a search followed by work on the child
    have hchild : ∀ (t : String) (m : Mode), T t m → ∀ {X : String → Prop} {f g : St → Out Val × St}, X t → Agree X E P norm f g → KeepsTag f →
        KeepsTag g →
        let q1 := (match s1.el.popElement t m with
          | (none, el) => (.ok .none, { s1 with el := el })
          | (some i, el) => onChild { s1 with el := el } i f : Out Val × St)
        let q2 := (match s2.el.popElement t m with
          | (none, el) => (.ok .none, { s2 with el := el })
          | (some i, el) => onChild { s2 with el := el } i g : Out Val × St)
        OutRel P norm q1.1 q2.1 ∧ StRel E norm q1.2 q2.2 := by
      intro t m ht X f g hXt hfg hf hg
      have h3 := S.search _ _ t m true ht h.1
      simp only [popElement]
      cases h1 : s1.el.search t m true with
      | mk o1 e1 =>
        cases h2 : s2.el.search t m true with
        | mk o2 e2 =>
          rw [h1, h2] at h3
          cases o1 <;> cases o2 <;> simp only [SearchRel] at h3
          · exact ⟨⟨rfl, S.none⟩, h3, h.2⟩
          · obtain ⟨c, hc, hct, _⟩ := search_index h1
            exact onChild_agree (s1 := ⟨e1, s1.sm⟩) (s2 := ⟨e2, s2.sm⟩) hfg hf hg h.2 h3.2 ⟨c, hc, hct ▸ hXt⟩
    unfold deserStep
    cases s with
    | text c nl => exact deserText_agree S c nl s1 s2 hX h
    | attr nm c =>
      simp only
      split
      · exact ⟨⟨rfl, S.none⟩, h⟩
      · obtain ⟨h1, h2, h3⟩ := S.attrib _ _ nm hkind h.1
        cases hp1 : s1.el.popAttrib nm with
        | mk o1 e1 =>
          cases hp2 : s2.el.popAttrib nm with
          | mk o2 e2 =>
            rw [hp1] at h1 h2 h3
            rw [hp2] at h1 h3
            simp only at h1 h2 h3
            subst h1
            cases o1 with
            | none => exact ⟨⟨rfl, S.none⟩, h3, h.2⟩
            | some v => exact ⟨⟨rfl, h2 v rfl⟩, h3, h.2⟩
    | elem nm ns m c nl =>
      simp only
      split
      · exact ⟨⟨rfl, S.none⟩, h⟩
      · exact hchild nm m (hT (nm, m) (by simp [Ser.searches])) (fun _ => hkind) (hsm (deserText_agree S _ nl))
          (fun st => (deserText_rel sameChildren_rel eas _ nl ⟨st.el, _⟩).1)
          (fun st => (deserText_rel sameChildren_rel eas _ nl ⟨st.el, _⟩).1)
    | attrs a => exact deserAttrs_agree S hkind a s1 s2 trivial h
    | mapElem a nm m =>
      simp only
      split
      · exact ⟨⟨rfl, S.none⟩, h⟩
      · exact hchild nm m (hT (nm, m) (by simp [Ser.searches])) trivial (hsm (deserAttrs_agree S hkind a))
          (fun st => (deserAttrs_rel sameChildren_rel a ⟨st.el, _⟩).1)
          (fun st => (deserAttrs_rel sameChildren_rel a ⟨st.el, _⟩).1)
    | raw nm m c =>
      simp only
      split
      · exact ⟨⟨rfl, S.none⟩, h⟩
      · have h3 := S.search _ _ nm m true (hT (nm, m) (by simp [Ser.searches])) h.1
        simp only [popElementRemove, popElement]
        cases h1 : s1.el.search nm m true with
        | mk o1 e1 =>
          cases h2 : s2.el.search nm m true with
          | mk o2 e2 =>
            rw [h1, h2] at h3
            cases o1 <;> cases o2 <;> simp only [SearchRel] at h3
            · exact ⟨⟨rfl, S.none⟩, h3, h.2⟩
            · obtain ⟨hE', c1, c2, hc1, hc2, hE'', hset⟩ := h3
              obtain ⟨h4, h5, h6⟩ := S.rawElem hkind e1 e2 _ _ c1 c2 hE' ⟨c1, c2, hc1, hc2, hE'', hset⟩ hc1 hc2
              simp only [hc1, hc2]
              exact ⟨⟨by rw [h4], h5⟩, h6, sm_set_lines h.2 _ (S.line c1 c2 hE'')⟩
    | proxy p =>
      simp only
      rw [← S.models]
      cases hm : env1.model p.cls with
      | none => exact ⟨rfl, h⟩
      | some m =>
        simp only
        split
        · exact ⟨⟨rfl, S.none⟩, h⟩
        · refine hchild p.name p.mode (hT (p.name, p.mode) (by simp [Ser.searches])) (X := fun t => m.OwnText → T.text t)
            (fun ho => hkind (S.owns _ _ hm ho))
            (f := fun c => match c.el.isNil with
              | (true, el) => (.ok .none, ⟨el, c.sm.set loc c.el.line⟩)
              | (false, el) => deserModel env1 F p.cls m loc ⟨el, c.sm.set loc c.el.line⟩)
            (g := fun c => match c.el.isNil with
              | (true, el) => (.ok .none, ⟨el, c.sm.set loc c.el.line⟩)
              | (false, el) => deserModel env2 G p.cls m loc ⟨el, c.sm.set loc c.el.line⟩) ?_ ?_ ?_
          · intro t1 t2 hX ht
            obtain ⟨h1, h2⟩ := S.isNil ht.1
            have htag := (sameChildren_rel.isNil t1.el).1
            have hl := sm_set_lines ht.2 loc (S.line _ _ ht.1)
            cases hn1 : t1.el.isNil with
            | mk b1 el1 =>
              cases hn2 : t2.el.isNil with
              | mk b2 el2 =>
                rw [hn1] at htag
                rw [hn1, hn2] at h1 h2
                simp only at h1 h2 htag
                subst h1
                simp only [hn1, hn2]
                cases b1 with
                | true => exact ⟨⟨rfl, S.none⟩, h2, hl⟩
                | false =>
                  exact deserModel_agree S _ (fun s hs l => ih s hs l) (fun s l st => (hk1 s l st).1) p.cls m hm (hE _ _ hm) loc _ _
                    (fun ho => htag ▸ hX ho) ⟨h2, hl⟩
          · intro st
            have hn := (sameChildren_rel.isNil st.el).1
            cases hn1 : st.el.isNil with
            | mk b1 el1 =>
              rw [hn1] at hn
              simp only [hn1]
              cases b1 with
              | true => exact hn
              | false => exact (deserModel_rel sameChildren_rel env1 hk1 p.cls m (fun fs hb => hv1 p.cls m fs hm hb) loc
                  ⟨el1, _⟩).1.trans hn
          · intro st
            have hn := (sameChildren_rel.isNil st.el).1
            cases hn1 : st.el.isNil with
            | mk b1 el1 =>
              rw [hn1] at hn
              simp only [hn1]
              cases b1 with
              | true => exact hn
              | false => exact (deserModel_rel sameChildren_rel env2 hk2 p.cls m (fun fs hb => hv1 p.cls m fs hm hb) loc
                  ⟨el1, _⟩).1.trans hn
    | primUnion c inner =>
      simp only
      split
      · exact ⟨⟨rfl, S.none⟩, h⟩
      · exact ih inner (hsub inner (by simp [Ser.subs])) loc s1 s2 hX h
    | modelUnion t c alts =>
      simp only
      split
      · exact ⟨⟨rfl, S.none⟩, h⟩
      · exact unionLoop_agree S hkind t alts
          (fun p hp s1 s2 _ => ih (.proxy p) (hsub _ (by simp only [Ser.subs, List.mem_map]; exact ⟨p, hp, rfl⟩)) loc s1 s2 False.elim)
          (fun p hp st e he => ⟨p.name, p.mode, (Ser.everywhere_iff.1 (hsub (.proxy p) (by simp only [Ser.subs, List.mem_map]; exact ⟨p, hp, rfl⟩))).1.1
            (p.name, p.mode) (by simp [Ser.searches]), hfound p loc st e he⟩)
          (errs1 := []) (errs2 := []) rfl s1 s2 h nofun
    | tagged c d a m alts =>
      simp only
      split
      · exact ⟨⟨rfl, S.none⟩, h⟩
      · exact taggedLoop_agree S loc a hkind m alts
          (fun p hp s1 s2 _ => ih (.proxy p.2) (hsub _ (by simp only [Ser.subs, List.mem_map]; exact ⟨p, hp, rfl⟩)) loc s1 s2 False.elim)
          (fun p hp => hT (p.2.name, m) (by simp only [Ser.searches, List.mem_map]; exact ⟨p, hp, rfl⟩)) s1 s2 trivial h
    | wrap path ns m c inner =>
      simp only
      split
      · exact ⟨⟨rfl, S.none⟩, h⟩
      · exact descend_agree S (hsm (ih inner (hsub inner (by simp [Ser.subs])) loc))
          (fun st => (hk1 inner loc ⟨st.el, _⟩).1) (fun st => (hk2 inner loc ⟨st.el, _⟩).1) m path
          (fun t ht => hT (t, m) (by simp only [Ser.searches, List.mem_map]; exact ⟨t, ht, rfl⟩)) (fun t ht ho => hkind ho t ht) s1 s2 (by rintro rfl; exact hX) h
    | homog t c inner =>
      simp only
      split
      · exact ⟨⟨rfl, S.none⟩, h⟩
      · obtain ⟨h1, h2⟩ := homogLoop_agree (fun l => ih inner (hsub inner (by simp [Ser.subs])) l)
          (fun l st => (hk1 inner l st).1) loc n 0 [] (by simp) (errs1 := []) (errs2 := []) rfl hX h
        cases hf : homogLoop (fun loc st => F inner loc st) loc n 0 [] [] s1 with
        | mk o1 s1' =>
          cases hg : homogLoop (fun loc st => G inner loc st) loc n 0 [] [] s2 with
          | mk o2 s2' =>
            rw [hf, hg] at h1 h2
            simp only at h1 h2
            cases o1 <;> cases o2 <;> simp only [LoopRel] at h1
            · obtain ⟨h3, h4, h5⟩ := h1
              simp only [homogFinish]
              rw [isEmpty_lines h5, ← h3]
              split
              · split
                · exact ⟨⟨rfl, S.none⟩, h2⟩
                · exact ⟨⟨rfl, S.list _ h4⟩, h2⟩
              · refine ⟨?_, h2⟩
                simp only [OutRel, intoValidationError_lines]
                rw [h5]
            · exact ⟨h1, h2⟩
            · exact ⟨h1, h2⟩
            · exact ⟨trivial, h2⟩
    | hetero t c inners =>
      simp only
      split
      · exact ⟨⟨rfl, S.none⟩, h⟩
      · obtain ⟨h1, h2⟩ := heteroLoop_agree (X := fun t => Ser.OwnTextAny inners → T.text t) inners
          (fun s hs' l s1 s2 hX => ih s (hsub s (by simpa [Ser.subs] using hs')) l s1 s2 fun ho => hX (Ser.ownTextAny_of_mem hs' ho))
          (fun s l st => (hk1 s l st).1) loc 0 [] (by simp) (errs1 := []) (errs2 := []) rfl hX h
        cases hf : heteroLoop F loc inners 0 [] [] s1 with
        | mk o1 s1' =>
          cases hg : heteroLoop G loc inners 0 [] [] s2 with
          | mk o2 s2' =>
            rw [hf, hg] at h1 h2
            simp only at h1 h2
            cases o1 <;> cases o2 <;> simp only [LoopRel] at h1
            · obtain ⟨h3, h4, h5⟩ := h1
              simp only [heteroFinish]
              rw [isEmpty_lines h5, ← h3]
              split
              · split
                · exact ⟨⟨rfl, S.none⟩, h2⟩
                · exact ⟨⟨rfl, S.list _ h4⟩, h2⟩
              · refine ⟨?_, h2⟩
                simp only [OutRel, intoValidationError_lines]
                rw [h5]
            · exact ⟨h1, h2⟩
            · exact ⟨h1, h2⟩
            · exact ⟨trivial, h2⟩

/-- Reading related documents gives the same outcome. -/
theorem fromXmlTree_agree (hE : env1.Everywhere (Ser.Allowed T raw union)) (n : Nat) (cls : String) (r1 r2 : Node)
    (ht : r1.tag = r2.tag)
    (h : E (fromNative env1.backend r1) (fromNative env2.backend r2))
    (hroot : ∀ m, env1.model cls = some m → m.OwnText → T.text m.elementName := by intros; trivial) :
    OutRel P norm (fromXmlTree env1 eas n cls r1).1 (fromXmlTree env2 eas n cls r2).1 ∧
      E (fromXmlTree env1 eas n cls r1).2 (fromXmlTree env2 eas n cls r2).2 := by
  unfold fromXmlTree
  simp only
  rw [← S.models]
  cases hm : env1.model cls with
  | none => exact ⟨rfl, h⟩
  | some m =>
    simp only
    rw [← ht]
    split
    · rename_i he
      obtain ⟨h1, h2⟩ := deserModel_agree S _ (fun s hs l => deser_agree S hE n s hs l)
        (fun s l st => (deser_rel sameChildren_rel env1 S.keeps eas n s l st).1) cls m hm (hE _ _ hm) []
        ⟨_, []⟩ ⟨_, []⟩ (by
          have ht : (fromNative env1.backend r1).tag = r1.tag := by cases r1 <;> simp [fromNative, Node.tag]
          intro ho
          simp only [ht, he]
          exact hroot m hm ho) ⟨h, fun _ => rfl⟩
      exact ⟨h1, h2.1⟩
    · exact ⟨rfl, h⟩
end

theorem OutRel.lines_eq {P : Val → Prop} {norm : Int → Int} {o o' : Out Val} (h : OutRel P norm o o') :
    o.lines norm = o'.lines norm := by
  cases o <;> cases o' <;> simp only [OutRel] at h <;> simp [Out.lines, h]

theorem VErr.lines_id (e : VErr) : e.lines id = e := by
  simp [VErr.lines]

theorem OutRel.eq {P : Val → Prop} {o o' : Out Val} (h : OutRel P id o o') : o = o' := by
  cases o <;> cases o' <;> simp only [OutRel, VErr.lines_id] at h <;> simp [h]

end PXml
