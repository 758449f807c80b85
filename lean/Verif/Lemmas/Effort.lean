import Verif.Lemmas.Threaded
import Verif.Lemmas.Progress
import Verif.Lemmas.Everywhere
import Verif.SpecEffort

/-!
# Effort of reading

Every validation is paid for by an element that has not been read yet: the number of validations so far and the number of
unpopped elements together never grow.
-/

namespace PXml
namespace Elem

mutual
/-- Number of descendants that have not been popped. -/
def unpopped : Elem → Nat
  | ⟨_, _, _, _, _, elements, next, _⟩ => (elements.length - next) + unpoppedList elements
def unpoppedList : List Elem → Nat
  | [] => 0
  | c :: cs => unpopped c + unpoppedList cs
end

theorem unpoppedList_eq (l : List Elem) : unpoppedList l = (l.map unpopped).sum := by
  induction l with
  | nil => rfl
  | cons c l ih => simp [unpoppedList, ih]

theorem unpopped_eq (e : Elem) : e.unpopped = (e.elements.length - e.next) + (e.elements.map unpopped).sum := by
  cases e; simp [unpopped, unpoppedList_eq]

theorem unpopped_rel : ElemRel (fun e e' => e'.unpopped ≤ e.unpopped) where
  refl e := Nat.le_refl _
  trans h1 h2 := Nat.le_trans h2 h1
  popText e := by simp [popText, unpopped_eq]
  popAttrib e k := by
    unfold popAttrib
    split
    · simp [unpopped_eq]
    · exact Nat.le_refl _
  popAttributes e := by simp [popAttributes, unpopped_eq]
  search e tag mode step := by
    obtain ⟨l, n, h1, h2, h3, _⟩ := search_spec e tag mode step
    rw [h1]
    simp only [unpopped_eq, h2.length_eq, sum_perm unpopped h2]
    omega
  child e i c c' hc h := by
    simp only [setChild, unpopped_eq e, unpopped_eq { e with elements := _ }, List.length_set]
    have := sum_set (c' := c') unpopped hc
    omega
  stepForward e _ := by simp only [stepForward, unpopped_eq e, unpopped_eq { e with next := _ }]; omega
  applySnapshot e s h := by simpa [applySnapshot, unpopped_eq] using h
  hollow e i c hc := by
    simp only [setChild, unpopped_eq e, unpopped_eq { e with elements := _ }, List.length_set]
    have := sum_set (c' := c.hollow) unpopped hc
    have : c.hollow.unpopped = 0 := by simp [unpopped_eq, hollow]
    omega

/-- Popping a child uses up an element. -/
theorem search_unpopped {e : Elem} {tag : String} {mode : Mode} {i : Nat} {e' : Elem}
    (h : e.search tag mode true = (some i, e')) : e'.unpopped < e.unpopped := by
  have hlt := search_hit_lt h
  obtain ⟨l, n, h1, h2, h3, h4⟩ := search_spec e tag mode true
  have hn : e.next < n := by
    rw [h] at h1
    simp only at h1
    cases mode with
    | strict =>
      simp only [search, strictSearch] at h
      split at h
      · split at h
        · cases h; injection h1 with _ _ _ _ _ _ h1 _; omega
        · cases h
      · cases h
    | ordered =>
      simp only [search, orderedSearch] at h
      split at h
      · rename_i i hm
        have := (firstMatch_some hm).1
        cases h; injection h1 with _ _ _ _ _ _ h1 _; omega
      · cases h
    | unordered =>
      simp only [search, unorderedSearch] at h
      split at h
      · cases h; injection h1 with _ _ _ _ _ _ h1 _; simp at h1; omega
      · cases h
  rw [h] at h1
  simp only at h1
  rw [h1]
  simp only [unpopped_eq, h2.length_eq, sum_perm unpopped h2]
  omega

theorem setChild_unpopped {e c : Elem} {i : Nat} (c' : Elem) (hc : e.elements[i]? = some c) :
    (e.setChild i c').unpopped + c.unpopped = e.unpopped + c'.unpopped := by
  simp only [setChild, unpopped_eq e, unpopped_eq { e with elements := _ }, List.length_set]
  have := sum_set (c' := c') unpopped hc
  omega

end Elem

open Elem

mutual
theorem fromNative_unpopped (b : Backend) (n : Node) : (fromNative b n).unpopped + 1 ≤ n.elementCount + 1 ∧
    (n.isComment = false → (fromNative b n).unpopped + 1 = n.elementCount) := by
  cases n with
  | elem tag attrib ns text tail children line =>
    have := fromNativeList_unpopped b children
    simp only [fromNative, unpopped, Node.elementCount, unpoppedList_eq, Node.isComment]
    omega
  | comment text tail => simp [fromNative, unpopped, unpoppedList, Node.isComment]
  | pi text tail => simp [fromNative, unpopped, unpoppedList, Node.elementCount]
theorem fromNativeList_unpopped (b : Backend) (ns : List Node) :
    (fromNativeList b ns).length + ((fromNativeList b ns).map unpopped).sum = Node.elementCountList ns := by
  cases ns with
  | nil => rfl
  | cons n ns =>
    have h1 := fromNative_unpopped b n
    have h2 := fromNativeList_unpopped b ns
    simp only [fromNativeList, Node.elementCountList]
    cases hn : n.isComment with
    | true =>
      have : n.elementCount = 0 := by cases n <;> simp [Node.isComment] at hn; rfl
      simp only [if_true]; omega
    | false =>
      have := h1.2 hn
      simp only [Bool.false_eq_true, if_false, List.length_cons, List.map_cons, List.sum_cons]; omega
end

namespace Threaded

variable {C W : Type}

section
variable {κ : W → Nat} {o : Opts C}

/-- The cost of a reading function is covered by the elements it uses up. -/
def Costs {α : Type} (κ : W → Nat) (f : TSt W → Out α × TSt W) : Prop :=
  ∀ s, κ (f s).2.w + (f s).2.el.unpopped ≤ κ s.w + s.el.unpopped

/-- The same up to one unit. -/
def Costs1 {α : Type} (κ : W → Nat) (f : TSt W → Out α × TSt W) : Prop :=
  ∀ s, κ (f s).2.w + (f s).2.el.unpopped ≤ κ s.w + s.el.unpopped + 1

theorem onChild_costs {α : Type} {f : TSt W → Out α × TSt W} (hf : Costs κ f) (i : Nat) : Costs κ fun s => onChild s i f := by
  intro s
  simp only [onChild]
  split
  · exact Nat.le_refl _
  · rename_i c hc
    have h1 := hf { s with el := c }
    have h2 := setChild_unpopped (f { s with el := c }).2.el hc
    simp only at h1 ⊢
    omega

theorem onChild_costs1 {α : Type} {f : TSt W → Out α × TSt W} (hf : Costs1 κ f) (i : Nat) : Costs1 κ fun s => onChild s i f := by
  intro s
  simp only [onChild]
  split
  · simp only; omega
  · rename_i c hc
    have h1 := hf { s with el := c }
    have h2 := setChild_unpopped (f { s with el := c }).2.el hc
    simp only at h1 ⊢
    omega

theorem text_costs (c nl : Bool) : Costs κ (text (W := W) c nl o) := by
  intro s
  have : (deserText o.emptyAsString c nl s.st).2.el.unpopped ≤ s.el.unpopped := by
    have := deserText_rel unpopped_rel o.emptyAsString c nl s.st
    exact this
  simp only [text, TSt.put]
  omega

theorem attrs_costs (a : AttrsSer) : Costs κ (attrs (W := W) a o) := by
  intro s
  have : (deserAttrs a s.st).2.el.unpopped ≤ s.el.unpopped := by
    have := deserAttrs_rel unpopped_rel a s.st
    exact this
  simp only [attrs, TSt.put]
  omega

theorem descend_costs (mode : Mode) {f : Opts C → TSt W → Out Val × TSt W} (hf : Costs κ (f o)) (ts : List String) :
    Costs κ (descend mode f o ts) := by
  induction ts with
  | nil => exact hf
  | cons t ts ih =>
    intro s
    simp only [descend]
    split
    · exact Nat.le_refl _
    · rename_i el h
      have := unpopped_rel.findElement h
      simp only at this ⊢; omega
    · rename_i i el h
      have h1 := unpopped_rel.findElement h
      have h2 := onChild_costs ih i { s with el := el }
      simp only at h1 h2; omega

theorem homogLoop_costs {r : Read C W} (hr : ∀ loc, Costs κ (r o loc)) (loc : Loc) (n idx : Nat) (acc : List Val)
    (errs : Dict ErrKey VErr) : Costs κ (homogLoop r o loc n idx acc errs) := by
  induction n generalizing idx acc errs with
  | zero => exact fun s => Nat.le_refl _
  | succ n ih =>
    intro s
    have hq := hr (loc ++ [.idx idx]) s
    simp only [homogLoop]
    revert hq
    generalize r o (loc ++ [.idx idx]) s = q
    obtain ⟨q, s'⟩ := q
    intro hq
    cases q with
    | ok v =>
      simp only
      split
      · exact hq
      · exact Nat.le_trans (ih (idx + 1) (acc ++ [v]) errs s') hq
    | verr e => exact Nat.le_trans (ih (idx + 1) acc _ s') hq
    | crash e => exact hq
    | diverge => exact hq

theorem heteroLoop_costs {r : Ser → Read C W} (loc : Loc) (xs : List Ser) (hr : ∀ x ∈ xs, ∀ loc, Costs κ (r x o loc)) (idx : Nat)
    (acc : List Val) (errs : Dict ErrKey VErr) : Costs κ (heteroLoop r o loc xs idx acc errs) := by
  induction xs generalizing idx acc errs with
  | nil => exact fun s => Nat.le_refl _
  | cons x xs ih =>
    have ih := ih fun y hy => hr y (List.mem_cons_of_mem _ hy)
    intro s
    have hq := hr x List.mem_cons_self (loc ++ [.idx idx]) s
    simp only [heteroLoop]
    revert hq
    generalize r x o (loc ++ [.idx idx]) s = q
    obtain ⟨q, s'⟩ := q
    intro hq
    cases q with
    | ok v => exact Nat.le_trans (ih (idx + 1) (acc ++ [v]) errs s') hq
    | verr e => exact Nat.le_trans (ih (idx + 1) acc _ s') hq
    | crash e => exact hq
    | diverge => exact hq

theorem taggedLoop_costs {r : Proxy → Read C W} {loc : Loc} (a : String) (mode : Mode)
    (ps : List (String × Proxy)) (hr : ∀ x ∈ ps, Costs κ (r x.2 o loc)) : Costs κ (taggedLoop r o loc a mode ps) := by
  induction ps with
  | nil => exact fun s => Nat.le_refl _
  | cons p ps ih =>
    have ih := ih fun y hy => hr y (List.mem_cons_of_mem _ hy)
    have hp := hr p List.mem_cons_self
    obtain ⟨t, p⟩ := p
    intro s
    simp only [taggedLoop]
    have hs := unpopped_rel.search s.el p.name mode false
    revert hs
    generalize s.el.search p.name mode false = q
    obtain ⟨q, el⟩ := q
    intro hs
    cases q with
    | some i =>
      simp only at hs ⊢
      split
      · simp only; omega
      · rename_i c _
        split
        · have := hp { s with el := el, sm := s.sm.set loc c.line }
          simp only at this ⊢; omega
        · have := ih { s with el := el }
          simp only at this ⊢; omega
    | none =>
      have := ih { s with el := el }
      simp only at hs this ⊢; omega

theorem fields_costs {r : Ser → Read C W} (fs : List Field) (hr : ∀ f ∈ fs, ∀ loc, Costs κ (r f.ser o loc))
    (hv : ∀ f ∈ fs, ∀ v, f.validator = some v → ∀ e : Elem, e.Reads (v e).2) (res : Dict String Val)
    (errs : Dict ErrKey VErr) : Costs κ (fields r o fs res errs) := by
  induction fs generalizing res errs with
  | nil => exact fun s => Nat.le_refl _
  | cons f fs ih =>
    have ih := ih (fun y hy => hr y (List.mem_cons_of_mem _ hy)) (fun y hy => hv y (List.mem_cons_of_mem _ hy))
    intro s
    obtain ⟨el, sm, w⟩ := s
    simp only [fields]
    cases hf : f.validator with
    | some v =>
      have hq := unpopped_rel.of_reads (hv f List.mem_cons_self v hf el)
      simp only
      revert hq
      generalize v el = q
      obtain ⟨q, el'⟩ := q
      intro hq
      simp only at hq
      have hle : κ w + el'.unpopped ≤ κ w + el.unpopped := by omega
      cases q with
      | ok v => exact Nat.le_trans (ih _ errs ⟨el', Dict.set sm [.name f.name] el.line, w⟩) hle
      | verr e => exact Nat.le_trans (ih res _ ⟨el', Dict.set sm [.name f.name] el.line, w⟩) hle
      | crash e => exact hle
      | diverge => exact hle
    | none =>
      have hq := hr f List.mem_cons_self [.name f.name] ⟨el, sm.set [.name f.name] el.line, w⟩
      simp only
      revert hq
      generalize r f.ser o [.name f.name] ⟨el, Dict.set sm [.name f.name] el.line, w⟩ = q
      obtain ⟨q, s'⟩ := q
      intro hq
      cases q with
      | ok v => exact Nat.le_trans (ih _ errs s') hq
      | verr e => exact Nat.le_trans (ih res _ s') hq
      | crash e => exact hq
      | diverge => exact hq

variable {E : TEnv C W} (hE : ∀ cls v w, κ (E.validate o.context cls v w).2 ≤ κ w + 1)
include hE

theorem validateModel_costs (cls : String) (m : ModelSer) (data : Val) : Costs1 κ (validateModel E o cls m data) := by
  intro s
  have := hE cls data s.w
  simp only [validateModel]
  split
  · simp only; omega
  · revert this
    generalize E.validate o.context cls data s.w = q
    obtain ⟨q, w⟩ := q
    intro this
    cases q <;> (simp only at this ⊢; omega)

theorem modelSer_costs {r : Ser → Read C W} (cls : String) (m : ModelSer)
    (hr : match m.body with
      | .fields fs => (∀ f ∈ fs, ∀ loc, Costs κ (r f.ser o loc)) ∧
        (∀ f ∈ fs, ∀ v, f.validator = some v → ∀ e : Elem, e.Reads (v e).2)
      | .root x => ∀ loc, Costs κ (r x o loc)) (loc : Loc) :
    Costs1 κ (modelSer E r o cls m loc) := by
  intro s
  simp only [modelSer]
  cases hb : m.body with
  | fields fs =>
    rw [hb] at hr
    have hq := fields_costs fs hr.1 hr.2 [] [] s
    simp only
    revert hq
    generalize fields r o fs [] [] s = q
    obtain ⟨q, s'⟩ := q
    intro hq
    simp only at hq
    cases q with
    | ok v =>
      obtain ⟨res, errs⟩ := v
      simp only
      split
      · have := validateModel_costs hE cls m (.dict res) s'; omega
      · simp only; omega
    | verr e => simp only; omega
    | crash e => simp only; omega
    | diverge => simp only; omega
  | root x =>
    rw [hb] at hr
    have hq := hr loc s
    simp only
    revert hq
    generalize r x o loc s = q
    obtain ⟨q, s'⟩ := q
    intro hq
    simp only at hq
    cases q with
    | ok v => have := validateModel_costs hE cls m (if v.isNone then .undef else v) s'; simp only; omega
    | verr e => simp only; omega
    | crash e => simp only; omega
    | diverge => simp only; omega

variable (hU : E.NoUnions) (hR : E.ValidatorsRead)
include hU hR

omit hE in
theorem model_hyp {r : Ser → Read C W} (ih : ∀ x, x.Everywhere Ser.NotUnion → ∀ loc, Costs κ (r x o loc)) {cls : String}
    {m : ModelSer} (hm : E.model cls = some m) :
    match m.body with
      | .fields fs => (∀ f ∈ fs, ∀ loc, Costs κ (r f.ser o loc)) ∧
        (∀ f ∈ fs, ∀ v, f.validator = some v → ∀ e : Elem, e.Reads (v e).2)
      | .root x => ∀ loc, Costs κ (r x o loc) := by
  have h1 := hU cls m hm
  have h2 := hR cls m
  unfold ModelSer.Everywhere at h1
  cases hb : m.body with
  | fields fs =>
    rw [hb] at h1
    exact ⟨fun f hf loc => ih _ (h1 f hf) loc, h2 fs hm hb⟩
  | root x =>
    rw [hb] at h1
    exact ih x h1

theorem read_costs (n : Nat) (x : Ser) (hx : x.Everywhere Ser.NotUnion) (loc : Loc) : Costs κ (read E n x o loc) := by
  induction n generalizing x loc with
  | zero => exact fun s => Nat.le_refl _
  | succ n ih =>
    intro s
    change κ (step E (read E n) n x o loc s).2.w + (step E (read E n) n x o loc s).2.el.unpopped ≤ _
    generalize read E n = F at ih ⊢
    cases x with
    | text c nl => exact text_costs c nl s
    | attr nm c =>
      have := unpopped_rel.popAttrib s.el nm
      simp only [step]
      split
      · exact Nat.le_refl _
      · revert this
        generalize s.el.popAttrib nm = q
        obtain ⟨q, el⟩ := q
        intro this
        cases q <;> (simp only at this ⊢; omega)
    | elem nm ns m c nl =>
      simp only [step]
      split
      · exact Nat.le_refl _
      · have := unpopped_rel.search s.el nm m true
        simp only [popElement]
        revert this
        generalize s.el.search nm m true = q
        obtain ⟨q, el⟩ := q
        intro this
        cases q with
        | none => simp only at this ⊢; omega
        | some i =>
          have h2 := onChild_costs (κ := κ) (f := fun c' => text c nl o { c' with sm := c'.sm.set loc c'.el.line })
            (fun s => text_costs c nl { s with sm := s.sm.set loc s.el.line }) i { s with el := el }
          simp only at this h2 ⊢; omega
    | attrs a => exact attrs_costs (o := o) a s
    | mapElem a nm m =>
      simp only [step]
      split
      · exact Nat.le_refl _
      · have := unpopped_rel.search s.el nm m true
        simp only [popElement]
        revert this
        generalize s.el.search nm m true = q
        obtain ⟨q, el⟩ := q
        intro this
        cases q with
        | none => simp only at this ⊢; omega
        | some i =>
          have h2 := onChild_costs (κ := κ) (f := fun c' => attrs a o { c' with sm := c'.sm.set loc c'.el.line })
            (fun s => attrs_costs a { s with sm := s.sm.set loc s.el.line }) i { s with el := el }
          simp only at this h2 ⊢; omega
    | raw nm m c =>
      simp only [step]
      split
      · exact Nat.le_refl _
      · have : (s.el.popElementRemove nm m).2.unpopped ≤ s.el.unpopped := by
          have h1 := unpopped_rel.search s.el nm m true
          unfold popElementRemove popElement
          revert h1
          generalize s.el.search nm m true = q
          obtain ⟨q, el⟩ := q
          intro h1
          cases q with
          | none => exact h1
          | some i =>
            simp only at h1 ⊢
            split
            · rename_i c hc
              exact Nat.le_trans (unpopped_rel.hollow el i c hc) h1
            · exact h1
        revert this
        generalize s.el.popElementRemove nm m = q
        obtain ⟨q, el⟩ := q
        intro this
        cases q <;> (simp only at this ⊢; omega)
    | proxy p =>
      simp only [step]
      split
      · exact Nat.le_refl _
      · rename_i m hm
        split
        · exact Nat.le_refl _
        · simp only [popElement]
          cases hq : s.el.search p.name p.mode true with
          | mk q el =>
          cases q with
          | none =>
            have := unpopped_rel.search s.el p.name p.mode true
            rw [hq] at this
            simp only at this ⊢; omega
          | some i =>
            have h1 := search_unpopped hq
            have h2 : Costs1 κ fun s : TSt W => onChild s i fun c =>
                match c.el.isNil with
                | (true, el) => (.ok .none, { c with el := el, sm := c.sm.set loc c.el.line })
                | (false, el) => modelSer E F o p.cls m loc { c with el := el, sm := c.sm.set loc c.el.line } := by
              refine onChild_costs1 ?_ i
              intro c
              have h3 := unpopped_rel.isNil c.el
              revert h3
              simp only
              generalize c.el.isNil = q
              obtain ⟨b, el⟩ := q
              intro h3
              cases b with
              | true => simp only at h3 ⊢; omega
              | false =>
                have h4 := modelSer_costs hE (r := F) p.cls m
                  (model_hyp hU hR (fun x hx loc => ih x hx loc) hm) loc { c with el := el, sm := c.sm.set loc c.el.line }
                simp only at h3 h4 ⊢; omega
            refine Nat.le_trans (h2 { s with el := el }) ?_
            simp only
            omega
    | primUnion c inner =>
      simp only [Ser.everywhere_primUnion] at hx
      simp only [step]; split
      · exact Nat.le_refl _
      · exact ih _ hx.2 _ _
    | modelUnion t c alts =>
      simp only [Ser.everywhere_modelUnion] at hx
      exact hx.1.elim
    | tagged c d a m alts =>
      simp only [step]; split
      · exact Nat.le_refl _
      · exact taggedLoop_costs (r := fun p => F (.proxy p)) (κ := κ) a m alts
          (fun p _ => ih (.proxy p.2) (Ser.everywhere_proxy.2 trivial) loc) s
    | wrap path ns m c inner =>
      simp only [Ser.everywhere_wrap] at hx
      simp only [step]; split
      · exact Nat.le_refl _
      · exact descend_costs (κ := κ) m (f := fun o c => F inner o loc { c with sm := c.sm.set loc c.el.line })
          (fun s => ih inner hx.2 loc { s with sm := s.sm.set loc s.el.line }) path s
    | homog t c inner =>
      simp only [Ser.everywhere_homog] at hx
      simp only [step]; split
      · exact Nat.le_refl _
      · have hq := homogLoop_costs (κ := κ) (fun loc => ih inner hx.2 loc) loc n 0 [] [] s
        revert hq
        generalize homogLoop (F inner) o loc n 0 [] [] s = q
        obtain ⟨q, s'⟩ := q
        intro hq
        cases q <;> exact hq
    | hetero t c inners =>
      simp only [Ser.everywhere_hetero] at hx
      simp only [step]; split
      · exact Nat.le_refl _
      · have hq := heteroLoop_costs (κ := κ) loc inners (fun x hi loc => ih x (hx.2 x hi) loc) 0 [] [] s
        revert hq
        generalize heteroLoop F o loc inners 0 [] [] s = q
        obtain ⟨q, s'⟩ := q
        intro hq
        cases q <;> exact hq

theorem fromXmlTree_costs (n : Nat) (cls : String) (root : Node) (w : W) :
    κ (fromXmlTree E n cls root o.context o.emptyAsString w).2 ≤ κ w + (fromNative E.backend root).unpopped + 1 := by
  simp only [fromXmlTree]
  split
  · simp only; omega
  · rename_i m hm
    split
    · have := modelSer_costs hE (r := read E n) cls m
        (model_hyp hU hR (fun x hx loc => read_costs hE hU hR n x hx loc) hm) [] ⟨fromNative E.backend root, [], w⟩
      exact Nat.le_trans (Nat.le_add_right _ _) this
    · simp only; omega

end
end Threaded
end PXml
