import Verif.Lemmas.LocFree
import Verif.SpecRetag

/-! Elements under other names: what the operations on elements do. -/

namespace PXml

open Elem

namespace Retag

variable {σ : String → String}

theorem nodes_eq : ∀ ns : List Node, Node.retaggedAll σ ns = ns.map (Node.retagged σ)
  | [] => rfl
  | n :: ns => by simp [Node.retaggedAll, nodes_eq ns]

theorem elems_eq : ∀ es : List Elem, Elem.retaggedAll σ es = es.map (Elem.retagged σ)
  | [] => rfl
  | e :: es => by simp [Elem.retaggedAll, elems_eq es]

theorem all_eq : ∀ vs : List Val, Val.retaggedAll σ vs = vs.map (Val.retagged σ)
  | [] => rfl
  | v :: vs => by simp [Val.retaggedAll, all_eq vs]

theorem serAll_eq : ∀ ss : List Ser, Ser.retaggedAll σ ss = ss.map (Ser.retagged σ)
  | [] => rfl
  | s :: ss => by simp [Ser.retaggedAll, serAll_eq ss]

theorem elem_eq (e : Elem) : e.retagged σ = { e with tag := σ e.tag, elements := e.elements.map (Elem.retagged σ) } := by
  obtain ⟨t, m, x, y, a, es, n, l⟩ := e
  simp only [Elem.retagged, elems_eq]

@[simp] theorem r_tag (e : Elem) : (e.retagged σ).tag = σ e.tag := by rw [elem_eq]
@[simp] theorem r_nsmap (e : Elem) : (e.retagged σ).nsmap = e.nsmap := by rw [elem_eq]
@[simp] theorem r_text (e : Elem) : (e.retagged σ).text = e.text := by rw [elem_eq]
@[simp] theorem r_tail (e : Elem) : (e.retagged σ).tail = e.tail := by rw [elem_eq]
@[simp] theorem r_attrib (e : Elem) : (e.retagged σ).attrib = e.attrib := by rw [elem_eq]
@[simp] theorem r_elements (e : Elem) : (e.retagged σ).elements = e.elements.map (Elem.retagged σ) := by rw [elem_eq]
@[simp] theorem r_next (e : Elem) : (e.retagged σ).next = e.next := by rw [elem_eq]
@[simp] theorem r_line (e : Elem) : (e.retagged σ).line = e.line := by rw [elem_eq]

theorem isEmpty_r (e : Elem) : (e.retagged σ).isEmpty = e.isEmpty := by
  simp only [Elem.isEmpty, r_text, r_tail, r_attrib, r_elements, List.isEmpty_map]

theorem setText_r (e : Elem) (t : String) : (e.retagged σ).setText t = (e.setText t).retagged σ := by
  simp only [elem_eq, Elem.setText]

theorem setAttribute_r (e : Elem) (k v : String) : (e.retagged σ).setAttribute k v = (e.setAttribute k v).retagged σ := by
  simp only [elem_eq, Elem.setAttribute]

theorem setAttributes_r (e : Elem) (d : Dict String String) : (e.retagged σ).setAttributes d = (e.setAttributes d).retagged σ := by
  simp only [elem_eq, Elem.setAttributes]

theorem append_r (e c : Elem) : (e.retagged σ).append (c.retagged σ) = (e.append c).retagged σ := by
  rw [elem_eq e, elem_eq (e.append c)]
  simp only [Elem.append, List.map_append, List.map_cons, List.map_nil]

theorem setChild_r (e c : Elem) (i : Nat) : (e.retagged σ).setChild i (c.retagged σ) = (e.setChild i c).retagged σ := by
  rw [elem_eq e, elem_eq (e.setChild i c)]
  simp only [Elem.setChild, List.map_set]

theorem makeNil_r (e : Elem) : (e.retagged σ).makeNil = e.makeNil.retagged σ := setAttribute_r _ _ _

theorem popText_r (e : Elem) : (e.retagged σ).popText = (e.popText.1, e.popText.2.retagged σ) := by
  simp only [elem_eq, Elem.popText]

theorem popAttrib_r (e : Elem) (k : String) : (e.retagged σ).popAttrib k = ((e.popAttrib k).1, (e.popAttrib k).2.retagged σ) := by
  unfold Elem.popAttrib
  rw [r_attrib]
  split
  · simp only [elem_eq]
  · rfl

theorem popAttributes_r (e : Elem) : (e.retagged σ).popAttributes = (e.popAttributes.1, e.popAttributes.2.retagged σ) := by
  simp only [elem_eq, Elem.popAttributes]

theorem isNil_r (e : Elem) : (e.retagged σ).isNil = (e.isNil.1, e.isNil.2.retagged σ) := by
  unfold Elem.isNil
  rw [popAttrib_r]

theorem stepForward_r (e : Elem) : (e.retagged σ).stepForward = e.stepForward.retagged σ := by
  simp only [elem_eq, Elem.stepForward]

theorem applySnapshot_r (e s : Elem) : (e.retagged σ).applySnapshot (s.retagged σ) = (e.applySnapshot s).retagged σ := by
  simp only [elem_eq, Elem.applySnapshot]

section
variable (hσ : Retagging σ)
include hσ

theorem tag_iff (a b : String) : (σ a = σ b) ↔ a = b := ⟨hσ.injective a b, fun h => by rw [h]⟩

theorem lookBehind_r (e : Elem) (t : String) : (e.retagged σ).lookBehind (σ t) = e.lookBehind t := by
  unfold Elem.lookBehind
  rw [r_next, r_elements, List.getElem?_map]
  split
  · rfl
  · cases e.elements[e.next - 1]? with
    | none => rfl
    | some c => simp only [Option.map_some, r_tag, tag_iff hσ]

theorem firstFrom_r (t : String) : ∀ (es : List Elem) (k : Nat), firstFrom (σ t) (es.map (Elem.retagged σ)) k = firstFrom t es k
  | [], _ => rfl
  | e :: es, k => by simp only [List.map_cons, firstFrom, r_tag, tag_iff hσ, firstFrom_r t es]

theorem firstMatch_r (e : Elem) (t : String) : (e.retagged σ).firstMatch (σ t) = e.firstMatch t := by
  unfold Elem.firstMatch
  rw [r_next, r_elements, ← List.map_drop, firstFrom_r hσ]

omit hσ in
theorem swap_r (es : List Elem) (i j : Nat) : swap (es.map (Elem.retagged σ)) i j = (swap es i j).map (Elem.retagged σ) := by
  unfold swap
  rw [List.getElem?_map, List.getElem?_map]
  cases es[i]? with
  | none => rfl
  | some a => cases es[j]? with
    | none => rfl
    | some b => simp only [Option.map_some, List.map_set]

theorem search_r (e : Elem) (t : String) (m : Mode) (step : Bool) :
    (e.retagged σ).search (σ t) m step = ((e.search t m step).1, (e.search t m step).2.retagged σ) := by
  cases m with
  | strict =>
    simp only [Elem.search, Elem.strictSearch, r_next, r_elements, List.getElem?_map]
    cases e.elements[e.next]? with
    | none => rfl
    | some c =>
      simp only [Option.map_some, r_tag, tag_iff hσ]
      split
      · split
        · simp only [elem_eq]
        · rfl
      · rfl
  | ordered =>
    simp only [Elem.search, Elem.orderedSearch, firstMatch_r hσ]
    cases e.firstMatch t with
    | none => rfl
    | some i =>
      simp only
      split
      · simp only [elem_eq]
      · rfl
  | unordered =>
    simp only [Elem.search, Elem.unorderedSearch, firstMatch_r hσ]
    cases e.firstMatch t with
    | none => rfl
    | some i =>
      simp only [r_next, r_elements, swap_r]
      refine Prod.ext rfl ?_
      rw [elem_eq e, elem_eq { e with elements := _, next := _ }]

theorem findElement_r (e : Elem) (t : String) (m : Mode) :
    (e.retagged σ).findElement (σ t) m = (e.findElement t m).map fun r => (r.1, r.2.retagged σ) := by
  unfold Elem.findElement
  rw [lookBehind_r hσ, search_r hσ, r_next]
  cases e.lookBehind t with
  | error x => rfl
  | ok b => cases b <;> rfl

theorem popElementRemove_r (e : Elem) (t : String) (m : Mode) : (e.retagged σ).popElementRemove (σ t) m =
    ((e.popElementRemove t m).1.map (Elem.retagged σ), (e.popElementRemove t m).2.retagged σ) := by
  unfold Elem.popElementRemove Elem.popElement
  rw [search_r hσ]
  cases e.search t m true with
  | mk o e' =>
    cases o with
    | none => rfl
    | some i =>
      simp only [r_elements, List.getElem?_map]
      cases e'.elements[i]? with
      | none => rfl
      | some c =>
        simp only [Option.map_some]
        have h1 : detached (c.retagged σ) = (detached c).retagged σ := by simp only [detached, elem_eq]
        have h2 : hollow (c.retagged σ) = (hollow c).retagged σ := by simp only [hollow, elem_eq, List.map_nil]
        rw [h1, h2, setChild_r]

end

/-! ## What is left over -/

theorem empty_append {α : Type} (a b : List α) : (a ++ b).isEmpty = (a.isEmpty && b.isEmpty) := by cases a <;> rfl

theorem unboundText_isEmpty (p q : List (String × Int)) (t : Option String) : (unboundText p t).isEmpty = (unboundText q t).isEmpty := by
  unfold unboundText
  split
  · rfl
  · split <;> rfl

mutual

theorem unbound_isEmpty (p q : List (String × Int)) : ∀ e : Elem, (getUnbound p (e.retagged σ)).isEmpty = (getUnbound q e).isEmpty
  | ⟨t, m, x, y, a, es, n, l⟩ => by
    simp only [Elem.retagged, getUnbound, empty_append, List.isEmpty_map, unboundText_isEmpty p q, unboundList_isEmpty p q es]

theorem unboundList_isEmpty (p q : List (String × Int)) : ∀ es : List Elem,
    (getUnboundList p (Elem.retaggedAll σ es)).isEmpty = (getUnboundList q es).isEmpty
  | [] => rfl
  | e :: es => by
    simp only [Elem.retaggedAll, getUnboundList, empty_append, unboundList_isEmpty p q es,
      unbound_isEmpty (p ++ [((e.retagged σ).tag, (e.retagged σ).line)]) (q ++ [(e.tag, e.line)]) e]

end

theorem checkExtra_isSome (t t' : Title) (e : Elem) : (checkExtra t' (e.retagged σ)).isSome = (checkExtra t e).isSome := by
  have := unbound_isEmpty (σ := σ) [] [] e
  unfold checkExtra
  revert this
  generalize getUnbound [] (e.retagged σ) = a
  generalize getUnbound [] e = b
  intro h
  cases a <;> cases b <;> first | rfl | cases h

/-! ## Native trees -/

section
variable (hσ : Retagging σ) (b : Backend)
include hσ

omit hσ in
theorem isComment_r (n : Node) : (n.retagged σ).isComment = n.isComment := by cases n <;> rfl

mutual

theorem fromNative_r : ∀ n : Node, fromNative b (n.retagged σ) = (fromNative b n).retagged σ
  | .elem t a m x y cs l => by simp only [Node.retagged, fromNative, Elem.retagged, fromNativeList_r cs]
  | .comment x y => by simp only [Node.retagged, fromNative, Elem.retagged, Elem.retaggedAll, hσ.comment]
  | .pi x y => by simp only [Node.retagged, fromNative, Elem.retagged, Elem.retaggedAll, hσ.pi]

theorem fromNativeList_r : ∀ ns : List Node, fromNativeList b (Node.retaggedAll σ ns) = Elem.retaggedAll σ (fromNativeList b ns)
  | [] => rfl
  | n :: ns => by
    simp only [Node.retaggedAll, fromNativeList, isComment_r, fromNativeList_r ns, fromNative_r n]
    split <;> rfl

end

omit hσ in
mutual

theorem toNative_r : ∀ e : Elem, toNative b (e.retagged σ) = (toNative b e).retagged σ
  | ⟨t, m, x, y, a, es, n, l⟩ => by simp only [Elem.retagged, toNative, Node.retagged, toNativeList_r es]

theorem toNativeList_r : ∀ es : List Elem, toNativeList b (Elem.retaggedAll σ es) = Node.retaggedAll σ (toNativeList b es)
  | [] => rfl
  | e :: es => by simp only [Elem.retaggedAll, toNativeList, Node.retaggedAll, toNative_r e, toNativeList_r es]

end

theorem rootTag (n : Node) : (n.retagged σ).tag = σ n.tag := by
  cases n with
  | elem t a m x y cs l => rfl
  | comment x y => exact hσ.comment.symm
  | pi x y => exact hσ.pi.symm

omit hσ in
theorem makeElement_r (t : String) (m : Option NsMap) : makeElement b (σ t) m = (makeElement b t m).retagged σ := by
  rw [elem_eq]
  rfl

end

end Retag
end PXml
