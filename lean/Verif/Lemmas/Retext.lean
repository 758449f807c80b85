import Verif.Lemmas.LocFree
import Verif.Lemmas.Retag
import Verif.SpecRetext

/-! Elements with other texts: what the operations on elements do. -/

namespace PXml

open Elem

namespace Retext

variable {φ : String → String}

theorem nodes_eq : ∀ ns : List Node, Node.retextedAll φ ns = ns.map (Node.retexted φ)
  | [] => rfl
  | n :: ns => by simp [Node.retextedAll, nodes_eq ns]

theorem elems_eq : ∀ es : List Elem, Elem.retextedAll φ es = es.map (Elem.retexted φ)
  | [] => rfl
  | e :: es => by simp [Elem.retextedAll, elems_eq es]

theorem all_eq : ∀ vs : List Val, Val.retextedAll φ vs = vs.map (Val.retexted φ)
  | [] => rfl
  | v :: vs => by simp [Val.retextedAll, all_eq vs]

theorem serAll_eq : ∀ ss : List Ser, Ser.retextedAll φ ss = ss.map (Ser.retexted φ)
  | [] => rfl
  | s :: ss => by simp [Ser.retextedAll, serAll_eq ss]

theorem elem_eq (e : Elem) : e.retexted φ = 
    { e with text := e.text.map φ, tail := e.tail.map φ, attrib := e.attrib.map (Dict.retexted φ), elements := e.elements.map (Elem.retexted φ) } := by
  obtain ⟨t, m, x, y, a, es, n, l⟩ := e
  simp only [Elem.retexted, elems_eq]

@[simp] theorem r_tag (e : Elem) : (e.retexted φ).tag = e.tag := by rw [elem_eq]
@[simp] theorem r_nsmap (e : Elem) : (e.retexted φ).nsmap = e.nsmap := by rw [elem_eq]
@[simp] theorem r_text (e : Elem) : (e.retexted φ).text = e.text.map φ := by rw [elem_eq]
@[simp] theorem r_tail (e : Elem) : (e.retexted φ).tail = e.tail.map φ := by rw [elem_eq]
@[simp] theorem r_attrib (e : Elem) : (e.retexted φ).attrib = e.attrib.map (Dict.retexted φ) := by rw [elem_eq]
@[simp] theorem r_elements (e : Elem) : (e.retexted φ).elements = e.elements.map (Elem.retexted φ) := by rw [elem_eq]
@[simp] theorem r_next (e : Elem) : (e.retexted φ).next = e.next := by rw [elem_eq]
@[simp] theorem r_line (e : Elem) : (e.retexted φ).line = e.line := by rw [elem_eq]

theorem get_d (k : String) : ∀ d : Dict String String, Dict.get? (Dict.retexted φ d) k = (Dict.get? d k).map φ
  | [] => rfl
  | (k', v) :: d => by
    simp only [Dict.retexted, List.map_cons, Dict.get?]
    split
    · rfl
    · exact get_d k d

theorem set_d (k v : String) : ∀ d : Dict String String, Dict.retexted φ (Dict.set d k v) = Dict.set (Dict.retexted φ d) k (φ v)
  | [] => rfl
  | (k', v') :: d => by
    simp only [Dict.retexted, List.map_cons, Dict.set]
    split
    · rfl
    · exact congrArg _ (set_d k v d)

theorem getD_d (a : Option (Dict String String)) : (a.map (Dict.retexted φ)).getD [] = Dict.retexted φ (a.getD []) := by
  cases a <;> rfl

theorem setText_r (e : Elem) (t : String) : (e.retexted φ).setText (φ t) = (e.setText t).retexted φ := by
  simp only [elem_eq, Elem.setText, Option.map_some]

theorem setAttribute_r (e : Elem) (k v : String) : (e.retexted φ).setAttribute k (φ v) = (e.setAttribute k v).retexted φ := by
  simp only [elem_eq, Elem.setAttribute, Option.map_some, getD_d, set_d]

theorem setAttributes_r (e : Elem) (d : Dict String String) : (e.retexted φ).setAttributes (Dict.retexted φ d) = (e.setAttributes d).retexted φ := by
  simp only [elem_eq, Elem.setAttributes, Option.map_some]

theorem append_r (e c : Elem) : (e.retexted φ).append (c.retexted φ) = (e.append c).retexted φ := by
  rw [elem_eq e, elem_eq (e.append c)]
  simp only [Elem.append, List.map_append, List.map_cons, List.map_nil]

theorem setChild_r (e c : Elem) (i : Nat) : (e.retexted φ).setChild i (c.retexted φ) = (e.setChild i c).retexted φ := by
  rw [elem_eq e, elem_eq (e.setChild i c)]
  simp only [Elem.setChild, List.map_set]

theorem popText_r (e : Elem) : (e.retexted φ).popText = (e.popText.1.map φ, e.popText.2.retexted φ) := by
  simp only [elem_eq, Elem.popText, Option.map_none]

theorem erase_d (k : String) : ∀ d : Dict String String, Dict.erase (Dict.retexted φ d) k = Dict.retexted φ (Dict.erase d k)
  | [] => rfl
  | (k', v') :: d => by
    simp only [Dict.retexted, List.map_cons, Dict.erase]
    split
    · rfl
    · exact congrArg _ (erase_d k d)

theorem truthyMap_r (a : Option (Dict String String)) : truthyMap (a.map (Dict.retexted φ)) = truthyMap a := by
  cases a with
  | none => rfl
  | some d => cases d <;> rfl

theorem popAttrib_r (e : Elem) (k : String) : (e.retexted φ).popAttrib k = ((e.popAttrib k).1.map φ, (e.popAttrib k).2.retexted φ) := by
  unfold Elem.popAttrib
  rw [r_attrib, truthyMap_r]
  split
  · rw [getD_d, get_d, erase_d]
    simp only [elem_eq, Option.map_some]
  · rfl

theorem popAttributes_r (e : Elem) : (e.retexted φ).popAttributes = (e.popAttributes.1.map (Dict.retexted φ), e.popAttributes.2.retexted φ) := by
  simp only [elem_eq, Elem.popAttributes, Option.map_none]

theorem stepForward_r (e : Elem) : (e.retexted φ).stepForward = e.stepForward.retexted φ := by
  simp only [elem_eq, Elem.stepForward]

theorem applySnapshot_r (e s : Elem) : (e.retexted φ).applySnapshot (s.retexted φ) = (e.applySnapshot s).retexted φ := by
  simp only [elem_eq, Elem.applySnapshot]

section
variable (hφ : Retexting φ)
include hφ

theorem empty_iff (s : String) : φ s = "" ↔ s = "" := ⟨fun h => hφ.injective _ _ (h.trans hφ.empty.symm), fun h => by rw [h, hφ.empty]⟩

theorem truthy_r (t : Option String) : truthy (t.map φ) = truthy t := by
  cases t with
  | none => rfl
  | some s => simp only [Option.map_some, truthy, ne_eq, empty_iff hφ]

theorem isEmpty_r (e : Elem) : (e.retexted φ).isEmpty = e.isEmpty := by
  simp only [Elem.isEmpty, r_text, r_tail, r_attrib, r_elements, List.isEmpty_map, truthy_r hφ, truthyMap_r]

theorem makeNil_r (e : Elem) : (e.retexted φ).makeNil = e.makeNil.retexted φ := by
  have := setAttribute_r (φ := φ) e nilAttr "true"
  rwa [hφ.nil] at this

theorem isNil_r (e : Elem) : (e.retexted φ).isNil = (e.isNil.1, e.isNil.2.retexted φ) := by
  unfold Elem.isNil
  rw [popAttrib_r]
  have h : ∀ o : Option String, (o.map φ = some "true") ↔ o = some "true" := by
    intro o
    cases o with
    | none => simp
    | some s =>
      simp only [Option.map_some, Option.some.injEq]
      exact ⟨fun h => hφ.injective _ _ (h.trans hφ.nil.symm), fun h => by rw [h, hφ.nil]⟩
  simp only [h]

theorem tag_iff (a b : String) : (φ a = φ b) ↔ a = b := ⟨hφ.injective a b, fun h => by rw [h]⟩

theorem lookBehind_r (e : Elem) (t : String) : (e.retexted φ).lookBehind t = e.lookBehind t := by
  unfold Elem.lookBehind
  rw [r_next, r_elements, List.getElem?_map]
  split
  · rfl
  · cases e.elements[e.next - 1]? with
    | none => rfl
    | some c => simp only [Option.map_some, r_tag, tag_iff hφ]

theorem firstFrom_r (t : String) : ∀ (es : List Elem) (k : Nat), firstFrom t (es.map (Elem.retexted φ)) k = firstFrom t es k
  | [], _ => rfl
  | e :: es, k => by simp only [List.map_cons, firstFrom, r_tag, tag_iff hφ, firstFrom_r t es]

theorem firstMatch_r (e : Elem) (t : String) : (e.retexted φ).firstMatch t = e.firstMatch t := by
  unfold Elem.firstMatch
  rw [r_next, r_elements, ← List.map_drop, firstFrom_r hφ]

omit hφ in
theorem swap_r (es : List Elem) (i j : Nat) : swap (es.map (Elem.retexted φ)) i j = (swap es i j).map (Elem.retexted φ) := by
  unfold swap
  rw [List.getElem?_map, List.getElem?_map]
  cases es[i]? with
  | none => rfl
  | some a => cases es[j]? with
    | none => rfl
    | some b => simp only [Option.map_some, List.map_set]

theorem search_r (e : Elem) (t : String) (m : Mode) (step : Bool) :
    (e.retexted φ).search t m step = ((e.search t m step).1, (e.search t m step).2.retexted φ) := by
  cases m with
  | strict =>
    simp only [Elem.search, Elem.strictSearch, r_next, r_elements, List.getElem?_map]
    cases e.elements[e.next]? with
    | none => rfl
    | some c =>
      simp only [Option.map_some, r_tag, tag_iff hφ]
      split
      · split
        · simp only [elem_eq]
        · rfl
      · rfl
  | ordered =>
    simp only [Elem.search, Elem.orderedSearch, firstMatch_r hφ]
    cases e.firstMatch t with
    | none => rfl
    | some i =>
      simp only
      split
      · simp only [elem_eq]
      · rfl
  | unordered =>
    simp only [Elem.search, Elem.unorderedSearch, firstMatch_r hφ]
    cases e.firstMatch t with
    | none => rfl
    | some i =>
      simp only [r_next, r_elements, swap_r]
      refine Prod.ext rfl ?_
      rw [elem_eq e, elem_eq { e with elements := _, next := _ }]

theorem findElement_r (e : Elem) (t : String) (m : Mode) :
    (e.retexted φ).findElement t m = (e.findElement t m).map fun r => (r.1, r.2.retexted φ) := by
  unfold Elem.findElement
  rw [lookBehind_r hφ, search_r hφ, r_next]
  cases e.lookBehind t with
  | error x => rfl
  | ok b => cases b <;> rfl

theorem popElementRemove_r (e : Elem) (t : String) (m : Mode) : (e.retexted φ).popElementRemove t m =
    ((e.popElementRemove t m).1.map (Elem.retexted φ), (e.popElementRemove t m).2.retexted φ) := by
  unfold Elem.popElementRemove Elem.popElement
  rw [search_r hφ]
  cases e.search t m true with
  | mk o e' =>
    cases o with
    | none => rfl
    | some i =>
      simp only [r_elements, List.getElem?_map]
      cases e'.elements[i]? with
      | none => rfl
      | some c =>
        simp only [Option.map_some]
        have h1 : detached (c.retexted φ) = (detached c).retexted φ := by simp only [detached, elem_eq]
        have h2 : hollow (c.retexted φ) = (hollow c).retexted φ := by simp only [hollow, elem_eq, List.map_nil, Option.map_none]
        rw [h1, h2, setChild_r]

end

/-! ## What is left over -/

section
variable (hφ : Retexting φ)
include hφ

theorem unboundText_isEmpty (p q : List (String × Int)) (t : Option String) : (unboundText p (t.map φ)).isEmpty = (unboundText q t).isEmpty := by
  cases t with
  | none => rfl
  | some t =>
    simp only [Option.map_some, unboundText, hφ.blank]
    split <;> rfl

theorem attribs_isEmpty (a : Option (Dict String String)) : List.isEmpty ((a.map (Dict.retexted φ)).getD []) = List.isEmpty (a.getD []) := by
  rw [getD_d, Dict.retexted, List.isEmpty_map]

mutual

theorem unbound_isEmpty (p q : List (String × Int)) : ∀ e : Elem, (getUnbound p (e.retexted φ)).isEmpty = (getUnbound q e).isEmpty
  | ⟨t, m, x, y, a, es, n, l⟩ => by
    simp only [Elem.retexted, getUnbound, Retag.empty_append, List.isEmpty_map, unboundText_isEmpty hφ p q, unboundList_isEmpty p q es, attribs_isEmpty hφ]

theorem unboundList_isEmpty (p q : List (String × Int)) : ∀ es : List Elem,
    (getUnboundList p (Elem.retextedAll φ es)).isEmpty = (getUnboundList q es).isEmpty
  | [] => rfl
  | e :: es => by
    simp only [Elem.retextedAll, getUnboundList, Retag.empty_append, unboundList_isEmpty p q es,
      unbound_isEmpty (p ++ [((e.retexted φ).tag, (e.retexted φ).line)]) (q ++ [(e.tag, e.line)]) e]

end

theorem checkExtra_isSome (t t' : Title) (e : Elem) : (checkExtra t' (e.retexted φ)).isSome = (checkExtra t e).isSome := by
  have := unbound_isEmpty hφ [] [] e
  unfold checkExtra
  revert this
  generalize getUnbound [] (e.retexted φ) = a
  generalize getUnbound [] e = b
  intro h
  cases a <;> cases b <;> first | rfl | cases h

end

/-! ## Native trees -/

section
variable (b : Backend)

theorem isComment_r (n : Node) : (n.retexted φ).isComment = n.isComment := by cases n <;> rfl

mutual

theorem fromNative_r : ∀ n : Node, fromNative b (n.retexted φ) = (fromNative b n).retexted φ
  | .elem t a m x y cs l => by simp only [Node.retexted, fromNative, Elem.retexted, fromNativeList_r cs, Option.map_some]
  | .comment x y => by simp only [Node.retexted, fromNative, Elem.retexted, Elem.retextedAll, Option.map_some]; rfl
  | .pi x y => by simp only [Node.retexted, fromNative, Elem.retexted, Elem.retextedAll, Option.map_some]; rfl

theorem fromNativeList_r : ∀ ns : List Node, fromNativeList b (Node.retextedAll φ ns) = Elem.retextedAll φ (fromNativeList b ns)
  | [] => rfl
  | n :: ns => by
    simp only [Node.retextedAll, fromNativeList, isComment_r, fromNativeList_r ns, fromNative_r n]
    split <;> rfl

end

mutual

theorem toNative_r : ∀ e : Elem, toNative b (e.retexted φ) = (toNative b e).retexted φ
  | ⟨t, m, x, y, a, es, n, l⟩ => by simp only [Elem.retexted, toNative, Node.retexted, toNativeList_r es, getD_d]

theorem toNativeList_r : ∀ es : List Elem, toNativeList b (Elem.retextedAll φ es) = Node.retextedAll φ (toNativeList b es)
  | [] => rfl
  | e :: es => by simp only [Elem.retextedAll, toNativeList, Node.retextedAll, toNative_r e, toNativeList_r es]

end

theorem rootTag (n : Node) : (n.retexted φ).tag = n.tag := by
  cases n <;> rfl

theorem makeElement_r (t : String) (m : Option NsMap) : makeElement b t m = (makeElement b t m).retexted φ := by
  rw [elem_eq]
  rfl

end

end Retext
end PXml
