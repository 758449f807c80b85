import Verif.Lemmas.LocFree
import Verif.Lemmas.Retag
import Verif.SpecRekey

/-! Attributes under other names: what the operations on elements do. -/

namespace PXml

open Elem

namespace Rekey

variable {κ : String → String}

theorem nodes_eq : ∀ ns : List Node, Node.rekeyedAll κ ns = ns.map (Node.rekeyed κ)
  | [] => rfl
  | n :: ns => by simp [Node.rekeyedAll, nodes_eq ns]

theorem elems_eq : ∀ es : List Elem, Elem.rekeyedAll κ es = es.map (Elem.rekeyed κ)
  | [] => rfl
  | e :: es => by simp [Elem.rekeyedAll, elems_eq es]

theorem all_eq : ∀ vs : List Val, Val.rekeyedAll κ vs = vs.map (Val.rekeyed κ)
  | [] => rfl
  | v :: vs => by simp [Val.rekeyedAll, all_eq vs]

theorem serAll_eq : ∀ ss : List Ser, Ser.rekeyedAll κ ss = ss.map (Ser.rekeyed κ)
  | [] => rfl
  | s :: ss => by simp [Ser.rekeyedAll, serAll_eq ss]

theorem elem_eq (e : Elem) : e.rekeyed κ = { e with attrib := e.attrib.map (Dict.rekeyed κ), elements := e.elements.map (Elem.rekeyed κ) } := by
  obtain ⟨t, m, x, y, a, es, n, l⟩ := e
  simp only [Elem.rekeyed, elems_eq]

@[simp] theorem r_tag (e : Elem) : (e.rekeyed κ).tag = e.tag := by rw [elem_eq]
@[simp] theorem r_nsmap (e : Elem) : (e.rekeyed κ).nsmap = e.nsmap := by rw [elem_eq]
@[simp] theorem r_text (e : Elem) : (e.rekeyed κ).text = e.text := by rw [elem_eq]
@[simp] theorem r_tail (e : Elem) : (e.rekeyed κ).tail = e.tail := by rw [elem_eq]
@[simp] theorem r_attrib (e : Elem) : (e.rekeyed κ).attrib = e.attrib.map (Dict.rekeyed κ) := by rw [elem_eq]
@[simp] theorem r_elements (e : Elem) : (e.rekeyed κ).elements = e.elements.map (Elem.rekeyed κ) := by rw [elem_eq]
@[simp] theorem r_next (e : Elem) : (e.rekeyed κ).next = e.next := by rw [elem_eq]
@[simp] theorem r_line (e : Elem) : (e.rekeyed κ).line = e.line := by rw [elem_eq]

theorem getD_d (a : Option (Dict String String)) : (a.map (Dict.rekeyed κ)).getD [] = Dict.rekeyed κ (a.getD []) := by
  cases a <;> rfl

theorem truthyMap_r (a : Option (Dict String String)) : truthyMap (a.map (Dict.rekeyed κ)) = truthyMap a := by
  cases a with
  | none => rfl
  | some d => cases d <;> rfl

theorem isEmpty_r (e : Elem) : (e.rekeyed κ).isEmpty = e.isEmpty := by
  simp only [Elem.isEmpty, r_text, r_tail, r_attrib, r_elements, List.isEmpty_map, truthyMap_r]

section
variable (hκ : Rekeying κ)
include hκ

theorem key_iff (a b : String) : (κ a = κ b) ↔ a = b := ⟨hκ.injective a b, fun h => by rw [h]⟩

theorem get_d (k : String) : ∀ d : Dict String String, Dict.get? (Dict.rekeyed κ d) (κ k) = Dict.get? d k
  | [] => rfl
  | (k', v) :: d => by
    simp only [Dict.rekeyed, List.map_cons, Dict.get?, key_iff hκ]
    split
    · rfl
    · exact get_d k d

theorem set_d (k v : String) : ∀ d : Dict String String, Dict.rekeyed κ (Dict.set d k v) = Dict.set (Dict.rekeyed κ d) (κ k) v
  | [] => rfl
  | (k', v') :: d => by
    simp only [Dict.rekeyed, List.map_cons, Dict.set, key_iff hκ]
    split
    · rfl
    · exact congrArg _ (set_d k v d)

theorem erase_d (k : String) : ∀ d : Dict String String, Dict.erase (Dict.rekeyed κ d) (κ k) = Dict.rekeyed κ (Dict.erase d k)
  | [] => rfl
  | (k', v') :: d => by
    simp only [Dict.rekeyed, List.map_cons, Dict.erase, key_iff hκ]
    split
    · rfl
    · exact congrArg _ (erase_d k d)

theorem setAttribute_r (e : Elem) (k v : String) : (e.rekeyed κ).setAttribute (κ k) v = (e.setAttribute k v).rekeyed κ := by
  simp only [elem_eq, Elem.setAttribute, Option.map_some, getD_d, set_d hκ]

theorem makeNil_r (e : Elem) : (e.rekeyed κ).makeNil = e.makeNil.rekeyed κ := by
  have := setAttribute_r hκ e nilAttr "true"
  rwa [hκ.nil] at this

theorem popAttrib_r (e : Elem) (k : String) : (e.rekeyed κ).popAttrib (κ k) = ((e.popAttrib k).1, (e.popAttrib k).2.rekeyed κ) := by
  unfold Elem.popAttrib
  rw [r_attrib, truthyMap_r]
  split
  · rw [getD_d, get_d hκ, erase_d hκ]
    simp only [elem_eq, Option.map_some]
  · rfl

theorem isNil_r (e : Elem) : (e.rekeyed κ).isNil = (e.isNil.1, e.isNil.2.rekeyed κ) := by
  unfold Elem.isNil
  have := popAttrib_r hκ e nilAttr
  rw [hκ.nil] at this
  rw [this]

end

theorem setText_r (e : Elem) (t : String) : (e.rekeyed κ).setText t = (e.setText t).rekeyed κ := by
  simp only [elem_eq, Elem.setText]

theorem append_r (e c : Elem) : (e.rekeyed κ).append (c.rekeyed κ) = (e.append c).rekeyed κ := by
  rw [elem_eq e, elem_eq (e.append c)]
  simp only [Elem.append, List.map_append, List.map_cons, List.map_nil]

theorem setChild_r (e c : Elem) (i : Nat) : (e.rekeyed κ).setChild i (c.rekeyed κ) = (e.setChild i c).rekeyed κ := by
  rw [elem_eq e, elem_eq (e.setChild i c)]
  simp only [Elem.setChild, List.map_set]

theorem popText_r (e : Elem) : (e.rekeyed κ).popText = (e.popText.1, e.popText.2.rekeyed κ) := by
  simp only [elem_eq, Elem.popText]

theorem stepForward_r (e : Elem) : (e.rekeyed κ).stepForward = e.stepForward.rekeyed κ := by
  simp only [elem_eq, Elem.stepForward]

theorem applySnapshot_r (e s : Elem) : (e.rekeyed κ).applySnapshot (s.rekeyed κ) = (e.applySnapshot s).rekeyed κ := by
  simp only [elem_eq, Elem.applySnapshot]

theorem lookBehind_r (e : Elem) (t : String) : (e.rekeyed κ).lookBehind t = e.lookBehind t := by
  unfold Elem.lookBehind
  rw [r_next, r_elements, List.getElem?_map]
  split
  · rfl
  · cases e.elements[e.next - 1]? with
    | none => rfl
    | some c => simp only [Option.map_some, r_tag]

theorem firstFrom_r (t : String) : ∀ (es : List Elem) (k : Nat), firstFrom t (es.map (Elem.rekeyed κ)) k = firstFrom t es k
  | [], _ => rfl
  | e :: es, k => by simp only [List.map_cons, firstFrom, r_tag, firstFrom_r t es]

theorem firstMatch_r (e : Elem) (t : String) : (e.rekeyed κ).firstMatch t = e.firstMatch t := by
  unfold Elem.firstMatch
  rw [r_next, r_elements, ← List.map_drop, firstFrom_r]

theorem swap_r (es : List Elem) (i j : Nat) : swap (es.map (Elem.rekeyed κ)) i j = (swap es i j).map (Elem.rekeyed κ) := by
  unfold swap
  rw [List.getElem?_map, List.getElem?_map]
  cases es[i]? with
  | none => rfl
  | some a => cases es[j]? with
    | none => rfl
    | some b => simp only [Option.map_some, List.map_set]

theorem search_r (e : Elem) (t : String) (m : Mode) (step : Bool) :
    (e.rekeyed κ).search t m step = ((e.search t m step).1, (e.search t m step).2.rekeyed κ) := by
  cases m with
  | strict =>
    simp only [Elem.search, Elem.strictSearch, r_next, r_elements, List.getElem?_map]
    cases e.elements[e.next]? with
    | none => rfl
    | some c =>
      simp only [Option.map_some, r_tag]
      split
      · split
        · simp only [elem_eq]
        · rfl
      · rfl
  | ordered =>
    simp only [Elem.search, Elem.orderedSearch, firstMatch_r]
    cases e.firstMatch t with
    | none => rfl
    | some i =>
      simp only
      split
      · simp only [elem_eq]
      · rfl
  | unordered =>
    simp only [Elem.search, Elem.unorderedSearch, firstMatch_r]
    cases e.firstMatch t with
    | none => rfl
    | some i =>
      simp only [r_next, r_elements, swap_r]
      refine Prod.ext rfl ?_
      rw [elem_eq e, elem_eq { e with elements := _, next := _ }]

theorem findElement_r (e : Elem) (t : String) (m : Mode) :
    (e.rekeyed κ).findElement t m = (e.findElement t m).map fun r => (r.1, r.2.rekeyed κ) := by
  unfold Elem.findElement
  rw [lookBehind_r, search_r, r_next]
  cases e.lookBehind t with
  | error x => rfl
  | ok b => cases b <;> rfl

theorem popElementRemove_r (e : Elem) (t : String) (m : Mode) : (e.rekeyed κ).popElementRemove t m =
    ((e.popElementRemove t m).1.map (Elem.rekeyed κ), (e.popElementRemove t m).2.rekeyed κ) := by
  unfold Elem.popElementRemove Elem.popElement
  rw [search_r]
  cases e.search t m true with
  | mk o e' =>
    cases o with
    | none => rfl
    | some i =>
      simp only [r_elements, List.getElem?_map]
      cases e'.elements[i]? with
      | none => rfl
      | some c =>
        simp only [Option.map_some]
        have h1 : detached (c.rekeyed κ) = (detached c).rekeyed κ := by simp only [detached, elem_eq]
        have h2 : hollow (c.rekeyed κ) = (hollow c).rekeyed κ := by simp only [hollow, elem_eq, List.map_nil, Option.map_none]
        rw [h1, h2, setChild_r]

/-! ## What is left over -/

theorem attribs_isEmpty (a : Option (Dict String String)) : List.isEmpty ((a.map (Dict.rekeyed κ)).getD []) = List.isEmpty (a.getD []) := by
  rw [getD_d, Dict.rekeyed, List.isEmpty_map]

mutual

theorem unbound_isEmpty (p q : List (String × Int)) : ∀ e : Elem, (getUnbound p (e.rekeyed κ)).isEmpty = (getUnbound q e).isEmpty
  | ⟨t, m, x, y, a, es, n, l⟩ => by
    simp only [Elem.rekeyed, getUnbound, Retag.empty_append, List.isEmpty_map, Retag.unboundText_isEmpty p q, unboundList_isEmpty p q es, attribs_isEmpty]

theorem unboundList_isEmpty (p q : List (String × Int)) : ∀ es : List Elem,
    (getUnboundList p (Elem.rekeyedAll κ es)).isEmpty = (getUnboundList q es).isEmpty
  | [] => rfl
  | e :: es => by
    simp only [Elem.rekeyedAll, getUnboundList, Retag.empty_append, unboundList_isEmpty p q es,
      unbound_isEmpty (p ++ [((e.rekeyed κ).tag, (e.rekeyed κ).line)]) (q ++ [(e.tag, e.line)]) e]

end

theorem checkExtra_isSome (t t' : Title) (e : Elem) : (checkExtra t' (e.rekeyed κ)).isSome = (checkExtra t e).isSome := by
  have := unbound_isEmpty (κ := κ) [] [] e
  unfold checkExtra
  revert this
  generalize getUnbound [] (e.rekeyed κ) = a
  generalize getUnbound [] e = b
  intro h
  cases a <;> cases b <;> first | rfl | cases h

/-! ## Native trees -/

section
variable (b : Backend)

theorem isComment_r (n : Node) : (n.rekeyed κ).isComment = n.isComment := by cases n <;> rfl

mutual

theorem fromNative_r : ∀ n : Node, fromNative b (n.rekeyed κ) = (fromNative b n).rekeyed κ
  | .elem t a m x y cs l => by simp only [Node.rekeyed, fromNative, Elem.rekeyed, fromNativeList_r cs, Option.map_some]
  | .comment x y => by simp only [Node.rekeyed, fromNative, Elem.rekeyed, Elem.rekeyedAll]; rfl
  | .pi x y => by simp only [Node.rekeyed, fromNative, Elem.rekeyed, Elem.rekeyedAll]; rfl

theorem fromNativeList_r : ∀ ns : List Node, fromNativeList b (Node.rekeyedAll κ ns) = Elem.rekeyedAll κ (fromNativeList b ns)
  | [] => rfl
  | n :: ns => by
    simp only [Node.rekeyedAll, fromNativeList, isComment_r, fromNativeList_r ns, fromNative_r n]
    split <;> rfl

end

mutual

theorem toNative_r : ∀ e : Elem, toNative b (e.rekeyed κ) = (toNative b e).rekeyed κ
  | ⟨t, m, x, y, a, es, n, l⟩ => by simp only [Elem.rekeyed, toNative, Node.rekeyed, toNativeList_r es, getD_d]

theorem toNativeList_r : ∀ es : List Elem, toNativeList b (Elem.rekeyedAll κ es) = Node.rekeyedAll κ (toNativeList b es)
  | [] => rfl
  | e :: es => by simp only [Elem.rekeyedAll, toNativeList, Node.rekeyedAll, toNative_r e, toNativeList_r es]

end

theorem rootTag (n : Node) : (n.rekeyed κ).tag = n.tag := by cases n <;> rfl

theorem makeElement_r (t : String) (m : Option NsMap) : makeElement b t m = (makeElement b t m).rekeyed κ := by
  rw [elem_eq]
  rfl

end

end Rekey
end PXml
