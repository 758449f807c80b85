import Verif.Spec
import Verif.Lemmas.Content

/-! A written element, converted to the native tree and back. -/

namespace PXml

open Elem

mutual
/-- The element as it is found when the written tree is read. -/
def Elem.reread : Elem → Elem
  | ⟨tag, _, text, tail, attrib, elements, _, _⟩ =>
    { tag := tag, text := text, tail := tail, attrib := some (attrib.getD []), elements := Elem.rereadList elements }
def Elem.rereadList : List Elem → List Elem
  | [] => []
  | e :: es => e.reread :: Elem.rereadList es
end

theorem rereadList_eq (l : List Elem) : rereadList l = l.map reread := by
  induction l with
  | nil => rfl
  | cons e l ih => simp [rereadList, ih]

theorem reread_eq (e : Elem) :
    e.reread = ⟨e.tag, none, e.text, e.tail, some (e.attrib.getD []), e.elements.map reread, 0, -1⟩ := by cases e; simp [reread, rereadList_eq]

mutual
theorem fromNative_toNative (b : Backend) (e : Elem) : fromNative b (toNative b e) = e.reread := by
  cases e with
  | mk tag nsmap text tail attrib elements next line =>
    simp only [toNative, fromNative, reread, fromNativeList_toNativeList b elements]
    cases b <;> rfl
theorem fromNativeList_toNativeList (b : Backend) (l : List Elem) : fromNativeList b (toNativeList b l) = rereadList l := by
  cases l with
  | nil => rfl
  | cons e l =>
    have : (toNative b e).isComment = false := by cases e; rfl
    simp only [toNativeList, fromNativeList, rereadList, this, Bool.false_eq_true, if_false, fromNative_toNative b e,
      fromNativeList_toNativeList b l]
end

@[simp] theorem reread_tag (e : Elem) : e.reread.tag = e.tag := by rw [reread_eq]
@[simp] theorem reread_text (e : Elem) : e.reread.text = e.text := by rw [reread_eq]
@[simp] theorem reread_tail (e : Elem) : e.reread.tail = e.tail := by rw [reread_eq]
@[simp] theorem reread_attrib (e : Elem) : e.reread.attrib = some (e.attrib.getD []) := by rw [reread_eq]
@[simp] theorem reread_elements (e : Elem) : e.reread.elements = e.elements.map reread := by rw [reread_eq]
@[simp] theorem reread_next (e : Elem) : e.reread.next = 0 := by rw [reread_eq]
@[simp] theorem reread_line (e : Elem) : e.reread.line = -1 := by rw [reread_eq]
@[simp] theorem reread_nsmap (e : Elem) : e.reread.nsmap = none := by rw [reread_eq]
theorem reread_getAttrib (e : Elem) (k : String) : e.reread.getAttrib k = e.getAttrib k := by
  simp [getAttrib]

mutual
theorem toNative_fromNative (b : Backend) (n : Node) (h : n.NoPIs) (hc : n.isComment = false) :
    toNative b (fromNative b n) = n.plain := by
  cases n with
  | elem tag attrib nsmap text tail children line =>
    simp only [fromNative, toNative, Node.plain, Node.dropComments, Node.dropPrefixes, Node.dropLines,
      toNativeList_fromNativeList b children h, Option.getD_some]
    cases b <;> rfl
  | comment => cases hc
  | pi => exact absurd h id
theorem toNativeList_fromNativeList (b : Backend) (l : List Node) (h : Node.NoPIsList l) :
    toNativeList b (fromNativeList b l) = Node.dropLinesList (Node.dropPrefixesList (Node.dropCommentsList l)) := by
  cases l with
  | nil => rfl
  | cons n l =>
    simp only [Node.NoPIsList] at h
    cases hc : n.isComment with
    | true => simp only [fromNativeList, Node.dropCommentsList, hc, if_true, toNativeList_fromNativeList b l h.2]
    | false =>
      simp only [fromNativeList, Node.dropCommentsList, hc, Bool.false_eq_true, if_false, toNativeList,
        Node.dropPrefixesList, Node.dropLinesList, toNativeList_fromNativeList b l h.2, toNative_fromNative b n h.1 hc]
      rfl
end

mutual
theorem toNative_reread (b : Backend) (e : Elem) : toNative b e.reread = (toNative b e).dropPrefixes := by
  cases e with
  | mk tag nsmap text tail attrib elements next line =>
    simp only [toNative, reread, Node.dropPrefixes, toNativeList_reread b elements, Option.getD_some]
    cases b <;> rfl
theorem toNativeList_reread (b : Backend) (l : List Elem) :
    toNativeList b (rereadList l) = Node.dropPrefixesList (toNativeList b l) := by
  cases l with
  | nil => rfl
  | cons e l => simp only [toNativeList, rereadList, Node.dropPrefixesList, toNative_reread b e, toNativeList_reread b l]
end

mutual
theorem dropPrefixes_plain (n : Node) : n.plain.dropPrefixes = n.plain := by
  cases n with
  | elem tag attrib nsmap text tail children line =>
    simp only [Node.plain, Node.dropComments, Node.dropPrefixes, Node.dropLines, dropPrefixes_plainList children]
  | comment => rfl
  | pi => rfl
theorem dropPrefixes_plainList (l : List Node) :
    Node.dropPrefixesList (Node.dropLinesList (Node.dropPrefixesList (Node.dropCommentsList l))) =
      Node.dropLinesList (Node.dropPrefixesList (Node.dropCommentsList l)) := by
  cases l with
  | nil => rfl
  | cons n l =>
    simp only [Node.dropCommentsList]
    split
    · exact dropPrefixes_plainList l
    · simp only [Node.dropPrefixesList, Node.dropLinesList, dropPrefixes_plainList l]
      have := dropPrefixes_plain n
      unfold Node.plain at this
      rw [this]
end

end PXml
