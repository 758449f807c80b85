import Verif.Lemmas.Content

/-! Pieces of content of documents. -/

namespace PXml

open Elem

mutual
theorem fromNative_content (b : Backend) (n : Node) (h : n.isComment = false) : (fromNative b n).content = n.pieces := by
  cases n with
  | elem tag attrib nsmap text tail cs line =>
    simp [fromNative, Node.pieces, content, own, fromNativeList_content b cs]
  | comment => simp [Node.isComment] at h
  | pi => simp [fromNative, Node.pieces, content, own, contentList]
theorem fromNativeList_content (b : Backend) (l : List Node) :
    contentList (fromNativeList b l) = Node.piecesList l := by
  cases l with
  | nil => rfl
  | cons c l =>
    simp only [fromNativeList, Node.piecesList]
    split
    · rename_i h
      rw [fromNativeList_content b l]
      cases c <;> simp [Node.isComment] at h
      simp [Node.pieces]
    · rename_i h
      simp only [contentList, fromNative_content b c (by simpa using h), fromNativeList_content b l]
end

mutual
theorem toNative_pieces (b : Backend) (e : Elem) : (toNative b e).pieces = e.content := by
  cases e with
  | mk tag nsmap text tail attrib elements next line =>
    simp [toNative, Node.pieces, content, own, toNativeList_pieces b elements]
theorem toNativeList_pieces (b : Backend) (l : List Elem) :
    Node.piecesList (toNativeList b l) = contentList l := by
  cases l with
  | nil => rfl
  | cons c l => simp [toNativeList, Node.piecesList, contentList, toNative_pieces b c, toNativeList_pieces b l]
end

end PXml
