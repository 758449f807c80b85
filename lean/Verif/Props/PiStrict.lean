import Verif.Props.Pi
import Verif.Props.StrictCut

/-!
# C107 in strict mode

Specification: `SpecPi.lean`.
-/

namespace PXml

open Elem

mutual
theorem cutForeign_cutPis {K : List String} (hK : piTag ∉ K) (n : Node) : n.cutPis.cutForeign K = n.cutForeign K := by
  cases n with
  | elem tag attrib nsmap text tail cs line => simp only [Node.cutPis, Node.cutForeign, cutForeignList_cutPis hK cs]
  | comment => rfl
  | pi => rfl
theorem cutForeignList_cutPis {K : List String} (hK : piTag ∉ K) (l : List Node) :
    Node.cutForeignList K (Node.cutPisList l) = Node.cutForeignList K l := by
  cases l with
  | nil => rfl
  | cons n l =>
    have h1 := cutForeignList_cutPis hK l
    have h2 := cutForeign_cutPis hK n
    have ht : n.cutPis.tag = n.tag := by cases n <;> rfl
    have hc : n.cutPis.isComment = n.isComment := by cases n <;> rfl
    have hcc : n.isComment = true → n.cutPis = n := by cases n <;> simp [Node.isComment, Node.cutPis]
    cases hp : n.isPi with
    | true =>
      have h3 : n.tag ∉ K := by
        cases n with
        | pi => exact hK
        | _ => cases hp
      have h4 : n.isComment = false := by
        cases n with
        | pi => rfl
        | _ => cases hp
      simp [Node.cutPisList, hp, Node.cutForeignList, h3, h4]
    | false =>
      simp only [Node.cutPisList, hp, Bool.false_eq_true, if_false, Node.cutForeignList, ht, hc, h1, h2]
      split
      · rename_i h
        rw [hcc h]
      · rfl
end

/-- C107 (strict mode, where `C107_counterexample` shows it to be false; partial: without `extra='forbid'` and raw fields): a document is read as if the first
processing instruction of each element, and all that follows it there, were missing. -/
theorem C107_strict_partial (env : Env) (hno : env.NoValidators) (hforbid : env.NoForbid) (K : List String) (hpi : piTag ∉ K)
    (hK : env.Everywhere (Ser.LooksFor K .strict)) (hraw : env.Everywhere Ser.NotRaw) (eas : Bool) (n : Nat) (cls : String) (doc : Node) :
    (fromXmlTree env eas n cls doc.cutPis).1 = (fromXmlTree env eas n cls doc).1 :=
  C108_strict_cut env hno hforbid K hK hraw eas n cls _ _ (cutForeign_cutPis hpi doc)

namespace Ex

/-- A zoo with processing instructions behind the elements that are needed, and one more animal behind one of them. -/
def zooPi : Node := el "zoo" none [el "animal" none [el "name" (some "O"), el "wing" (some "w"), .pi (some "a") (some "x")], lion,
  el "keeper" (some "Ann") [.pi (some "b") none], .pi (some "c") none, owl]

/-- Non-vacuity of `C107_strict_partial`. -/
example : (fromXmlTree (zooEnv .strict) false 9 "Zoo" zooPi.cutPis).1 = (fromXmlTree (zooEnv .strict) false 9 "Zoo" zooPi).1 :=
  have ⟨h1, h2, _, h4, h5, _⟩ := zoo_ok .strict
  C107_strict_partial _ h1 h2 zooTags (by decide) h4 h5 false 9 "Zoo" zooPi
example : zooPi.cutPis = zooDoc := by kernel_rfl
example : (fromXmlTree (zooEnv .strict) false 9 "Zoo" zooPi).1 = .ok zooVal := by kernel_rfl

end Ex

end PXml
