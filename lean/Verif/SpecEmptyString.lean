import Verif.SpecFieldOrder

/-! # Vocabulary of C105: documents without empty texts, and the classes that look at each text once -/

namespace PXml

/-- The element has the attribute `xsi:nil="true"`. -/
def Node.Nil (node : Node) : Prop := node.rootAttrs.get? Elem.nilAttr = some "true"

/-- In the document every element whose name is in `T` contains text, and every element whose name is in `N` contains text or is nil. -/
inductive Node.Texted (T N : String → Bool) : Node → Prop
  | mk {node : Node} : (T node.tag = true → Elem.truthy node.rootText = true) → (N node.tag = true → Elem.truthy node.rootText = true ∨ node.Nil) →
      (∀ k ∈ node.children, Texted T N k) → Texted T N node

/-- Where the text is that the field reads, if it is the text of the element of its class (`[]`) or of a wrapper element (its path). -/
def Ser.textPath : Ser → Option (List String)
  | .text false _ => some []
  | .primUnion false inner => inner.textPath
  | .wrap path _ _ false inner => inner.textPath.map fun p => path ++ p
  | _ => none

mutual

/-- The field takes no text of an element at this path (seen from the element of the class). -/
def Ser.LeavesText : Ser → List String → Prop
  | .text _ _, path => path ≠ []
  | .attr _ _, _ => True
  | .elem name _ _ _ _, path => path ≠ [name]
  | .attrs _, _ => True
  | .mapElem _ _ _, _ => True
  | .raw name _ _, path => path ≠ [name]
  | .proxy p, path => path.head? ≠ some p.name
  | .primUnion _ inner, path => inner.LeavesText path
  | .modelUnion _ _ alts, path => ∀ p ∈ alts, path.head? ≠ some p.name
  | .tagged _ _ _ _ alts, path => ∀ p ∈ alts, path.head? ≠ some p.2.name
  | .wrap wrapper _ _ _ inner, path => ∀ rest, path = wrapper ++ rest → inner.LeavesText rest
  | .homog _ _ inner, path => inner.LeavesText path
  | .hetero _ _ inners, path => Ser.LeavesTextAll inners path

/-- The same for all of them. -/
def Ser.LeavesTextAll : List Ser → List String → Prop
  | [], _ => True
  | s :: ss, path => s.LeavesText path ∧ Ser.LeavesTextAll ss path

end

/-- The paths of all texts that the fields of the class read in this way. -/
def ModelSer.textPaths (m : ModelSer) : List (List String) :=
  match m.body with
  | .fields fs => fs.filterMap fun f => f.ser.textPath
  | .root s => s.textPath.toList

/-- The elements at the path, seen from an element with the given name, have a name in `T`. -/
def ends (T : String → Bool) (name : String) (path : List String) : Bool := T (path.getLast?.getD name)

/-- Every element that a text is read from has its name in `T`, or in `N` if the field is nillable or a sub-model; the text of the class itself, or of a wrapper, is not read. -/
def Ser.ReadsTextsOf (env : Env) (T N : String → Bool) (s : Ser) : Prop :=
  s.Everywhere fun
    | .text computed _ => computed = true
    | .elem name _ _ computed nillable => computed = true ∨ T name = true ∨ nillable = true ∧ N name = true
    | .proxy p => p.computed = true ∨ ∀ m, env.model p.cls = some m → ∀ path ∈ m.textPaths, ends T p.name path = true ∨ path = [] ∧ N p.name = true
    | _ => True

/-- Each field is the text of the element of the class or of a wrapper, which no field before it takes, or reads texts from elements named in `T` or `N` as above. -/
def ModelSer.ReadsTextsOf (env : Env) (T N : String → Bool) (m : ModelSer) : Prop :=
  match m.body with
  | .fields fs => (∀ f ∈ fs, f.ser.textPath.isSome = true ∨ f.ser.ReadsTextsOf env T N) ∧
      fs.Pairwise fun f g => ∀ path, g.ser.textPath = some path → f.ser.LeavesText path
  | .root s => s.textPath.isSome = true ∨ s.ReadsTextsOf env T N

/-- All classes are of this kind. -/
def Env.ReadsTextsOf (env : Env) (T N : String → Bool) : Prop := ∀ cls m, env.model cls = some m → m.ReadsTextsOf env T N

end PXml
