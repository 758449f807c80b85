import Verif.Spec

/-! # Vocabulary of C107: documents without processing instructions -/

namespace PXml

/-- A processing instruction `<?…?>`. -/
def Node.isPi : Node → Bool
  | .pi _ _ => true
  | _ => false

mutual
/-- The document without processing instructions, where the text directly following one (its tail) disappears with it. -/
def Node.dropPis : Node → Node
  | .elem tag attrib nsmap text tail children line => .elem tag attrib nsmap text tail (Node.dropPisList children) line
  | n => n
/-- The same for all of them. -/
def Node.dropPisList : List Node → List Node
  | [] => []
  | n :: ns => if n.isPi then Node.dropPisList ns else n.dropPis :: Node.dropPisList ns
end

mutual
/-- The document with the children of each element only up to the first processing instruction among them. -/
def Node.cutPis : Node → Node
  | .elem tag attrib nsmap text tail children line => .elem tag attrib nsmap text tail (Node.cutPisList children) line
  | n => n
/-- The nodes before the first processing instruction. -/
def Node.cutPisList : List Node → List Node
  | [] => []
  | n :: ns => if n.isPi then [] else n.cutPis :: Node.cutPisList ns
end

/-- The tag that the model gives to processing instructions (lxml gives them a function as tag); it is not the name of any element. -/
def piTag : String := (Node.pi none none).tag

end PXml
