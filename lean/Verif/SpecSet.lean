import Verif.Serializer

/-!
# Specification of instances that differ in their set fields only (C82)
-/

namespace PXml

mutual
/-- The value without the information which fields were set explicitly (`model_fields_set`). -/
def Val.forgetSet : Val → Val
  | .list vs => .list (Val.forgetSetList vs)
  | .dict d => .dict (Val.forgetSetItems d)
  | .model cls fields _ => .model cls (Val.forgetSetItems fields) []
  | v => v
def Val.forgetSetList : List Val → List Val
  | [] => []
  | v :: vs => v.forgetSet :: Val.forgetSetList vs
def Val.forgetSetItems : List (String × Val) → List (String × Val)
  | [] => []
  | (k, v) :: d => (k, v.forgetSet) :: Val.forgetSetItems d
end

mutual
/-- There are no raw elements in the value. -/
def Val.RawFree : Val → Prop
  | .list vs => Val.RawFreeList vs
  | .dict d => Val.RawFreeItems d
  | .model _ fields _ => Val.RawFreeItems fields
  | .raw _ => False
  | _ => True
def Val.RawFreeList : List Val → Prop
  | [] => True
  | v :: vs => v.RawFree ∧ Val.RawFreeList vs
def Val.RawFreeItems : List (String × Val) → Prop
  | [] => True
  | (_, v) :: d => v.RawFree ∧ Val.RawFreeItems d
end

/-- Custom serializers of fields (`@xml_field_serializer`) do the same for instances and values that differ in the set fields only. -/
def Env.SerializersIgnoreSet (env : Env) : Prop :=
  ∀ cls m fs, env.model cls = some m → m.body = .fields fs → ∀ f ∈ fs, ∀ g, f.serializer = some g →
    ∀ a a' el v v', a.forgetSet = a'.forgetSet → v.forgetSet = v'.forgetSet → g a el v = g a' el v'

end PXml
