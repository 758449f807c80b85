import Verif.Serializer

/-!
# Two reads with the same verdict
-/

namespace PXml

/-- Two reads have the same verdict: the same value, or a validation error for both (the errors may differ), or the same other exception. -/
inductive SameVerdict : Out Val → Out Val → Prop
  | value (v : Val) : SameVerdict (.ok v) (.ok v)
  | invalid (e f : VErr) : SameVerdict (.verr e) (.verr f)
  | exception (x : PyErr) : SameVerdict (.crash x) (.crash x)

end PXml
