import Verif.ConcWrite
import Verif.SpecHeap

/-!
# Specification of concurrent calls

What several calls work on, and what each of them is expected to return: what it would return if it were the only one.
-/

namespace PXml
namespace Conc

open Heap (Addr HVal NodeObj Cell Store IsNode IsVal)

/-- The value refers to one of the first `n` objects, if to any. -/
def _root_.PXml.Heap.HVal.Below (n : Nat) : HVal → Prop
  | .ref a => a < n
  | _ => True

/-- Native elements, lists, dictionaries and instances refer to the first `n` objects only.  (Nothing is asked of the objects that
are private to a call.) -/
def _root_.PXml.Heap.Cell.Below (n : Nat) : Cell → Prop
  | .obj _ => True
  | .dict _ => True
  | .list _ => True
  | .node (.elem _ da _ _ _ as _) => da < n ∧ ∀ a ∈ as, a < n
  | .node _ => True
  | .pyList vs => ∀ v ∈ vs, v.Below n
  | .pyDict d => ∀ v ∈ d, v.2.Below n
  | .inst _ d _ => ∀ v ∈ d, v.2.Below n

/-- Every reference in the store leads to an object. -/
def Closed (h : Store) : Prop := ∀ (a : Addr) (c : Cell), h[a]? = some c → c.Below h.length

/-- The call works on a native tree, or on an instance, that is in the store.  (Different calls may work on the same objects.) -/
inductive Call.Meets (h : Store) : Call → Prop
  | read {env : Env} {eas : Bool} {n : Nat} {cls : String} {t : Node} {root : Addr} : IsNode h t root →
      Meets h (.read env eas n cls root)
  | write {env : Env} {n : Nat} {fl : Flags} {cls : String} {v : HVal} {w : Val} : IsVal h v w → Meets h (.write env n fl cls v)

/-- What the call returns if nothing else happens: for reading, the result of the model of `Verif/Serializer.lean` in which everything is
a value; for writing, the root of a tree which, in the store `h'`, is the one that model returns, or the exception that model ends
with. -/
inductive Call.Answer (h h' : Store) : Call → Result → Prop
  | read {env : Env} {eas : Bool} {n : Nat} {cls : String} {t : Node} {root : Addr} : IsNode h t root →
      Answer h h' (.read env eas n cls root) (.read (PXml.fromXmlTree env eas n cls t).1)
  | wrote {env : Env} {n : Nat} {fl : Flags} {cls : String} {v : HVal} {w : Val} {t : Node} {root : Addr} : IsVal h v w →
      PXml.toXmlTree env n fl cls w = .ok t → IsNode h' t root → Answer h h' (.write env n fl cls v) (.wrote (.ok root))
  | verr {env : Env} {n : Nat} {fl : Flags} {cls : String} {v : HVal} {w : Val} {x : VErr} : IsVal h v w →
      PXml.toXmlTree env n fl cls w = .verr x → Answer h h' (.write env n fl cls v) (.wrote (.verr x))
  | crash {env : Env} {n : Nat} {fl : Flags} {cls : String} {v : HVal} {w : Val} {x : PyErr} : IsVal h v w →
      PXml.toXmlTree env n fl cls w = .crash x → Answer h h' (.write env n fl cls v) (.wrote (.crash x))
  | diverge {env : Env} {n : Nat} {fl : Flags} {cls : String} {v : HVal} {w : Val} : IsVal h v w →
      PXml.toXmlTree env n fl cls w = .diverge → Answer h h' (.write env n fl cls v) (.wrote .diverge)

/-- The calls run in threads, one each; `schedule` says which thread makes the next step. -/
def during (k : Nat) (calls : List Call) (h : Store) (schedule : List Nat) : Config Result :=
  (Config.mk (calls.map (Call.prog k)) h).runs schedule

/-- Thread `i` has returned. -/
def Config.Returned {α : Type} (c : Config α) (i : Nat) (x : α) : Prop := c.threads[i]? = some (.ret x)

end Conc
end PXml
