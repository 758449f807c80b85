import Verif.Heap

/-!
# Specification of object identity

When a tree or a value is stored at an address.
-/

namespace PXml
namespace Heap

/-- The native tree `t` is stored at the address.  Its objects may be shared with anything, even among each other. -/
inductive IsNode (h : Store) : Node → Addr → Prop
  | elem {tag : String} {d : Dict String String} {nsmap : NsMap} {text tail : Option String} {children : List Node}
      {line : Option Int} {a da : Addr} {as : List Addr} :
      h[a]? = some (.node (.elem tag da nsmap text tail as line)) → h[da]? = some (.dict d) → as.length = children.length →
      (∀ (i : Nat) (b : Addr) (c : Node), as[i]? = some b → children[i]? = some c → IsNode h c b) →
      IsNode h (.elem tag d nsmap text tail children line) a
  | comment {text tail : Option String} {a : Addr} : h[a]? = some (.node (.comment text tail)) → IsNode h (.comment text tail) a
  | pi {text tail : Option String} {a : Addr} : h[a]? = some (.node (.pi text tail)) → IsNode h (.pi text tail) a

/-- The dictionary, if any, is stored at the address. -/
def HoldsDict (h : Store) : Option Addr → Option (Dict String String) → Prop
  | none, none => True
  | some da, some d => h[da]? = some (.dict d)
  | _, _ => False

/-- The element `e` is stored at the address `a`, as a tree: the objects it consists of, those in `F`, occur in it only once.
(`G b` are the objects of the child at the address `b`.) -/
inductive IsTree (h : Store) : Elem → Addr → (Addr → Prop) → Prop
  | mk {e : Elem} {a la : Addr} {da : Option Addr} {as : List Addr} {F : Addr → Prop} {G : Addr → Addr → Prop} :
      h[a]? = some (.obj ⟨e.tag, e.nsmap, e.text, e.tail, da, la, e.next, e.line⟩) →
      h[la]? = some (.list as) → HoldsDict h da e.attrib → as.length = e.elements.length →
      (∀ (i : Nat) (b : Addr) (c : Elem), as[i]? = some b → e.elements[i]? = some c → IsTree h c b (G b)) →
      (∀ (i j : Nat) (b : Addr), as[i]? = some b → as[j]? = some b → i = j) →
      (∀ b ∈ as, ∀ b' ∈ as, b ≠ b' → ∀ x, G b x → ¬ G b' x) →
      (∀ b ∈ as, ∀ x, G b x → x ≠ a ∧ x ≠ la ∧ da ≠ some x) →
      (∀ x, F x ↔ x = a ∨ x = la ∨ da = some x ∨ ∃ b ∈ as, G b x) → IsTree h e a F

/-- What the value of a model instance is, given the objects it consists of.  Objects may be shared. -/
inductive IsVal (h : Store) : HVal → Val → Prop
  | none : IsVal h .none .none
  | str (s : String) : IsVal h (.str s) (.str s)
  | bool (b : Bool) : IsVal h (.bool b) (.bool b)
  | int (i : Int) : IsVal h (.int i) (.int i)
  | opaque (r : String) (l : Option Nat) : IsVal h (.opaque r l) (.opaque r l)
  | undef : IsVal h .undef .undef
  | list {a : Addr} {vs : List HVal} {ws : List Val} : h[a]? = some (.pyList vs) → vs.length = ws.length →
      (∀ (i : Nat) (v : HVal) (w : Val), vs[i]? = some v → ws[i]? = some w → IsVal h v w) → IsVal h (.ref a) (.list ws)
  | dict {a : Addr} {d : List (String × HVal)} {d' : List (String × Val)} : h[a]? = some (.pyDict d) →
      d.map Prod.fst = d'.map Prod.fst →
      (∀ (i : Nat) (v : HVal) (w : Val), (d.map Prod.snd)[i]? = some v → (d'.map Prod.snd)[i]? = some w → IsVal h v w) →
      IsVal h (.ref a) (.dict d')
  | model {a : Addr} {cls : String} {d : List (String × HVal)} {d' : List (String × Val)} {set : List String} :
      h[a]? = some (.inst cls d set) → d.map Prod.fst = d'.map Prod.fst →
      (∀ (i : Nat) (v : HVal) (w : Val), (d.map Prod.snd)[i]? = some v → (d'.map Prod.snd)[i]? = some w → IsVal h v w) →
      IsVal h (.ref a) (.model cls d' set)
  | raw {a : Addr} {t : Node} : IsNode h t a → IsVal h (.ref a) (.raw t)

/-- The objects a native tree consists of. -/
inductive Part (h : Store) (root : Addr) : Addr → Prop
  | root : Part h root root
  | attrib {a da : Addr} {tag : String} {nsmap : NsMap} {text tail : Option String} {as : List Addr} {line : Option Int} :
      Part h root a → h[a]? = some (.node (.elem tag da nsmap text tail as line)) → Part h root da
  | child {a da b : Addr} {tag : String} {nsmap : NsMap} {text tail : Option String} {as : List Addr} {line : Option Int} :
      Part h root a → h[a]? = some (.node (.elem tag da nsmap text tail as line)) → b ∈ as → Part h root b

end Heap
end PXml
