import Verif.Config
import Verif.Props.History

/-!
# C73: generic classes
-/

namespace PXml

theorem history_generic {classes : Classes} {n : Nat} {cd : ClassDef} (c : String) (hcd : classes c = some cd) (hg : cd.complete = false) :
    ∀ (es : List Event) (built : Built), built c = none → history classes n es built c = none
  | [], _, h => h
  | e :: es, built, h => by
    unfold history
    cases hr : e.run classes n built with
    | error _ => exact history_generic c hcd hg es built h
    | ok b =>
      refine history_generic c hcd hg es b ?_
      by_cases he : e.cls = c
      · have key : ∀ k, setSerializer classes n built c k = .ok b → b c = none := by
          intro k hb
          rcases setSerializer_eq hb with ⟨h1, _⟩ | ⟨cd', m, h1, h2, rfl⟩
          · rw [hcd] at h1; cases h1
          · rw [hcd] at h1; cases h1
            rw [buildClass_incomplete (by simp [hg])] at h2
            rw [← Except.ok.inj h2]
            simp
        cases e with
        | statement d k => cases he; exact key k hr
        | rebuild d k =>
          cases he
          simp only [Event.run] at hr
          split at hr
          · exact key k hr
          · rw [← Except.ok.inj hr]; exact h
      · rw [run_other he hr]; exact h

/-- C73: stating or rebuilding a generic class whose parameters are open never fails, whatever the types of its fields, and leaves the
other classes alone; the class itself can neither be read nor written (`AssertionError`), whatever the program does.

Missing: root models whose root contains a type variable without being one, see `C73_counterexample_root`. -/
theorem C73_generic_partial (classes : Classes) (n : Nat) (c : String) (cd : ClassDef) (hcd : classes c = some cd) (g : Generics)
    (hg : cd.complete = !g.waits) (hp : g.parameters = true) (hr : g.root = true → g.rootField ≠ some false) :
    (∀ (built : Built) (e : Event), built c = none → e.cls = c → e.run classes n built = .ok built) ∧
    (∀ es env, env.model = history classes n es .empty →
      (∀ eas k root, (fromXmlTree env eas k c root).1 = .crash .assertionError) ∧
      (∀ k fl v, toXmlTree env k fl c v = .crash .assertionError)) := by
  have hw : g.waits = true := by
    obtain ⟨r, p, f⟩ := g
    simp only at hp hr
    subst hp
    cases r with
    | false => rfl
    | true =>
      cases f with
      | none => rfl
      | some b => cases b with
        | true => rfl
        | false => exact absurd rfl (hr rfl)
  have hc : cd.complete = false := by rw [hg, hw]; rfl
  constructor
  · intro built e hb he
    have key : ∀ k, setSerializer classes n built c k = .ok built := by
      intro k
      simp only [setSerializer, hcd]
      rw [buildClass_incomplete (by simp [hc])]
      simp only [Except.ok.injEq]
      funext x
      by_cases hx : x = c
      · simp [hx, hb]
      · simp [hx]
    cases e with
    | statement d k => cases he; exact key k
    | rebuild d k =>
      cases he
      simp only [Event.run]
      split
      · exact key k
      · rfl
  · intro es env henv
    have hn : env.model c = none := by rw [henv]; exact history_generic c hcd hc es _ rfl
    exact ⟨fun eas k root => by simp [fromXmlTree, hn], fun k fl v => by simp [toXmlTree, hn]⟩

namespace Gen

/-- `class Items(RootXmlModel[List[T]], Generic[T]): root: List[T] = element()`.  The core schema of a type variable is `any`. -/
def items : ClassDef where
  name := "Items"
  schema := .model "Items" true
  body := .root (.list (.other "any")) [.mk (some .element) none none none none none]
  complete := !({ root := true, parameters := true, rootField := some false } : Generics).waits

/-- `class Box(BaseXmlModel, Generic[T]): value: List[T] = element()`. -/
def box : ClassDef where
  name := "Box"
  schema := .model "Box" false
  body := .fields [{ name := "value", schema := .list (.other "any"), infos := [.mk (some .element) none none none none none] }] []
  complete := !({ root := false, parameters := true } : Generics).waits

/-- `Box[int]`. -/
def boxInt : ClassDef where
  name := "Box[int]"
  schema := .model "Box[int]" false
  body := .fields [{ name := "value", schema := .list (.prim "int"), infos := [.mk (some .element) none none none none none] }] []
  complete := !({ root := false, parameters := false } : Generics).waits

def classes : Classes
  | "Items" => some items
  | "Box" => some box
  | "Box[int]" => some boxInt
  | _ => none

/-- C73, counterexample: the generic root model `Items` cannot even be stated. -/
theorem C73_counterexample_root (n : Nat) (built : Built) (k : Bool) (hk : k = true) :
    (Event.statement "Items" k).run classes (n + 3) built = .error (.modelError "type any is not supported") := by
  subst hk
  rfl

/-- Non-vacuity: `Box` waits, `Box[int]` is built. -/
example : (∀ eas k root, (fromXmlTree { Ex.env .ordered with model := history classes 9 [.statement "Box" true] .empty } eas k "Box" root).1 =
      .crash .assertionError) ∧
    (history classes 9 [.statement "Box" true, .statement "Box[int]" true] .empty "Box[int]").isSome = true :=
  ⟨((C73_generic_partial classes 9 "Box" box rfl ⟨false, true, none⟩ rfl rfl (by simp)).2 _ _ rfl).1, by kernel_rfl⟩

end Gen
end PXml
