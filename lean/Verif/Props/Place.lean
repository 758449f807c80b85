import Verif.Lemmas.Gives
import Verif.Props.OnlyTaken
import Verif.Props.Local

/-!
# C89: every value is read from the place that its field is declared at

The specification is in `Verif/SpecPlace.lean`.
-/

namespace PXml

open Elem

/-- C89: what pydantic is given for a field comes from the place that the field is declared at: the text, an attribute, or the children, with
the declared tag, of the very element that the class is read from, and a sub-model is what its class reads from such a child, taken as a
document of its own. -/
theorem C89_place (env : Env) (hno : env.NoValidators) (eas : Bool) (n : Nat) (cls : String) (m : ModelSer) (fs : List Field)
    (hm : env.model cls = some m) (hb : m.body = .fields fs) (root : Node) (a : List (String × Val)) (set : List String)
    (h : (fromXmlTree env eas n cls root).1 = .ok (.model cls a set)) :
    ∃ d : Dict String Val, env.validate cls (.dict d) = .ok (a, set) ∧
      ∀ kv ∈ d, ∃ f ∈ fs, kv.1 = f.key ∧ f.ser.Gives env eas root kv.2 := by
  obtain ⟨d, st, h1, h2⟩ := fromXmlTree_data hm hb h
  refine ⟨d, h2, ?_⟩
  have := (deserFields_draws (P := fun s v => s.Gives env eas root v) (fun s l => deser_draws hno eas n s l root) fs fs (fun _ h => h)
    (hno cls m fs hm hb) [] (by simp) [] ⟨fromNative env.backend root, []⟩ (RestOf.ofNode env.backend root)).2
  rw [h1] at this
  exact this (d, []) rfl

/-- C89 for a class with a root value. -/
theorem C89_place_root (env : Env) (hno : env.NoValidators) (eas : Bool) (n : Nat) (cls : String) (m : ModelSer) (s : Ser)
    (hm : env.model cls = some m) (hb : m.body = .root s) (root : Node) (a : List (String × Val)) (set : List String)
    (h : (fromXmlTree env eas n cls root).1 = .ok (.model cls a set)) :
    ∃ v : Val, env.validate cls (if v.isNone then .undef else v) = .ok (a, set) ∧ s.Gives env eas root v := by
  have hd := deser_draws hno eas n s [] root ⟨fromNative env.backend root, []⟩ (RestOf.ofNode env.backend root)
  unfold fromXmlTree at h
  simp only [hm] at h
  split at h
  · simp only [deserModel, hb] at h
    cases hr : deser env eas n s [] ⟨fromNative env.backend root, []⟩ with
    | mk o st =>
      rw [hr] at h hd
      cases o with
      | ok v =>
        refine ⟨v, ?_, hd.2 v rfl⟩
        simp only [validateModel] at h
        split at h
        · cases h
        · cases hv : env.validate cls (if v.isNone = true then .undef else v) with
          | error e => rw [hv] at h; cases h
          | ok r =>
            rw [hv] at h
            obtain ⟨a', set'⟩ := r
            simp only [Out.ok.injEq, Val.model.injEq] at h
            rw [h.2.1, h.2.2]
      | verr e => cases h
      | crash e => cases h
      | diverge => cases h
  · cases h

/-- C89: a field that holds a sub-model, in full: the sub-model is what its class reads from a child with the declared tag, taken as a
document of its own. -/
theorem C89_sub_model (env : Env) (hno : env.NoValidators) (eas : Bool) (n : Nat) (p : Proxy) (loc : Loc) (root : Node) (sm : SMap) (v : Val)
    (hv : v ≠ .none) (h : (deser env eas n (.proxy p) loc ⟨fromNative env.backend root, sm⟩).1 = .ok v) :
    ∃ m, env.model p.cls = some m ∧ ∃ k ∈ root.children, k.isComment = false ∧ k.tag = p.name ∧
      ∃ j, (fromXmlTree env eas j p.cls (k.asRoot m.elementName)).1 = .ok v := by
  have := (deser_draws hno eas n (.proxy p) loc root ⟨fromNative env.backend root, sm⟩ (RestOf.ofNode env.backend root)).2 v h
  cases this with
  | absent => exact absurd rfl hv
  | proxy hp hm hk hkc ht hr => exact ⟨_, hm, _, hk, hkc, ht, _, hr⟩

namespace Ex

theorem orderEnv_none : orderEnv.NoValidators := by
  intro cls m fs hm hb f hf
  simp only [orderEnv] at hm
  split at hm
  · cases hm
    simp only [nosrep, person, Body.fields.injEq] at hb
    subst hb
    simp at hf
    rcases hf with rfl | rfl | rfl | rfl | rfl | rfl | rfl <;> rfl
  · exact noValidators (b := .lxml) cls m fs hm hb f hf

/-- A person with an attribute, elements, a list, a wrapped field and a sub-model. -/
example : ∃ fs, (person .unordered).body = .fields fs ∧ ∃ d : Dict String Val, ∃ a set, orderEnv.validate "Person" (.dict d) = .ok (a, set) ∧
    ∀ kv ∈ d, ∃ f ∈ fs, kv.1 = Field.key f ∧ f.ser.Gives orderEnv false orderDoc kv.2 :=
  ⟨_, rfl, (C89_place orderEnv orderEnv_none false 9 "Person" (person .unordered) _ rfl rfl orderDoc
    [("id", .str "7"), ("name", .str "Ann"), ("mails", .list [.str "a@b.c"]), ("phone", .str "5"),
      ("home", .model "Address" [("zip", .str "1"), ("street", .str "Main St")] ["zip", "street"])] ["id", "name", "mails", "phone", "home"]
    (by kernel_rfl)).imp fun _ h => ⟨_, _, h⟩⟩

/-- The address of the person is what its class reads from the child `home`. -/
example : ∃ m, orderEnv.model "Address" = some m ∧ ∃ k ∈ orderDoc.children, k.isComment = false ∧ k.tag = "home" ∧
    ∃ j, (fromXmlTree orderEnv false j "Address" (k.asRoot m.elementName)).1 =
      .ok (.model "Address" [("zip", .str "1"), ("street", .str "Main St")] ["zip", "street"]) :=
  C89_sub_model orderEnv orderEnv_none false 8 { cls := "Address", name := "home", mode := .unordered } [] orderDoc [] _ nofun (by kernel_rfl)

/-- `class Names(RootXmlModel, tag='names'): root: List[str] = element(tag='name')` -/
def namesEnv : Env where
  backend := .std
  model cls := if cls = "Names" then
    some { name := "Names", elementName := "names", body := .root (.homog "Names" false (.elem "name" none .strict false false)) } else none
  validate _ d := .ok ([("root", d)], ["root"])
  toJsonable := json
  reprOf _ := ""

theorem namesEnv_none : namesEnv.NoValidators := by
  intro cls m fs hm hb f hf
  simp only [namesEnv] at hm
  split at hm
  · cases hm; cases hb
  · cases hm

/-- Every item of the list is the text of one of the children. -/
example : ∃ v : Val, namesEnv.validate "Names" (if v.isNone then .undef else v) =
      .ok ([("root", .list [.str "Ann", .str "Bob"])], ["root"]) ∧
    (Ser.homog "Names" false (.elem "name" none .strict false false)).Gives namesEnv false
      (el "names" none [el "name" (some "Ann"), el "name" (some "Bob"), el "other" none]) v :=
  C89_place_root namesEnv namesEnv_none false 5 "Names" _ _ rfl rfl _ _ _ (by kernel_rfl)

end Ex
end PXml
