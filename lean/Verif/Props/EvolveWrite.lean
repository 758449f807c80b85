import Verif.Lemmas.EvolveWrite
import Verif.Props.Evolve

/-! # C85: a newer version of the declarations writes old data as before -/

namespace PXml

theorem Inserted.imp {α : Type} {R : α → α → Prop} {P Q : α → Prop} (h : ∀ x, P x → Q x) {xs ys : List α} (hi : Inserted R P xs ys) :
    Inserted R Q xs ys := by
  induction hi with
  | nil => exact .nil
  | keep hr _ ih => exact .keep hr ih
  | new hp _ ih => exact .new (h _ hp) ih

theorem Env.Extends.mono {K K' : Nat} {added : String → List String} {env env' : Env} (h : env.Extends K added env') (hk : K ≤ K') :
    env.Extends K' added env' := by
  refine ⟨h.backend, h.reprOf, fun cls m hm => ?_⟩
  obtain ⟨m', h1, h2, h3, h4, h5⟩ := h.models cls m hm
  refine ⟨m', h1, h2, h3, h4, ?_⟩
  cases hb : m.body with
  | root s => rw [hb] at h5; cases hb' : m'.body <;> rw [hb'] at h5 <;> exact h5
  | fields fs =>
    rw [hb] at h5
    cases hb' : m'.body with
    | root s => rw [hb'] at h5; exact h5.elim
    | fields fs' =>
      rw [hb'] at h5
      exact Inserted.imp (fun x hx => ⟨hx.1, hx.2.1, hx.2.2.1, Nat.le_trans hx.2.2.2 hk⟩) h5

/-- C85: if the older version of the program writes a document for an instance, the newer version writes the same document for the newer
version of the instance, in which the additional fields are unset (and `exclude_unset` is given) or `None` (and `exclude_none` is
given). -/
theorem C85_written_as_before (K : Nat) (added : String → List String) (env env' : Env) (hg : env.Extends K added env') (n : Nat)
    (fl : Flags) (cls name : String) (v v' : Val)
    (hv : Newer env added fl.excludeNone fl.excludeUnset (.proxy { cls := cls, name := name }) v (env.toJsonable v) v' (env'.toJsonable v'))
    (doc : Node) (h : toXmlTree env n fl cls v = .ok doc) (n' : Nat) (hn : n + K ≤ n') : toXmlTree env' n' fl cls v' = .ok doc := by
  obtain ⟨K', rfl⟩ : ∃ k, n' = n + k := ⟨n' - n, by omega⟩
  have hg := hg.mono (K' := K') (by omega)
  unfold toXmlTree at h ⊢
  cases hm : env.model cls with
  | none => rw [hm] at h; cases h
  | some m =>
    obtain ⟨m', hm', hmm⟩ := hg.models _ _ hm
    rw [hm] at h
    rw [hm']
    simp only at h ⊢
    obtain ⟨root, h1, h2⟩ := Out.bind_ok h
    obtain ⟨a1, a2, a3, _⟩ := id hmm
    rw [a1, a2, serModel_newer hg rfl rfl (fun fl a b s el v enc v' enc' out h ho => ser_newer hg n _ _ fl a b s el v enc v' enc' out h ho) hv m
      m' hm hmm _ _ h1]
    simpa [Out.bind, hg.backend] using h2

namespace Ex

/-- The example classes with new fields in `Address` and `Person`. -/
def model3 (mode : Mode) : String → Option ModelSer
  | "Address" => some address2
  | "Person" => some (person2 mode)
  | "Tree" => some tree
  | "Dog" => some dog
  | "Cat" => some cat
  | "Owner" => some owner
  | "Bird" => some bird
  | _ => none

def env3 (mode : Mode := .strict) (b : Backend := .lxml) : Env :=
  { env mode b with model := model3 mode, validate := validate2 }

theorem inserted_refl {P : Field → Prop} (fs : List Field) (h : ∀ f ∈ fs, f.serializer = none) :
    Inserted (fun f f' => f'.name = f.name ∧ f'.exclude = f.exclude ∧ f'.ser = f.ser ∧ f.serializer = none ∧ f'.serializer = none) P fs fs := by
  induction fs with
  | nil => exact .nil
  | cons f fs ih => exact .keep ⟨rfl, rfl, rfl, h f (by simp), h f (by simp)⟩ (ih fun g hg => h g (by simp [hg]))

theorem env3_extends (mode : Mode) (b : Backend) : (env mode b).Extends 3 newFields (env3 mode b) := by
  refine ⟨rfl, rfl, ?_⟩
  have same : ∀ (m : ModelSer) (fs : List Field) (added : List String), m.body = .fields fs → (∀ f ∈ fs, f.serializer = none) →
      m.Extends 3 added (env3 mode b) m := by
    intro m fs added hb hs
    refine ⟨rfl, rfl, rfl, ?_⟩
    rw [hb]
    exact inserted_refl fs hs
  apply model_cases
  · exact ⟨address2, rfl, rfl, rfl, rfl, .keep ⟨rfl, rfl, rfl, rfl, rfl⟩ (.new ⟨by simp [newFields], rfl, .attr, by simp [Ser.nesting]⟩
      (.keep ⟨rfl, rfl, rfl, rfl, rfl⟩ .nil))⟩
  · refine ⟨person2 mode, rfl, rfl, rfl, rfl, .new ⟨by simp [newFields], rfl, .proxy rfl, by simp [Ser.nesting]⟩
      (.keep ⟨rfl, rfl, rfl, rfl, rfl⟩ (.keep ⟨rfl, rfl, rfl, rfl, rfl⟩ (.keep ⟨rfl, rfl, rfl, rfl, rfl⟩ (.keep ⟨rfl, rfl, rfl, rfl, rfl⟩
      (.new ⟨by simp [newFields], rfl, .wrap, by simp [Ser.nesting]⟩ (inserted_refl _ ?_))))))⟩
    simp
  · exact ⟨tree, rfl, same _ _ _ rfl (by simp)⟩
  · exact ⟨dog, rfl, same _ _ _ rfl (by simp)⟩
  · exact ⟨cat, rfl, same _ _ _ rfl (by simp)⟩
  · exact ⟨owner, rfl, same _ _ _ rfl (by simp)⟩

/-- `ann` with the new fields, which are `None`. -/
def ann2 : Val :=
  .model "Person"
    [("bird", .none), ("id", .str "7"), ("name", .str "Ann"), ("nick", .none), ("mails", .list [.str "a@x", .str "b@x"]), ("labels", .none),
     ("phone", .str "123"),
     ("home", .model "Address" [("zip", .str "0815"), ("country", .none), ("street", .str "Main St")] ["zip", "country", "street"]),
     ("extra", .dict [("k", .str "v"), ("l", .str "w")])]
    ["bird", "id", "name", "mails", "phone", "home", "extra"]

/-- Non-vacuity of C85: the hypotheses hold of `ann` and `ann2`, in which the new fields of `Person` and of `Address` inside are `None`. -/
theorem ann2_newer : Newer (env) newFields true false (.proxy { cls := "Person", name := "person" }) ann ((env).toJsonable ann) ann2
    ((env3).toJsonable ann2) := by
  refine .fields (m := person .strict) rfl rfl ?_ ?_ ?_ ?_ ?_
  · simp [Dict.get?]
  · decide
  · intro f hf v enc v' enc' h1 h2 h3 h4
    simp only [List.mem_cons, List.not_mem_nil, or_false] at hf
    rcases hf with rfl | rfl | rfl | rfl | rfl | rfl | rfl <;>
      (cases h1; cases h2; cases h3; cases h4)
    · exact .same rfl
    · exact .same rfl
    · exact .same rfl
    · refine .homog rfl rfl ?_
      intro i v enc v' enc' h1 h2 h3 h4
      match i with
      | 0 => cases h1; cases h2; cases h3; cases h4; exact .same rfl
      | 1 => cases h1; cases h2; cases h3; cases h4; exact .same rfl
    · exact .same rfl
    · refine .fields (m := address) rfl rfl ?_ ?_ ?_ ?_ ?_
      · decide
      · decide
      · intro f hf v enc v' enc' h1 h2 h3 h4
        simp only [List.mem_cons, List.not_mem_nil, or_false] at hf
        rcases hf with rfl | rfl <;> (cases h1; cases h2; cases h3; cases h4; exact .same rfl)
      · decide
      · intro name hn
        simp only [newFields, List.mem_cons, List.not_mem_nil, or_false] at hn
        subst hn
        exact .inr ⟨rfl, rfl, rfl⟩
    · exact .same rfl
  · decide
  · intro name hn
    simp only [newFields, List.mem_cons, List.not_mem_nil, or_false] at hn
    rcases hn with rfl | rfl <;> exact .inr ⟨rfl, rfl, rfl⟩

example : ∃ doc, toXmlTree (env) 9 { excludeNone := true } "Person" ann = .ok doc ∧
    toXmlTree (env3) 12 { excludeNone := true } "Person" ann2 = .ok doc := by
  refine ⟨_, rfl, ?_⟩
  exact C85_written_as_before 3 newFields (env) (env3) (env3_extends .strict .lxml) 9 _ "Person" "person" ann ann2 ann2_newer _ rfl 12 (by decide)

/-- A class with a dictionary in an element of its own, and the class before it was added. -/
def noted (added : Bool) : ModelSer where
  name := "Noted"
  elementName := "noted"
  body := .fields ({ name := "id", ser := .attr "id" false } :: if added then [{ name := "notes", ser := .mapElem {} "notes" .strict }] else [])

def notedEnv (added : Bool) : Env := { env with model := fun c => if c = "Noted" then some (noted added) else none }

/-- An added dictionary in an element of its own is written even if it is `None` and `exclude_none` is given: this is why `Ser.Addable`
leaves it out. -/
theorem noted_differs :
    (toXmlTree (notedEnv false) 9 { excludeNone := true } "Noted" (.model "Noted" [("id", .str "1")] ["id"]) =
      .ok (el "noted" none [] [("id", "1")])) ∧
    (toXmlTree (notedEnv true) 9 { excludeNone := true } "Noted" (.model "Noted" [("id", .str "1"), ("notes", .none)] ["id"]) =
      .ok (el "noted" none [el "notes"] [("id", "1")])) := ⟨by kernel_rfl, by kernel_rfl⟩

end Ex

end PXml
