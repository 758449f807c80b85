import Verif.Lemmas.Unread
import Verif.Props.Errors
import Verif.Example

/-!
# C13, C45: data out of reach of the fields of a class that forbids extra data

The specification is in `Verif/SpecUnread.lean`.
-/

namespace PXml

open Elem

/-- C13 for whole documents: a class with `extra='forbid'` does not accept a document in which some attribute, non-blank text or non-blank
tail, at any depth, is out of reach of its fields (and of the fields of its sub-models, where they are read). -/
theorem C13_unread_rejected (env : Env) (hno : env.NoValidators) (eas : Bool) (n : Nat) (cls : String) (m : ModelSer) (root : Node)
    (hm : env.model cls = some m) (hforbid : m.extraForbid = true) (p : Piece) (hu : root.Unread env m.sers p) (hp : ¬ p.Blank)
    (v : Val) : (fromXmlTree env eas n cls root).1 ≠ .ok v := by
  intro h
  have hall := C13_accepts_only_if_read env eas n cls m root v (fromXmlTree env eas n cls root).2 hm hforbid (by rw [← h])
  have hs : Spares env m.sers (fromNative env.backend root) (fromXmlTree env eas n cls root).2 := by
    unfold fromXmlTree
    simp only [hm]
    split
    · exact deserModel_env_spares hno eas n cls m hm [] ⟨_, []⟩
    · exact .refl _ _
  have := hall p ((hs.2 p (fromNative_unread _ hu)).content)
  rcases this with ⟨s, rfl, hb⟩ | ⟨s, rfl, hb⟩
  · exact hp hb
  · exact hp hb

/-- C45 (partial: the element has to carry data, see `C45_counterexample`): a class with `extra='forbid'` does not accept a document with
an element, at any depth, that no field goes to, if this element or one of its descendants has an attribute or a non-blank text. -/
theorem C45_stranger_rejected_partial (env : Env) (hno : env.NoValidators) (eas : Bool) (n : Nat) (cls : String) (m : ModelSer)
    (root x : Node) (hm : env.model cls = some m) (hforbid : m.extraForbid = true) (hx : root.Stranger env m.sers x) (p : Piece)
    (hp : p ∈ x.pieces) (hb : ¬ p.Blank) (v : Val) : (fromXmlTree env eas n cls root).1 ≠ .ok v :=
  C13_unread_rejected env hno eas n cls m root hm hforbid p (hx.unread hp) hb v

namespace Ex

theorem takes_elem {env : Env} {n t : String} {ns : Option NsMap} {md : Mode} {c nl : Bool} {l : List Ser}
    (h : (Ser.elem n ns md c nl).Takes env (.child t l)) : t = n := by cases h; rfl

theorem takes_mapElem {env : Env} {n t : String} {a : AttrsSer} {md : Mode} {l : List Ser}
    (h : (Ser.mapElem a n md).Takes env (.child t l)) : t = n := by cases h; rfl

theorem takes_wrap {env : Env} {n t : String} {ts : List String} {ns : Option NsMap} {md : Mode} {c : Bool} {s : Ser} {l : List Ser}
    (h : (Ser.wrap (n :: ts) ns md c s).Takes env (.child t l)) : t = n := by cases h; rfl

/-- A person with an unknown element below the address. -/
def strangeDoc : Node :=
  el "person" none [el "name" (some "Ann"), el "home" (some "Main St") [el "x" none [el "y" none [] [("a", "1")]]] [("zip", "1")]] [("id", "7")]

theorem strange : strangeDoc.Stranger (forbidEnv) ({ person .ordered with extraForbid := true } : ModelSer).sers
    (el "x" none [el "y" none [] [("a", "1")]]) := by
  refine .inside (ss' := .attr nilAttr false :: ({ address with extraForbid := true } : ModelSer).sers)
    (c := el "home" (some "Main St") [el "x" none [el "y" none [] [("a", "1")]]] [("zip", "1")])
    (List.mem_cons_of_mem _ (List.mem_singleton.2 rfl)) ?_ ?_ (.here (List.mem_singleton.2 rfl) ?_ ?_)
  · simp only [ModelSer.sers, person, List.map, List.forall_mem_cons, List.not_mem_nil, false_implies, implies_true, and_true]
    exact ⟨nofun, nofun, nofun, (fun h => by cases h with | homog h => cases h), nofun, nofun, nofun⟩
  · simp only [ModelSer.sers, person, List.map, List.forall_mem_cons, List.not_mem_nil, false_implies, implies_true, and_true]
    refine ⟨nofun, fun l h => absurd (takes_elem h) (by decide), fun l h => absurd (takes_elem h) (by decide), fun l h => ?_,
      fun l h => absurd (takes_wrap h) (by decide), fun l h => ?_, fun l h => absurd (takes_mapElem h) (by decide)⟩
    · cases h with | homog h => exact absurd (takes_elem h) (by decide)
    · cases h with
      | proxy _ hm => cases hm; simp [ModelSer.sers]
  · simp only [ModelSer.sers, address, List.map, List.forall_mem_cons, List.not_mem_nil, false_implies, implies_true, and_true]
    exact ⟨nofun, nofun, nofun⟩
  · simp only [ModelSer.sers, address, List.map, List.forall_mem_cons, List.not_mem_nil, false_implies, implies_true, and_true]
    exact ⟨nofun, nofun, nofun⟩

/-- Non-vacuity of C45 (and of C13): the document with the unknown element is refused because of the attribute of the element inside it,
although a class that does not forbid extra data accepts it. -/
example (v : Val) : (fromXmlTree forbidEnv false 9 "Person" strangeDoc).1 ≠ .ok v :=
  C45_stranger_rejected_partial forbidEnv (by
      intro cls m fs hm hb f hf
      simp only [forbidEnv, Option.map_eq_some_iff] at hm
      obtain ⟨m', hm', rfl⟩ := hm
      exact noValidators (b := .lxml) cls m' fs hm' hb f hf)
    false 9 "Person" _ strangeDoc _ rfl rfl strange (.attr "a" "1") (by decide) (fun h => h) v

example : (fromXmlTree (env .ordered) false 9 "Person" strangeDoc).1 =
    .ok (.model "Person" [("id", .str "7"), ("name", .str "Ann"), ("nick", .none), ("mails", .none), ("phone", .none),
      ("home", .model "Address" [("zip", .str "1"), ("street", .str "Main St")] ["zip", "street"]), ("extra", .none)]
      ["id", "name", "home"]) := by kernel_rfl

end Ex
end PXml
