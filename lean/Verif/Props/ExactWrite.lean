import Verif.Props.Special

/-!
# What a dictionary of attributes does to what has been written before

The exact version of C36 for the one kind of field that is an exception.
-/

namespace PXml

open Elem

/-- C36, exactly, for a dictionary field: `None` changes nothing; a dictionary replaces all attributes that have been written so far
by its own entries, and leaves text and children alone. -/
theorem C36_exact_dict (env : Env) (n : Nat) (fl : Flags) (a : AttrsSer) (el : Elem) (v : Val) (d : Dict String Val) (hd : d.WF) :
    (∀ enc, ser env (n + 1) fl (.attrs a) el .none enc = .ok el) ∧
    (v ≠ .none → ∃ el', ser env (n + 1) fl (.attrs a) el v (.dict d) = .ok el' ∧
      (∀ k x, d.get? k = some x → el'.getAttrib (QName.uri ⟨k, a.space⟩) = some (pyStr env x)) ∧
      (∀ name, (∀ k x, d.get? k = some x → name ≠ QName.uri ⟨k, a.space⟩) → el'.getAttrib name = none) ∧
      el'.tag = el.tag ∧ el'.text = el.text ∧ el'.tail = el.tail ∧ el'.elements = el.elements) := by
  refine ⟨fun enc => rfl, fun hv => ?_⟩
  have hvn : v.isNone = false := by cases v <;> first | rfl | exact absurd rfl hv
  refine ⟨el.setAttributes (d.map fun kv => (QName.uri ⟨kv.1, a.space⟩, pyStr env kv.2)), ?_, ?_, ?_, rfl, rfl, rfl, rfl⟩
  · show serAttrs env a el v (.dict d) = _
    rw [serAttrs_space _ _ _ _ _ hvn]
    have := ofItems_map d hd (fun k => QName.uri ⟨k, a.space⟩) (fun _ _ _ _ h => uri_injective h) (fun kv => pyStr env kv.2)
    simp only [this]
  · intro k x hk
    show Dict.get? (d.map fun kv => (QName.uri ⟨kv.1, a.space⟩, pyStr env kv.2)) _ = _
    induction d with
    | nil => cases hk
    | cons kv d ih =>
      obtain ⟨k', x'⟩ := kv
      rw [List.map_cons, Dict.get?_cons]
      rw [Dict.get?_cons] at hk
      by_cases hkk : k' = k
      · subst hkk
        rw [if_pos rfl] at hk ⊢
        injection hk with hk; subst hk; rfl
      · rw [if_neg hkk] at hk
        rw [if_neg (fun h => hkk (uri_injective h))]
        have hd' : Dict.WF d := by
          simp only [Dict.WF, Dict.keys, List.map_cons, List.nodup_cons] at hd ⊢
          exact hd.2
        exact ih hd' hk
  · intro name hn
    show Dict.get? (d.map fun kv => (QName.uri ⟨kv.1, a.space⟩, pyStr env kv.2)) _ = none
    rw [Dict.get?_eq_none_iff]
    intro hm
    simp only [Dict.keys, List.map_map, List.mem_map, Function.comp] at hm
    obtain ⟨⟨k, x⟩, hkx, rfl⟩ := hm
    cases hk : Dict.get? d k with
    | some y => exact hn k y hk rfl
    | none =>
      rw [Dict.get?_eq_none_iff] at hk
      exact hk (List.mem_map_of_mem (f := Prod.fst) hkx)

/-- Non-vacuity of `C36_exact_dict`: the attribute `id` written before is gone, the child stays. -/
example : ∃ el', ser Ex.env 1 {} (.attrs {}) { tag := "a", attrib := some [("id", "7")], elements := [{ tag := "b" }], next := 1 }
      (.dict [("k", .str "v")]) (.dict [("k", .str "v")]) = .ok el' ∧ el'.getAttrib "k" = some "v" ∧ el'.getAttrib "id" = none ∧
      el'.elements.length = 1 := by
  obtain ⟨el', h, h1, h2, -, -, -, h3⟩ := (C36_exact_dict Ex.env 0 {} {} { tag := "a", attrib := some [("id", "7")], elements := [{ tag := "b" }], next := 1 }
    (.dict [("k", .str "v")]) [("k", .str "v")] (by decide)).2 (by simp)
  refine ⟨el', h, h1 "k" (.str "v") rfl, h2 "id" ?_, by rw [h3]; rfl⟩
  intro k x hk
  rw [Dict.get?_cons] at hk
  split at hk
  · rename_i h; subst h; decide
  · cases hk

end PXml
