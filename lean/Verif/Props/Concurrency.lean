import Verif.Lemmas.Calls
import Verif.Props.Identity

/-!
# Concurrent calls

Calls of `from_xml_tree` and `to_xml_tree` in threads that share trees, instances and classes (`Verif/Conc.lean`,
`Verif/ConcWrite.lean`; the specification is `Verif/SpecConc.lean`).  Every theorem is about all schedules, and the state the threads
are in after any prefix of an execution.
-/

namespace PXml
namespace Conc

open Heap (Addr Cell Store Part)

/-- C62: a call that has returned has returned what it returns if it is the only one, whatever the other calls are and however the
steps of the threads interleave – the same instance or the same exception for reading, the same tree or the same exception for
writing –, also if the calls work on the same objects.  The tree is in the store at this moment and at any later one.  (`k` bounds
the recursion over trees of objects: it has to be large enough for these calls, not for this schedule.) -/
theorem C62_same_result (h : Store) (hc : Closed h) (calls : List Call) (hm : ∀ c ∈ calls, c.Meets h) :
    ∃ K, ∀ k, K ≤ k → ∀ (schedule : List Nat) (i : Nat) (c : Call) (x : Result), calls[i]? = some c →
      (during k calls h schedule).Returned i x → c.Answer h (during k calls h schedule).h x := by
  obtain ⟨K, hK⟩ := Meets.bound hm
  refine ⟨K, fun k hk schedule i c x hi hx => ?_⟩
  have hp : ∀ p ∈ calls.map (Call.prog k), PRel h.length ResultRel [] p p := by
    intro p hp
    obtain ⟨c, h1, rfl⟩ := List.mem_map.mp hp
    exact (hm c h1).para k
  obtain ⟨_, ⟨W, hW, _⟩, _⟩ := noninterference hc hp schedule
  have hmem := List.mem_of_getElem? hi
  obtain ⟨w, hq⟩ := hW i (c.prog k) x (by simp [hi]) hx
  rw [hK k hk c hmem] at w hq
  exact (hm c hmem).answer w hq

/-- C62: at every moment, everything that was there before the calls – trees, attribute dictionaries, instances, their lists and
dictionaries – is as it was. -/
theorem C62_inputs_untouched (h : Store) (hc : Closed h) (calls : List Call) (hm : ∀ c ∈ calls, c.Meets h) (k : Nat)
    (schedule : List Nat) (a : Addr) (c : Cell) (ha : h[a]? = some c) : (during k calls h schedule).h[a]? = some c := by
  have hp : ∀ p ∈ calls.map (Call.prog k), PRel h.length ResultRel [] p p := by
    intro p hp
    obtain ⟨c, h1, rfl⟩ := List.mem_map.mp hp
    exact (hm c h1).para k
  rw [← ha]
  exact (noninterference hc hp schedule).1 a (lt_of_get ha)

/-- C62: no call waits for another one: each returns after as many steps of its own as it makes if it is the only one, and not
before. -/
theorem C62_no_waiting (h : Store) (hc : Closed h) (calls : List Call) (hm : ∀ c ∈ calls, c.Meets h) (k : Nat) (schedule : List Nat)
    (i : Nat) (c : Call) (hi : calls[i]? = some c) :
    (∃ x, (during k calls h schedule).Returned i x) ↔ (c.prog k).steps h ≤ schedule.count i := by
  have hp : ∀ p ∈ calls.map (Call.prog k), PRel h.length ResultRel [] p p := by
    intro p hp
    obtain ⟨c, h1, rfl⟩ := List.mem_map.mp hp
    exact (hm c h1).para k
  exact ((noninterference hc hp schedule).2.2 i (c.prog k) (by simp [hi])).symm

/-- C62: the trees two calls return have no object in common, neither an element nor an attribute dictionary, nor do they have one in
common with what was there before: whatever is done to one of them cannot be seen in another one. -/
theorem C62_outputs_separate (h : Store) (hc : Closed h) (calls : List Call) (hm : ∀ c ∈ calls, c.Meets h) :
    ∃ K, ∀ k, K ≤ k → ∀ (schedule : List Nat) (i j : Nat) (r r' : Addr), i ≠ j →
      (during k calls h schedule).Returned i (.wrote (.ok r)) → (during k calls h schedule).Returned j (.wrote (.ok r')) →
      ∀ a, Part (during k calls h schedule).h r a → h[a]? = none ∧ ¬ Part (during k calls h schedule).h r' a := by
  obtain ⟨K, hK⟩ := Meets.bound hm
  refine ⟨K, fun k hk schedule i j r r' hij hi hj a ha => ?_⟩
  have hp : ∀ p ∈ calls.map (Call.prog k), PRel h.length ResultRel [] p p := by
    intro p hp
    obtain ⟨c, h1, rfl⟩ := List.mem_map.mp hp
    exact (hm c h1).para k
  have hlen : (during k calls h schedule).threads.length = calls.length := by
    have := ((Inv.init hc hp).runs schedule).length
    simpa [during] using this
  obtain ⟨_, ⟨W, hW, hd⟩, _⟩ := noninterference hc hp schedule
  have own : ∀ i r, (during k calls h schedule).Returned i (.wrote (.ok r)) → ∀ a, Part (during k calls h schedule).h r a →
      i < calls.length ∧ ∃ x, Own (W i) x a ∧ h.length ≤ a := by
    intro i r hi a ha
    have hlt : i < calls.length := hlen ▸ (List.getElem?_eq_some_iff.mp hi).1
    have hci : calls[i]? = some calls[i] := List.getElem?_eq_getElem hlt
    have hmem := List.mem_of_getElem? hci
    obtain ⟨w, hq⟩ := hW i (calls[i].prog k) _ (by simp [hci]) hi
    rw [hK k hk _ hmem] at w hq
    obtain ⟨x, hx⟩ := (hm _ hmem).own w hq ha
    exact ⟨hlt, x, hx, (w.cells x a hx).2.1⟩
  obtain ⟨li, x, hx, hle⟩ := own i r hi a ha
  refine ⟨List.getElem?_eq_none hle, fun ha' => ?_⟩
  obtain ⟨lj, x', hx', _⟩ := own j r' hj a ha'
  exact hd i j x x' a (by simpa using li) (by simpa using lj) hij hx hx'

/-! ## An example

Two threads read the same document, two write the same instance, which holds elements of this document. -/

namespace Ex

def calls : List Call := [
  .read PXml.Ex.env false 9 "Owner" 4,
  .write Heap.Ex.boxEnv 9 {} "Box" (.ref 9),
  .read PXml.Ex.env false 9 "Owner" 4,
  .write Heap.Ex.boxEnv 9 {} "Box" (.ref 9)]

/-- The threads take turns. -/
def turns : Nat → List Nat
  | 0 => []
  | n + 1 => 0 :: 1 :: 2 :: 3 :: turns n

end Ex

/-- Non-vacuity of `C62`: the references lead to objects, ... -/
example : Closed Heap.Ex.boxStore := by
  intro a c hc
  match a with
  | 0 | 1 | 2 | 3 | 4 | 5 | 6 | 7 | 8 | 9 => cases hc; simp [Cell.Below, Heap.HVal.Below, Heap.Ex.boxStore, Heap.Ex.store]
  | n + 10 => simp [Heap.Ex.boxStore, Heap.Ex.store] at hc

/-- ... the objects are those the calls work on, ... -/
example : ∀ c ∈ Ex.calls, c.Meets Heap.Ex.boxStore := by
  intro c hc
  have hd : Heap.IsNode Heap.Ex.boxStore Heap.Ex.doc 4 := Heap.Ex.stored.grow
    ⟨by decide, fun a ha _ => by rw [Heap.Ex.boxStore, List.getElem?_append_left ha]⟩
  simp only [Ex.calls, List.mem_cons, List.not_mem_nil, or_false] at hc
  rcases hc with rfl | rfl | rfl | rfl
  · exact .read hd
  · exact .write Heap.Ex.boxStored
  · exact .read hd
  · exact .write Heap.Ex.boxStored

/-- The call has returned. -/
def Prog.done {α : Type} : Prog α → Bool
  | .ret _ => true
  | _ => false

/-- ... and the steps of all four interleave: the writers return first, with different roots, when the readers are half way
through; ... -/
example : (during 12 Ex.calls Heap.Ex.boxStore (Ex.turns 130)).threads.map Prog.done = [false, false, false, false] ∧
    (during 12 Ex.calls Heap.Ex.boxStore (Ex.turns 131)).threads.map Prog.done = [false, true, false, true] :=
  ⟨by decide +kernel, by decide +kernel⟩

/-- ... in the end, the two readers have got the instance. -/
example :
    let owner := Out.ok (.model "Owner" [("pet", Heap.Ex.cat), ("any", Heap.Ex.cat)] ["pet", "any"])
    (during 12 Ex.calls Heap.Ex.boxStore (Ex.turns 202)).threads[0]? = some (.ret (.read owner)) ∧
    (during 12 Ex.calls Heap.Ex.boxStore (Ex.turns 202)).threads[2]? = some (.ret (.read owner)) :=
  ⟨by kernel_rfl, by kernel_rfl⟩

end Conc
end PXml
