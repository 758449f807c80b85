import Verif.Lemmas.RunsSer
import Verif.Lemmas.ParaDeser
import Verif.Lemmas.ParaSer
import Verif.Lemmas.Interleave

/-! Calls in threads return what they return alone. -/

namespace PXml
namespace Conc

open Heap (Addr Obj NodeObj HVal Cell Store IsNode IsVal Part Grow)

/-- What the call does in the model that runs it from beginning to end. -/
def Call.alone (h : Store) : Call → Result × Store
  | .read env eas n cls root => (.read (Heap.fromXmlTree env eas n cls root h).1, (Heap.fromXmlTree env eas n cls root h).2)
  | .write env n fl cls v => (.wrote (Heap.toXmlTree env n fl cls v h).1, (Heap.toXmlTree env n fl cls v h).2)

theorem Call.Meets.ev {h : Store} {c : Call} (m : c.Meets h) : Ev (fun k => c.prog k) h (c.alone h).1 (c.alone h).2 := by
  cases m with
  | read r => exact .bind (fromXmlTree_ev _ _ _ _ r) .pure
  | write r => exact .bind (toXmlTree_ev _ _ _ _ r) .pure

theorem Meets.bound {h : Store} {calls : List Call} (m : ∀ c ∈ calls, c.Meets h) :
    ∃ K, ∀ k, K ≤ k → ∀ c ∈ calls, (c.prog k).run h = c.alone h := by
  induction calls with
  | nil => exact ⟨0, fun _ _ _ h => by cases h⟩
  | cons c cs ih =>
    obtain ⟨K1, h1⟩ := (m c (List.mem_cons_self ..)).ev
    obtain ⟨K2, h2⟩ := ih fun c hc => m c (List.mem_cons_of_mem _ hc)
    refine ⟨max K1 K2, fun k hk c' hc' => ?_⟩
    rcases List.mem_cons.mp hc' with rfl | hc'
    · exact h1 k (Nat.le_trans (Nat.le_max_left ..) hk)
    · exact h2 k (Nat.le_trans (Nat.le_max_right ..) hk) c' hc'

/-- Corresponding results. -/
inductive ResultRel (ρ : World) : Result → Result → Prop
  | read {o : Out Val} : ResultRel ρ (.read o) (.read o)
  | wrote {o o' : Out Addr} : OutRel (Own ρ) o o' → ResultRel ρ (.wrote o) (.wrote o')

theorem IsNode_lt {h : Store} {t : Node} {a : Addr} (r : IsNode h t a) : a < h.length := by
  cases r with
  | elem h1 => exact lt_of_get h1
  | comment h1 => exact lt_of_get h1
  | pi h1 => exact lt_of_get h1

theorem IsVal_below {h : Store} {v : HVal} {w : Val} (r : IsVal h v w) : v.Below h.length := by
  cases r with
  | list h1 => exact lt_of_get h1
  | dict h1 => exact lt_of_get h1
  | model h1 => exact lt_of_get h1
  | raw h1 => exact IsNode_lt h1
  | _ => trivial

theorem Call.Meets.para {h : Store} {c : Call} (m : c.Meets h) (k : Nat) :
    PRel h.length ResultRel [] (c.prog k) (c.prog k) := by
  cases m with
  | read r =>
    refine .bind (fromXmlTree_para k _ _ _ _ (IsNode_lt r)) ?_
    intro ρ x y _ hx
    cases hx
    exact .pure .read
  | write r =>
    refine .bind (toXmlTree_para k _ _ _ _ (IsVal_below r)) ?_
    intro ρ x y _ hx
    exact .pure (.wrote hx)

section
variable {h0 s h : Store} {ρ : World}

theorem Pairs.len {α β : Type} {r : α → β → Prop} {as : List α} {bs : List β} (p : Pairs r as bs) : as.length = bs.length := by
  induction p with
  | nil => rfl
  | cons _ _ ih => simp [ih]

theorem Pairs.at {α β : Type} {r : α → β → Prop} {as : List α} {bs : List β} (p : Pairs r as bs) {i : Nat} {b : β}
    (hb : bs[i]? = some b) : ∃ a, as[i]? = some a ∧ r a b := by
  induction p generalizing i with
  | nil => cases hb
  | cons h1 _ ih =>
    cases i with
    | zero => cases hb; exact ⟨_, rfl, h1⟩
    | succ i => exact ih hb

theorem Pairs.of_mem {α β : Type} {r : α → β → Prop} {as : List α} {bs : List β} (p : Pairs r as bs) {b : β} (hb : b ∈ bs) :
    ∃ a ∈ as, r a b := by
  obtain ⟨i, hi⟩ := List.getElem?_of_mem hb
  obtain ⟨a, h1, h2⟩ := p.at hi
  exact ⟨a, List.mem_of_getElem? h1, h2⟩

theorem Pairs.refl_below {R : Nat} {as : List Addr} (h : ∀ a ∈ as, a < R) : Pairs (Known R ρ) as as := by
  induction as with
  | nil => exact .nil
  | cons a as ih => exact .cons (.inr ⟨rfl, h a (List.mem_cons_self ..)⟩) (ih fun b hb => h b (List.mem_cons_of_mem _ hb))

theorem Worlds.node (w : Worlds h0 ρ s h) {a b : Addr} (k : Known h0.length ρ a b) {nd : NodeObj} (ha : s[a]? = some (.node nd)) :
    ∃ nd', h[b]? = some (.node nd') ∧ NodeRel h0.length ρ nd nd' := by
  rcases k with k | ⟨rfl, k⟩
  · obtain ⟨_, _, c, c', h1, h2, h3⟩ := w.cells a b k
    rw [ha] at h1
    cases h1
    cases h3 with
    | node h3 => exact ⟨_, h2, h3⟩
  · have h0a := (w.alone a k).symm.trans ha
    refine ⟨nd, (w.shared a k).trans h0a, ?_⟩
    have hb := w.closed a _ h0a
    cases nd with
    | elem tag da nsmap text tail as line => exact .elem (.inr ⟨rfl, hb.1⟩) (Pairs.refl_below hb.2)
    | comment text tail => exact .comment
    | pi text tail => exact .pi

theorem Worlds.dict (w : Worlds h0 ρ s h) {a b : Addr} (k : Known h0.length ρ a b) {d : Dict String String}
    (ha : s[a]? = some (.dict d)) : h[b]? = some (.dict d) := by
  rcases k with k | ⟨rfl, k⟩
  · obtain ⟨_, _, c, c', h1, h2, h3⟩ := w.cells a b k
    rw [ha] at h1
    cases h1
    cases h3
    exact h2
  · exact (w.shared a k).trans ((w.alone a k).symm.trans ha)

theorem Worlds.isNode (w : Worlds h0 ρ s h) {t : Node} {a b : Addr} (r : IsNode s t a) (k : Known h0.length ρ a b) : IsNode h t b := by
  induction r generalizing b with
  | elem h1 h2 h3 _ ih =>
    obtain ⟨nd', h5, h6⟩ := w.node k h1
    cases h6 with
    | elem hd hs =>
      refine .elem h5 (w.dict hd h2) (hs.len.symm.trans h3) ?_
      intro i b' c hb hc
      obtain ⟨a', ha, hab⟩ := hs.at hb
      exact ih i a' c ha hc hab
  | comment h1 =>
    obtain ⟨nd', h5, h6⟩ := w.node k h1
    cases h6
    exact .comment h5
  | pi h1 =>
    obtain ⟨nd', h5, h6⟩ := w.node k h1
    cases h6
    exact .pi h5

theorem Known.own {R : Nat} {a b : Addr} (k : Known R ρ a b) (h : R ≤ a) : Own ρ a b := by
  rcases k with k | ⟨_, k⟩
  · exact k
  · exact absurd k (Nat.not_lt.2 h)

/-- The objects of a tree are the thread's own, if the tree consists of new objects. -/
theorem Worlds.part (w : Worlds h0 ρ s h) {a b : Addr} (k : Own ρ a b)
    (hn : ∀ x, Part s a x → h0.length ≤ x) {y : Addr} (hy : Part h b y) : ∃ x, Part s a x ∧ Own ρ x y := by
  -- a part of the tree that is a node in the one store is a node in the other
  have step : ∀ {x y : Addr} {tag : String} {da : Addr} {nsmap : NsMap} {text tail : Option String} {as : List Addr} {line : Option Int},
      Own ρ x y → h[y]? = some (.node (.elem tag da nsmap text tail as line)) →
      ∃ da' as', s[x]? = some (.node (.elem tag da' nsmap text tail as' line)) ∧ Known h0.length ρ da' da ∧
        Pairs (Known h0.length ρ) as' as := by
    intro x y tag da nsmap text tail as line hxy hy
    obtain ⟨_, _, c, c', h1, h2, h3⟩ := w.cells x y hxy
    rw [hy] at h2
    cases h2
    cases h3 with
    | node h3 =>
      cases h3 with
      | elem hd hs => exact ⟨_, _, h1, hd, hs⟩
  induction hy with
  | root => exact ⟨a, .root, k⟩
  | attrib _ hc ih =>
    obtain ⟨x, hx, hxy⟩ := ih
    obtain ⟨da', as', h1, hd, _⟩ := step hxy hc
    have hp : Part s a da' := .attrib hx h1
    exact ⟨da', hp, hd.own (hn _ hp)⟩
  | child _ hc hm ih =>
    obtain ⟨x, hx, hxy⟩ := ih
    obtain ⟨da', as', h1, _, hs⟩ := step hxy hc
    obtain ⟨b', hb', hbb⟩ := hs.of_mem hm
    have hp : Part s a b' := .child hx h1 hb'
    exact ⟨b', hp, hbb.own (hn _ hp)⟩

end

theorem Call.Meets.answer {h0 h : Store} {ρ : World} {c : Call} (m : c.Meets h0) {y : Result} (w : Worlds h0 ρ (c.alone h0).2 h)
    (hq : ResultRel ρ (c.alone h0).1 y) : c.Answer h0 h y := by
  cases m with
  | read r =>
    cases hq
    rw [(Heap.fromXmlTree_refines _ _ _ _ r).1]
    exact .read r
  | @write env n fl cls v w' r =>
    have hr := (Heap.toXmlTree_refines env n fl cls r).2
    cases hq with
    | wrote hq =>
      cases ho : PXml.toXmlTree env n fl cls w' with
      | ok t =>
        rw [ho] at hr
        obtain ⟨root, h1, h2, _⟩ := hr
        rw [h1] at hq
        cases hq with
        | ok hq => exact .wrote r ho (w.isNode h2 (.inl hq))
      | verr x => rw [ho] at hr; rw [hr] at hq; cases hq; exact .verr r ho
      | crash x => rw [ho] at hr; rw [hr] at hq; cases hq; exact .crash r ho
      | diverge => rw [ho] at hr; rw [hr] at hq; cases hq; exact .diverge r ho

/-- The objects of a returned tree are the thread's own. -/
theorem Call.Meets.own {h0 h : Store} {ρ : World} {c : Call} (m : c.Meets h0) {root : Addr} (w : Worlds h0 ρ (c.alone h0).2 h)
    (hq : ResultRel ρ (c.alone h0).1 (.wrote (.ok root))) {y : Addr} (hy : Part h root y) : ∃ x, Own ρ x y := by
  cases m with
  | read r => cases hq
  | @write env n fl cls v w' r =>
    have hr := (Heap.toXmlTree_refines env n fl cls r).2
    cases hq with
    | wrote hq =>
      cases ho : PXml.toXmlTree env n fl cls w' with
      | ok t =>
        rw [ho] at hr
        obtain ⟨root', h1, h2, h3⟩ := hr
        rw [h1] at hq
        cases hq with
        | ok hq =>
          obtain ⟨x, _, hx⟩ := w.part hq h3 hy
          exact ⟨x, hx⟩
      | verr x => rw [ho] at hr; rw [hr] at hq; cases hq
      | crash x => rw [ho] at hr; rw [hr] at hq; cases hq
      | diverge => rw [ho] at hr; rw [hr] at hq; cases hq

end Conc
end PXml
