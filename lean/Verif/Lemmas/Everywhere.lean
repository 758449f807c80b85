import Verif.Spec

/-! Conditions on serializers, constructor by constructor. -/

namespace PXml
namespace Ser

variable {P : Ser → Prop}

theorem everywhere_iff {s : Ser} : s.Everywhere P ↔ P s ∧ ∀ t ∈ s.subs, t.Everywhere P :=
  ⟨fun h => by cases h with | mk h1 h2 => exact ⟨h1, h2⟩, fun h => .mk h.1 h.2⟩

@[simp] theorem everywhere_text {c n : Bool} : (Ser.text c n).Everywhere P ↔ P (.text c n) := by
  rw [everywhere_iff]; simp [subs]
@[simp] theorem everywhere_attr {nm : String} {c : Bool} : (Ser.attr nm c).Everywhere P ↔ P (.attr nm c) := by
  rw [everywhere_iff]; simp [subs]
@[simp] theorem everywhere_elem {nm : String} {ns : Option NsMap} {m : Mode} {c n : Bool} :
    (Ser.elem nm ns m c n).Everywhere P ↔ P (.elem nm ns m c n) := by rw [everywhere_iff]; simp [subs]
@[simp] theorem everywhere_attrs {a : AttrsSer} : (Ser.attrs a).Everywhere P ↔ P (.attrs a) := by
  rw [everywhere_iff]; simp [subs]
@[simp] theorem everywhere_mapElem {a : AttrsSer} {nm : String} {m : Mode} :
    (Ser.mapElem a nm m).Everywhere P ↔ P (.mapElem a nm m) := by rw [everywhere_iff]; simp [subs]
@[simp] theorem everywhere_raw {nm : String} {m : Mode} {c : Bool} : (Ser.raw nm m c).Everywhere P ↔ P (.raw nm m c) := by
  rw [everywhere_iff]; simp [subs]
@[simp] theorem everywhere_proxy {p : Proxy} : (Ser.proxy p).Everywhere P ↔ P (.proxy p) := by
  rw [everywhere_iff]; simp [subs]
@[simp] theorem everywhere_primUnion {c : Bool} {s : Ser} :
    (Ser.primUnion c s).Everywhere P ↔ P (.primUnion c s) ∧ s.Everywhere P := by rw [everywhere_iff]; simp [subs]
@[simp] theorem everywhere_modelUnion {t : Title} {c : Bool} {alts : List Proxy} :
    (Ser.modelUnion t c alts).Everywhere P ↔ P (.modelUnion t c alts) ∧ ∀ p ∈ alts, P (.proxy p) := by
  rw [everywhere_iff]; simp [subs]
@[simp] theorem everywhere_tagged {c : Bool} {d a : String} {m : Mode} {alts : List (String × Proxy)} :
    (Ser.tagged c d a m alts).Everywhere P ↔ P (.tagged c d a m alts) ∧ ∀ p ∈ alts, P (.proxy p.2) := by
  rw [everywhere_iff]
  simp only [subs, List.mem_map]
  constructor
  · rintro ⟨h1, h2⟩; exact ⟨h1, fun p hp => everywhere_proxy.1 (h2 _ ⟨p, hp, rfl⟩)⟩
  · rintro ⟨h1, h2⟩; refine ⟨h1, ?_⟩; rintro t ⟨p, hp, rfl⟩; exact everywhere_proxy.2 (h2 p hp)
@[simp] theorem everywhere_wrap {path : List String} {ns : Option NsMap} {m : Mode} {c : Bool} {s : Ser} :
    (Ser.wrap path ns m c s).Everywhere P ↔ P (.wrap path ns m c s) ∧ s.Everywhere P := by
  rw [everywhere_iff]; simp [subs]
@[simp] theorem everywhere_homog {t : Title} {c : Bool} {s : Ser} :
    (Ser.homog t c s).Everywhere P ↔ P (.homog t c s) ∧ s.Everywhere P := by rw [everywhere_iff]; simp [subs]
@[simp] theorem everywhere_hetero {t : Title} {c : Bool} {ss : List Ser} :
    (Ser.hetero t c ss).Everywhere P ↔ P (.hetero t c ss) ∧ ∀ s ∈ ss, s.Everywhere P := by
  rw [everywhere_iff]; simp [subs]

theorem everywhere_mono {Q : Ser → Prop} {s : Ser} (h : s.Everywhere P) (hPQ : ∀ t, P t → Q t) : s.Everywhere Q := by
  induction h with
  | mk h1 _ ih => exact .mk (hPQ _ h1) ih

theorem subs_lt {s t : Ser} (h : t ∈ s.subs) : sizeOf t < sizeOf s ∨ ∃ p, t = .proxy p := by
  cases s with
  | primUnion c i => simp only [subs, List.mem_singleton] at h; subst h; left; simp
  | modelUnion t c alts => simp only [subs, List.mem_map] at h; obtain ⟨p, -, rfl⟩ := h; exact .inr ⟨p, rfl⟩
  | tagged c d a m alts => simp only [subs, List.mem_map] at h; obtain ⟨p, -, rfl⟩ := h; exact .inr ⟨_, rfl⟩
  | wrap p ns m c i => simp only [subs, List.mem_singleton] at h; subst h; left; simp
  | homog t c i => simp only [subs, List.mem_singleton] at h; subst h; left; simp
  | hetero t c is =>
    simp only [subs] at h
    left
    have := List.sizeOf_lt_of_mem h
    simp; omega
  | _ => simp [subs] at h

/-- A condition all serializers meet holds everywhere. -/
theorem everywhere_of_all (h : ∀ s, P s) (s : Ser) : s.Everywhere P := by
  suffices H : ∀ n s, sizeOf s ≤ n → Ser.Everywhere P s from H _ s (Nat.le_refl _)
  intro n
  induction n with
  | zero => intro s hs; cases s <;> simp at hs
  | succ n ih =>
    intro s hs
    refine .mk (h s) fun t ht => ?_
    rcases subs_lt ht with hlt | ⟨p, rfl⟩
    · exact ih t (by omega)
    · simp [h]

end Ser
end PXml
