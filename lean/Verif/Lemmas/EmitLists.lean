import Verif.Lemmas.EmitItems

/-! Lists and tuples. -/

namespace PXml

open Elem

variable {wh : Bool}

/-- A field, its value (`none`: not written) and what it is read as. -/
abbrev Entry := Ser × Option (Val × Val) × Val

/-- The fields are written one after the other. -/
def WSeq (env : Env) (fl : Flags) : List Entry → Elem → Elem → Prop
  | [], w, w' => w' = w
  | e :: L, w, w' => ∃ w1, Wr env fl e.1 e.2.1 w w1 ∧ WSeq env fl L w1 w'

/-- The fields are read one after the other. -/
def RSeq (env : Env) (eas : Bool) : List Entry → Elem → Elem → Prop
  | [], r, r' => r' = r
  | e :: L, r, r' => ∃ r1, Rd env eas e.1 e.2.2 r r1 ∧ RSeq env eas L r1 r'

theorem items_emit {env : Env} {eas : Bool} {fl : Flags} (L : List Entry)
    (h : ∀ e ∈ L, e.1.Item ∧ (∃ v enc, e.2.1 = some (v, enc) ∧ v ≠ .none) ∧ ∃ M, Emits wh env eas fl e.1 e.2.1 e.2.2 M ∧
      (fl.skipEmpty = true → M.Solid)) :
    ∃ K : List Elem, (L ≠ [] → K ≠ []) ∧ (∀ c ∈ K, ∃ e ∈ L, .child c.tag ∈ e.1.slots) ∧
      (∀ w : Elem, w.AtEnd → ∃ w', WSeq env fl L w w' ∧ Adds { kids := K } w w') ∧
      (∀ S rest r, r.elements = S ++ (K.map reread ++ rest) → r.next = S.length →
        ∃ r', RSeq env eas L r r' ∧ Takes wh [] { kids := K } S rest (r.attrib.getD []) r r') := by
  induction L with
  | nil =>
    refine ⟨[], by simp, by simp, fun w _ => ⟨w, rfl, Adds.refl w⟩, fun S rest r h1 h2 => ⟨r, rfl, ?_⟩⟩
    exact ⟨rfl, rfl, by simp, fun _ => rfl, rfl, fun _ h => h, [], by simpa using h1, by simpa using h2, by simp, rfl⟩
  | cons e L ih =>
    obtain ⟨K2, _, hK2t, hK2w, hK2r⟩ := ih fun x hx => h x (by simp [hx])
    obtain ⟨hi, hv, M, hM, hsol⟩ := h e (by simp)
    have hne := hM.kids_ne hi hv hsol
    obtain ⟨hA, hT⟩ := hM.no_attrs (item_child hi)
    have hM' : M = { kids := M.kids } := by cases M; simp_all
    refine ⟨M.kids ++ K2, fun _ => by simp [hne], ?_, ?_, ?_⟩
    · intro c hc
      rcases List.mem_append.1 hc with hc | hc
      · exact ⟨e, by simp, hM.tags c hc⟩
      · obtain ⟨x, hx, hxt⟩ := hK2t c hc
        exact ⟨x, by simp [hx], hxt⟩
    · intro w hw
      obtain ⟨w1, h1, h2⟩ := hM.writes w hw (by simp [hA, Dict.keys]) (fun hx => by
        obtain ⟨t, ht⟩ := item_child hi _ hx; cases ht)
      obtain ⟨w2, h3, h4⟩ := hK2w w1 (h2.atEnd hw)
      refine ⟨w2, ⟨w1, h1, h3⟩, ?_⟩
      have := h2.trans h4
      rw [hM'] at this
      exact this
    · intro S rest r hr1 hr2
      have hnt : Slot.text ∉ e.1.slots := fun hx => by obtain ⟨t, ht⟩ := item_child hi _ hx; cases ht
      have hna : Slot.attrs ∉ e.1.slots := fun hx => by obtain ⟨t, ht⟩ := item_child hi _ hx; cases ht
      have hno : ∀ k, Slot.attr k ∉ e.1.slots := fun k hx => by obtain ⟨t, ht⟩ := item_child hi _ hx; cases ht
      obtain ⟨r1, h1, h2⟩ := hM.reads S (K2.map reread ++ rest) (r.attrib.getD []) r
        ⟨by rw [hr1]; simp, hr2, by rw [hA]; rfl, fun hx => absurd hx hna, fun k _ => hno k,
          fun hx => absurd hx hnt⟩ (.inl ⟨hi, hne⟩)
      obtain ⟨K1', g1, g2, g3, g4⟩ := h2.kids
      obtain ⟨r2, h3, h4⟩ := hK2r (S ++ K1') rest r1 (by rw [g1]; simp) (by rw [g2]; simp)
      obtain ⟨K2', k1, k2, k3, k4⟩ := h4.kids
      refine ⟨r2, ⟨r1, h1, h3⟩, ?_⟩
      refine ⟨h4.tag.trans h2.tag, h4.tail.trans h2.tail, by simp, fun hx => ?_, ?_, fun hx hs => ?_, K1' ++ K2', ?_, ?_, ?_, ?_⟩
      · rw [h4.text hx, h2.text hnt]
      · rw [h4.attrib, h2.attrib]
      · exact h4.some hx (h2.some hna hs)
      · rw [k1]; simp
      · rw [k2]; simp; omega
      · intro c hc
        rcases List.mem_append.1 hc with hc | hc
        · exact g3 c hc
        · exact k3 c hc
      · simp only [List.map_append, g4, k4]

/-! ## Lists -/

theorem wseq_serItems {env : Env} {fl : Flags} (inner : Ser) (rows : List ((Val × Val) × Val)) (hv : ∀ r ∈ rows, r.1.1 ≠ .none) (w w' : Elem)
    (h : WSeq env fl (rows.map fun r => (inner, some r.1, r.2)) w w') :
    ∃ N, ∀ n ≥ N, serItems (ser env n fl inner) fl (rows.map fun r => r.1.1) (rows.map fun r => r.1.2) w = .ok w' := by
  induction rows generalizing w with
  | nil => exact ⟨0, fun n _ => by cases h; rfl⟩
  | cons r rows ih =>
    obtain ⟨w1, ⟨_, N1, h1⟩, h2⟩ := h
    obtain ⟨N2, h3⟩ := ih (fun x hx => hv x (by simp [hx])) w1 h2
    refine ⟨max N1 N2, fun n hn => ?_⟩
    simp only [List.map_cons, serItems, Val.isNone_of_ne (hv r (by simp)), Bool.and_false, Bool.false_eq_true, if_false, h1 n (by omega), Out.bind]
    exact h3 n (by omega)

theorem rseq_homogLoop {env : Env} {eas : Bool} (inner : Ser) (rows : List ((Val × Val) × Val)) (hd : ∀ r ∈ rows, r.2 ≠ .none)
    (r r' : Elem) (h : RSeq env eas (rows.map fun r => (inner, some r.1, r.2)) r r') (hend : Rd env eas inner .none r' r') :
    ∃ N, ∀ n ≥ N, ∀ m ≥ N, ∀ loc sm idx acc, ∃ sm', homogLoop (fun loc st => deser env eas n inner loc st) loc m idx acc [] ⟨r, sm⟩ =
      (.ok (acc ++ rows.map (fun r => r.2), []), ⟨r', sm'⟩) := by
  induction rows generalizing r with
  | nil =>
    cases h
    obtain ⟨_, N, hN⟩ := hend
    refine ⟨N + 1, fun n hn m hm loc sm idx acc => ?_⟩
    obtain ⟨k, rfl⟩ : ∃ k, m = k + 1 := ⟨m - 1, by omega⟩
    obtain ⟨sm', h⟩ := hN n (by omega) (loc ++ [.idx idx]) sm
    exact ⟨sm', by simp [homogLoop, h, Val.isNone]⟩
  | cons row rows ih =>
    obtain ⟨r1, ⟨_, N1, h1⟩, h2⟩ := h
    obtain ⟨N2, h3⟩ := ih (fun x hx => hd x (by simp [hx])) r1 h2
    refine ⟨N1 + N2 + 1, fun n hn m hm loc sm idx acc => ?_⟩
    obtain ⟨k, rfl⟩ : ∃ k, m = k + 1 := ⟨m - 1, by omega⟩
    obtain ⟨sm1, g1⟩ := h1 n (by omega) (loc ++ [.idx idx]) sm
    obtain ⟨sm2, g2⟩ := h3 n (by omega) k (by omega) loc sm1 (idx + 1) (acc ++ [row.2])
    refine ⟨sm2, ?_⟩
    simp only at g1
    simp only [homogLoop, g1, Val.isNone_of_ne (hd row (by simp)), Bool.false_eq_true, if_false, g2]
    simp

theorem emits_homog {env : Env} {eas : Bool} {fl : Flags} {title : Title} {inner : Ser}
    (hr : inner.Everywhere (Ser.Resolved env)) (hi : inner.Item) (rows : List ((Val × Val) × Val))
    (hv : ∀ r ∈ rows, r.1.1 ≠ .none ∧ r.2 ≠ .none) (h : ∀ r ∈ rows, ∃ M, Emits wh env eas fl inner (some r.1) r.2 M ∧ (fl.skipEmpty = true → M.Solid)) :
    ∃ M, Emits wh env eas fl (.homog title false inner)
      (some (.list (rows.map fun r => r.1.1), .list (rows.map fun r => r.1.2)))
      (if rows = [] then .none else .list (rows.map fun r => r.2)) M ∧ (rows ≠ [] → M.Solid) := by
  have hsl : (Ser.homog title false inner).slots = inner.slots := rfl
  obtain ⟨K, hK1, hK2, hK3, hK4⟩ := items_emit (env := env) (eas := eas) (fl := fl) (rows.map fun r => (inner, some r.1, r.2)) (by
    intro e he
    obtain ⟨r, hr, rfl⟩ := List.mem_map.1 he
    exact ⟨hi, ⟨r.1.1, r.1.2, rfl, (hv r hr).1⟩, h r hr⟩)
  refine ⟨{ kids := K }, ⟨by simp [Dict.keys], Dict.wf_nil, ?_, by simp, fun _ hx => (by cases hx), ?_, ?_, ?_, ?_⟩,
    fun hne => .inr (.inr (hK1 (by simpa using hne)))⟩
  · intro c hc
    obtain ⟨e, he, ht⟩ := hK2 c hc
    obtain ⟨r, _, rfl⟩ := List.mem_map.1 he
    exact ht
  · intro w hw _ _
    obtain ⟨w', h1, h2⟩ := hK3 w hw
    obtain ⟨N, hN⟩ := wseq_serItems inner rows (fun r hr => (hv r hr).1) w w' h1
    refine ⟨w', ⟨h2.tag, N + 1, fun n hn => ?_⟩, h2⟩
    obtain ⟨k, rfl⟩ : ∃ k, n = k + 1 := ⟨n - 1, by omega⟩
    exact hN k (by omega)
  · intro S rest A2 r hf hrest
    have hrest' : ∀ c ∈ rest, Slot.child c.tag ∉ inner.slots := by
      rcases hrest with ⟨hx, _⟩ | hrest
      · cases hx
      · exact hrest
    obtain ⟨r', h1, h2⟩ := hK4 S rest r hf.elements hf.next
    obtain ⟨K', g1, g2, g3, g4⟩ := h2.kids
    have hend : Rd env eas inner .none r' r' := by
      refine rd_absent hr (item_absent hi ?_)
      have : r'.unread = rest := by
        unfold Elem.unread
        rw [g1, g2, ← List.append_assoc]
        simp
      rw [this]; exact hrest'
    obtain ⟨N, hN⟩ := rseq_homogLoop inner rows (fun r hr => (hv r hr).2) r r' h1 hend
    refine ⟨r', ⟨h2.tag, N + 1, fun n hn loc sm => ?_⟩, ?_⟩
    · obtain ⟨k, rfl⟩ : ∃ k, n = k + 1 := ⟨n - 1, by omega⟩
      obtain ⟨sm', g⟩ := hN k (by omega) k (by omega) loc sm 0 []
      refine ⟨sm', ?_⟩
      change deserStep env eas (deser env eas k) k (.homog title false inner) loc ⟨r, sm⟩ = _
      simp only [deserStep, Bool.false_eq_true, if_false, g, homogFinish, List.isEmpty_nil, if_true, List.nil_append]
      cases rows with
      | nil => simp
      | cons => simp
    · have := h2.widen (ss' := (Ser.homog title false inner).slots) (by simp) (by rw [hsl]; exact item_child hi)
      rw [show r.attrib.getD [] = A2 by simpa using hf.attrib] at this
      exact this
  · rintro k x ⟨p, _, _, _, _, _, _, _, _, hp, _⟩; cases hp
  · intro k v enc h; cases h

/-! ## Tuples -/

theorem wseq_serTuple {env : Env} {fl : Flags} (rows : List (Ser × (Val × Val) × Val)) (w w' : Elem)
    (h : WSeq env fl (rows.map fun r => (r.1, some r.2.1, r.2.2)) w w') :
    ∃ N, ∀ n ≥ N, serTuple (ser env n fl) (rows.map fun r => r.1) (rows.map fun r => r.2.1.1) (rows.map fun r => r.2.1.2) w = .ok w' := by
  induction rows generalizing w with
  | nil => exact ⟨0, fun n _ => by cases h; rfl⟩
  | cons r rows ih =>
    obtain ⟨w1, ⟨_, N1, h1⟩, h2⟩ := h
    obtain ⟨N2, h3⟩ := ih w1 h2
    refine ⟨max N1 N2, fun n hn => ?_⟩
    simp only [List.map_cons, serTuple, h1 n (by omega), Out.bind]
    exact h3 n (by omega)

theorem rseq_heteroLoop {env : Env} {eas : Bool} (rows : List (Ser × (Val × Val) × Val)) (r r' : Elem)
    (h : RSeq env eas (rows.map fun r => (r.1, some r.2.1, r.2.2)) r r') :
    ∃ N, ∀ n ≥ N, ∀ loc sm idx acc, ∃ sm', heteroLoop (deser env eas n) loc (rows.map fun r => r.1) idx acc [] ⟨r, sm⟩ =
      (.ok (acc ++ rows.map (fun r => r.2.2), []), ⟨r', sm'⟩) := by
  induction rows generalizing r with
  | nil => cases h; exact ⟨0, fun n _ loc sm idx acc => ⟨sm, by simp [heteroLoop]⟩⟩
  | cons row rows ih =>
    obtain ⟨r1, ⟨_, N1, h1⟩, h2⟩ := h
    obtain ⟨N2, h3⟩ := ih r1 h2
    refine ⟨max N1 N2, fun n hn loc sm idx acc => ?_⟩
    obtain ⟨sm1, g1⟩ := h1 n (by omega) (loc ++ [.idx idx]) sm
    obtain ⟨sm2, g2⟩ := h3 n (by omega) loc sm1 (idx + 1) (acc ++ [row.2.2])
    refine ⟨sm2, ?_⟩
    simp only at g1
    simp only [List.map_cons, heteroLoop, g1, g2]
    simp

theorem emits_hetero {env : Env} {eas : Bool} {fl : Flags} {title : Title}
    (rows : List (Ser × (Val × Val) × Val)) (hne : rows ≠ []) (hi : ∀ r ∈ rows, r.1.Item) (hv : ∀ r ∈ rows, r.2.1.1 ≠ .none)
    (h : ∀ r ∈ rows, ∃ M, Emits wh env eas fl r.1 (some r.2.1) r.2.2 M ∧ (fl.skipEmpty = true → M.Solid)) :
    ∃ M, Emits wh env eas fl (.hetero title false (rows.map fun r => r.1))
      (some (.list (rows.map fun r => r.2.1.1), .list (rows.map fun r => r.2.1.2)))
      (if rows.all (fun r => r.2.2.isNone) then .none else .list (rows.map fun r => r.2.2)) M ∧ M.Solid := by
  have hslots : ∀ a, a ∈ (Ser.hetero title false (rows.map fun r => r.1)).slots ↔ ∃ r ∈ rows, a ∈ r.1.slots := by
    intro a
    simp only [Ser.slots, slotsList_mem, List.mem_map]
    constructor
    · rintro ⟨s, ⟨r, hr, rfl⟩, ha⟩; exact ⟨r, hr, ha⟩
    · rintro ⟨r, hr, ha⟩; exact ⟨r.1, ⟨r, hr, rfl⟩, ha⟩
  have hchild : ∀ a ∈ (Ser.hetero title false (rows.map fun r => r.1)).slots, ∃ t, a = .child t := by
    intro a ha
    obtain ⟨r, hr, ha⟩ := (hslots a).1 ha
    exact item_child (hi r hr) a ha
  obtain ⟨K, hK1, hK2, hK3, hK4⟩ := items_emit (env := env) (eas := eas) (fl := fl) (rows.map fun r => (r.1, some r.2.1, r.2.2)) (by
    intro e he
    obtain ⟨r, hr, rfl⟩ := List.mem_map.1 he
    exact ⟨hi r hr, ⟨r.2.1.1, r.2.1.2, rfl, hv r hr⟩, h r hr⟩)
  refine ⟨{ kids := K }, ⟨by simp [Dict.keys], Dict.wf_nil, ?_, by simp, fun _ _ _ => hK1 (by simpa using hne), ?_, ?_, ?_, ?_⟩,
    .inr (.inr (hK1 (by simpa using hne)))⟩
  · intro c hc
    obtain ⟨e, he, ht⟩ := hK2 c hc
    obtain ⟨r, hr, rfl⟩ := List.mem_map.1 he
    exact (hslots _).2 ⟨r, hr, ht⟩
  · intro w hw _ _
    obtain ⟨w', h1, h2⟩ := hK3 w hw
    obtain ⟨N, hN⟩ := wseq_serTuple rows w w' h1
    refine ⟨w', ⟨h2.tag, N + 1, fun n hn => ?_⟩, h2⟩
    obtain ⟨k, rfl⟩ : ∃ k, n = k + 1 := ⟨n - 1, by omega⟩
    change serStep env (ser env k) fl (.hetero title false _) w _ _ = _
    have he : (rows.map fun r => r.2.1.1).isEmpty = false := by cases rows with | nil => exact absurd rfl hne | cons => rfl
    simp only [serStep, Val.isNone, he, Bool.and_false, Bool.false_eq_true, if_false, List.length_map, ne_eq, not_true_eq_false]
    exact hN k (by omega)
  · intro S rest A2 r hf _
    obtain ⟨r', h1, h2⟩ := hK4 S rest r hf.elements hf.next
    obtain ⟨N, hN⟩ := rseq_heteroLoop rows r r' h1
    refine ⟨r', ⟨h2.tag, N + 1, fun n hn loc sm => ?_⟩, ?_⟩
    · obtain ⟨k, rfl⟩ : ∃ k, n = k + 1 := ⟨n - 1, by omega⟩
      obtain ⟨sm', g⟩ := hN k (by omega) loc sm 0 []
      refine ⟨sm', ?_⟩
      change deserStep env eas (deser env eas k) k (.hetero title false _) loc ⟨r, sm⟩ = _
      have hall : (rows.map fun r => r.2.2).all Val.isNone = rows.all fun r => r.2.2.isNone := by simp [List.all_map, Function.comp_def]
      simp only [deserStep, Bool.false_eq_true, if_false, g, heteroFinish, List.isEmpty_nil, if_true, List.nil_append, hall]
      split <;> rfl
    · have := h2.widen (ss' := (Ser.hetero title false (rows.map fun r => r.1)).slots) (by simp) hchild
      rw [show r.attrib.getD [] = A2 by simpa using hf.attrib] at this
      exact this
  · rintro k x ⟨p, _, _, _, _, _, _, _, _, hp, _⟩; cases hp
  · intro k v enc h; cases h

end PXml
