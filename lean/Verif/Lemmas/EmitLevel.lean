import Verif.Lemmas.EmitLists

/-! All fields of one element. -/

namespace PXml

open Elem

variable {wh : Bool}

/-- The places of all fields. -/
abbrev places (L : List Entry) : List Slot := Ser.slotsList (L.map fun e => e.1)

theorem places_mem {L : List Entry} {a : Slot} : a ∈ places L ↔ ∃ e ∈ L, a ∈ e.1.slots := by
  simp only [places, slotsList_mem, List.mem_map]
  constructor
  · rintro ⟨s, ⟨e, he, rfl⟩, ha⟩; exact ⟨e, he, ha⟩
  · rintro ⟨e, he, ha⟩; exact ⟨e.1, ⟨e, he, rfl⟩, ha⟩

/-- The fields, one after the other, write `M` and read it back. -/
structure Level (wh : Bool) (env : Env) (eas : Bool) (fl : Flags) (L : List Entry) (M : Em) : Prop where
  keys : ∀ k ∈ M.attrs.keys, .attr k ∈ places L ∨ (.attrs ∈ places L ∧ k ≠ nilAttr)
  wf : M.attrs.WF
  tags : ∀ c ∈ M.kids, .child c.tag ∈ places L
  text : M.text ≠ none → .text ∈ places L
  writes : ∀ w : Elem, w.AtEnd → (∀ k ∈ M.attrs.keys, k ∉ (w.attrib.getD []).keys) → (.attrs ∈ places L → w.attrib.getD [] = []) →
    (∀ c, w.elements.getLast? = some c → .child c.tag ∉ places L) → ∃ w', WSeq env fl L w w' ∧ Adds M w w'
  reads : ∀ S rest A2 r, Faces (places L) M S rest A2 r → (∀ c ∈ rest, .child c.tag ∉ places L) →
    (∀ c, S.getLast? = some c → .child c.tag ∉ places L) →
    ∃ r', RSeq env eas L r r' ∧ Takes wh (places L) M S rest A2 r r'
  carries : ∀ k v enc d, (Ser.attr k false, some (v, enc), d) ∈ L → v ≠ .none → (k, encodePrimitive env enc) ∈ M.attrs

theorem Level.nil (env : Env) (eas : Bool) (fl : Flags) : Level wh env eas fl [] {} := by
  refine ⟨by simp [Dict.keys], Dict.wf_nil, by simp, by simp, fun w _ _ _ _ => ⟨w, rfl, Adds.refl w⟩, ?_, by simp⟩
  exact fun S rest A2 r hf _ _ => ⟨r, rfl, Takes.refl hf⟩

theorem Level.single {env : Env} {eas : Bool} {fl : Flags} {s : Ser} {val : Option (Val × Val)} {d : Val} {M : Em}
    (h : Emits wh env eas fl s val d M) : Level wh env eas fl [(s, val, d)] M := by
  have hp : places [(s, val, d)] = s.slots := by simp [places, Ser.slotsList]
  refine ⟨by rw [hp]; exact h.keys, h.wf, by rw [hp]; exact h.tags, by rw [hp]; exact h.text, ?_, ?_, ?_⟩
  · rw [hp]
    intro w h1 h2 h3 _
    obtain ⟨w', h4, h5⟩ := h.writes w h1 h2 h3
    exact ⟨w', ⟨w', h4, rfl⟩, h5⟩
  · rw [hp]
    intro S rest A2 r hf h1 _
    obtain ⟨r', h4, h5⟩ := h.reads S rest A2 r hf (.inr h1)
    exact ⟨r', ⟨r', h4, rfl⟩, h5⟩
  · intro k v enc d' hm hv
    simp only [List.mem_singleton, Prod.mk.injEq] at hm
    exact h.attr k v enc hm.1.symm hm.2.1.symm hv

theorem WSeq.append {env : Env} {fl : Flags} {L1 L2 : List Entry} {a b c : Elem} (h1 : WSeq env fl L1 a b) (h2 : WSeq env fl L2 b c) :
    WSeq env fl (L1 ++ L2) a c := by
  induction L1 generalizing a with
  | nil => cases h1; exact h2
  | cons e L ih => obtain ⟨x, h3, h4⟩ := h1; exact ⟨x, h3, ih h4⟩

theorem RSeq.append {env : Env} {eas : Bool} {L1 L2 : List Entry} {a b c : Elem} (h1 : RSeq env eas L1 a b) (h2 : RSeq env eas L2 b c) :
    RSeq env eas (L1 ++ L2) a c := by
  induction L1 generalizing a with
  | nil => cases h1; exact h2
  | cons e L ih => obtain ⟨x, h3, h4⟩ := h1; exact ⟨x, h3, ih h4⟩

theorem places_append {L1 L2 : List Entry} {a : Slot} : a ∈ places (L1 ++ L2) ↔ a ∈ places L1 ∨ a ∈ places L2 := by
  simp only [places_mem, List.mem_append]
  constructor
  · rintro ⟨e, h | h, ha⟩
    · exact .inl ⟨e, h, ha⟩
    · exact .inr ⟨e, h, ha⟩
  · rintro (⟨e, h, ha⟩ | ⟨e, h, ha⟩)
    · exact ⟨e, .inl h, ha⟩
    · exact ⟨e, .inr h, ha⟩

theorem getLast?_append_cases {l1 l2 : List Elem} {c : Elem} (h : (l1 ++ l2).getLast? = some c) :
    c ∈ l2 ∨ l1.getLast? = some c := by
  rw [List.getLast?_append] at h
  cases h2 : l2.getLast? with
  | none => rw [h2] at h; exact .inr (by simpa using h)
  | some x =>
    rw [h2] at h
    simp only [Option.some_or, Option.some.injEq] at h
    exact .inl (h ▸ List.mem_of_getLast? h2)

theorem Level.append {env : Env} {eas : Bool} {fl : Flags} {L1 L2 : List Entry} {M1 M2 : Em} (h1 : Level wh env eas fl L1 M1)
    (h2 : Level wh env eas fl L2 M2) (hc : ∀ a ∈ places L1, ∀ b ∈ places L2, ¬ a.Competes b) :
    Level wh env eas fl (L1 ++ L2) (M1.append M2) := by
  have hkeys : ∀ k ∈ M1.attrs.keys, k ∉ M2.attrs.keys := by
    intro k hk1 hk2
    rcases h1.keys k hk1 with ha | ⟨ha, _⟩ <;> rcases h2.keys k hk2 with hb | ⟨hb, _⟩ <;> exact hc _ ha _ hb (by simp [Slot.Competes])
  have hA2 : Slot.attrs ∈ places L1 → M2.attrs = [] := by
    intro h
    cases ha : M2.attrs with
    | nil => rfl
    | cons kv l =>
      rcases h2.keys kv.1 (by simp [ha, Dict.keys]) with hb | ⟨hb, _⟩ <;> exact absurd (by simp [Slot.Competes]) (hc _ h _ hb)
  have hA1 : Slot.attrs ∈ places L2 → M1.attrs = [] := by
    intro h
    cases ha : M1.attrs with
    | nil => rfl
    | cons kv l =>
      rcases h1.keys kv.1 (by simp [ha, Dict.keys]) with hb | ⟨hb, _⟩ <;> exact absurd (by simp [Slot.Competes]) (hc _ hb _ h)
  have hT2 : Slot.text ∈ places L1 → M2.text = none := by
    intro h
    cases ht : M2.text with
    | none => rfl
    | some x => exact absurd (by simp [Slot.Competes]) (hc _ h _ (h2.text (by simp [ht])))
  have hT1 : Slot.text ∈ places L2 → M1.text = none := by
    intro h
    cases ht : M1.text with
    | none => rfl
    | some x => exact absurd (by simp [Slot.Competes]) (hc _ (h1.text (by simp [ht])) _ h)
  have hchild : ∀ t, Slot.child t ∈ places L1 → Slot.child t ∉ places L2 := fun t ha hb => hc _ ha _ hb (by simp [Slot.Competes])
  refine ⟨?_, ?_, ?_, ?_, ?_, ?_, ?_⟩
  · intro k hk
    have hk : k ∈ M1.attrs.keys ∨ k ∈ M2.attrs.keys := by simpa [Em.append, Dict.keys] using hk
    simp only [places_append]
    rcases hk with hk | hk
    · rcases h1.keys k hk with h | ⟨h, h'⟩
      · exact .inl (.inl h)
      · exact .inr ⟨.inl h, h'⟩
    · rcases h2.keys k hk with h | ⟨h, h'⟩
      · exact .inl (.inr h)
      · exact .inr ⟨.inr h, h'⟩
  · unfold Dict.WF Em.append
    simp only [Dict.keys, List.map_append]
    exact List.nodup_append.2 ⟨h1.wf, h2.wf, fun a ha b hb hab => hkeys a ha (hab ▸ hb)⟩
  · intro c hcm
    rw [places_append]
    rcases List.mem_append.1 hcm with h | h
    · exact .inl (h1.tags c h)
    · exact .inr (h2.tags c h)
  · intro h
    rw [places_append]
    simp only [Em.append] at h
    by_cases ht : M2.text = none
    · rw [ht] at h; exact .inl (h1.text (by simpa using h))
    · exact .inr (h2.text ht)
  · intro w hw hk ha hl
    simp only [places_append] at ha hl
    have hk' : ∀ k, k ∈ M1.attrs.keys ∨ k ∈ M2.attrs.keys → k ∉ (w.attrib.getD []).keys := by
      intro k h; exact hk k (by simpa [Em.append, Dict.keys] using h)
    obtain ⟨w1, g1, g2⟩ := h1.writes w hw (fun k h => hk' k (.inl h)) (fun h => ha (.inl h)) (fun c h h' => hl c h (.inl h'))
    obtain ⟨w2, g3, g4⟩ := h2.writes w1 (g2.atEnd hw) (fun k h => by
        rw [g2.attrib]
        simp only [Dict.keys, List.map_append, List.mem_append, not_or]
        exact ⟨hk' k (.inr h), fun h' => hkeys k h' h⟩) (fun h => by rw [g2.attrib, ha (.inr h), hA1 h]; rfl)
      (fun c h h' => by
        rw [g2.elements] at h
        rcases getLast?_append_cases h with h | h
        · exact hchild _ (h1.tags c h) h'
        · exact hl c h (.inr h'))
    exact ⟨w2, g1.append g3, g2.trans g4⟩
  · intro S rest A2 r hf hrest hS
    simp only [places_append] at hrest hS
    obtain ⟨r1, g1, g2⟩ := h1.reads S (M2.kids.map reread ++ rest) (M2.attrs ++ A2) r
      ⟨by rw [hf.elements]; simp [Em.append], hf.next, by rw [hf.attrib]; simp [Em.append], fun h => by
          obtain ⟨g1, g2⟩ := hf.all (places_append.2 (.inl h))
          exact ⟨g1, by rw [hA2 h, g2]; rfl⟩, fun k hk h => by
          simp only [Dict.keys, List.map_append, List.mem_append] at hk
          rcases hk with hk | hk
          · rcases h2.keys k hk with hb | ⟨hb, _⟩ <;> exact hc _ h _ hb (by simp [Slot.Competes])
          · exact hf.others k hk (places_append.2 (.inl h)), fun h => by
          rw [hf.text (places_append.2 (.inl h))]; simp [Em.append, hT2 h]⟩
      (fun c hcm => by
        rcases List.mem_append.1 hcm with h | h
        · obtain ⟨x, hx, rfl⟩ := List.mem_map.1 h
          rw [reread_tag]
          exact fun h' => hchild _ h' (h2.tags x hx)
        · exact fun h' => hrest c h (.inl h'))
      (fun c h h' => hS c h (.inl h'))
    obtain ⟨K1, k1, k2, k3, k4⟩ := g2.kids
    obtain ⟨r2, g3, g4⟩ := h2.reads (S ++ K1) rest A2 r1
      ⟨by rw [k1]; simp, by rw [k2]; simp, g2.attrib, fun h => by
          obtain ⟨x1, x2⟩ := hf.all (places_append.2 (.inr h))
          exact ⟨g2.some (fun h' => hc _ h' _ h (by simp [Slot.Competes])) x1, x2⟩,
        fun k hk h => hf.others k hk (places_append.2 (.inr h)), fun h => by
          rw [g2.text (fun h' => hc _ h' _ h (by simp [Slot.Competes])), hf.text (places_append.2 (.inr h))]
          simp [Em.append, hT1 h]⟩
      (fun c h h' => hrest c h (.inr h'))
      (fun c h h' => by
        rcases getLast?_append_cases h with h | h
        · have : c.tag ∈ M1.kids.map Elem.tag := k4 ▸ List.mem_map_of_mem h
          obtain ⟨x, hx, hxt⟩ := List.mem_map.1 this
          exact hchild _ (h1.tags x hx) (hxt ▸ h')
        · exact hS c h (.inr h'))
    obtain ⟨K2, l1, l2, l3, l4⟩ := g4.kids
    refine ⟨r2, g1.append g3, g4.tag.trans g2.tag, g4.tail.trans g2.tail, ?_, ?_, g4.attrib, ?_, K1 ++ K2, ?_, ?_, ?_, ?_⟩
    · intro h
      by_cases h2t : Slot.text ∈ places L2
      · exact g4.blank h2t
      · rw [g4.text h2t]
        rcases places_append.1 h with h | h
        · exact g2.blank h
        · exact absurd h h2t
    · intro h
      rw [places_append, not_or] at h
      rw [g4.text h.2, g2.text h.1]
    · intro h hs
      rw [places_append, not_or] at h
      exact g4.some h.2 (g2.some h.1 hs)
    · rw [l1]; simp
    · rw [l2]; simp; omega
    · intro c h
      rcases List.mem_append.1 h with h | h
      · exact k3 c h
      · exact l3 c h
    · simp only [Em.append, List.map_append, k4, l4]
  · intro k v enc d hm hv
    simp only [Em.append, List.mem_append]
    rcases List.mem_append.1 hm with h | h
    · exact .inl (h1.carries k v enc d h hv)
    · exact .inr (h2.carries k v enc d h hv)

end PXml
