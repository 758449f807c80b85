import Verif.Lemmas.Sim
import Verif.Lemmas.SimMeta
import Verif.Lemmas.Pieces
import Verif.Example

/-!
# Nothing is invented (C07)
-/

namespace PXml

open Elem

theorem madeOfList_iff (doc : List Piece) (eas : Bool) (vs : List Val) :
    Val.MadeOfList doc eas vs ↔ ∀ v ∈ vs, v.MadeOf doc eas := by
  induction vs with
  | nil => simp [Val.MadeOfList]
  | cons v vs ih => simp [Val.MadeOfList, ih]

/-- The same element, all of whose content is in the document. -/
def Within (doc : List Piece) (e1 e2 : Elem) : Prop := e1 = e2 ∧ ∀ p ∈ e1.content, p ∈ doc

theorem within_of_conserves {doc : List Piece} {e e' : Elem} (h : Conserves e e') (he : ∀ p ∈ e.content, p ∈ doc) :
    ∀ p ∈ e'.content, p ∈ doc := by
  obtain ⟨t, ht⟩ := h
  exact fun p hp => he p (ht.mem_iff.2 (List.mem_append_right _ hp))

theorem content_child {e c : Elem} (hc : c ∈ e.elements) : ∀ p ∈ c.content, p ∈ e.content := by
  intro p hp
  rw [content_eq]
  exact List.mem_append_right _ (List.mem_flatMap.2 ⟨c, hc, hp⟩)

theorem content_setChild {doc : List Piece} {e c' : Elem} {i : Nat} (he : ∀ p ∈ e.content, p ∈ doc)
    (hc : ∀ p ∈ c'.content, p ∈ doc) : ∀ p ∈ (e.setChild i c').content, p ∈ doc := by
  intro p hp
  rw [content_eq] at hp
  rcases List.mem_append.1 hp with hp | hp
  · exact he p (by rw [content_eq]; exact List.mem_append_left _ hp)
  · obtain ⟨c, hc', hp'⟩ := List.mem_flatMap.1 hp
    rcases List.mem_or_eq_of_mem_set hc' with h | h
    · exact he p (content_child h p hp')
    · exact hc p (h ▸ hp')

theorem within_hit {doc : List Piece} {e : Elem} {i : Nat} (he : ∀ p ∈ e.content, p ∈ doc)
    (hi : ∃ c, e.elements[i]? = some c) : Hit (Within doc) e i e i := by
  obtain ⟨c, hc⟩ := hi
  refine ⟨c, c, hc, hc, ⟨rfl, fun p hp => he p (content_child (List.mem_of_getElem? hc) p hp)⟩, ?_⟩
  rintro c1 c2 ⟨rfl, h⟩ _ _
  exact ⟨rfl, content_setChild he h⟩

theorem mem_own_attr {e : Elem} {d : Dict String String} (h : e.attrib = some d) {kv : String × String} (hkv : kv ∈ d) :
    Piece.attr kv.1 kv.2 ∈ e.content := by
  rw [content_eq]
  refine List.mem_append_left _ ?_
  simp only [own, h, Option.getD_some]
  exact List.mem_append_right _ (List.mem_map.2 ⟨kv, hkv, rfl⟩)

theorem Dict.mem_set {d : Dict String Val} {k : String} {v : Val} {kv : String × Val} (h : kv ∈ d.set k v) :
    kv ∈ d ∨ kv = (k, v) := by
  induction d with
  | nil => simp [Dict.set] at h; exact .inr h
  | cons x d ih =>
    obtain ⟨k', v'⟩ := x
    simp only [Dict.set] at h
    split at h
    · rcases List.mem_cons.1 h with h | h
      · exact .inr h
      · exact .inl (by simp [h])
    · rcases List.mem_cons.1 h with h | h
      · exact .inl (by simp [h])
      · rcases ih h with h | h
        · exact .inl (by simp [h])
        · exact .inr h

theorem Dict.mem_update {a b : Dict String Val} {kv : String × Val} (h : kv ∈ a.update b) : kv ∈ a ∨ kv ∈ b := by
  induction b generalizing a with
  | nil => exact .inl h
  | cons x b ih =>
    rcases ih (a := a.set x.1 x.2) h with h | h
    · rcases Dict.mem_set h with h | h
      · exact .inl h
      · exact .inr (by simp [h])
    · exact .inr (by simp [h])

theorem withinSim {env1 env2 : Env} (eas : Bool) (doc : List Piece) (hb : env1.backend = env2.backend)
    (hmodels : env1.model = env2.model) (hno : env1.NoValidators)
    (hval : ∀ cls m d, env1.model cls = some m → m.DataOf (Val.MadeOf doc eas) d → env1.validate cls d = env2.validate cls d) :
    Sim env1 env2 eas .any True True True (Within doc) (Val.MadeOf doc eas) id where
  models := hmodels
  line := by rintro e _ ⟨rfl, _⟩; rfl
  lines sm1 sm2 h loc := by
    exact lines_id h loc
  text := by
    rintro e _ _ ⟨rfl, h⟩
    refine ⟨rfl, ?_, rfl, within_of_conserves (conserves_rel.popText e) h⟩
    have hm : ∀ t, e.text = some t → Piece.text t ∈ doc := by
      intro t ht
      apply h
      rw [content_eq]
      refine List.mem_append_left _ ?_
      simp [own, ht]
    cases ht : e.text with
    | none => cases eas <;> simp [textVal, Val.MadeOf]
    | some t =>
      by_cases h0 : t = ""
      · cases eas <;> simp [textVal, Val.MadeOf, h0]
      · simp [textVal, Val.MadeOf, h0, hm t ht]
  owns _ _ _ _ := trivial
  nil := trivial
  attrib := by
    rintro e _ k _ ⟨rfl, h⟩
    refine ⟨rfl, ?_, rfl, within_of_conserves (conserves_rel.popAttrib e k) h⟩
    intro v hv
    rw [popAttrib_fst] at hv
    unfold getAttrib at hv
    cases ha : e.attrib with
    | none => rw [ha] at hv; cases hv
    | some d =>
      rw [ha] at hv
      simp only [Val.MadeOf]
      exact .inr (.inl ⟨k, h _ (mem_own_attr ha (Dict.mem_of_get? hv))⟩)
  attributes := by
    rintro _ e _ ⟨rfl, h⟩
    refine ⟨rfl, ?_, rfl, within_of_conserves (conserves_rel.popAttributes e) h⟩
    intro d ns ha
    simp only [Val.MadeOf]
    intro kv hkv
    rcases Dict.mem_update hkv with hkv | hkv
    · cases hkv
    · obtain ⟨x, hx, rfl⟩ := List.mem_map.1 hkv
      refine ⟨x.1, x.2, h _ (mem_own_attr ha hx), ?_, rfl⟩
      cases ns
      · exact .inl rfl
      · exact .inr rfl
  search := by
    rintro e _ t m step _ ⟨rfl, h⟩
    have h2 := within_of_conserves (conserves_rel.search e t m step) h
    cases hs : e.search t m step with
    | mk o e' =>
      rw [hs] at h2
      cases o with
      | none => exact ⟨rfl, h2⟩
      | some i =>
        obtain ⟨c, hc, _⟩ := search_index hs
        exact ⟨⟨rfl, h2⟩, within_hit h2 ⟨c, hc⟩⟩
  find := by
    rintro e _ t m _ ⟨rfl, h⟩
    cases hs : e.findElement t m with
    | error x => exact .inl ⟨x, rfl, rfl⟩
    | ok r =>
      refine .inr ⟨r, r, rfl, rfl, ?_⟩
      have h2 := within_of_conserves (conserves_rel.findElement hs) h
      obtain ⟨o, e'⟩ := r
      cases o with
      | none => exact ⟨rfl, h2⟩
      | some i =>
        obtain ⟨c, hc, _⟩ := findElement_index hs
        exact ⟨⟨rfl, h2⟩, within_hit h2 ⟨c, hc⟩⟩
  step := by
    rintro _ e _ ⟨rfl, h⟩ _
    exact ⟨rfl, by simpa only [stepForward, content_next] using h⟩
  snapshot := by
    rintro e _ s _ ⟨rfl, _⟩ ⟨rfl, h⟩
    exact ⟨rfl, by simpa only [applySnapshot, content_line] using h⟩
  rawElem := by
    rintro _ e _ i1 i2 c1 c2 ⟨rfl, h⟩ hh hc1 hc2
    obtain ⟨x1, x2, hx1, hx2, hE, hset⟩ := hh
    rw [hc1] at hx1
    rw [hc2] at hx2
    injection hx1 with hx1
    injection hx2 with hx2
    subst hx1 hx2
    obtain ⟨rfl, hE⟩ := hE
    refine ⟨by rw [hb], ?_, hset _ _ ⟨rfl, ?_⟩ rfl rfl⟩
    · simp only [Val.MadeOf, toNative_pieces]
      intro p hp
      apply hE
      rw [content_eq] at hp ⊢
      exact hp
    · intro p hp
      rw [content_eq] at hp
      simp [hollow, own] at hp
  none := by simp [Val.MadeOf]
  list vs h := by simp only [Val.MadeOf]; exact (madeOfList_iff _ _ _).2 h
  model _ _ _ := by simp [Val.MadeOf]
  validate := hval
  extra := by rintro _ title e _ ⟨rfl, _⟩; rfl
  forbids _ _ _ _ := trivial
  validators cls m fs hm hb f hf v hv := by rw [hno cls m fs hm hb f hf] at hv; cases hv
  keeps cls m fs hm hb f hf v hv := by rw [hno cls m fs hm hb f hf] at hv; cases hv

/-- C07: the outcome of reading depends on validation only through data made of the document: two validation
functions that agree on all data in which every string is a text or attribute value of the document (or empty, with
`empty_as_string`), every dictionary consists of attributes of the document, and every raw element of content of the
document, give the same outcome.  So no other data is ever handed to validation. -/
theorem C07_nothing_invented (env : Env) (hno : env.NoValidators) (eas : Bool) (n : Nat) (cls : String) (root : Node)
    (hr : root.isComment = false) (validate' : String → Val → Except VErr (List (String × Val) × List String))
    (hval : ∀ cls m d, env.model cls = some m → m.DataOf (Val.MadeOf root.pieces eas) d →
      env.validate cls d = validate' cls d) :
    fromXmlTree env eas n cls root = fromXmlTree { env with validate := validate' } eas n cls root := by
  have hE : env.Everywhere (Ser.Allowed .any True True) := by
    have h : ∀ s : Ser, s.Allowed .any True True := by
      intro s; refine ⟨fun _ _ => trivial, ?_⟩
      cases s <;> first | trivial | exact fun _ => trivial | exact fun _ _ _ => trivial
    intro c m hm
    cases hb : m.body with
    | fields fs => simp only [ModelSer.Everywhere, hb]; exact fun f _ => Ser.everywhere_of_all h _
    | root s => simp only [ModelSer.Everywhere, hb]; exact Ser.everywhere_of_all h _
  obtain ⟨h1, h2⟩ := fromXmlTree_agree (env1 := env) (env2 := { env with validate := validate' })
    (withinSim (env1 := env) (env2 := { env with validate := validate' }) eas root.pieces rfl rfl hno hval) hE n cls root root rfl
    ⟨rfl, by rw [fromNative_content _ _ hr]; exact fun _ h => h⟩
  exact Prod.ext h1.eq h2.1

/-- C07: in particular with a validation that refuses all other data. -/
theorem C07_foreign_data_never_validated (env : Env) (hno : env.NoValidators) (eas : Bool) (n : Nat) (cls : String)
    (root : Node) (hr : root.isComment = false) (refusal : VErr) :
    let strict : String → Val → Except VErr (List (String × Val) × List String) := fun c d =>
      open Classical in
      if ∃ m, env.model c = some m ∧ m.DataOf (Val.MadeOf root.pieces eas) d then env.validate c d else .error refusal
    fromXmlTree env eas n cls root = fromXmlTree { env with validate := strict } eas n cls root := by
  intro strict
  apply C07_nothing_invented env hno eas n cls root hr
  intro c m d hm hd
  simp only [strict]
  rw [if_pos ⟨m, hm, hd⟩]

/-- A non-trivial case: the data of the sample person satisfies the condition. -/
example : (Ex.person .strict).DataOf (Val.MadeOf Ex.personDoc.pieces false)
    (.dict [("id", .str "7"), ("name", .str "Ann"), ("mails", .list [.str "a@x", .str "b@x"]), ("phone", .str "123"),
      ("extra", .dict [("k", .str "v"), ("l", .str "w")])]) := by
  refine ⟨_, rfl, ?_⟩
  simp only [List.forall_mem_cons, Val.MadeOf, Val.MadeOfList]
  refine ⟨⟨.inr (.inl ⟨"id", by decide⟩), by simp⟩, ⟨.inl (by decide), by simp⟩,
    ⟨⟨.inl (by decide), .inl (by decide), trivial⟩, by simp⟩, ⟨.inl (by decide), by simp⟩,
    ⟨⟨⟨"k", "v", by decide, .inl rfl, rfl⟩, ⟨"l", "w", by decide, .inl rfl, rfl⟩, by simp⟩, by simp⟩, by simp⟩

end PXml
