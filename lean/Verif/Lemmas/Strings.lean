import Verif.Lemmas.Progress

/-! How often a string is delivered, compared with how often it occurs. -/

namespace PXml

/-- Occurrences of `a` in an element. -/
def Elem.weight (a : String) (e : Elem) : Nat := e.strings.count a

/-- Occurrences of `a` in a value. -/
def Val.weight (a : String) (v : Val) : Nat := v.strings.count a

theorem Elem.stringsList_eq (l : List Elem) : Elem.stringsList l = l.flatMap Elem.strings := by
  induction l with
  | nil => rfl
  | cons c l ih => simp [Elem.stringsList, ih]

theorem Elem.weight_eq (a : String) (e : Elem) :
    e.weight a = e.text.toList.count a + e.tail.toList.count a + ((e.attrib.getD []).map Prod.snd).count a
      + (e.elements.map (Elem.weight a)).sum := by
  have h : ∀ l : List Elem, (l.flatMap Elem.strings).count a = (l.map (Elem.weight a)).sum := by
    intro l
    induction l with
    | nil => rfl
    | cons c l ih => simp only [List.flatMap_cons, List.count_append, List.map_cons, List.sum_cons, ih]; rfl
  cases e
  simp only [Elem.weight, Elem.strings, stringsList_eq, List.count_append, h]

theorem Val.weight_list (a : String) (l : List Val) :
    (Val.list l).weight a = (l.map (Val.weight a)).sum := by
  unfold Val.weight
  simp only [Val.strings]
  induction l with
  | nil => rfl
  | cons v l ih => simp [Val.stringsList, ih]

/-- Occurrences in the values of a dictionary. -/
def Val.weightItems (a : String) (d : List (String × Val)) : Nat := (d.map fun kv => kv.2.weight a).sum

theorem Val.weightItems_eq (a : String) (d : List (String × Val)) :
    (Val.stringsItems d).count a = Val.weightItems a d := by
  induction d with
  | nil => rfl
  | cons v l ih => obtain ⟨k, v⟩ := v; simp [Val.stringsItems, ih, Val.weightItems, Val.weight]

theorem Val.weight_dict (a : String) (d : List (String × Val)) : (Val.dict d).weight a = Val.weightItems a d := by
  rw [← weightItems_eq]; rfl

theorem Val.weight_model (a : String) (c : String) (d : List (String × Val)) (s : List String) :
    (Val.model c d s).weight a = Val.weightItems a d := by
  rw [← weightItems_eq]; rfl

theorem Val.weightItems_set (a : String) (d : Dict String Val) (k : String) (v : Val) :
    Val.weightItems a (d.set k v) ≤ Val.weightItems a d + v.weight a := by
  induction d with
  | nil => simp [Dict.set, Val.weightItems]
  | cons x d ih =>
    obtain ⟨k', v'⟩ := x
    simp only [Dict.set]
    split
    · simp only [Val.weightItems, List.map_cons, List.sum_cons]; omega
    · simp only [Val.weightItems, List.map_cons, List.sum_cons] at ih ⊢; omega

theorem Val.weightItems_update (a : String) (d d' : Dict String Val) :
    Val.weightItems a (d.update d') ≤ Val.weightItems a d + Val.weightItems a d' := by
  induction d' generalizing d with
  | nil => simp [Dict.update, Val.weightItems]
  | cons x d' ih =>
    have h1 := ih (d.set x.1 x.2)
    have h2 := Val.weightItems_set a d x.1 x.2
    simp only [Dict.update, List.foldl_cons] at h1 ⊢
    simp only [Val.weightItems, List.map_cons, List.sum_cons] at h1 h2 ⊢
    omega

theorem Val.weightItems_erase (a : String) (d : Dict String Val) (k : String) :
    ((Dict.get? d k).getD .none).weight a + Val.weightItems a (d.erase k) ≤ Val.weightItems a d := by
  induction d with
  | nil => simp [Dict.get?, Dict.erase, Val.weightItems, Val.weight, Val.strings]
  | cons y d ih =>
    obtain ⟨k', v'⟩ := y
    simp only [Dict.get?, Dict.erase]
    split
    · simp [Val.weightItems]
    · simp only [Val.weightItems, List.map_cons, List.sum_cons] at ih ⊢; omega

/-- Picking entries by different keys does not multiply strings. -/
theorem Val.weightItems_select (a : String) (l : List (String × Bool)) (hl : (l.map Prod.fst).Nodup) (d : Dict String Val) :
    Val.weightItems a (l.map fun f => (f.1, (Dict.get? d f.1).getD .none)) ≤ Val.weightItems a d := by
  induction l generalizing d with
  | nil => simp [Val.weightItems]
  | cons x l ih =>
    simp only [List.map_cons, List.nodup_cons] at hl
    have h3 := ih hl.2 (d.erase x.1)
    have h4 : l.map (fun f => (f.1, (Dict.get? (Dict.erase d x.1) f.1).getD Val.none)) =
        l.map (fun f => (f.1, (Dict.get? d f.1).getD Val.none)) := by
      apply List.map_congr_left
      intro f hf
      rw [Dict.get?_erase_ne]
      rintro h
      exact hl.1 (h ▸ List.mem_map.2 ⟨f, hf, rfl⟩)
    have h5 := Val.weightItems_erase a d x.1
    rw [h4] at h3
    simp only [Val.weightItems, List.map_cons, List.sum_cons] at h3 h5 ⊢
    omega

mutual
theorem toNative_strings (b : Backend) (e : Elem) : (toNative b e).strings = e.strings := by
  cases e with
  | mk tag nsmap text tail attrib elements next line =>
    simp [toNative, Node.strings, Elem.strings, toNativeList_strings b elements]
theorem toNativeList_strings (b : Backend) (l : List Elem) :
    Node.stringsList (toNativeList b l) = Elem.stringsList l := by
  cases l with
  | nil => rfl
  | cons c l =>
    simp [toNativeList, Node.stringsList, Elem.stringsList, toNative_strings b c, toNativeList_strings b l]
end

mutual
theorem fromNative_strings (b : Backend) (n : Node) (h : n.isComment = false) : (fromNative b n).strings = n.strings := by
  cases n with
  | elem tag attrib nsmap text tail cs line =>
    simp [fromNative, Node.strings, Elem.strings, fromNativeList_strings b cs]
  | comment => simp [Node.isComment] at h
  | pi => simp [fromNative, Node.strings, Elem.strings, Elem.stringsList]
theorem fromNativeList_strings (b : Backend) (l : List Node) :
    Elem.stringsList (fromNativeList b l) = Node.stringsList l := by
  cases l with
  | nil => rfl
  | cons c l =>
    simp only [fromNativeList, Node.stringsList]
    split
    · rename_i h
      rw [fromNativeList_strings b l]
      cases c <;> simp [Node.isComment] at h
      simp [Node.strings]
    · rename_i h
      simp only [Elem.stringsList, fromNative_strings b c (by simpa using h), fromNativeList_strings b l]
end

open Elem

theorem map_snd_erase (d : Dict String String) (k : String) (a : String) :
    ((d.erase k).map Prod.snd).count a + (d.get? k).toList.count a = (d.map Prod.snd).count a := by
  induction d with
  | nil => simp [Dict.erase, Dict.get?]
  | cons x d ih =>
    obtain ⟨k', v⟩ := x
    simp only [Dict.erase, Dict.get?]
    split
    · simp [List.count_cons]
    · simp only [List.map_cons, List.count_cons]; omega

theorem weight_rel (a : String) : ElemRel (fun e e' => e'.weight a ≤ e.weight a) where
  refl e := Nat.le_refl _
  trans h1 h2 := Nat.le_trans h2 h1
  popText e := by simp [popText, weight_eq]
  popAttrib e k := by
    unfold popAttrib
    split
    · have := map_snd_erase (e.attrib.getD []) k a
      simp only [weight_eq, Option.getD_some]
      omega
    · exact Nat.le_refl _
  popAttributes e := by simp [popAttributes, weight_eq]
  search e tag mode step := by
    obtain ⟨l, n, h1, h2, _⟩ := search_spec e tag mode step
    rw [h1]
    simp only [weight_eq, sum_perm (weight a) h2]
    omega
  child e i c c' hc h := by
    simp only [setChild, weight_eq a e, weight_eq a { e with elements := _ }]
    have := sum_set (c' := c') (weight a) hc
    omega
  stepForward e _ := by simp [stepForward, weight_eq a e, weight_eq a { e with next := _ }]
  applySnapshot e s h := by simpa [applySnapshot, weight_eq] using h
  hollow e i c hc := by
    simp only [setChild, weight_eq a e, weight_eq a { e with elements := _ }]
    have := sum_set (c' := c.hollow) (weight a) hc
    have h1 : c.hollow.weight a = 0 := by simp [weight_eq, hollow]
    omega

/-- Occurrences in the delivered value. -/
def Out.weight (a : String) : Out Val → Nat
  | .ok v => v.weight a
  | _ => 0

theorem Out.weight_eq (a : String) (o : Out Val) : o.weight a = o.strings.count a := by cases o <;> rfl

@[simp] theorem Out.weight_none (a : String) : Out.weight a (.ok .none) = 0 := by
  simp [Out.weight, Val.weight, Val.strings]
@[simp] theorem Out.weight_verr (a : String) (e : VErr) : Out.weight a (.verr e) = 0 := rfl
@[simp] theorem Out.weight_crash (a : String) (e : PyErr) : Out.weight a (.crash e) = 0 := rfl
@[simp] theorem Out.weight_diverge (a : String) : Out.weight a .diverge = 0 := rfl

theorem Val.weight_isNone {v : Val} (h : v.isNone = true) (a : String) : v.weight a = 0 := by
  cases v <;> simp [Val.isNone] at h; simp [Val.weight, Val.strings]

/-- What `f` delivers and what it leaves make up at most what was there. -/
def Delivers (a : String) (f : St → Out Val × St) : Prop :=
  ∀ st, (f st).1.weight a + (f st).2.el.weight a ≤ st.el.weight a

theorem onChild_delivers {a : String} {f : St → Out Val × St} (h : Delivers a f) (i : Nat) :
    Delivers a (fun st => onChild st i f) := by
  intro st
  simp only [onChild]
  split
  · simp
  · rename_i c hc
    have := h ⟨c, st.sm⟩
    simp only at this
    simp only [setChild, weight_eq a st.el, weight_eq a { st.el with elements := _ }]
    have h2 := sum_set (c' := (f ⟨c, st.sm⟩).2.el) (weight a) hc
    omega

theorem textVal_weight {a : String} (ha : a ≠ "") (eas : Bool) (t : Option String) :
    (textVal eas t).weight a ≤ t.toList.count a := by
  have h : ¬ ("" = a) := fun h => ha h.symm
  cases t with
  | none => simp only [textVal]; split <;> simp [Val.weight, Val.strings, h]
  | some s =>
    simp only [textVal]
    split
    · split <;> simp [Val.weight, Val.strings, h]
    · simp [Val.weight, Val.strings]

theorem isNil_delivers (a : String) (e : Elem) : (e.isNil).2.weight a ≤ e.weight a := (weight_rel a).isNil e

theorem deserText_delivers {a : String} (ha : a ≠ "") (eas c n : Bool) : Delivers a (deserText eas c n) := by
  intro st
  have key : ∀ el : Elem, el.weight a ≤ st.el.weight a →
      (textVal eas el.popText.1).weight a + el.popText.2.weight a ≤ st.el.weight a := by
    intro el h
    have h1 := textVal_weight ha eas el.text
    rw [weight_eq a el] at h
    simp only [popText, weight_eq a { el with text := none }] at h1 ⊢
    simp at h1 ⊢
    omega
  unfold deserText
  split
  · simp
  · cases n with
    | true =>
      simp only [if_true]
      have hn := isNil_delivers a st.el
      cases hnil : st.el.isNil with
      | mk b el =>
        rw [hnil] at hn
        cases b with
        | true => simpa using hn
        | false => exact key el hn
    | false => exact key st.el (Nat.le_refl _)

theorem deserAttrs_delivers (a : String) (s : AttrsSer) : Delivers a (deserAttrs s) := by
  intro st
  unfold deserAttrs
  split
  · simp
  · have hp := (weight_rel a).popAttributes st.el
    cases h : st.el.popAttributes with
    | mk o el =>
      rw [h] at hp
      cases o with
      | none => simpa using hp
      | some d =>
        simp only [Out.weight, Val.weight_dict]
        have h1 := Val.weightItems_update a [] (d.map fun kv =>
          (if s.namespaced then (QName.fromUri kv.1).tag else kv.1, Val.str kv.2))
        have h2 : Val.weightItems a (d.map fun kv =>
          (if s.namespaced then (QName.fromUri kv.1).tag else kv.1, Val.str kv.2)) = (d.map Prod.snd).count a := by
          clear h h1 hp
          induction d with
          | nil => rfl
          | cons x d ih =>
            simp only [Val.weightItems, List.map_cons, List.sum_cons, List.count_cons] at ih ⊢
            rw [ih]
            simp [Val.weight, Val.strings, List.count_cons]
            omega
        simp only [popAttributes, Prod.mk.injEq] at h
        obtain ⟨hd, rfl⟩ := h
        simp only [Dict.ofItems]
        rw [weight_eq a st.el, weight_eq a { st.el with attrib := none }]
        rw [h2] at h1
        simp only [hd, Option.getD_some, Option.getD_none, List.map_nil, List.count_nil] at *
        have h3 : Val.weightItems a ([] : List (String × Val)) = 0 := rfl
        omega

theorem descend_delivers {a : String} {f : St → Out Val × St} (h : Delivers a f) (mode : Mode) (path : List String) :
    Delivers a (descend mode f path) := by
  induction path with
  | nil => exact h
  | cons t ts ih =>
    intro st
    unfold descend
    cases hf : st.el.findElement t mode with
    | error e => simp
    | ok r =>
      obtain ⟨o, el⟩ := r
      have hle := (weight_rel a).findElement hf
      cases o with
      | none => simpa using hle
      | some i => exact Nat.le_trans (onChild_delivers ih i ⟨el, st.sm⟩) hle

theorem homogLoop_delivers {a : String} {f : Loc → St → Out Val × St} (h : ∀ l, Delivers a (f l)) (loc : Loc) (n : Nat) :
    ∀ (idx : Nat) (acc : List Val) (errs : Dict ErrKey VErr) (st : St) (r : List Val × Dict ErrKey VErr) (st' : St),
      homogLoop f loc n idx acc errs st = (.ok r, st') →
      (Val.list r.1).weight a + st'.el.weight a ≤ (Val.list acc).weight a + st.el.weight a := by
  induction n with
  | zero => intro idx acc errs st r st' hr; simp [homogLoop] at hr
  | succ n ih =>
    intro idx acc errs st r st' hr
    unfold homogLoop at hr
    have h1 := h (loc ++ [.idx idx]) st
    split at hr
    · rename_i v st1 he
      rw [he] at h1
      simp only [Out.weight] at h1
      split at hr
      · simp only [Prod.mk.injEq, Out.ok.injEq] at hr
        obtain ⟨rfl, rfl⟩ := hr
        simp only; omega
      · have := ih _ _ _ _ _ _ hr
        simp only [Val.weight_list, List.map_append, List.map_cons, List.map_nil, List.sum_append, List.sum_cons,
          List.sum_nil] at this ⊢
        omega
    · rename_i e st1 he
      rw [he] at h1
      have := ih _ _ _ _ _ _ hr
      simp only [Out.weight] at h1
      omega
    · simp at hr
    · simp at hr

theorem heteroLoop_delivers {a : String} {f : Ser → Loc → St → Out Val × St} (h : ∀ s l, Delivers a (f s l)) (loc : Loc)
    (ss : List Ser) :
    ∀ (idx : Nat) (acc : List Val) (errs : Dict ErrKey VErr) (st : St) (r : List Val × Dict ErrKey VErr) (st' : St),
      heteroLoop f loc ss idx acc errs st = (.ok r, st') →
      (Val.list r.1).weight a + st'.el.weight a ≤ (Val.list acc).weight a + st.el.weight a := by
  induction ss with
  | nil =>
    intro idx acc errs st r st' hr
    simp only [heteroLoop, Prod.mk.injEq, Out.ok.injEq] at hr
    obtain ⟨rfl, rfl⟩ := hr
    exact Nat.le_refl _
  | cons s ss ih =>
    intro idx acc errs st r st' hr
    unfold heteroLoop at hr
    have h1 := h s (loc ++ [.idx idx]) st
    split at hr
    · rename_i v st1 he
      rw [he] at h1
      simp only [Out.weight] at h1
      have := ih _ _ _ _ _ _ hr
      simp only [Val.weight_list, List.map_append, List.map_cons, List.map_nil, List.sum_append, List.sum_cons,
        List.sum_nil] at this ⊢
      omega
    · rename_i e st1 he
      rw [he] at h1
      have := ih _ _ _ _ _ _ hr
      simp only [Out.weight] at h1
      omega
    · simp at hr
    · simp at hr

theorem unionLoop_delivers {a : String} {f : Proxy → St → Out Val × St} (h : ∀ p, Delivers a (f p))
    (title : Title) (ps : List Proxy) (errs : Dict ErrKey VErr)  :
    Delivers a (unionLoop f title ps errs) := by
  induction ps generalizing errs with
  | nil =>
    intro st
    unfold unionLoop
    split
    · simp
    · simp [stepForward, weight_eq a st.el, weight_eq a { st.el with next := _ }]
  | cons p ps ih =>
    intro st
    unfold unionLoop
    have h1 := h p ⟨st.el.createSnapshot, st.sm⟩
    split
    · rename_i v st' he
      rw [he] at h1
      split
      · exact ih errs { st with sm := st'.sm }
      · simpa [applySnapshot, weight_eq, createSnapshot] using h1
    · exact ih _ { st with sm := _ }
    · simp
    · simp

theorem taggedLoop_delivers {a : String} {f : Proxy → St → Out Val × St} (h : ∀ p, Delivers a (f p)) (loc : Loc)
    (an : String) (mode : Mode) (ps : List (String × Proxy)) : Delivers a (taggedLoop f loc an mode ps) := by
  induction ps with
  | nil => intro st; simp [taggedLoop]
  | cons p ps ih =>
    intro st
    obtain ⟨tag, p⟩ := p
    unfold taggedLoop
    have hs := (weight_rel a).search st.el p.name mode false
    split
    · rename_i i el he
      rw [he] at hs
      split
      · simpa using hs
      · split
        · exact Nat.le_trans (h p _) hs
        · exact Nat.le_trans (ih _) hs
    · rename_i el he
      rw [he] at hs
      exact Nat.le_trans (ih _) hs

theorem deserFields_delivers {a : String} {f : Ser → Loc → St → Out Val × St} (h : ∀ s l, Delivers a (f s l))
    (fs : List Field)
    (hv : ∀ fd ∈ fs, ∀ v, fd.validator = some v → ∀ e : Elem, (v e).1.weight a + (v e).2.weight a ≤ e.weight a) :
    ∀ (res : Dict String Val) (errs : Dict ErrKey VErr) (st : St),
      (deserFields f fs res errs st).2.el.weight a ≤ st.el.weight a ∧
      ∀ r st', deserFields f fs res errs st = (.ok r, st') →
        Val.weightItems a r.1 + st'.el.weight a ≤ Val.weightItems a res + st.el.weight a := by
  induction fs with
  | nil =>
    intro res errs st
    refine ⟨Nat.le_refl _, fun r st' hr => ?_⟩
    simp only [deserFields, Prod.mk.injEq, Out.ok.injEq] at hr
    obtain ⟨rfl, rfl⟩ := hr
    exact Nat.le_refl _
  | cons fd fs ih =>
    intro res errs st
    have ih := ih (fun t ht => hv t (by simp [ht]))
    have key : ∀ q : Out Val × St, q.1.weight a + q.2.el.weight a ≤ st.el.weight a →
        let d := (match q with
          | (.ok v, st') => deserFields f fs (if v.isNone then res else res.set (fd.alias.getD fd.name) v) errs st'
          | (.verr e, st') => deserFields f fs res (errs.set (some (.name fd.name)) e) st'
          | (.crash e, st') => (.crash e, st')
          | (.diverge, st') => (.diverge, st') : Out (Dict String Val × Dict ErrKey VErr) × St)
        d.2.el.weight a ≤ st.el.weight a ∧
        ∀ r st', d = (.ok r, st') →
          Val.weightItems a r.1 + st'.el.weight a ≤ Val.weightItems a res + st.el.weight a := by
      intro q hq
      obtain ⟨o, st1⟩ := q
      cases o with
      | ok v =>
        simp only [Out.weight] at hq
        simp only
        have := ih (if v.isNone then res else res.set (fd.alias.getD fd.name) v) errs st1
        refine ⟨by omega, fun r st' hr => ?_⟩
        have h2 := this.2 r st' hr
        have h3 : Val.weightItems a (if v.isNone then res else res.set (fd.alias.getD fd.name) v) ≤
            Val.weightItems a res + v.weight a := by
          split
          · omega
          · exact Val.weightItems_set ..
        omega
      | verr e =>
        simp only [Out.weight] at hq
        simp only
        have := ih res (errs.set (some (.name fd.name)) e) st1
        refine ⟨by omega, fun r st' hr => ?_⟩
        have h2 := this.2 r st' hr
        omega
      | crash e => simp only [Out.weight] at hq; exact ⟨by simp only; omega, by intro r st' hr; simp at hr⟩
      | diverge => simp only [Out.weight] at hq; exact ⟨by simp only; omega, by intro r st' hr; simp at hr⟩
    unfold deserFields
    simp only
    cases hval : fd.validator with
    | some v => exact key _ (hv fd (by simp) v hval st.el)
    | none => exact key _ (h fd.ser [.name fd.name] { st with sm := _ })

theorem validateModel_delivers {env : Env} (hn : env.NoCopies) {a : String} (ha : a ≠ "") (cls : String) (m : ModelSer)
    (d : Val) (st : St) : (validateModel env cls m d st).weight a ≤ d.weight a := by
  unfold validateModel
  split
  · simp
  · split
    · rename_i fs set h; exact hn cls d fs set h a ha
    · simp

theorem deserModel_delivers {env : Env} (hn : env.NoCopies) {a : String} (ha : a ≠ "")
    {f : Ser → Loc → St → Out Val × St} (h : ∀ s l, Delivers a (f s l)) (cls : String) (m : ModelSer)
    (hv : ∀ fs, m.body = .fields fs → ∀ fd ∈ fs, ∀ v, fd.validator = some v → ∀ e : Elem,
      (v e).1.weight a + (v e).2.weight a ≤ e.weight a) (loc : Loc) : Delivers a (deserModel env f cls m loc) := by
  intro st
  unfold deserModel
  split
  · rename_i fs hb
    have h1 := deserFields_delivers h fs (hv fs hb) [] [] st
    split
    · rename_i res errs st' he
      rw [he] at h1
      have h2 := h1.2 _ _ rfl
      have h3 : Val.weightItems a ([] : List (String × Val)) = 0 := rfl
      split
      · have := validateModel_delivers hn ha cls m (.dict res) st'
        rw [Val.weight_dict] at this
        simp only at h2 ⊢
        omega
      · simp only [Out.weight_verr] at *; omega
    · rename_i he; rw [he] at h1; simpa using h1.1
    · rename_i he; rw [he] at h1; simpa using h1.1
    · rename_i he; rw [he] at h1; simpa using h1.1
  · rename_i s hb
    have h1 := h s loc st
    split
    · rename_i v st' he
      rw [he] at h1
      have := validateModel_delivers hn ha cls m (if v.isNone then .undef else v) st'
      have h3 : (if v.isNone then Val.undef else v).weight a = v.weight a := by
        split
        · rename_i hv; rw [Val.weight_isNone hv]; simp [Val.weight, Val.strings]
        · rfl
      simp only [Out.weight] at h1
      simp only
      omega
    · rename_i he; rw [he] at h1; simpa using h1
    · rename_i he; rw [he] at h1; simpa using h1
    · rename_i he; rw [he] at h1; simpa using h1

/-- What reading delivers and what it leaves make up at most what was there. -/
theorem deser_delivers {env : Env} (hn : env.NoCopies) (hv : env.ValidatorsDeliver) (eas : Bool) {a : String}
    (ha : a ≠ "") (n : Nat) (s : Ser) (loc : Loc) : Delivers a (deser env eas n s loc) := by
  induction n generalizing s loc with
  | zero => intro st; simp [deser]
  | succ n ih =>
    intro st
    change (deserStep env eas (deser env eas n) n s loc st).1.weight a +
      (deserStep env eas (deser env eas n) n s loc st).2.el.weight a ≤ _
    generalize deser env eas n = F at ih ⊢
    unfold deserStep
    cases s with
    | text c nl => exact deserText_delivers ha eas c nl st
    | attr nm c =>
      simp only
      split
      · simp
      · unfold popAttrib
        split
        · rename_i v el he
          split at he
          · have := map_snd_erase (st.el.attrib.getD []) nm a
            simp only [Prod.mk.injEq] at he
            obtain ⟨h1, rfl⟩ := he
            rw [h1] at this
            simp only [Out.weight, weight_eq, Option.getD_some, Val.weight, Val.strings]
            simp only [Option.toList_some] at this
            omega
          · simp at he
        · rename_i el he
          have := (weight_rel a).popAttrib st.el nm
          simp only [popAttrib, he] at this
          simpa using this
    | elem nm ns m c nl =>
      simp only
      split
      · simp
      · have hs := (weight_rel a).search st.el nm m true
        split
        · rename_i el he; rw [show st.el.search nm m true = _ from he] at hs; simpa using hs
        · rename_i i el he
          rw [show st.el.search nm m true = _ from he] at hs
          refine Nat.le_trans (onChild_delivers (f := fun c => deserText eas _ nl ⟨c.el, c.sm.set loc c.el.line⟩) ?_ i ⟨el, st.sm⟩) hs
          intro st; exact deserText_delivers ha eas _ nl ⟨st.el, _⟩
    | attrs s => exact deserAttrs_delivers a s st
    | mapElem s nm m =>
      simp only
      split
      · simp
      · have hs := (weight_rel a).search st.el nm m true
        split
        · rename_i el he; rw [show st.el.search nm m true = _ from he] at hs; simpa using hs
        · rename_i i el he
          rw [show st.el.search nm m true = _ from he] at hs
          refine Nat.le_trans (onChild_delivers (f := fun c => deserAttrs s ⟨c.el, c.sm.set loc c.el.line⟩) ?_ i ⟨el, st.sm⟩) hs
          intro st; exact deserAttrs_delivers a s ⟨st.el, _⟩
    | raw nm m c =>
      simp only
      split
      · simp
      · have hs := (weight_rel a).search st.el nm m true
        unfold popElementRemove popElement
        split
        · rename_i c' el' he
          split at he
          · rename_i i e' hse
            rw [hse] at hs
            split at he
            · rename_i c hc
              simp only [Prod.mk.injEq, Option.some.injEq] at he
              obtain ⟨rfl, rfl⟩ := he
              simp only [Out.weight, setChild, weight_eq a { e' with elements := _ }]
              have h2 := sum_set (c' := c.hollow) (weight a) hc
              have h1 : c.hollow.weight a = 0 := by simp [weight_eq, hollow]
              have h3 : (Val.raw (toNative env.backend c.detached)).weight a = c.weight a := by
                simp only [Val.weight, Val.strings, toNative_strings]
                cases c; rfl
              have h4 := weight_eq a e'
              simp only at hs
              omega
            · simp at he
          · simp at he
        · rename_i el' he
          split at he
          · rename_i i e' hse
            rw [hse] at hs
            split at he
            · simp at he
            · simp only [Prod.mk.injEq, true_and] at he; subst he; simpa using hs
          · rename_i e' hse
            rw [hse] at hs
            simp only [Prod.mk.injEq, true_and] at he; subst he; simpa using hs
    | proxy p =>
      simp only
      split
      · simp
      · rename_i m hm
        split
        · simp
        · have hs := (weight_rel a).search st.el p.name p.mode true
          split
          · rename_i el he; rw [show st.el.search p.name p.mode true = _ from he] at hs; simpa using hs
          · rename_i i el he
            rw [show st.el.search p.name p.mode true = _ from he] at hs
            refine Nat.le_trans (onChild_delivers (f := fun c =>
              match c.el.isNil with
              | (true, el) => (.ok .none, ⟨el, c.sm.set loc c.el.line⟩)
              | (false, el) => deserModel env F p.cls m loc ⟨el, c.sm.set loc c.el.line⟩) ?_ i ⟨el, st.sm⟩) hs
            intro st
            have hnl := isNil_delivers a st.el
            simp only
            split
            · rename_i hh; rw [hh] at hnl; simpa using hnl
            · rename_i hh
              rw [hh] at hnl
              exact Nat.le_trans (deserModel_delivers hn ha ih p.cls m
                (fun fs hb fd hfd v hval e => by rw [Out.weight_eq]; exact hv _ _ fs hm hb fd hfd v hval e a ha) loc _) hnl
    | primUnion c inner =>
      simp only
      split
      · simp
      · exact ih inner loc st
    | modelUnion t c alts =>
      simp only
      split
      · simp
      · exact unionLoop_delivers (fun p => ih (.proxy p) loc) t alts [] st
    | tagged c d an m alts =>
      simp only
      split
      · simp
      · exact taggedLoop_delivers (fun p => ih (.proxy p) loc) loc an m alts st
    | wrap path ns m c inner =>
      simp only
      split
      · simp
      · refine descend_delivers (f := fun c => F inner loc ⟨c.el, c.sm.set loc c.el.line⟩) ?_ m path st
        intro st; exact ih inner loc ⟨st.el, _⟩
    | homog t c inner =>
      simp only
      split
      · simp
      · have h1 := homogLoop_rel (weight_rel a) (f := F inner) (fun l st => by have := ih inner l st; omega) loc n 0 [] [] st
        split
        · rename_i r st' he
          have := homogLoop_delivers (fun l => ih inner l) loc n 0 [] [] st r st' he
          have h0 : (Val.list []).weight a = 0 := rfl
          simp only [homogFinish]
          split
          · split
            · simp; omega
            · simp only [Out.weight]; omega
          · simp; omega
        · rename_i he; rw [he] at h1; simpa using h1
        · rename_i he; rw [he] at h1; simpa using h1
        · rename_i he; rw [he] at h1; simpa using h1
    | hetero t c inners =>
      simp only
      split
      · simp
      · have h1 := heteroLoop_rel (weight_rel a) (f := F) (fun s l st => by have := ih s l st; omega) loc inners 0 [] [] st
        split
        · rename_i r st' he
          have := heteroLoop_delivers ih loc inners 0 [] [] st r st' he
          have h0 : (Val.list []).weight a = 0 := rfl
          simp only [heteroFinish]
          split
          · split
            · simp; omega
            · simp only [Out.weight]; omega
          · simp; omega
        · rename_i he; rw [he] at h1; simpa using h1
        · rename_i he; rw [he] at h1; simpa using h1
        · rename_i he; rw [he] at h1; simpa using h1

end PXml
