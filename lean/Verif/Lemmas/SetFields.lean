import Verif.SpecSet
import Verif.Lemmas.Typed

/-! # Lemmas: writing instances that differ in their set fields only -/

namespace PXml

theorem val_forgetSetList_eq (vs : List Val) : Val.forgetSetList vs = vs.map Val.forgetSet := by
  induction vs with
  | nil => rfl
  | cons v vs ih => simp [Val.forgetSetList, ih]

theorem val_forgetSetItems_eq (d : List (String × Val)) : Val.forgetSetItems d = d.map fun kv => (kv.1, kv.2.forgetSet) := by
  induction d with
  | nil => rfl
  | cons kv d ih => simp [Val.forgetSetItems, ih]

mutual
theorem RawFree.forgetSet {v : Val} (h : v.RawFree) : v.bare = v.forgetSet := by
  cases v with
  | list vs => simp only [Val.bare, Val.forgetSet, RawFree.forgetSetList (vs := vs) h]
  | dict d => simp only [Val.bare, Val.forgetSet, RawFree.forgetSetItems (d := d) h]
  | model cls fields set => simp only [Val.bare, Val.forgetSet, RawFree.forgetSetItems (d := fields) h]
  | raw n => cases h
  | _ => rfl
theorem RawFree.forgetSetList {vs : List Val} (h : Val.RawFreeList vs) : Val.bareList vs = Val.forgetSetList vs := by
  cases vs with
  | nil => rfl
  | cons v vs => simp only [Val.bareList, Val.forgetSetList, RawFree.forgetSet h.1, RawFree.forgetSetList h.2]
theorem RawFree.forgetSetItems {d : List (String × Val)} (h : Val.RawFreeItems d) : Val.bareItems d = Val.forgetSetItems d := by
  cases d with
  | nil => rfl
  | cons kv d => simp only [Val.bareItems, Val.forgetSetItems, RawFree.forgetSet h.1, RawFree.forgetSetItems h.2]
end

mutual
theorem rawFree_bare (v : Val) : v.bare.RawFree ↔ v.RawFree := by
  cases v with
  | list vs => simp only [Val.bare, Val.RawFree, rawFree_bareList vs]
  | dict d => simp only [Val.bare, Val.RawFree, rawFree_bareItems d]
  | model cls fields set => simp only [Val.bare, Val.RawFree, rawFree_bareItems fields]
  | raw n => simp only [Val.bare, Val.RawFree]
  | _ => exact Iff.rfl
theorem rawFree_bareList (vs : List Val) : Val.RawFreeList (Val.bareList vs) ↔ Val.RawFreeList vs := by
  cases vs with
  | nil => exact Iff.rfl
  | cons v vs => simp only [Val.bareList, Val.RawFreeList, rawFree_bare v, rawFree_bareList vs]
theorem rawFree_bareItems (d : List (String × Val)) : Val.RawFreeItems (Val.bareItems d) ↔ Val.RawFreeItems d := by
  cases d with
  | nil => exact Iff.rfl
  | cons kv d => simp only [Val.bareItems, Val.RawFreeItems, rawFree_bare kv.2, rawFree_bareItems d]
end

theorem forget_isNone {v w : Val} (h : v.forgetSet = w.forgetSet) : v.isNone = w.isNone := by
  cases v <;> cases w <;> simp [Val.forgetSet] at h <;> rfl

theorem forget_len? {v w : Val} (h : v.forgetSet = w.forgetSet) : v.len? = w.len? := by
  cases v <;> cases w <;> simp only [Val.forgetSet, reduceCtorEq, Val.str.injEq, Val.opaque.injEq, Val.list.injEq, Val.dict.injEq,
    Val.raw.injEq, val_forgetSetList_eq, val_forgetSetItems_eq] at h <;> try rfl
  · subst h; rfl
  · obtain ⟨rfl, rfl⟩ := h; rfl
  · have := congrArg List.length h; simpa [Val.len?] using this
  · have := congrArg List.length h; simpa [Val.len?] using this
  · subst h; rfl

theorem forgetItems_get? {d d' : Dict String Val} (h : Val.forgetSetItems d = Val.forgetSetItems d') (k : String) :
    (Dict.get? d k).map Val.forgetSet = (Dict.get? d' k).map Val.forgetSet := by
  induction d generalizing d' with
  | nil =>
    cases d' with
    | nil => rfl
    | cons x d' => obtain ⟨_, _⟩ := x; simp [Val.forgetSetItems] at h
  | cons x d ih =>
    obtain ⟨k1, v1⟩ := x
    cases d' with
    | nil => simp [Val.forgetSetItems] at h
    | cons y d' =>
      obtain ⟨k2, v2⟩ := y
      simp only [Val.forgetSetItems, List.cons.injEq, Prod.mk.injEq] at h
      obtain ⟨⟨rfl, h1⟩, h2⟩ := h
      simp only [Dict.get?_cons]
      split
      · simp [h1]
      · exact ih h2

section
variable {env : Env}

theorem getAttr_forget {d d' : Dict String Val} (h : Val.forgetSetItems d = Val.forgetSetItems d') (name : String) {f g : Val → Out Elem}
    (hfg : ∀ v w, v.forgetSet = w.forgetSet → f v = g w) : (getAttr d name).bind f = (getAttr d' name).bind g := by
  have := forgetItems_get? h name
  unfold getAttr
  cases h1 : Dict.get? d name with
  | none =>
    cases h2 : Dict.get? d' name with
    | none => rfl
    | some w => rw [h1, h2] at this; cases this
  | some v =>
    cases h2 : Dict.get? d' name with
    | none => rw [h1, h2] at this; cases this
    | some w =>
      rw [h1, h2] at this
      simp only [Option.map_some, Option.some.injEq] at this
      exact hfg v w this

theorem serFields_forget {F : Ser → Elem → Val → Val → Out Elem} (hF : ∀ s el v w enc, v.forgetSet = w.forgetSet → F s el v enc = F s el w enc)
    {fl : Flags} (hu : fl.excludeUnset = false) {self self' : Val} (hself : self.forgetSet = self'.forgetSet) {d d' : Dict String Val}
    (hd : Val.forgetSetItems d = Val.forgetSetItems d') (set set' : List String) (enc : Val) (fs : List Field)
    (hs : ∀ f ∈ fs, ∀ g, f.serializer = some g → ∀ a a' el v v', a.forgetSet = a'.forgetSet → v.forgetSet = v'.forgetSet → g a el v = g a' el v')
    (el : Elem) : serFields F fl self d set enc fs el = serFields F fl self' d' set' enc fs el := by
  induction fs generalizing el with
  | nil => rfl
  | cons f fs ih =>
    have ih := ih fun x hx => hs x (by simp [hx])
    unfold serFields
    simp only [hu, Bool.false_and, Bool.false_eq_true, if_false]
    split
    · exact ih el
    · have hi := funext ih
      cases hg : f.serializer with
      | some g =>
        simp only
        rw [hi, getAttr_forget hd f.name fun v w h => hs f (by simp) g hg _ _ el _ _ hself h]
      | none =>
        simp only
        rw [hi, getAttr_forget hd f.name (g := fun v => (getItem enc f.name).bind fun e => F f.ser el v e) fun v w h => ?_]
        cases getItem enc f.name with
        | ok e => exact hF _ _ _ _ _ h
        | _ => rfl


theorem serModel_forget {F : Flags → Ser → Elem → Val → Val → Out Elem}
    (hF : ∀ fl, fl.excludeUnset = false → ∀ s el v w enc, v.forgetSet = w.forgetSet → F fl s el v enc = F fl s el w enc)
    (hs : env.SerializersIgnoreSet) {cls : String} {m : ModelSer} (hm : env.model cls = some m) {fl : Flags}
    (hu : fl.excludeUnset = false) (el : Elem) {v w : Val} (h : v.forgetSet = w.forgetSet) (enc : Val) :
    serModel F m fl el v enc = serModel F m fl el w enc := by
  unfold serModel
  cases v <;> cases w <;> simp only [Val.forgetSet, reduceCtorEq, Val.model.injEq, and_true] at h <;> try rfl
  obtain ⟨rfl, h⟩ := h
  simp only
  cases hb : m.body with
  | fields fs =>
    refine serFields_forget (fl := { fl with skipEmpty := m.skipEmpty.getD fl.skipEmpty }) (hF _ (by exact hu)) hu ?_ h _ _ enc fs (hs _ m fs hm hb) el
    simp only [Val.forgetSet, h]
  | root s =>
    simp only [hu, Bool.false_and, Bool.false_eq_true, if_false]
    exact getAttr_forget h "root" fun v w hvw => hF _ rfl _ _ _ _ _ hvw

theorem serItems_forget {F : Elem → Val → Val → Out Elem} (hF : ∀ el v w enc, v.forgetSet = w.forgetSet → F el v enc = F el w enc) (fl : Flags)
    {vs ws : List Val} (h : vs.map Val.forgetSet = ws.map Val.forgetSet) (encs : List Val) (el : Elem) :
    serItems F fl vs encs el = serItems F fl ws encs el := by
  induction vs generalizing ws encs el with
  | nil =>
    cases ws with
    | nil => rfl
    | cons w ws => simp at h
  | cons v vs ih =>
    cases ws with
    | nil => simp at h
    | cons w ws =>
      simp only [List.map_cons, List.cons.injEq] at h
      cases encs with
      | nil => rfl
      | cons e encs =>
        unfold serItems
        rw [forget_isNone h.1, hF el v w e h.1]
        split
        · exact ih h.2 encs el
        · congr 1
          funext el
          exact ih h.2 encs el

theorem serTuple_forget {F : Ser → Elem → Val → Val → Out Elem} (hF : ∀ s el v w enc, v.forgetSet = w.forgetSet → F s el v enc = F s el w enc)
    (ss : List Ser) {vs ws : List Val} (h : vs.map Val.forgetSet = ws.map Val.forgetSet) (encs : List Val) (el : Elem) :
    serTuple F ss vs encs el = serTuple F ss ws encs el := by
  induction ss generalizing vs ws encs el with
  | nil => cases vs <;> cases ws <;> rfl
  | cons s ss ih =>
    cases vs with
    | nil =>
      cases ws with
      | nil => rfl
      | cons w ws => simp at h
    | cons v vs =>
      cases ws with
      | nil => simp at h
      | cons w ws =>
        simp only [List.map_cons, List.cons.injEq] at h
        cases encs with
        | nil => rfl
        | cons e encs =>
          unfold serTuple
          rw [hF s el v w e h.1]
          congr 1
          funext el
          exact ih h.2 encs el

theorem ascend_congr {b : Backend} {mode : Mode} {nsmap : Option NsMap} {f g : Elem → Out Elem} (h : ∀ el, f el = g el)
    (path : List String) (el : Elem) : ascend b mode nsmap f path el = ascend b mode nsmap g path el := by
  rw [funext h]

theorem serAttrs_forget (a : AttrsSer) (el : Elem) {v w : Val} (h : v.forgetSet = w.forgetSet) (enc : Val) :
    serAttrs env a el v enc = serAttrs env a el w enc := by
  unfold serAttrs
  rw [forget_isNone h]

theorem ser_forget (hs : env.SerializersIgnoreSet) (n : Nat) (fl : Flags) (hu : fl.excludeUnset = false) (s : Ser) (el : Elem)
    (v w enc : Val) (h : v.forgetSet = w.forgetSet) : ser env n fl s el v enc = ser env n fl s el w enc := by
  induction n generalizing fl s el v w enc with
  | zero => rfl
  | succ n ih =>
    change serStep env (ser env n) fl s el v enc = serStep env (ser env n) fl s el w enc
    generalize ser env n = F at ih ⊢
    unfold serStep
    have hn := forget_isNone h
    have hl := forget_len? h
    cases s with
    | text c nl => simp only [serText, hn]
    | attr nm c => simp only [hn]
    | elem nm ns m c nl => simp only [serText, hn]
    | attrs a => exact serAttrs_forget a el h enc
    | mapElem a nm m => simp only [hl, serAttrs_forget a _ h enc]
    | raw nm m c =>
      cases v <;> cases w <;> simp only [Val.forgetSet, reduceCtorEq, Val.raw.injEq] at h <;> first | rfl | (subst h; rfl)
    | proxy p =>
      simp only
      split
      · rfl
      · rename_i m hm
        simp only [hn]
        rw [serModel_forget (fun fl hu s el v w enc h => ih fl hu s el v w enc h) hs hm hu _ h enc]
    | primUnion c inner => exact ih fl hu inner el v w enc h
    | modelUnion t c alts =>
      cases v <;> cases w <;> simp only [Val.forgetSet, reduceCtorEq, Val.model.injEq, and_true] at h <;> try rfl
      obtain ⟨rfl, h⟩ := h
      simp only
      split
      · exact ih fl hu _ _ _ _ _ (by simp only [Val.forgetSet, h])
      · rfl
    | tagged c d a m alts =>
      cases enc with
      | dict dd =>
        simp only
        split
        · split
          · rfl
          · split
            · exact ih fl hu _ _ _ _ _ h
            · rfl
        · rfl
        · rfl
        · rfl
      | _ => rfl
    | wrap path ns m c inner =>
      simp only [hn, hl]
      split
      · rfl
      · split
        · rfl
        · exact ascend_congr (fun el => ih fl hu inner el v w enc h) path el
    | homog t c inner =>
      simp only [hn]
      split
      · rfl
      · cases v <;> cases w <;> simp only [Val.forgetSet, reduceCtorEq, Val.list.injEq, val_forgetSetList_eq] at h <;> try rfl
        cases enc <;> try rfl
        exact serItems_forget (fun el v w enc h => ih fl hu inner el v w enc h) fl h _ el
    | hetero t c inners =>
      simp only [hn]
      split
      · rfl
      · cases v <;> cases w <;> simp only [Val.forgetSet, reduceCtorEq, Val.list.injEq, val_forgetSetList_eq] at h <;> try rfl
        have hlen := congrArg List.length h
        simp only [List.length_map] at hlen
        cases enc <;> try rfl
        simp only [hlen]
        have he : ∀ xs ys : List Val, xs.length = ys.length → xs.isEmpty = ys.isEmpty := by
          intro xs ys hxy; cases xs <;> cases ys <;> simp at hxy <;> rfl
        rw [he _ _ hlen]
        split
        · rfl
        · split
          · rfl
          · exact serTuple_forget (fun s el v w enc h => ih fl hu s el v w enc h) inners h _ el

end


end PXml
