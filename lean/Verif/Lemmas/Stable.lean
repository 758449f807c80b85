import Verif.SpecStable
import Verif.Lemmas.Compile
import Verif.Lemmas.NoCrash
import Verif.Lemmas.Typed

/-!
# Lemmas about reading, writing and reading again
-/

namespace PXml

open Elem

/-- What reading hands over for a field, or yields for a class. -/
inductive Datum where
  | field (s : Ser) (y : Val)
  | inst (cls : String) (v : Val)

/-- What is handed over for a field if it is not `None`, and which instances are read. -/
inductive Given (env : Env) (eas : Bool) : Datum → Prop
  | text {nillable : Bool} {t : String} : t ≠ "" ∨ eas = true → Given env eas (.field (.text false nillable) (.str t))
  | attr {name t : String} : Given env eas (.field (.attr name false) (.str t))
  | elem {name : String} {nsmap : Option NsMap} {mode : Mode} {nillable : Bool} {t : String} : t ≠ "" ∨ eas = true →
      Given env eas (.field (.elem name nsmap mode false nillable) (.str t))
  | attrs {a : AttrsSer} {items : List (String × Val)} : a.computed = false → Dict.WF items → (∀ kv ∈ items, ∃ t, kv.2 = .str t) →
      Given env eas (.field (.attrs a) (.dict items))
  | mapElem {a : AttrsSer} {name : String} {mode : Mode} {items : List (String × Val)} : a.computed = false → Dict.WF items →
      (∀ kv ∈ items, ∃ t, kv.2 = .str t) → Given env eas (.field (.mapElem a name mode) (.dict items))
  | raw {name : String} {mode : Mode} {n : Node} : n.tag = name → n.NoPIs → n.isComment = false →
      Given env eas (.field (.raw name mode false) (.raw n))
  | proxy {p : Proxy} {v : Val} : p.computed = false → Given env eas (.inst p.cls v) → Given env eas (.field (.proxy p) v)
  | primUnion {inner : Ser} {y : Val} : Given env eas (.field inner y) → Given env eas (.field (.primUnion false inner) y)
  | union {title : Title} {alts : List Proxy} {p : Proxy} {y : Val} : p ∈ alts → Given env eas (.field (.proxy p) y) →
      Given env eas (.field (.modelUnion title false alts) y)
  | tagged {discr attrName : String} {mode : Mode} {alts : List (String × Proxy)} {a : String × Proxy} {y : Val} : a ∈ alts →
      Given env eas (.field (.proxy a.2) y) → Given env eas (.field (.tagged false discr attrName mode alts) y)
  | wrap {path : List String} {nsmap : Option NsMap} {mode : Mode} {inner : Ser} {y : Val} : Given env eas (.field inner y) →
      Given env eas (.field (.wrap path nsmap mode false inner) y)
  | homog {title : Title} {inner : Ser} {ys : List Val} : ys ≠ [] → (∀ y ∈ ys, Given env eas (.field inner y)) →
      Given env eas (.field (.homog title false inner) (.list ys))
  | hetero {title : Title} {rows : List (Ser × Val)} : (∀ r ∈ rows, r.2 ≠ .none → Given env eas (.field r.1 r.2)) →
      Given env eas (.field (.hetero title false (rows.map Prod.fst)) (.list (rows.map Prod.snd)))
  | fields {cls : String} {m : ModelSer} {fs : List Field} {data : Dict String Val} {fields : List (String × Val)} {set : List String}
      (owner : String → Field) : env.model cls = some m → m.body = .fields fs →
      (∀ k y, data.get? k = some y → owner k ∈ fs ∧ (owner k).alias.getD (owner k).name = k) →
      (∀ k y, data.get? k = some y → Given env eas (.field (owner k).ser y)) →
      env.validate cls (.dict data) = .ok (fields, set) → Given env eas (.inst cls (.model cls fields set))
  | root {cls : String} {m : ModelSer} {s : Ser} {y : Val} {fields : List (String × Val)} {set : List String} : env.model cls = some m →
      m.body = .root s → (y ≠ .none → Given env eas (.field s y)) → env.validate cls (if y.isNone then .undef else y) = .ok (fields, set) →
      Given env eas (.inst cls (.model cls fields set))

/-- The function hands over `None` or what the predicate allows. -/
def Hands (Q : Val → Prop) (f : St → Out Val × St) : Prop := ∀ st y st', f st = (.ok y, st') → y = .none ∨ Q y

theorem onChild_hands {Q : Val → Prop} {f : St → Out Val × St} (hf : Hands Q f) (i : Nat) : Hands Q fun st => onChild st i f := by
  intro st y st' h
  change (match st.el.elements[i]? with | none => _ | some c => _) = _ at h
  split at h
  · cases h
  · rename_i c hc
    generalize he : f ⟨c, st.sm⟩ = r at h
    obtain ⟨o, s⟩ := r
    cases h
    exact hf _ _ _ he

theorem deserText_hands {eas c nillable : Bool} : Hands (fun y => ∃ t, y = .str t ∧ (t ≠ "" ∨ eas = true)) (deserText eas c nillable) := by
  intro st y st' h
  have key : ∀ o y, textVal eas o = y → y = .none ∨ ∃ t, y = .str t ∧ (t ≠ "" ∨ eas = true) := by
    intro o y hy
    subst hy
    cases eas with
    | false =>
      cases o with
      | none => exact .inl rfl
      | some s =>
        by_cases hs : s = ""
        · subst hs; exact .inl rfl
        · exact .inr ⟨s, by simp [textVal, hs], .inl hs⟩
    | true =>
      cases o with
      | none => exact .inr ⟨"", rfl, .inr rfl⟩
      | some s =>
        by_cases hs : s = ""
        · subst hs; exact .inr ⟨"", rfl, .inr rfl⟩
        · exact .inr ⟨s, by simp [textVal, hs], .inr rfl⟩
  unfold deserText at h
  split at h
  · cases h; exact .inl rfl
  · generalize hq : (if nillable = true then st.el.isNil else (false, st.el)) = q at h
    obtain ⟨b, el⟩ := q
    cases b with
    | true => cases h; exact .inl rfl
    | false =>
      simp only [Prod.mk.injEq, Out.ok.injEq] at h
      exact key _ _ h.1

theorem Dict.set_values {P : Val → Prop} {d : Dict String Val} (hd : ∀ kv ∈ d, P kv.2) {k : String} {v : Val} (hv : P v) :
    ∀ kv ∈ d.set k v, P kv.2 := by
  induction d with
  | nil => intro kv hkv; simp only [Dict.set, List.mem_singleton] at hkv; subst hkv; exact hv
  | cons x d ih =>
    obtain ⟨k', v'⟩ := x
    intro kv hkv
    simp only [Dict.set] at hkv
    split at hkv
    · rcases List.mem_cons.1 hkv with rfl | h
      · exact hv
      · exact hd kv (by simp [h])
    · rcases List.mem_cons.1 hkv with rfl | h
      · exact hd _ (by simp)
      · exact ih (fun x hx => hd x (by simp [hx])) kv h

theorem Dict.ofItems_values {P : Val → Prop} {l : List (String × Val)} (hl : ∀ kv ∈ l, P kv.2) : ∀ kv ∈ Dict.ofItems l, P kv.2 := by
  have key : ∀ (l d : List (String × Val)), (∀ kv ∈ l, P kv.2) → (∀ kv ∈ d, P kv.2) → ∀ kv ∈ Dict.update d l, P kv.2 := by
    intro l
    induction l with
    | nil => intro d _ hd; exact hd
    | cons x l ih =>
      intro d hl hd
      obtain ⟨k, v⟩ := x
      rw [Dict.update_cons]
      exact ih _ (fun x hx => hl x (by simp [hx])) (Dict.set_values hd (hl (k, v) (by simp)))
  exact key l [] hl (by simp)

theorem deserAttrs_hands {a : AttrsSer} : Hands (fun y => ∃ items, y = .dict items ∧ Dict.WF items ∧ ∀ kv ∈ items, ∃ t, kv.2 = .str t)
    (deserAttrs a) := by
  intro st y st' h
  unfold deserAttrs at h
  split at h
  · cases h; exact .inl rfl
  · generalize st.el.popAttributes = q at h
    obtain ⟨o, el⟩ := q
    cases o with
    | none => cases h; exact .inl rfl
    | some d =>
      simp only [Prod.mk.injEq, Out.ok.injEq] at h
      refine .inr ⟨_, h.1.symm, Dict.wf_ofItems _, ?_⟩
      intro kv hkv
      refine Dict.ofItems_values (P := fun v => ∃ t, v = .str t) ?_ kv hkv
      intro kv hkv
      obtain ⟨x, -, rfl⟩ := List.mem_map.1 hkv
      exact ⟨_, rfl⟩

theorem descend_hands {Q : Val → Prop} {mode : Mode} {f : St → Out Val × St} (hf : Hands Q f) : ∀ path, Hands Q (descend mode f path)
  | [] => by
    intro st y st' h
    rw [descend] at h
    exact hf st y st' h
  | t :: ts => by
    intro st y st' h
    rw [descend] at h
    split at h
    · cases h
    · cases h; exact .inl rfl
    · exact onChild_hands (descend_hands hf ts) _ _ _ _ h

theorem homogLoop_hands {Q : Val → Prop} {rec : Loc → St → Out Val × St} (hr : ∀ loc, Hands Q (rec loc)) (loc : Loc) :
    ∀ n idx acc errs st r st', homogLoop rec loc n idx acc errs st = (.ok r, st') → (∀ y ∈ acc, Q y) → ∀ y ∈ r.1, Q y := by
  intro n
  induction n with
  | zero => intro idx acc errs st r st' h; cases h
  | succ n ih =>
    intro idx acc errs st r st' h ha
    rw [homogLoop] at h
    generalize he : rec (loc ++ [.idx idx]) st = q at h
    obtain ⟨o, s⟩ := q
    cases o with
    | ok v =>
      simp only at h
      split at h
      · cases h; exact ha
      · rename_i hv
        refine ih _ _ _ _ _ _ h ?_
        intro y hy
        rcases List.mem_append.1 hy with hy | hy
        · exact ha y hy
        · rw [List.mem_singleton] at hy
          subst hy
          rcases hr _ _ _ _ he with rfl | h
          · exact absurd rfl hv
          · exact h
    | verr e => exact ih _ _ _ _ _ _ h ha
    | crash e => cases h
    | diverge => cases h

theorem heteroLoop_hands {Q : Ser → Val → Prop} {rec : Ser → Loc → St → Out Val × St} (loc : Loc) :
    ∀ (ss : List Ser), (∀ s ∈ ss, ∀ loc, Hands (Q s) (rec s loc)) → ∀ idx acc st r st', heteroLoop rec loc ss idx acc [] st = (.ok r, st') → r.2 = [] →
      ∃ rows : List (Ser × Val), rows.map Prod.fst = ss ∧ r.1 = acc ++ rows.map Prod.snd ∧ ∀ x ∈ rows, x.2 ≠ .none → Q x.1 x.2 := by
  have herr : ∀ (ss : List Ser) idx acc errs st r st', heteroLoop rec loc ss idx acc errs st = (.ok r, st') → r.2 = [] → errs = [] := by
    intro ss
    induction ss with
    | nil => intro idx acc errs st r st' h hr; cases h; exact hr
    | cons s ss ih =>
      intro idx acc errs st r st' h hr
      rw [heteroLoop] at h
      generalize he : rec s (loc ++ [.idx idx]) st = q at h
      obtain ⟨o, s'⟩ := q
      cases o with
      | ok v => exact ih _ _ _ _ _ _ h hr
      | verr e => have := ih _ _ _ _ _ _ h hr; simp at this
      | crash e => cases h
      | diverge => cases h
  intro ss
  induction ss with
  | nil => intro _ idx acc st r st' h hr; cases h; exact ⟨[], rfl, by simp, by simp⟩
  | cons s ss ih =>
    intro hs idx acc st r st' h hr
    rw [heteroLoop] at h
    generalize he : rec s (loc ++ [.idx idx]) st = q at h
    obtain ⟨o, s'⟩ := q
    cases o with
    | ok v =>
      obtain ⟨rows, h1, h2, h3⟩ := ih (fun x hx => hs x (by simp [hx])) _ _ _ _ _ h hr
      refine ⟨(s, v) :: rows, by simp [h1], by simp [h2], ?_⟩
      intro x hx hne
      rcases List.mem_cons.1 hx with rfl | hx
      · rcases hs s (by simp) _ _ _ _ he with h | h
        · exact absurd h hne
        · exact h
      · exact h3 x hx hne
    | verr e => have := herr _ _ _ _ _ _ _ h hr; simp at this
    | crash e => cases h
    | diverge => cases h

theorem unionLoop_hands {Q : Val → Prop} {rec : Proxy → St → Out Val × St} {title : Title} : ∀ (ps : List Proxy),
    (∀ p ∈ ps, Hands Q (rec p)) → ∀ errs, Hands Q (unionLoop rec title ps errs)
  | [], _, errs => by
    intro st y st' h
    rw [unionLoop] at h
    split at h
    · cases h; exact .inl rfl
    · cases h
  | p :: ps, hp, errs => by
    intro st y st' h
    rw [unionLoop] at h
    generalize he : rec p ⟨st.el.createSnapshot, st.sm⟩ = q at h
    obtain ⟨o, s'⟩ := q
    cases o with
    | ok v =>
      simp only at h
      split at h
      · exact unionLoop_hands ps (fun x hx => hp x (by simp [hx])) _ _ _ _ h
      · cases h
        exact hp p (by simp) _ _ _ he
    | verr e => exact unionLoop_hands ps (fun x hx => hp x (by simp [hx])) _ _ _ _ h
    | crash e => cases h
    | diverge => cases h

theorem taggedLoop_hands {Q : Val → Prop} {rec : Proxy → St → Out Val × St} {loc : Loc} {attrName : String} {mode : Mode} :
    ∀ (ps : List (String × Proxy)), (∀ a ∈ ps, Hands Q (rec a.2)) → Hands Q (taggedLoop rec loc attrName mode ps)
  | [], _ => by
    intro st y st' h
    cases h; exact .inl rfl
  | (tag, p) :: ps, hp => by
    intro st y st' h
    rw [taggedLoop] at h
    have ih := taggedLoop_hands (loc := loc) (attrName := attrName) (mode := mode) ps (fun x hx => hp x (by simp [hx]))
    split at h
    · split at h
      · cases h
      · split at h
        · exact hp (tag, p) (by simp) _ _ _ h
        · exact ih _ _ _ h
    · exact ih _ _ _ h

theorem deserFields_hands {Q : Ser → Val → Prop} {rec : Ser → Loc → St → Out Val × St} : ∀ (fs : List Field),
    (∀ f ∈ fs, f.validator = none) → (∀ f ∈ fs, ∀ loc, Hands (Q f.ser) (rec f.ser loc)) → ∀ res errs st r st',
    deserFields rec fs res errs st = (.ok r, st') → ∀ k y, Dict.get? r.1 k = some y →
      Dict.get? res k = some y ∨ ∃ f ∈ fs, f.alias.getD f.name = k ∧ Q f.ser y
  | [], _, _, res, errs, st, r, st', h, k, y, hk => by cases h; exact .inl hk
  | f :: fs, hv, hr, res, errs, st, r, st', h, k, y, hk => by
    rw [deserFields] at h
    simp only [hv f (by simp)] at h
    generalize he : rec f.ser [.name f.name] { st with sm := st.sm.set [.name f.name] st.el.line } = q at h
    obtain ⟨o, s'⟩ := q
    have ih := deserFields_hands fs (fun x hx => hv x (by simp [hx])) fun x hx => hr x (by simp [hx])
    cases o with
    | ok v =>
      rcases ih _ _ _ _ _ h k y hk with h1 | ⟨g, hg, h1⟩
      · split at h1
        · exact .inl h1
        · rename_i hn
          rw [Dict.get?_set] at h1
          split at h1
          · rename_i hkk
            injection h1 with h1
            subst h1
            refine .inr ⟨f, by simp, hkk, ?_⟩
            rcases hr f (by simp) _ _ _ _ he with rfl | h2
            · exact absurd rfl hn
            · exact h2
          · exact .inl h1
      · exact .inr ⟨g, by simp [hg], h1⟩
    | verr e =>
      rcases ih _ _ _ _ _ h k y hk with h1 | ⟨g, hg, h1⟩
      · exact .inl h1
      · exact .inr ⟨g, by simp [hg], h1⟩
    | crash e => cases h
    | diverge => cases h

theorem validateModel_ok {env : Env} {cls : String} {m : ModelSer} {data : Val} {st : St} {y : Val} (h : validateModel env cls m data st = .ok y) :
    ∃ fields set, env.validate cls data = .ok (fields, set) ∧ y = .model cls fields set := by
  unfold validateModel at h
  split at h
  · cases h
  · split at h
    · rename_i fs set he
      cases h
      exact ⟨fs, set, he, rfl⟩
    · cases h

theorem deserModel_hands {env : Env} {eas : Bool} (hno : env.NoValidators) {rec : Ser → Loc → St → Out Val × St}
    (hr : ∀ s loc, Hands (fun y => Given env eas (.field s y)) (rec s loc)) {cls : String} {m : ModelSer} (hm : env.model cls = some m)
    {loc : Loc} {st st' : St} {y : Val} (h : deserModel env rec cls m loc st = (.ok y, st')) : Given env eas (.inst cls y) := by
  unfold deserModel at h
  cases hb : m.body with
  | fields fs =>
    simp only [hb] at h
    generalize he : deserFields rec fs [] [] st = q at h
    obtain ⟨o, s'⟩ := q
    cases o with
    | ok r =>
      obtain ⟨res, errs⟩ := r
      simp only at h
      split at h
      · simp only [Prod.mk.injEq] at h
        obtain ⟨fields, set, h1, rfl⟩ := validateModel_ok h.1
        have key : ∀ k, ∃ f : Field, ∀ y, Dict.get? res k = some y → f ∈ fs ∧ f.alias.getD f.name = k ∧ Given env eas (.field f.ser y) := by
          intro k
          cases hk : Dict.get? res k with
          | none => exact ⟨⟨"", .text false false, none, false, none, none⟩, fun y h => by cases h⟩
          | some y =>
            rcases deserFields_hands (Q := fun s y => Given env eas (.field s y)) fs (hno _ _ _ hm hb) (fun f _ => hr f.ser) _ _ _ _ _ he k y hk with h | h
            · cases h
            · obtain ⟨f, h1, h2, h3⟩ := h
              exact ⟨f, fun y' e => by cases e; exact ⟨h1, h2, h3⟩⟩
        exact .fields (fun k => (key k).choose) hm hb (fun k y hk => ⟨((key k).choose_spec y hk).1, ((key k).choose_spec y hk).2.1⟩)
          (fun k y hk => ((key k).choose_spec y hk).2.2) h1
      · cases h
    | verr e => cases h
    | crash e => cases h
    | diverge => cases h
  | root s =>
    simp only [hb] at h
    generalize he : rec s loc st = q at h
    obtain ⟨o, s'⟩ := q
    cases o with
    | ok v =>
      simp only [Prod.mk.injEq] at h
      obtain ⟨fields, set, h1, rfl⟩ := validateModel_ok h.1
      refine .root hm hb ?_ h1
      intro hv
      rcases hr _ _ _ _ _ he with h | h
      · exact absurd h hv
      · exact h
    | verr e => cases h
    | crash e => cases h
    | diverge => cases h

mutual
theorem toNative_noPIs (b : Backend) (e : Elem) : (toNative b e).NoPIs := by
  obtain ⟨tag, nsmap, text, tail, attrib, elements, next, line⟩ := e
  rw [toNative, Node.NoPIs]
  exact toNativeList_noPIs b elements
theorem toNativeList_noPIs (b : Backend) (l : List Elem) : Node.NoPIsList (toNativeList b l) := by
  cases l with
  | nil => rw [toNativeList]; trivial
  | cons e l => rw [toNativeList]; exact ⟨toNative_noPIs b e, toNativeList_noPIs b l⟩
end

theorem popElementRemove_tag {e e' c : Elem} {tag : String} {mode : Mode} (h : e.popElementRemove tag mode = (some c, e')) : c.tag = tag := by
  unfold popElementRemove popElement at h
  split at h
  · rename_i i e'' hs
    obtain ⟨x, h1, h2, -⟩ := search_index hs
    rw [h1] at h
    cases h
    exact h2
  · cases h

/-- What reading hands over. -/
theorem deser_hands {env : Env} (hno : env.NoValidators) (eas : Bool) : ∀ n s loc,
    Hands (fun y => Given env eas (.field s y)) (deser env eas n s loc) := by
  intro n
  induction n with
  | zero => intro s loc st y st' h; cases h
  | succ n ih =>
    intro s loc st y st' h
    change deserStep env eas (deser env eas n) n s loc st = _ at h
    cases s with
    | text c nillable =>
      cases c with
      | true => cases h; exact .inl rfl
      | false =>
        rcases deserText_hands st y st' h with h | ⟨t, rfl, ht⟩
        · exact .inl h
        · exact .inr (.text ht)
    | attr name c =>
      cases c with
      | true => cases h; exact .inl rfl
      | false =>
        unfold deserStep at h
        simp only [Bool.false_eq_true, if_false] at h
        split at h
        · cases h; exact .inr .attr
        · cases h; exact .inl rfl
    | elem name nsmap mode c nillable =>
      cases c with
      | true => cases h; exact .inl rfl
      | false =>
        unfold deserStep at h
        simp only [Bool.false_eq_true, if_false] at h
        split at h
        · cases h; exact .inl rfl
        · rcases onChild_hands (Q := fun y => ∃ t, y = .str t ∧ (t ≠ "" ∨ eas = true)) (fun c y st' h => deserText_hands _ y st' h) _ _ _ _ h with h | ⟨t, rfl, ht⟩
          · exact .inl h
          · exact .inr (.elem ht)
    | attrs a =>
      cases hc : a.computed with
      | true =>
        unfold deserStep deserAttrs at h
        simp only [hc, if_true] at h
        cases h
        exact .inl rfl
      | false =>
        rcases deserAttrs_hands st y st' h with h | ⟨t, rfl, h1, h2⟩
        · exact .inl h
        · exact .inr (.attrs hc h1 h2)
    | mapElem a name mode =>
      unfold deserStep at h
      simp only at h
      split at h
      · cases h; exact .inl rfl
      · rename_i hc
        split at h
        · cases h; exact .inl rfl
        · rcases onChild_hands (Q := fun y => ∃ items, y = .dict items ∧ Dict.WF items ∧ ∀ kv ∈ items, ∃ t, kv.2 = .str t)
            (fun c y st' h => deserAttrs_hands _ y st' h) _ _ _ _ h with h | ⟨t, rfl, h1, h2⟩
          · exact .inl h
          · exact .inr (.mapElem (by simpa using hc) h1 h2)
    | raw name mode c =>
      cases c with
      | true => cases h; exact .inl rfl
      | false =>
        unfold deserStep at h
        simp only [Bool.false_eq_true, if_false] at h
        split at h
        · rename_i c el hp
          cases h
          have := popElementRemove_tag hp
          obtain ⟨tag, nsmap, text, tail, attrib, elements, next, line⟩ := c
          exact .inr (.raw (by rw [toNative]; exact this) (toNative_noPIs _ _) (by rw [toNative]; rfl))
        · cases h; exact .inl rfl
    | proxy p =>
      unfold deserStep at h
      simp only at h
      cases hm : env.model p.cls with
      | none => simp only [hm] at h; cases h
      | some m =>
        simp only [hm] at h
        split at h
        · cases h; exact .inl rfl
        · rename_i hc
          split at h
          · cases h; exact .inl rfl
          · rcases onChild_hands (Q := fun y => Given env eas (.inst p.cls y)) (fun c y st' h => by
              split at h
              · cases h; exact .inl rfl
              · exact .inr (deserModel_hands hno ih hm h)) _ _ _ _ h with h | h
            · exact .inl h
            · exact .inr (.proxy (by simpa using hc) h)
    | primUnion c inner =>
      cases c with
      | true => cases h; exact .inl rfl
      | false =>
        rcases ih inner loc st y st' h with h | h
        · exact .inl h
        · exact .inr (.primUnion h)
    | modelUnion title c alts =>
      cases c with
      | true => cases h; exact .inl rfl
      | false =>
        unfold deserStep at h
        simp only [Bool.false_eq_true, if_false] at h
        rcases unionLoop_hands (Q := fun y => ∃ p ∈ alts, Given env eas (.field (.proxy p) y)) alts (fun p hp st y st' h => by
          rcases ih (.proxy p) loc st y st' h with h | h
          · exact .inl h
          · exact .inr ⟨p, hp, h⟩) _ _ _ _ h with h | ⟨p, hp, h⟩
        · exact .inl h
        · exact .inr (.union hp h)
    | tagged c discr attrName mode alts =>
      cases c with
      | true => cases h; exact .inl rfl
      | false =>
        unfold deserStep at h
        simp only [Bool.false_eq_true, if_false] at h
        rcases taggedLoop_hands (Q := fun y => ∃ a ∈ alts, Given env eas (.field (.proxy a.2) y)) alts (fun a ha st y st' h => by
          rcases ih (.proxy a.2) loc st y st' h with h | h
          · exact .inl h
          · exact .inr ⟨a, ha, h⟩) _ _ _ h with h | ⟨p, hp, h⟩
        · exact .inl h
        · exact .inr (.tagged hp h)
    | wrap path nsmap mode c inner =>
      cases c with
      | true => cases h; exact .inl rfl
      | false =>
        unfold deserStep at h
        simp only [Bool.false_eq_true, if_false] at h
        rcases descend_hands (Q := fun y => Given env eas (.field inner y)) (fun c y st' h => ih inner loc _ y st' h) path _ _ _ h with h | h
        · exact .inl h
        · exact .inr (.wrap h)
    | homog title c inner =>
      cases c with
      | true => cases h; exact .inl rfl
      | false =>
        unfold deserStep at h
        simp only [Bool.false_eq_true, if_false] at h
        generalize he : homogLoop (fun loc st => deser env eas n inner loc st) loc n 0 [] [] st = q at h
        obtain ⟨o, s'⟩ := q
        cases o with
        | ok r =>
          simp only [Prod.mk.injEq] at h
          have h1 := homogLoop_hands (ih inner) _ _ _ _ _ _ _ _ he (by simp)
          obtain ⟨h, -⟩ := h
          unfold homogFinish at h
          split at h
          · split at h
            · cases h; exact .inl rfl
            · rename_i hne
              cases h
              exact .inr (.homog (by intro e; rw [e] at hne; exact hne rfl) h1)
          · cases h
        | verr e => cases h
        | crash e => cases h
        | diverge => cases h
    | hetero title c inners =>
      cases c with
      | true => cases h; exact .inl rfl
      | false =>
        unfold deserStep at h
        simp only [Bool.false_eq_true, if_false] at h
        generalize he : heteroLoop (deser env eas n) loc inners 0 [] [] st = q at h
        obtain ⟨o, s'⟩ := q
        cases o with
        | ok r =>
          simp only [Prod.mk.injEq] at h
          obtain ⟨h, -⟩ := h
          unfold heteroFinish at h
          split at h
          · rename_i hempty
            obtain ⟨rows, h1, h2, h3⟩ := heteroLoop_hands (Q := fun s y => Given env eas (.field s y)) loc inners (fun s _ => ih s) _ _ _ _ _ he
              (by simpa using hempty)
            split at h
            · cases h; exact .inl rfl
            · cases h
              rw [h2, List.nil_append, ← h1]
              exact .inr (.hetero h3)
          · cases h
        | verr e => cases h
        | crash e => cases h
        | diverge => cases h

/-- What is read from a document. -/
theorem fromXmlTree_given {env : Env} (hno : env.NoValidators) {eas : Bool} {n : Nat} {cls : String} {root : Node} {v : Val}
    (h : (fromXmlTree env eas n cls root).1 = .ok v) : Given env eas (.inst cls v) := by
  unfold fromXmlTree at h
  cases hm : env.model cls with
  | none => simp only [hm] at h; cases h
  | some m =>
    simp only [hm] at h
    split at h
    · generalize he : deserModel env (deser env eas n) cls m [] ⟨fromNative env.backend root, []⟩ = q at h
      obtain ⟨o, s⟩ := q
      simp only at h
      subst h
      exact deserModel_hands hno (deser_hands hno eas n) hm he
    · cases h

theorem noNilList_iff {vs : List Val} : Val.NoNilList vs ↔ ∀ v ∈ vs, v.NoNil := by
  induction vs with
  | nil => simp [Val.NoNilList]
  | cons v vs ih => simp [Val.NoNilList, ih]

theorem noNilItems_iff {d : List (String × Val)} : Val.NoNilItems d ↔ ∀ kv ∈ d, kv.2.NoNil := by
  induction d with
  | nil => simp [Val.NoNilItems]
  | cons kv d ih => obtain ⟨k, v⟩ := kv; simp [Val.NoNilItems, ih]

/-- What is handed over is not `None`. -/
theorem Given.ne_none {env : Env} {eas : Bool} {x : Datum} (h : Given env eas x) :
    match x with | .field _ y => y ≠ .none | .inst cls v => ∃ fields set, v = .model cls fields set := by
  induction h with
  | text => simp
  | attr => simp
  | elem => simp
  | attrs => simp
  | mapElem => simp
  | raw => simp
  | proxy _ _ ih => obtain ⟨_, _, rfl⟩ := ih; simp
  | primUnion _ ih => exact ih
  | union _ _ ih => exact ih
  | tagged _ _ ih => exact ih
  | wrap _ ih => exact ih
  | homog => simp
  | hetero => simp
  | fields => exact ⟨_, _, rfl⟩
  | root => exact ⟨_, _, rfl⟩

/-- Nothing is handed over for computed fields. -/
theorem Given.stored {env : Env} {eas : Bool} {s : Ser} {y : Val} (h : Given env eas (.field s y)) : s.computed = false := by
  cases h <;> first | rfl | assumption

theorem mem_split_nodup {α β : Type} {f : α → β} {l : List α} {a : α} (h : a ∈ l) (hn : (l.map f).Nodup) :
    ∃ pre post, l = pre ++ a :: post ∧ ∀ x ∈ pre, f x ≠ f a := by
  obtain ⟨pre, post, rfl⟩ := List.append_of_mem h
  refine ⟨pre, post, rfl, fun x hx e => ?_⟩
  rw [List.map_append, List.nodup_append] at hn
  exact hn.2.2 _ (List.mem_map_of_mem hx) _ (List.mem_map_of_mem (by simp)) e

section
variable {env : Env} {P : Prims} {types : String → Option Types} {dicts eas : Bool} {fl : Flags} {wh : Bool}

/-- What is shown: all that is made out of what was handed over comes back. -/
def Datum.Back (env : Env) (P : Prims) (types : String → Option Types) (dicts eas : Bool) (fl : Flags) (wh : Bool) : Datum → Prop
  | .field s y => ∀ d ty x, Restores P types dicts fl d s ty → Makes P d ty y x → (dicts = true → x.NoNil) → Sound env P types eas fl wh false (.field d s ty x false)
  | .inst cls v => (dicts = true → v.NoNil) → Sound env P types eas fl wh false (.inst cls v)

theorem makes_str {d : Dict String Schema} {ty : Schema} {t : String} {x : Val} (h : Makes P d ty (.str t) x) : P.parse ty t = some x := by
  cases h
  assumption

theorem makes_model {d : Dict String Schema} {ty : Schema} {cls : String} {fields : List (String × Val)} {set : List String} {x : Val}
    (h : Makes P d ty (.model cls fields set) x) : x = .model cls fields set := by
  cases h <;> rfl

theorem makes_raw {d : Dict String Schema} {ty : Schema} {n : Node} {x : Val} (h : Makes P d ty (.raw n) x) : x = .raw n := by
  cases h <;> rfl

theorem makes_dict {d : Dict String Schema} {ty k vt : Schema} {items : List (String × Val)} {x : Val} (hty : Strips d ty d (.dict k vt))
    (h : Makes P d ty (.dict items) x) : ∃ items', x = .dict items' ∧ Dict.keys items' = Dict.keys items ∧
      ∀ kv ∈ items', ∃ t, P.parse vt t = some kv.2 := by
  cases h with
  | dict h1 h2 =>
    obtain ⟨-, e⟩ := hty.det h1
    cases e
    refine ⟨_, rfl, by simp [Dict.keys, Function.comp_def], ?_⟩
    intro kv hkv
    obtain ⟨r, hr, rfl⟩ := List.mem_map.1 hkv
    exact ⟨_, h2 r hr⟩

theorem makes_list {d : Dict String Schema} {ty t item : Schema} {ys : List Val} {x : Val} (hty : Strips d ty d t)
    (ht : t = .list item ∨ t = .tuple [item] (some 0)) (h : Makes P d ty (.list ys) x) :
    ∃ rows : List (Val × Val), ys = rows.map Prod.fst ∧ x = .list (rows.map Prod.snd) ∧ ∀ r ∈ rows, Makes P d item r.1 r.2 := by
  cases h with
  | @list _ t' item' rows h1 h2 h3 =>
    obtain ⟨-, rfl⟩ := hty.det h1
    have hi : item = item' := by rcases ht with rfl | rfl <;> rcases h2 with h | h <;> cases h <;> rfl
    subst hi
    exact ⟨rows, rfl, rfl, h3⟩
  | tuple h1 h2 =>
    obtain ⟨-, rfl⟩ := hty.det h1
    rcases ht with rfl | rfl <;> rcases h2 with h | h <;> cases h

theorem makes_tuple {d : Dict String Schema} {ty t : Schema} {items : List Schema} {ys : List Val} {x : Val} (hty : Strips d ty d t)
    (ht : t = .tuple items none ∨ t = .call true items) (h : Makes P d ty (.list ys) x) :
    ∃ rows : List (Schema × Val × Val), items = rows.map Prod.fst ∧ ys = rows.map (fun r => r.2.1) ∧ x = .list (rows.map fun r => r.2.2) ∧
      ∀ r ∈ rows, Makes P d r.1 r.2.1 r.2.2 := by
  cases h with
  | @tuple _ t' items' rows h1 h2 h3 h4 =>
    obtain ⟨-, rfl⟩ := hty.det h1
    have hi : items = items' := by rcases ht with rfl | rfl <;> rcases h2 with h | h <;> cases h <;> rfl
    subst hi
    exact ⟨rows, h3.symm, rfl, rfl, h4⟩
  | list h1 h2 =>
    obtain ⟨-, rfl⟩ := hty.det h1
    rcases ht with rfl | rfl <;> rcases h2 with h | h <;> cases h

theorem readable_of {a : AttrsSer} {items : List (String × Val)} (ha : a.namespaced = false) (hw : Dict.WF items)
    (hn : Elem.nilAttr ∉ Dict.keys items) : a.Readable items := by
  have hs : a.space = none := by simp [AttrsSer.space, ha]
  refine ⟨hw, ?_, by simp [ha], by simp [hs]⟩
  intro k hk e
  rw [hs] at e
  have : QName.uri ⟨k, none⟩ = k := by simp [QName.uri]
  rw [this] at e
  exact hn (e ▸ hk)

theorem flagsIn_stable (hS : env.Stable P types dicts eas fl wh) {cls : String} {m : ModelSer} (hm : env.model cls = some m) : m.flagsIn fl = fl := by
  have h1 := hS.flags
  have h2 := (hS.typed cls m hm).2.1
  unfold ModelSer.flagsIn
  cases fl with
  | mk a b c =>
    simp only at h1
    subst h1
    cases hk : m.skipEmpty with
    | none => rfl
    | some b => cases b with
      | true => exact absurd hk h2
      | false => rfl

theorem rows_zip {α β γ : Type} : ∀ (l : List (α × β)) (l' : List (β × γ)), l.map Prod.snd = l'.map Prod.fst →
    ∃ rows : List (α × β × γ), l = rows.map (fun r => (r.1, r.2.1)) ∧ l' = rows.map (fun r => r.2)
  | [], [], _ => ⟨[], rfl, rfl⟩
  | [], _ :: _, h => by cases h
  | _ :: _, [], h => by cases h
  | (a, b) :: l, (b', c) :: l', h => by
    simp only [List.map_cons, List.cons.injEq] at h
    obtain ⟨rows, rfl, rfl⟩ := rows_zip l l' h.2
    obtain rfl := h.1
    exact ⟨(a, b, c) :: rows, rfl, rfl⟩

theorem makes_ne_none (hF : env.Follows P types) (hO : env.Only P types) {d : Dict String Schema} {ty : Schema} {y x : Val} (h : Makes P d ty y x)
    (hy : y ≠ .none) : x ≠ .none := by
  cases h with
  | prim h => exact (hF.prim _ _ (hO.prim _ _ _ h).1).1
  | none => exact absurd rfl hy
  | _ => simp

theorem makes_none {d : Dict String Schema} {ty : Schema} {y x : Val} (h : Makes P d ty y x) (hy : y = .none) : ty.Nullable d := by
  cases h <;> first | assumption | cases hy

/-- The data under the key of a field was handed over for this field. -/
theorem owner_eq {ts : List Typed} {cs : List Derived} (hnd : (ts.map Typed.key).Nodup) (hcs : ∀ c ∈ cs, c.field.ser.computed = true) {t : Typed}
    (ht : t ∈ ts) {f : Field} (hf : f ∈ (ts.filter fun t => !t.hidden).map Typed.field ++ cs.map Derived.field)
    (hc : f.ser.computed = false) (hk : f.alias.getD f.name = t.key) : f = t.field ∧ t.hidden = false := by
  rcases List.mem_append.1 hf with hf | hf
  case inr =>
    obtain ⟨c, hcm, rfl⟩ := List.mem_map.1 hf
    rw [hcs c hcm] at hc
    cases hc
  obtain ⟨u, hu, rfl⟩ := List.mem_map.1 hf
  obtain ⟨hu, hh⟩ := List.mem_filter.1 hu
  have h1 := find?_key Typed.key hnd ht
  have h2 := find?_key Typed.key hnd hu
  rw [show u.key = t.key from hk, h1] at h2
  cases h2
  exact ⟨rfl, by simpa using hh⟩

/-- An instance in a field of its class. -/
theorem Sound.inside {so : Bool} {x : Held} (h : Sound env P types eas fl wh so x) : ∀ {d : Dict String Schema} {p : Proxy} {ty : Schema}
    {cls : String} {fields : List (String × Val)} {set : List String} {void : Bool}, x = .field d (.proxy p) ty (.model cls fields set) void →
    Sound env P types eas fl wh fl.skipEmpty (.inst p.cls (.model cls fields set)) := by
  induction h with
  | model _ _ h => intro d p ty cls fields set void e; cases e; exact h
  | whole _ ih => intro d p ty cls fields set void e; exact .whole (ih e)
  | _ => intro d p ty cls fields set void e; cases e

/-- All that is read comes back. -/
theorem given_back (hT : env.HasTypes types) (hF : env.Follows P types) (hO : env.Only P types) (hS : env.Stable P types dicts eas fl wh) {x : Datum}
    (h : Given env eas x) : Datum.Back env P types dicts eas fl wh x := by
  have hsk := hS.flags
  have hprim : ∀ {ty t v}, P.parse ty t = some v → t ≠ "" ∨ eas = true →
      P.Is ty v ∧ (eas = true ∨ encodePrimitive env (env.toJsonable v) ≠ "") := by
    intro ty t v hp ht
    obtain ⟨h1, h2⟩ := hO.prim ty t v hp
    exact ⟨h1, ht.elim (fun h => .inr (h2 h)) .inl⟩
  induction h with
  | @text nillable t ht =>
    intro d ty x _ hm _
    obtain ⟨h1, h2⟩ := hprim (makes_str hm) ht
    exact .text h1 h2 (by simp)
  | attr =>
    intro d ty x _ hm _
    exact .attr (hO.prim _ _ _ (makes_str hm)).1
  | @elem name nsmap mode nillable t ht =>
    intro d ty x _ hm _
    obtain ⟨h1, h2⟩ := hprim (makes_str hm) ht
    exact .elem h1 (h2.elim (fun h => .inl ⟨h, hsk⟩) .inr)
  | @attrs a items _ hw hs =>
    intro d ty x hk hm hn
    cases hk with
    | attrs h0 h1 h2 h3 =>
      obtain ⟨items', rfl, hkeys, hp⟩ := makes_dict h3 hm
      refine .attrs h1 h3 (readable_of h2 (by unfold Dict.WF at hw ⊢; rw [hkeys]; exact hw) (hn h0)) ?_ (by simp)
      intro kv hkv
      obtain ⟨t, ht⟩ := hp kv hkv
      exact (hO.prim _ _ _ ht).1
  | @mapElem a name mode items _ hw hs =>
    intro d ty x hk hm hn
    cases hk with
    | mapElem h0 h1 h2 h3 =>
      obtain ⟨items', rfl, hkeys, hp⟩ := makes_dict h3 hm
      refine .mapElem h1 h3 (readable_of h2 (by unfold Dict.WF at hw ⊢; rw [hkeys]; exact hw) (hn h0)) ?_ (by simp [hsk])
      intro kv hkv
      obtain ⟨t, ht⟩ := hp kv hkv
      exact (hO.prim _ _ _ ht).1
  | @raw name mode n h1 h2 h3 =>
    intro d ty x hk hm hn
    obtain rfl := makes_raw hm
    cases hk with
    | raw h4 => exact .raw h4 h1 h2 h3 (by simp [hsk])
  | @proxy p v _ hg ih =>
    intro d ty x hk hm hn
    obtain ⟨fields, set, rfl⟩ := hg.ne_none
    obtain rfl := makes_model hm
    cases hk with
    | model h1 h2 => exact .model h1 h2 (by rw [hsk]; exact ih hn)
  | primUnion _ ih =>
    intro d ty x hk hm hn
    cases hk with
    | primUnion h1 h2 => exact .primUnion h1 (ih d ty x h2 hm hn)
  | @union title alts p y hp hg ih =>
    intro d ty x hk hm hn
    cases hg with
    | proxy _ hg =>
      obtain ⟨fields, set, rfl⟩ := hg.ne_none
      obtain rfl := makes_model hm
      cases hk with
      | union h1 h2 h3 h4 =>
        obtain ⟨h5, c, hc, r, hcr⟩ := h2 p hp
        obtain ⟨pre, post, rfl⟩ := List.append_of_mem hp
        have h7 : ∀ q ∈ pre, q.cls ≠ p.cls ∧ q.name ≠ p.name := by
          intro q hq
          refine ⟨fun e => ?_, fun e => ?_⟩
          · rw [List.map_append, List.nodup_append] at h3
            exact h3.2.2 _ (List.mem_map_of_mem hq) _ (List.mem_map_of_mem (by simp)) e
          · rw [List.map_append, List.nodup_append] at h4
            exact h4.2.2 _ (List.mem_map_of_mem hq) _ (List.mem_map_of_mem (by simp)) e
        have hb := ih d (.model p.cls r) (.model p.cls fields set) (.model h5 (.done rfl)) (.model (.done rfl)) hn
        exact .union h1 hc hcr h5 h7 (hb.inside rfl)
  | @tagged discr attrName mode alts a y ha hg ih =>
    intro d ty x hk hm hn
    cases hg with
    | proxy _ hg =>
      obtain ⟨fields, set, rfl⟩ := hg.ne_none
      obtain rfl := makes_model hm
      cases hk with
      | tagged h1 h2 h3 =>
        obtain ⟨h4, h5, ⟨c, hc, r, hcr⟩, d', ts, cs', t, h6, h7, h7', h8, h9, h10, h11⟩ := h3 a ha
        obtain ⟨pre, post, rfl, h12⟩ := mem_split_nodup ha h2
        have hb := ih d (.model a.2.cls r) (.model a.2.cls fields set) (.model h5 (.done rfl)) (.model (.done rfl)) hn
        have hfs : Dict.get? fields discr = some (.str a.1) ∧ (fl.excludeUnset = true → discr ∈ set) := by
          cases hg with
          | fields owner hm hbody hown hgiv hval =>
            obtain ⟨value, hv1, hv2⟩ := hO.fields _ _ _ _ h6 _ _ _ hval
            obtain ⟨m', hm', hbody', -, -, hnd, hkeys, -, hcs, -⟩ := hT.1 _ _ _ _ h6
            have hv : value discr = .str a.1 ∧ (fl.excludeUnset = true → discr ∈ set) := by
              rcases hv2 t h7 with ⟨y, hy1, hy2, hy3⟩ | ⟨hy1, hy2⟩
              · rw [h9] at hy2 hy3
                refine ⟨?_, fun _ => hy3⟩
                obtain ⟨ho1, ho2⟩ := hown _ _ hy1
                have hg := hgiv _ _ hy1
                rw [hm] at hm'
                cases hm'
                rw [hbody] at hbody'
                cases hbody'
                rw [(owner_eq hkeys (fun c hc => (hcs c hc).1) h7 ho1 hg.stored ho2).1, h8] at hg
                cases hg
                exact h10 _ _ (makes_str hy2)
              · rw [h9] at hy2
                exact ⟨(h11 _ hy2).1, fun e => by rw [(h11 _ hy2).2] at e; cases e⟩
            refine ⟨?_, hv.2⟩
            rw [hv1, ← hv.1]
            refine items_get ?_ ?_
            · simpa [List.map_map, Function.comp_def] using hnd
            · exact List.mem_append_left _ (List.mem_map.2 ⟨t, h7, by rw [h9]⟩)
          | root hm hbody _ _ =>
            obtain ⟨m', hm', hbody', -⟩ := hT.1 _ _ _ _ h6
            rw [hm] at hm'
            cases hm'
            rw [hbody] at hbody'
            cases hbody'
        exact .tagged (tag := a.1) (p := a.2) h1 hc hcr h5 h4 h12 h6 h7 h7' h8 h9 (hS.fields _ _ _ _ h6 t h7 h7').1 hfs.2 hfs.1 (hb.inside rfl)
  | wrap hg ih =>
    intro d ty x hk hm hn
    cases hk with
    | wrap h1 => exact   .wrap (makes_ne_none hF hO hm hg.ne_none) (by simp [hsk]) (ih d ty x h1 hm hn)
  | @homog title inner ys hne hg ih =>
    intro d ty x hk hm hn
    cases hk with
    | list h1 h2 h3 h4 =>
      obtain ⟨rows, rfl, rfl, hr⟩ := makes_list h1 h2 hm
      have hn := fun e => noNilList_iff.1 (hn e)
      cases rows with
      | nil => exact absurd rfl hne
      | cons r rows =>
        refine .list h1 h2 h3 ?_
        intro x hx
        obtain ⟨q, hq, rfl⟩ := List.mem_map.1 (show x ∈ (r :: rows).map Prod.snd from hx)
        rw [hsk]
        exact ih q.1 (List.mem_map_of_mem hq) d _ q.2 h4 (hr q hq) (fun e => hn e _ (List.mem_map_of_mem hq))
  | @hetero title rows hg ih =>
    intro d ty x hk hm hn
    generalize hss : rows.map Prod.fst = ss at hk
    cases hk with
    | tuple h1 h2 h3 h4 h5 h6 =>
      rename_i t krows
      obtain ⟨mrows, hm1, hm2, rfl, hr⟩ := makes_tuple h1 h2 hm
      obtain ⟨rs, rfl, rfl⟩ := rows_zip krows mrows hm1
      have hn := fun e => noNilList_iff.1 (hn e)
      simp only [List.map_map, Function.comp_def] at hss hm2 hn h1 h2 hr ⊢
      have hrow : rows = rs.map fun r => (r.1, r.2.2.1) := by
        have h : ∀ (l : List (Ser × Val)), l = (l.map Prod.fst).zip (l.map Prod.snd) := by
          intro l
          induction l with
          | nil => rfl
          | cons a l ih => simp [← ih]
        rw [h rows, hss, hm2, List.zip_map']
      subst hrow
      have := Sound.tuple (env := env) (P := P) (types := types) (eas := eas) (fl := fl) (wh := wh) (so := false) (d := d) (title := title)
        (rows := rs.map fun r => (r.1, r.2.1, r.2.2.2)) h1 (by simpa [List.map_map, Function.comp_def] using h2) (by simpa using h3) (by
          intro r hr
          obtain ⟨q, hq, rfl⟩ := List.mem_map.1 hr
          exact h4 (q.1, q.2.1) (List.mem_map_of_mem (f := fun r : Ser × Schema × Val × Val => (r.1, r.2.1)) hq)) (by
          intro r hr'
          obtain ⟨q, hq, rfl⟩ := List.mem_map.1 hr'
          have hq1 : (q.1, q.2.1) ∈ rs.map fun r : Ser × Schema × Val × Val => (r.1, r.2.1) :=
            List.mem_map_of_mem (f := fun r : Ser × Schema × Val × Val => (r.1, r.2.1)) hq
          have hmk := hr q.2 (List.mem_map_of_mem (f := fun r : Ser × Schema × Val × Val => r.2) hq)
          rw [hsk]
          refine ih (q.1, q.2.2.1) (List.mem_map_of_mem (f := fun r : Ser × Schema × Val × Val => (r.1, r.2.2.1)) hq) ?_ d _ _ (h6 _ hq1) hmk
            (fun e => hn e _ (List.mem_map_of_mem (f := fun r : Ser × Schema × Val × Val => r.2.2.2) hq))
          intro e
          simp only at e
          exact h5 _ hq1 (makes_none hmk e))
      simpa [List.map_map, Function.comp_def] using this
  | @fields cls m fs data fields set owner hm hbody ho hgiv hval ih =>
    intro hn
    obtain ⟨ty, hty⟩ := Option.isSome_iff_exists.1 (hS.typed _ _ hm).1
    cases ty with
    | root d s ty df =>
      obtain ⟨m', hm', hbody', -⟩ := hT.2 _ _ _ _ _ hty
      rw [hm] at hm'
      cases hm'
      rw [hbody] at hbody'
      cases hbody'
    | fields d ts cs =>
      obtain ⟨m', hm', hbody', -, -, hnd, hkeys, -, hcs, -⟩ := hT.1 _ _ _ _ hty
      rw [hm] at hm'
      cases hm'
      rw [hbody] at hbody'
      cases hbody'
      obtain ⟨value, rfl, hv⟩ := hO.fields _ _ _ _ hty _ _ _ hval
      have hn := fun e => noNilItems_iff.1 (hn e)
      obtain ⟨rows, hr1, hr2⟩ := exists_rows (R := fun (t : Typed) (x : Val × Option Bool × Bool) => x.1 = value t.field.name ∧
          (x.2.1 = none ↔ t.hidden = true ∨ t.field.exclude = true ∨ (fl.excludeUnset = true ∧ t.field.name ∉ set)) ∧
          (x.2.1 = none → t.hidden = true ∨ t.field.ser.Silent eas) ∧
          (x.2.1 ≠ some false → t.default = some x.1) ∧
          (∀ b, x.2.1 = some b → Sound env P types eas fl wh x.2.2 (.field d t.field.ser t.ty x.1 b))) (l := ts) (by
        intro t ht
        cases hh : t.hidden with
        | true =>
          refine ⟨(value t.field.name, none, false), rfl, by simp, fun _ => .inl rfl, fun _ => ?_, by simp⟩
          rcases hv t ht with ⟨y, hy1, hy2, hy3⟩ | ⟨hy1, hy2⟩
          · obtain ⟨ho1, ho2⟩ := ho _ _ hy1
            rw [(owner_eq hkeys (fun c hc => (hcs c hc).1) ht ho1 (hgiv _ _ hy1).stored ho2).2] at hh
            cases hh
          · exact hy2
        | false =>
        obtain ⟨h1, h2, h3, h4⟩ := hS.fields _ _ _ _ hty t ht hh
        by_cases hu : fl.excludeUnset = true ∧ t.field.name ∉ set
        · refine ⟨(value t.field.name, none, false), rfl, by simp [hu], fun _ => .inr (h3 hu.1), ?_, by simp⟩
          intro _
          rcases hv t ht with ⟨y, hy1, hy2, hy3⟩ | ⟨hy1, hy2⟩
          · exact absurd hy3 hu.2
          · exact hy2
        · rcases hv t ht with ⟨y, hy1, hy2, hy3⟩ | ⟨hy1, hy2⟩
          · refine ⟨(value t.field.name, some false, false), rfl, by simp [h1, hu], by simp, by simp, ?_⟩
            intro b hb
            cases hb
            obtain ⟨ho1, ho2⟩ := ho _ _ hy1
            have := ih _ _ hy1
            rw [(owner_eq hkeys (fun c hc => (hcs c hc).1) ht ho1 (hgiv _ _ hy1).stored ho2).1] at this
            exact this d t.ty _ h2 hy2 (fun e => hn e _ (List.mem_append_left _ (List.mem_map_of_mem (f := fun t : Typed => (t.field.name, value t.field.name)) ht)))
          · obtain ⟨void, h5⟩ := h4 _ hy2
            refine ⟨(value t.field.name, some void, false), rfl, by simp [h1, hu], by simp, fun _ => hy2, ?_⟩
            intro b hb
            cases hb
            exact h5)
      obtain ⟨more, hc1, hc2⟩ := exists_rows (R := fun (c : Derived) (x : Option Bool × Bool) =>
          (x.1 = none ↔ c.field.exclude = true ∨ (fl.excludeUnset = true ∧ c.field.name ∉ set)) ∧
          (x.1 = none → c.field.ser.stored.Silent eas) ∧
          (∀ b, x.1 = some b → Sound env P types eas fl wh x.2 (.field d c.field.ser.stored c.ty
            (c.get (ts.map fun t => (t.field.name, value t.field.name))) b))) (l := cs) (by
        intro c hc
        obtain ⟨-, h2, h3, h4⟩ := hS.computed _ _ _ _ hty c hc
        by_cases hu : fl.excludeUnset = true ∧ c.field.name ∉ set
        · exact ⟨(none, false), by simp [hu], fun _ => h3 hu.1, by simp⟩
        · obtain ⟨void, h5⟩ := h4 value fun t ht => (hv t ht).imp (fun ⟨y, _, h, _⟩ => ⟨y, h⟩) fun h => h.2
          refine ⟨(some void, false), by simp [h2, hu], by simp, ?_⟩
          intro b hb
          cases hb
          exact h5)
      have hmore : more ≠ [] → wh = false := by
        intro e
        cases more with
        | nil => exact absurd rfl e
        | cons c more => exact (hS.computed _ _ _ _ hty c.1 (by rw [← hc1]; simp)).1
      subst hr1 hc1
      have hfields : (rows.map Prod.fst).map (fun t => (t.field.name, value t.field.name)) = rows.map fun r => (r.1.field.name, r.2.1) := by
        rw [List.map_map]
        refine List.map_congr_left fun r hr => ?_
        simp [(hr2 r hr).1]
      rw [hfields]
      rw [List.map_map]
      refine .fields hty hm (hS.typed _ _ hm).2.2 hmore rfl (fun r hr => (hr2 r hr).2.1) (fun r hr => (hr2 r hr).2.2.1) ?_ (by simp) ?_
        (fun c hc => (hc2 c hc).1) (fun c hc => (hc2 c hc).2.1) ?_
      · intro r hr hb
        exact ⟨_, (hr2 r hr).2.2.2.1 hb, rfl⟩
      · intro r hr b hb
        rw [flagsIn_stable hS hm]
        exact (hr2 r hr).2.2.2.2 b hb
      · intro c hc b hb
        rw [flagsIn_stable hS hm, ← hfields]
        exact (hc2 c hc).2.2 b hb
  | @root cls m s y fields set hm hbody _ hval ih =>
    intro hn
    obtain ⟨ty, hty⟩ := Option.isSome_iff_exists.1 (hS.typed _ _ hm).1
    cases ty with
    | fields d ts cs =>
      obtain ⟨m', hm', hbody', -⟩ := hT.1 _ _ _ _ hty
      rw [hm] at hm'
      cases hm'
      rw [hbody] at hbody'
      cases hbody'
    | root d s' ty df =>
      obtain ⟨m', hm', hbody', -⟩ := hT.2 _ _ _ _ _ hty
      rw [hm] at hm'
      cases hm'
      rw [hbody] at hbody'
      cases hbody'
      obtain ⟨h1, h2⟩ := hS.root _ _ _ _ _ hty
      obtain ⟨x, rfl, hx⟩ := hO.root _ _ _ _ _ hty _ _ _ hval
      have hn := fun e => noNilItems_iff.1 (hn e)
      rcases hx with ⟨hx1, hx2⟩ | ⟨hx1, hx2⟩
      · cases hy : y.isNone with
        | true =>
          rw [hy, if_pos rfl] at hx1
          cases hx1
        | false =>
          rw [hy, if_neg (by simp)] at hx1
          have hne : y ≠ .none := by rintro rfl; cases hy
          exact .root (void := false) hty hm (hS.typed _ _ hm).2.2 (fun _ => hx2) (fun e => by cases e) (by
            rw [flagsIn_stable hS hm]
            exact ih hne d ty x h1 hx1 (fun e => hn e ("root", x) (.head _)))
      · obtain ⟨h3, void, h4⟩ := h2 x hx2
        exact .root (void := void) hty hm (hS.typed _ _ hm).2.2 (fun e => by rw [h3] at e; cases e) (fun _ => ⟨x, hx2, rfl⟩) (by rw [flagsIn_stable hS hm]; exact h4)

end

end PXml
