import Verif.SpecEvolveWrite

/-! # Lemmas for C85 -/

namespace PXml

theorem Newer.sizes {env : Env} {added : String → List String} {xn xu : Bool} {s : Ser} {v enc v' enc' : Val}
    (h : Newer env added xn xu s v enc v' enc') : v'.isNone = v.isNone ∧ v'.len? = v.len? := by
  induction h with
  | same => exact ⟨rfl, rfl⟩
  | primUnion _ ih => exact ih
  | wrap _ ih => exact ih
  | homog h => simp [Val.isNone, Val.len?, h]
  | hetero h => simp [Val.isNone, Val.len?, h]
  | _ => exact ⟨rfl, rfl⟩

theorem Out.bind_ok {α β : Type} {o : Out α} {f : α → Out β} {b : β} (h : o.bind f = .ok b) : ∃ a, o = .ok a ∧ f a = .ok b := by
  cases o with
  | ok a => exact ⟨a, rfl, h⟩
  | _ => cases h

/-- An additional field that is `None` writes nothing with `exclude_none`. -/
theorem Ser.Addable.silent {env : Env} {s : Ser} (h : s.Addable env) (fl : Flags) (hfl : fl.excludeNone = true) (k : Nat) (hk : s.nesting ≤ k)
    (el : Elem) : ser env k fl s el .none .none = .ok el := by
  induction h generalizing k with
  | primUnion h ih =>
    simp only [Ser.nesting] at hk
    obtain ⟨k, rfl⟩ : ∃ j, k = j + 1 := ⟨k - 1, by omega⟩
    simp only [ser, serStep]
    exact ih k (by omega)
  | @proxy p hp =>
    simp only [Ser.nesting] at hk
    obtain ⟨k, rfl⟩ : ∃ j, k = j + 1 := ⟨k - 1, by omega⟩
    obtain ⟨m, hm⟩ := Option.isSome_iff_exists.1 hp
    simp [ser, serStep, hm, hfl, Val.isNone]
  | _ =>
    simp only [Ser.nesting] at hk
    obtain ⟨k, rfl⟩ : ∃ j, k = j + 1 := ⟨k - 1, by omega⟩
    simp [ser, serStep, serText, serAttrs, hfl, Val.isNone]

theorem ascend_mono {b : Backend} {mode : Mode} {nsmap : Option NsMap} {f g : Elem → Out Elem}
    (h : ∀ el out, f el = .ok out → g el = .ok out) (path : List String) (el out : Elem)
    (ho : ascend b mode nsmap f path el = .ok out) : ascend b mode nsmap g path el = .ok out := by
  induction path generalizing el out with
  | nil => exact h el out ho
  | cons t ts ih =>
    simp only [ascend] at ho ⊢
    cases hf : el.findElement t mode with
    | error e => rw [hf] at ho; cases ho
    | ok r =>
      obtain ⟨i, el'⟩ := r
      rw [hf] at ho
      cases i with
      | none =>
        simp only at ho ⊢
        obtain ⟨c', h1, h2⟩ := Out.bind_ok ho
        rw [ih _ _ h1]
        exact h2
      | some i =>
        simp only at ho ⊢
        cases hc : el'.elements[i]? with
        | none => rw [hc] at ho; cases ho
        | some c =>
          rw [hc] at ho
          simp only at ho ⊢
          obtain ⟨c', h1, h2⟩ := Out.bind_ok ho
          rw [ih _ _ h1]
          exact h2

theorem serItems_newer {rec rec' : Elem → Val → Val → Out Elem} (fl : Flags) (vs encs vs' encs' : List Val) (hl : vs'.length = vs.length)
    (hl2 : encs'.length = encs.length)
    (h : ∀ (i : Nat) (v enc v' enc' : Val), vs[i]? = some v → encs[i]? = some enc → vs'[i]? = some v' → encs'[i]? = some enc' →
      v'.isNone = v.isNone ∧ ∀ el out, rec el v enc = .ok out → rec' el v' enc' = .ok out)
    (el out : Elem) (ho : serItems rec fl vs encs el = .ok out) : serItems rec' fl vs' encs' el = .ok out := by
  induction vs generalizing encs vs' encs' el with
  | nil => cases vs' with
    | nil => simpa [serItems] using ho
    | cons _ _ => simp at hl
  | cons v vs ih => cases vs' with
    | nil => simp at hl
    | cons v' vs' => cases encs with
      | nil => cases encs' with
        | nil => simpa [serItems] using ho
        | cons _ _ => simp at hl2
      | cons enc encs => cases encs' with
        | nil => simp at hl2
        | cons enc' encs' =>
          obtain ⟨h1, h2⟩ := h 0 v enc v' enc' rfl rfl rfl rfl
          have ih := fun el => ih encs vs' encs' (by simpa using hl) (by simpa using hl2)
            (fun i a b c d ha hb hc hd => h (i + 1) a b c d (by simpa using ha) (by simpa using hb) (by simpa using hc) (by simpa using hd)) el
          simp only [serItems, h1] at ho ⊢
          split at ho
          · rename_i hc; rw [if_pos hc]; exact ih _ ho
          · rename_i hc
            rw [if_neg hc]
            obtain ⟨e, he, ho⟩ := Out.bind_ok ho
            rw [h2 _ _ he]
            exact ih _ ho

theorem serTuple_newer {rec rec' : Ser → Elem → Val → Val → Out Elem} (ss : List Ser) (vs encs vs' encs' : List Val)
    (hl : vs'.length = vs.length) (hl2 : encs'.length = encs.length)
    (h : ∀ (i : Nat) (s : Ser) (v enc v' enc' : Val), ss[i]? = some s → vs[i]? = some v → encs[i]? = some enc → vs'[i]? = some v' →
      encs'[i]? = some enc' → ∀ el out, rec s el v enc = .ok out → rec' s el v' enc' = .ok out)
    (el out : Elem) (ho : serTuple rec ss vs encs el = .ok out) : serTuple rec' ss vs' encs' el = .ok out := by
  induction ss generalizing vs encs vs' encs' el with
  | nil => simpa [serTuple] using ho
  | cons s ss ih => cases vs with
    | nil => cases vs' with
      | nil => simpa [serTuple] using ho
      | cons _ _ => simp at hl
    | cons v vs => cases vs' with
      | nil => simp at hl
      | cons v' vs' => cases encs with
        | nil => cases encs' with
          | nil => simpa [serTuple] using ho
          | cons _ _ => simp at hl2
        | cons enc encs => cases encs' with
          | nil => simp at hl2
          | cons enc' encs' =>
            simp only [serTuple] at ho ⊢
            obtain ⟨e, he, ho⟩ := Out.bind_ok ho
            rw [h 0 s v enc v' enc' rfl rfl rfl rfl rfl _ _ he]
            exact ih vs encs vs' encs' (by simpa using hl) (by simpa using hl2)
              (fun i s a b c d hs ha hb hc hd => h (i + 1) s a b c d (by simpa using hs) (by simpa using ha) (by simpa using hb) (by simpa using hc)
                (by simpa using hd)) _ ho

section
variable {K : Nat} {added : String → List String} {env env' : Env} (hg : env.Extends K added env')
include hg

theorem serFields_newer {n : Nat} {fl : Flags} {xn xu : Bool} (hxn : fl.excludeNone = xn) (hxu : fl.excludeUnset = xu) {c : String}
    (ih : ∀ s el v enc v' enc' out, Newer env added xn xu s v enc v' enc' → ser env n fl s el v enc = .ok out →
      ser env' (n + K) fl s el v' enc' = .ok out)
    (self self' : Val) (fs d fs' d' : Dict String Val) (set set' : List String) (decl decl' : List Field)
    (hd : Inserted (fun f f' => f'.name = f.name ∧ f'.exclude = f.exclude ∧ f'.ser = f.ser ∧ f.serializer = none ∧ f'.serializer = none)
        (fun f' => f'.name ∈ added c ∧ f'.serializer = none ∧ f'.ser.Addable env' ∧ f'.ser.nesting ≤ K) decl decl')
    (h1 : ∀ f ∈ decl, (fs.get? f.name).isSome → (fs'.get? f.name).isSome) (h2 : ∀ f ∈ decl, (d.get? f.name).isSome → (d'.get? f.name).isSome)
    (h3 : ∀ f ∈ decl, ∀ v enc v' enc', fs.get? f.name = some v → d.get? f.name = some enc → fs'.get? f.name = some v' →
        d'.get? f.name = some enc' → Newer env added xn xu f.ser v enc v' enc')
    (h4 : ∀ f ∈ decl, f.name ∈ set' ↔ f.name ∈ set) (h5 : ∀ name ∈ added c, Unused xn xu fs' set' d' name)
    (el out : Elem) (ho : serFields (ser env n fl) fl self fs set (.dict d) decl el = .ok out) :
    serFields (ser env' (n + K) fl) fl self' fs' set' (.dict d') decl' el = .ok out := by
  induction hd generalizing el with
  | nil => simpa [serFields] using ho
  | @keep f f' decl decl' hf _ ihd =>
    obtain ⟨a1, a2, a3, a4, a5⟩ := hf
    have ihd := fun el => ihd (fun f hf => h1 f (by simp [hf])) (fun f hf => h2 f (by simp [hf])) (fun f hf => h3 f (by simp [hf]))
      (fun f hf => h4 f (by simp [hf])) el
    have hset : set'.contains f.name = set.contains f.name := by
      rw [Bool.eq_iff_iff]
      simpa using h4 f (by simp)
    simp only [serFields, a1, a2, a3, a4, a5, hset] at ho ⊢
    split at ho
    · rename_i hc; rw [if_pos hc]; exact ihd _ ho
    · rename_i hc
      rw [if_neg hc]
      split at ho
      · rename_i hc; rw [if_pos hc]; exact ihd _ ho
      · rename_i hc
        rw [if_neg hc]
        obtain ⟨e, he, ho⟩ := Out.bind_ok ho
        obtain ⟨v, hv, he⟩ := Out.bind_ok he
        obtain ⟨enc, henc, he⟩ := Out.bind_ok he
        simp only [getAttr] at hv
        simp only [getItem] at henc
        cases hv1 : fs.get? f.name with
        | none => rw [hv1] at hv; cases hv
        | some w =>
          rw [hv1] at hv
          cases hv
          cases he1 : d.get? f.name with
          | none => rw [he1] at henc; cases henc
          | some u =>
            rw [he1] at henc
            cases henc
            obtain ⟨v', hv'⟩ := Option.isSome_iff_exists.1 (h1 f (by simp) (by simp [hv1]))
            obtain ⟨e', he'⟩ := Option.isSome_iff_exists.1 (h2 f (by simp) (by simp [he1]))
            simp only [getAttr, getItem, hv', he', Out.bind]
            rw [ih _ _ _ _ _ _ _ (h3 f (by simp) _ _ _ _ hv1 he1 hv' he') he]
            exact ihd _ ho
  | @new f' decl decl' hf _ ihd =>
    obtain ⟨a1, a2, a3, a4⟩ := hf
    have ihd := fun el => ihd h1 h2 h3 h4 el
    simp only [serFields]
    split
    · exact ihd _ ho
    · split
      · exact ihd _ ho
      · rename_i hns
        rcases h5 _ a1 with ⟨b1, b2⟩ | ⟨b1, b2, b3⟩
        · exact absurd (by simp [hxu, b1, b2]) hns
        · simp only [a2, getAttr, b2, getItem, b3, Out.bind]
          rw [a3.silent fl (hxn.trans b1) (n + K) (by omega)]
          exact ihd _ ho

theorem serModel_newer {n : Nat} {fl : Flags} {xn xu : Bool} (hxn : fl.excludeNone = xn) (hxu : fl.excludeUnset = xu)
    (ih : ∀ fl : Flags, fl.excludeNone = xn → fl.excludeUnset = xu → ∀ s el v enc v' enc' out, Newer env added xn xu s v enc v' enc' →
      ser env n fl s el v enc = .ok out → ser env' (n + K) fl s el v' enc' = .ok out)
    {p : Proxy} {v enc v' enc' : Val} (h : Newer env added xn xu (.proxy p) v enc v' enc') (m m' : ModelSer) (hm : env.model p.cls = some m)
    (hmm : m.Extends K (added p.cls) env' m') (el out : Elem) (ho : serModel (ser env n) m fl el v enc = .ok out) :
    serModel (ser env' (n + K)) m' fl el v' enc' = .ok out := by
  obtain ⟨b1, b2, b3, b4⟩ := hmm
  cases h with
  | same hp => cases v <;> simp [Val.isPlain] at hp <;> simp_all [serModel]
  | @fields _ m0 decl cls fs fs' d d' set set' hm0 hb h1 h2 h3 h4 h5 =>
    rw [hm] at hm0
    cases hm0
    rw [hb] at b4
    simp only [serModel, hb] at ho
    simp only [serModel, b3]
    cases hb' : m'.body with
    | root s => rw [hb'] at b4; exact b4.elim
    | fields decl' =>
      rw [hb'] at b4
      exact serFields_newer hg (fl := { fl with skipEmpty := m.skipEmpty.getD fl.skipEmpty }) hxn hxu (ih _ hxn hxu) _ _ fs d fs' d' set set'
        decl decl' b4 h1 h2 h3 h4 h5 el out ho
  | @root _ m0 s cls fs fs' enc enc' set set' hm0 hb h1 h2 h3 =>
    rw [hm] at hm0
    cases hm0
    rw [hb] at b4
    simp only [serModel, hb] at ho
    simp only [serModel, b3]
    cases hb' : m'.body with
    | fields decl' => rw [hb'] at b4; exact b4.elim
    | root s' =>
      rw [hb'] at b4
      simp only at b4 ⊢
      subst b4
      have hset : set'.contains "root" = set.contains "root" := by
        rw [Bool.eq_iff_iff]
        simpa using h3
      rw [hset]
      split at ho
      · rename_i hc; rw [if_pos hc]; exact ho
      · rename_i hc
        rw [if_neg hc]
        obtain ⟨rv, hrv, ho⟩ := Out.bind_ok ho
        simp only [getAttr] at hrv
        cases hv1 : fs.get? "root" with
        | none => rw [hv1] at hrv; cases hrv
        | some w =>
          rw [hv1] at hrv
          cases hrv
          obtain ⟨v', hv'⟩ := Option.isSome_iff_exists.1 (h1 (by simp [hv1]))
          simp only [getAttr, hv', Out.bind]
          exact ih { fl with skipEmpty := m.skipEmpty.getD fl.skipEmpty } hxn hxu _ _ _ _ _ _ _ (h2 _ _ hv1 hv') ho

theorem ser_newer (n : Nat) (xn xu : Bool) (fl : Flags) (hxn : fl.excludeNone = xn) (hxu : fl.excludeUnset = xu) (s : Ser) (el : Elem)
    (v enc v' enc' : Val) (out : Elem) (h : Newer env added xn xu s v enc v' enc') (ho : ser env n fl s el v enc = .ok out) :
    ser env' (n + K) fl s el v' enc' = .ok out := by
  induction n generalizing fl s el v enc v' enc' out with
  | zero => cases ho
  | succ n ih =>
    have hp : pyStr env' = pyStr env := by funext v; cases v <;> simp [pyStr, hg.reprOf]
    have he : encodePrimitive env' = encodePrimitive env := by funext v; cases v <;> simp [encodePrimitive, hp]
    rw [Nat.succ_add]
    simp only [ser] at ho ⊢
    cases s with
    | text c nl => cases h; simpa only [serStep, serText, he] using ho
    | attr name c => cases h; simpa only [serStep, he] using ho
    | attrs a => cases h; simpa only [serStep, serAttrs, hp] using ho
    | elem name nsmap mode c nl => cases h; simpa only [serStep, serText, he, hg.backend] using ho
    | mapElem a name mode => cases h; simpa only [serStep, serAttrs, hp, hg.backend] using ho
    | raw name mode c => cases h; simpa only [serStep, hg.backend] using ho
    | primUnion c inner =>
      simp only [serStep] at ho ⊢
      refine ih fl hxn hxu _ _ _ _ _ _ _ ?_ ho
      cases h with
      | same h => exact .same h
      | primUnion h => exact h
    | wrap path nsmap mode c inner =>
      have hi : Newer env added xn xu inner v enc v' enc' := by
        cases h with
        | same h => exact .same h
        | wrap h => exact h
      obtain ⟨s1, s2⟩ := hi.sizes
      simp only [serStep, s1, s2, hg.backend] at ho ⊢
      split at ho
      · rename_i hc; rw [if_pos hc]; exact ho
      · rename_i hc
        rw [if_neg hc]
        split at ho
        · rename_i hc; rw [if_pos hc]; exact ho
        · rename_i hc
          rw [if_neg hc]
          exact ascend_mono (fun el out ho => ih fl hxn hxu _ _ _ _ _ _ _ hi ho) path el out ho
    | homog title c inner =>
      cases h with
      | same hp =>
        cases v <;> simp [Val.isPlain] at hp <;> simp_all [serStep, Val.isNone]
      | homog hl hl2 h =>
        simp only [serStep, Val.isNone, Bool.false_eq_true, if_false] at ho ⊢
        exact serItems_newer (rec := ser env n fl inner) fl _ _ _ _ hl hl2 (fun i v enc v' enc' a b c d =>
          ⟨(h i v enc v' enc' a b c d).sizes.1, fun el out ho => ih fl hxn hxu _ el _ _ _ _ _ (h i v enc v' enc' a b c d) ho⟩) _ _ ho
    | hetero title c inners =>
      cases h with
      | same hp =>
        cases v <;> simp [Val.isPlain] at hp <;> simp_all [serStep, Val.isNone]
      | @hetero _ _ _ vs encs vs' encs' hl hl2 h =>
        have hem : vs'.isEmpty = vs.isEmpty := by
          cases vs <;> cases vs' <;> simp_all
        simp only [serStep, Val.isNone, Bool.false_eq_true, if_false, hl, hem] at ho ⊢
        split at ho
        · rename_i hc; rw [if_pos hc]; exact ho
        · rename_i hc
          rw [if_neg hc]
          split at ho
          · cases ho
          · rename_i hc
            rw [if_neg hc]
            exact serTuple_newer (rec := ser env n fl) _ _ _ _ _ hl hl2 (fun i s v enc v' enc' x a b c d el out ho =>
              ih fl hxn hxu _ el _ _ _ _ _ (h i s v enc v' enc' x a b c d) ho) _ _ ho
    | modelUnion title c alts =>
      cases h with
      | same hp =>
        cases v <;> simp [Val.isPlain] at hp <;> simp_all [serStep]
      | @modelUnion _ _ _ cls fs fs' set set' enc enc' h =>
        simp only [serStep] at ho ⊢
        cases hf : alts.find? (fun p => p.cls = cls) with
        | none => rw [hf] at ho; exact ho
        | some p =>
          rw [hf] at ho
          exact ih fl hxn hxu _ _ _ _ _ _ _ (h p hf) ho
    | tagged c discr attrName mode alts =>
      cases h with
      | same hp =>
        have hpx : ∀ p, Newer env added xn xu (.proxy p) v enc v enc := fun p => .same hp
        simp only [serStep] at ho ⊢
        cases enc with
        | dict d =>
          simp only at ho ⊢
          cases hd : Dict.get? d discr with
          | none => rw [hd] at ho; exact ho
          | some x =>
            rw [hd] at ho
            cases x with
            | str tag =>
              simp only at ho ⊢
              split at ho
              · rename_i hc; rw [if_pos hc]; exact ho
              · rename_i hc
                rw [if_neg hc]
                cases ha : Dict.get? alts tag with
                | none => rw [ha] at ho; cases ho
                | some p => rw [ha] at ho; exact ih fl hxn hxu _ _ _ _ _ _ _ (hpx p) ho
            | none => exact ho
            | _ => cases ho
        | _ => cases ho
      | @tagged _ _ _ _ _ cls fs fs' d d' set set' hd' h =>
        simp only [serStep, hd'] at ho ⊢
        cases hd : Dict.get? d discr with
        | none => rw [hd] at ho; exact ho
        | some x =>
          rw [hd] at ho
          cases x with
          | str tag =>
            simp only at ho ⊢
            split at ho
            · rename_i hc; rw [if_pos hc]; exact ho
            · rename_i hc
              rw [if_neg hc]
              cases ha : Dict.get? alts tag with
              | none => rw [ha] at ho; cases ho
              | some p => rw [ha] at ho; exact ih fl hxn hxu _ _ _ _ _ _ _ (h tag p hd ha) ho
          | none => exact ho
          | _ => cases ho
    | proxy p =>
      obtain ⟨s1, _⟩ := h.sizes
      simp only [serStep] at ho ⊢
      cases hm : env.model p.cls with
      | none => rw [hm] at ho; cases ho
      | some m =>
        obtain ⟨m', hm', hmm⟩ := hg.models _ _ hm
        rw [hm] at ho
        simp only [hm', s1, hg.backend] at ho ⊢
        split at ho
        · rename_i hc; rw [if_pos hc]; exact ho
        · rename_i hc
          rw [if_neg hc]
          split at ho
          · rename_i hc; rw [if_pos hc]; exact ho
          · rename_i hc
            rw [if_neg hc]
            split at ho
            · rename_i hc; rw [if_pos hc]; exact ho
            · rename_i hc
              rw [if_neg hc]
              obtain ⟨sub, hs, ho⟩ := Out.bind_ok ho
              rw [serModel_newer hg hxn hxu (fun fl a b s el v enc v' enc' out h ho => ih fl a b s el v enc v' enc' out h ho) h m m' hm hmm _ _ hs]
              exact ho
end

end PXml
