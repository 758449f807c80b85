import Verif.SpecWrite
import Verif.Lemmas.Write
import Verif.Lemmas.NoCrash

/-! Writing ends, and succeeds exactly for values of the right shape. -/

namespace PXml

open Elem

theorem exists_fuel {α : Type} (l : List α) {P : α → Nat → Prop} (h : ∀ a ∈ l, ∃ N, ∀ n, N ≤ n → P a n) :
    ∃ N, ∀ n, N ≤ n → ∀ a ∈ l, P a n := by
  induction l with
  | nil => exact ⟨0, fun _ _ _ h => by cases h⟩
  | cons a l ih =>
    obtain ⟨N1, h1⟩ := h a (List.mem_cons_self ..)
    obtain ⟨N2, h2⟩ := ih fun b hb => h b (List.mem_cons_of_mem _ hb)
    refine ⟨max N1 N2, fun n hn b hb => ?_⟩
    rcases List.mem_cons.mp hb with rfl | hb
    · exact h1 n (Nat.le_trans (Nat.le_max_left ..) hn)
    · exact h2 n (Nat.le_trans (Nat.le_max_right ..) hn) b hb

/-! ## Writing ends -/

/-- Does not run out of fuel. -/
abbrev WriteEnds {α : Type} (o : Out α) : Prop := o ≠ .diverge

theorem WriteEnds.bind {α β : Type} {o : Out α} {f : α → Out β} (h : WriteEnds o) (hf : ∀ a, WriteEnds (f a)) : WriteEnds (o.bind f) := by
  cases o with
  | ok a => exact hf a
  | verr e => exact fun h => by cases h
  | crash e => exact fun h => by cases h
  | diverge => exact absurd rfl h

theorem WriteEnds.ok {α : Type} {a : α} : WriteEnds (.ok a) := fun h => by cases h
theorem WriteEnds.crash {α : Type} {e : PyErr} : WriteEnds (.crash e : Out α) := fun h => by cases h

theorem serAttrs_ends (env : Env) (a : AttrsSer) (el : Elem) (v enc : Val) : WriteEnds (serAttrs env a el v enc) := by
  unfold serAttrs
  split
  · exact .ok
  · cases enc <;> (intro h; cases h)

theorem ascend_ends {b : Backend} {mode : Mode} {nsmap : Option NsMap} {f : Elem → Out Elem} (hf : ∀ e, WriteEnds (f e)) :
    ∀ (path : List String) (el : Elem), WriteEnds (ascend b mode nsmap f path el)
  | [], el => hf el
  | t :: ts, el => by
    simp only [ascend]
    split
    · exact .crash
    · split
      · exact .crash
      · exact (ascend_ends hf ts _).bind fun _ => .ok
    · exact (ascend_ends hf ts _).bind fun _ => .ok

theorem serItems_ends {rec : Elem → Val → Val → Out Elem} {fl : Flags} : ∀ (vs encs : List Val) (el : Elem),
    (∀ v ∈ vs, ∀ enc ∈ encs, ∀ e, WriteEnds (rec e v enc)) → WriteEnds (serItems rec fl vs encs el)
  | [], _, _, _ => by unfold serItems; exact .ok
  | _ :: _, [], _, _ => by unfold serItems; exact .ok
  | v :: vs, enc :: encs, el, h => by
    have ih := fun el => serItems_ends (fl := fl) vs encs el fun v hv enc he => h v (.tail _ hv) enc (.tail _ he)
    unfold serItems
    split
    · exact ih el
    · exact (h v (.head _) enc (.head _) el).bind ih

theorem serTuple_ends {rec : Ser → Elem → Val → Val → Out Elem} : ∀ (ss : List Ser) (vs encs : List Val) (el : Elem),
    (∀ s ∈ ss, ∀ v ∈ vs, ∀ enc ∈ encs, ∀ e, WriteEnds (rec s e v enc)) → WriteEnds (serTuple rec ss vs encs el)
  | [], _, _, _, _ => by unfold serTuple; exact .ok
  | _ :: _, [], _, _, _ => by unfold serTuple; exact .ok
  | _ :: _, _ :: _, [], _, _ => by unfold serTuple; exact .ok
  | s :: ss, v :: vs, enc :: encs, el, h => by
    unfold serTuple
    exact (h s (.head _) v (.head _) enc (.head _) el).bind fun el =>
      serTuple_ends ss vs encs el fun s hs v hv enc he => h s (.tail _ hs) v (.tail _ hv) enc (.tail _ he)

theorem getAttr_ends (d : Dict String Val) (k : String) : WriteEnds (getAttr d k) := by unfold getAttr; split <;> (intro h; cases h)

theorem getItem_ends (v : Val) (k : String) : WriteEnds (getItem v k) := by
  unfold getItem
  split
  · split <;> (intro h; cases h)
  · intro h; cases h

theorem serFields_ends {rec : Ser → Elem → Val → Val → Out Elem} {fl : Flags} {self : Val} {fields : Dict String Val} {set : List String}
    {enc : Val} : ∀ (fs : List Field) (el : Elem),
    (∀ f ∈ fs, ∀ g, f.serializer = some g → ∀ e v, WriteEnds (g self e v)) →
    (∀ f ∈ fs, ∀ v, fields.get? f.name = some v → ∀ e x, enc.entry? f.name = some x → WriteEnds (rec f.ser e v x)) →
    WriteEnds (serFields rec fl self fields set enc fs el)
  | [], _, _, _ => by unfold serFields; exact .ok
  | f :: fs, el, hg, h => by
    have ih := fun el => serFields_ends (fl := fl) (set := set) fs el (fun f hf => hg f (.tail _ hf)) (fun f hf => h f (.tail _ hf))
    unfold serFields
    split
    · exact ih el
    · split
      · exact ih el
      · refine WriteEnds.bind ?_ ih
        split
        · rename_i g hs
          exact (getAttr_ends _ _).bind fun v => hg f (.head _) g hs el v
        · unfold getAttr getItem
          cases hv : fields.get? f.name with
          | none => exact .crash
          | some v =>
            cases enc with
            | dict d =>
              simp only [Out.bind]
              cases hx : Dict.get? d f.name with
              | none => exact .crash
              | some x => exact h f (.head _) v hv el x hx
            | _ => exact .crash

theorem get?_mem {α : Type} {d : Dict String α} {k : String} {v : α} (h : d.get? k = some v) : (k, v) ∈ d := by
  induction d with
  | nil => cases h
  | cons kv d ih =>
    simp only [Dict.get?] at h
    split at h
    · rename_i hk
      cases h
      subst hk
      exact .head _
    · exact .tail _ (ih h)

theorem sizeOf_get? {d : List (String × Val)} {k : String} {v : Val} (h : Dict.get? d k = some v) : sizeOf v < sizeOf d := by
  have := List.sizeOf_lt_of_mem (get?_mem h)
  simp only [Prod.mk.sizeOf_spec] at this
  omega

theorem serModel_ends {env : Env} (hs : env.SerializersTerminate) {cls : String} {m : ModelSer} (hm : env.model cls = some m) (fl : Flags)
    (v enc : Val)
    (ih : ∀ fl s v', sizeOf v' < sizeOf v → ∀ enc, ∃ N, ∀ n, N ≤ n → ∀ el, WriteEnds (ser env n fl s el v' enc)) :
    ∃ N, ∀ n, N ≤ n → ∀ el, WriteEnds (serModel (ser env n) m fl el v enc) := by
  cases v with
  | model c fields set =>
    cases hb : m.body with
    | fields fs =>
      obtain ⟨N, hN⟩ := exists_fuel fs (P := fun f n => ∀ x y, Dict.get? fields f.name = some x → enc.entry? f.name = some y → ∀ el,
          WriteEnds (ser env n { fl with skipEmpty := m.skipEmpty.getD fl.skipEmpty } f.ser el x y)) (by
        intro f hf
        cases hx : Dict.get? fields f.name with
        | none => exact ⟨0, fun n _ x y h => by cases h⟩
        | some x =>
          cases hy : enc.entry? f.name with
          | none => exact ⟨0, fun n _ x y _ h => by cases h⟩
          | some y =>
            obtain ⟨N, hN⟩ := ih { fl with skipEmpty := m.skipEmpty.getD fl.skipEmpty } f.ser x
              (by have := sizeOf_get? hx; simp only [Val.model.sizeOf_spec]; omega) y
            refine ⟨N, fun n hn x' y' h1 h2 el => ?_⟩
            cases h1; cases h2
            exact hN n hn el)
      refine ⟨N, fun n hn el => ?_⟩
      simp only [serModel, hb]
      exact serFields_ends fs el (fun f hf g hg e v => hs cls m fs hm hb f hf g hg _ e v)
        fun f hf v hv e x hx => hN n hn f hf v x hv hx e
    | root s =>
      cases hx : Dict.get? fields "root" with
      | none =>
        refine ⟨0, fun n _ el => ?_⟩
        simp only [serModel, hb, getAttr, hx]
        split
        · exact .ok
        · exact .crash
      | some x =>
        obtain ⟨N, hN⟩ := ih { fl with skipEmpty := m.skipEmpty.getD fl.skipEmpty } s x
          (by have := sizeOf_get? hx; simp only [Val.model.sizeOf_spec]; omega) enc
        refine ⟨N, fun n hn el => ?_⟩
        simp only [serModel, hb, getAttr, hx]
        split
        · exact .ok
        · exact hN n hn el
  | none => exact ⟨0, fun _ _ _ => .ok⟩
  | _ => exact ⟨0, fun _ _ _ => .crash⟩

theorem ser_ends {env : Env} (hs : env.SerializersTerminate) (fl : Flags) (s : Ser) (v enc : Val) :
    ∃ N, ∀ n, N ≤ n → ∀ el, WriteEnds (ser env n fl s el v enc) := by
  have step : (∃ N, ∀ n, N ≤ n → ∀ el, WriteEnds (serStep env (ser env n) fl s el v enc)) →
      ∃ N, ∀ n, N ≤ n → ∀ el, WriteEnds (ser env n fl s el v enc) := by
    rintro ⟨N, hN⟩
    refine ⟨N + 1, fun n hn el => ?_⟩
    cases n with
    | zero => omega
    | succ n => exact hN n (by omega) el
  have model : ∀ {cls : String} {m : ModelSer}, env.model cls = some m →
      ∃ N, ∀ n, N ≤ n → ∀ el, WriteEnds (serModel (ser env n) m fl el v enc) := fun hm =>
    serModel_ends hs hm fl v enc fun fl s v' _ enc => ser_ends hs fl s v' enc
  have proxy : ∀ p : Proxy, ∃ N, ∀ n, N ≤ n → ∀ el, WriteEnds (serStep env (ser env n) fl (.proxy p) el v enc) := by
    intro p
    cases hm : env.model p.cls with
    | none => exact ⟨0, fun n _ el => by simp only [serStep, hm]; exact .crash⟩
    | some m =>
      obtain ⟨N, hN⟩ := model hm
      refine ⟨N, fun n hn el => ?_⟩
      simp only [serStep, hm]
      split
      · exact .ok
      · split
        · exact .ok
        · split
          · exact .ok
          · exact (hN n hn _).bind fun _ => .ok
  have proxy' : ∀ p : Proxy, ∃ N, ∀ n, N ≤ n → ∀ el, WriteEnds (ser env n fl (.proxy p) el v enc) := by
    intro p
    obtain ⟨N, hN⟩ := proxy p
    refine ⟨N + 1, fun n hn el => ?_⟩
    cases n with
    | zero => omega
    | succ n => exact hN n (by omega) el
  apply step
  cases s with
  | text c nillable => exact ⟨0, fun n _ el => .ok⟩
  | attr name c => exact ⟨0, fun n _ el => by simp only [serStep]; split <;> exact .ok⟩
  | elem name nsmap mode c nillable => exact ⟨0, fun n _ el => by simp only [serStep]; split <;> exact .ok⟩
  | attrs a => exact ⟨0, fun n _ el => serAttrs_ends env a el v enc⟩
  | mapElem a name mode =>
    refine ⟨0, fun n _ el => ?_⟩
    simp only [serStep]
    split
    · split
      · exact .crash
      · exact .ok
      · exact WriteEnds.bind (serAttrs_ends env a _ v enc) fun _ => .ok
    · exact WriteEnds.bind (serAttrs_ends env a _ v enc) fun _ => .ok
  | raw name mode c =>
    refine ⟨0, fun n _ el => ?_⟩
    simp only [serStep]
    cases v <;> (intro h; cases h)
  | proxy p => exact proxy p
  | primUnion c inner => exact ser_ends hs fl inner v enc
  | modelUnion title c alts =>
    simp only [serStep]
    cases v with
    | model cls fields set =>
      simp only
      cases alts.find? (fun p => p.cls = cls) with
      | none => exact ⟨0, fun n _ el => .ok⟩
      | some p => exact proxy' p
    | _ => exact ⟨0, fun n _ el => .ok⟩
  | tagged c discr attrName mode alts =>
    simp only [serStep]
    cases enc with
    | dict d =>
      simp only
      cases Dict.get? d discr with
      | none => exact ⟨0, fun n _ el => .ok⟩
      | some x =>
        cases x with
        | str tag =>
          simp only
          split
          · exact ⟨0, fun n _ el => .ok⟩
          · cases Dict.get? alts tag with
            | none => exact ⟨0, fun n _ el => .crash⟩
            | some p => exact proxy' p
        | none => exact ⟨0, fun n _ el => .ok⟩
        | _ => exact ⟨0, fun n _ el => .crash⟩
    | _ => exact ⟨0, fun n _ el => .crash⟩
  | wrap path nsmap mode c inner =>
    obtain ⟨N, hN⟩ := ser_ends hs fl inner v enc
    refine ⟨N, fun n hn el => ?_⟩
    simp only [serStep]
    split
    · exact .ok
    · split
      · exact .ok
      · exact ascend_ends (fun e => hN n hn e) path el
  | homog title c inner =>
    simp only [serStep]
    split
    · exact ⟨0, fun n _ el => .ok⟩
    · cases v with
      | list vs =>
        cases enc with
        | list encs =>
          simp only
          obtain ⟨N, hN⟩ := exists_fuel vs (P := fun v n => ∀ enc ∈ encs, ∀ el, WriteEnds (ser env n fl inner el v enc)) fun v hv =>
            exists_fuel encs fun enc _ =>
              have : sizeOf v < sizeOf (Val.list vs) := by
                have := List.sizeOf_lt_of_mem hv
                simp only [Val.list.sizeOf_spec]; omega
              ser_ends hs fl inner v enc
          exact ⟨N, fun n hn el => serItems_ends vs encs el fun v hv enc he e => hN n hn v hv enc he e⟩
        | _ => exact ⟨0, fun n _ el => .crash⟩
      | _ => exact ⟨0, fun n _ el => .crash⟩
  | hetero title c inners =>
    simp only [serStep]
    split
    · exact ⟨0, fun n _ el => .ok⟩
    · cases v with
      | list vs =>
        cases enc with
        | list encs =>
          simp only
          split
          · exact ⟨0, fun n _ el => .ok⟩
          · split
            · exact ⟨0, fun n _ el => .crash⟩
            · obtain ⟨N, hN⟩ := exists_fuel inners (P := fun s n => ∀ v ∈ vs, ∀ enc ∈ encs, ∀ el, WriteEnds (ser env n fl s el v enc))
                fun s hs' => exists_fuel vs fun v hv => exists_fuel encs fun enc _ =>
                  have : sizeOf v < sizeOf (Val.list vs) := by
                    have := List.sizeOf_lt_of_mem hv
                    simp only [Val.list.sizeOf_spec]; omega
                  ser_ends hs fl s v enc
              exact ⟨N, fun n hn el => serTuple_ends inners vs encs el fun s hs' v hv enc he e => hN n hn s hs' v hv enc he e⟩
        | _ => exact ⟨0, fun n _ el => .crash⟩
      | _ => exact ⟨0, fun n _ el => .crash⟩
termination_by (sizeOf v, sizeOf s)

/-! ## What has been written has the right shape -/

theorem serItems_ok {rec : Elem → Val → Val → Out Elem} {fl : Flags} : ∀ (vs encs : List Val) (el el' : Elem),
    serItems rec fl vs encs el = .ok el' → ∀ (i : Nat) (v enc : Val), vs[i]? = some v → encs[i]? = some enc →
      (fl.skipEmpty = true → v ≠ .none) → ∃ e e', rec e v enc = .ok e'
  | [], _, _, _, _, i, v, enc, h1, _, _ => by cases h1
  | _ :: _, [], _, _, _, i, v, enc, _, h2, _ => by cases h2
  | v :: vs, enc :: encs, el, el', h, i, v', enc', h1, h2, h3 => by
    unfold serItems at h
    by_cases hb : (fl.skipEmpty && v.isNone) = true
    · rw [if_pos hb] at h
      cases i with
      | zero =>
        simp only [List.getElem?_cons_zero, Option.some.injEq] at h1
        subst h1
        simp only [Bool.and_eq_true] at hb
        have := h3 hb.1
        cases v <;> simp_all [Val.isNone]
      | succ i => exact serItems_ok vs encs el el' h i v' enc' (by simpa using h1) (by simpa using h2) h3
    · rw [if_neg hb] at h
      obtain ⟨e1, he1, h'⟩ := bind_ok h
      cases i with
      | zero =>
        simp only [List.getElem?_cons_zero, Option.some.injEq] at h1 h2
        subst h1 h2
        exact ⟨el, e1, he1⟩
      | succ i => exact serItems_ok vs encs e1 el' h' i v' enc' (by simpa using h1) (by simpa using h2) h3

theorem serTuple_ok {rec : Ser → Elem → Val → Val → Out Elem} : ∀ (ss : List Ser) (vs encs : List Val) (el el' : Elem),
    serTuple rec ss vs encs el = .ok el' → ∀ (i : Nat) (s : Ser) (v enc : Val), ss[i]? = some s → vs[i]? = some v →
      encs[i]? = some enc → ∃ e e', rec s e v enc = .ok e'
  | [], _, _, _, _, _, i, s, v, enc, h0, _, _ => by cases h0
  | _ :: _, [], _, _, _, _, i, s, v, enc, _, h1, _ => by cases h1
  | _ :: _, _ :: _, [], _, _, _, i, s, v, enc, _, _, h2 => by cases h2
  | s :: ss, v :: vs, enc :: encs, el, el', h, i, s', v', enc', h0, h1, h2 => by
    unfold serTuple at h
    obtain ⟨e1, he1, h'⟩ := bind_ok h
    cases i with
    | zero =>
      simp only [List.getElem?_cons_zero, Option.some.injEq] at h0 h1 h2
      subst h0 h1 h2
      exact ⟨el, e1, he1⟩
    | succ i =>
      exact serTuple_ok ss vs encs e1 el' h' i s' v' enc' (by simpa using h0) (by simpa using h1) (by simpa using h2)

theorem getAttr_ok {d : Dict String Val} {k : String} {v : Val} (h : getAttr d k = .ok v) : d.get? k = some v := by
  unfold getAttr at h
  split at h
  · cases h; assumption
  · cases h

theorem getItem_ok {enc : Val} {k : String} {v : Val} (h : getItem enc k = .ok v) : enc.entry? k = some v := by
  unfold getItem at h
  split at h
  · split at h
    · cases h; assumption
    · cases h
  · cases h

theorem serFields_ok {rec : Ser → Elem → Val → Val → Out Elem} {fl : Flags} {self : Val} {fields : Dict String Val} {set : List String}
    {enc : Val} : ∀ (fs : List Field) (el el' : Elem), serFields rec fl self fields set enc fs el = .ok el' →
    ∀ f ∈ fs, f.Included fl set → ∃ v, fields.get? f.name = some v ∧
      (f.serializer = none → ∃ x, enc.entry? f.name = some x ∧ ∃ e e', rec f.ser e v x = .ok e')
  | [], _, _, _, f, hf, _ => by cases hf
  | f :: fs, el, el', h, f', hf, hi => by
    unfold serFields at h
    by_cases h1 : f.exclude = true
    · rw [if_pos h1] at h
      rcases List.mem_cons.mp hf with rfl | hf
      · exact absurd hi.1 (by simp [h1])
      · exact serFields_ok fs el el' h f' hf hi
    · rw [if_neg h1] at h
      by_cases h2 : (fl.excludeUnset && !set.contains f.name) = true
      · rw [if_pos h2] at h
        rcases List.mem_cons.mp hf with rfl | hf
        · simp only [Bool.and_eq_true, Bool.not_eq_true', List.contains_eq_mem, decide_eq_false_iff_not] at h2
          exact absurd (hi.2 h2.1) h2.2
        · exact serFields_ok fs el el' h f' hf hi
      · rw [if_neg h2] at h
        obtain ⟨e1, he1, h'⟩ := bind_ok h
        rcases List.mem_cons.mp hf with rfl | hf
        · cases hs : f'.serializer with
          | some g =>
            rw [hs] at he1
            obtain ⟨v, hv, _⟩ := bind_ok he1
            exact ⟨v, getAttr_ok hv, fun h => by cases h⟩
          | none =>
            rw [hs] at he1
            obtain ⟨v, hv, he1⟩ := bind_ok he1
            obtain ⟨x, hx, he1⟩ := bind_ok he1
            exact ⟨v, getAttr_ok hv, fun _ => ⟨x, getItem_ok hx, el, e1, he1⟩⟩
        · exact serFields_ok fs e1 el' h' f' hf hi

theorem ascend_ok {b : Backend} {mode : Mode} {nsmap : Option NsMap} {f : Elem → Out Elem} : ∀ (path : List String) (el el' : Elem),
    ascend b mode nsmap f path el = .ok el' → ∃ e e', f e = .ok e'
  | [], el, el', h => ⟨el, el', h⟩
  | t :: ts, el, el', h => by
    simp only [ascend] at h
    split at h
    · cases h
    · split at h
      · cases h
      · obtain ⟨c', h1, _⟩ := bind_ok h
        exact ascend_ok ts _ _ h1
    · obtain ⟨c', h1, _⟩ := bind_ok h
      exact ascend_ok ts _ _ h1

theorem Val.eq_none_of_isNone {v : Val} (h : v.isNone = true) : v = .none := by cases v <;> simp_all [Val.isNone]

theorem serAttrs_ok_iff {env : Env} {a : AttrsSer} {el : Elem} {v enc : Val} :
    (∃ el', serAttrs env a el v enc = .ok el') ↔ v = .none ∨ enc.IsDict := by
  unfold serAttrs
  constructor
  · rintro ⟨el', h⟩
    split at h
    · rename_i hv; exact .inl (Val.eq_none_of_isNone hv)
    · cases enc with
      | dict d => exact .inr ⟨d, rfl⟩
      | _ => cases h
  · rintro (rfl | ⟨d, rfl⟩)
    · exact ⟨el, rfl⟩
    · split
      · exact ⟨_, rfl⟩
      · exact ⟨_, rfl⟩

theorem serModel_shaped {env : Env} {n : Nat} {m : ModelSer}
    (ih : ∀ fl s el el' v enc, ser env n fl s el v enc = .ok el' → Shaped env fl (.field s v enc)) (fl : Flags) (el el' : Elem) (v enc : Val)
    (h : serModel (ser env n) m fl el v enc = .ok el') : Shaped env fl (.model m v enc) := by
  cases v with
  | none => exact .none
  | model cls fields set =>
    cases hb : m.body with
    | fields fs =>
      simp only [serModel, hb] at h
      have h := serFields_ok fs _ _ h
      refine .fields (fun f => (Dict.get? fields f.name).getD .none) (fun f => (enc.entry? f.name).getD .none) hb ?_ ?_ ?_
      · intro f hf hi
        obtain ⟨v, hv, _⟩ := h f hf hi
        rw [hv]; rfl
      · intro f hf hi hs
        obtain ⟨v, hv, h⟩ := h f hf hi
        obtain ⟨x, hx, _⟩ := h hs
        rw [hx]; rfl
      · intro f hf hi hs
        obtain ⟨v, hv, h⟩ := h f hf hi
        obtain ⟨x, hx, e, e', h⟩ := h hs
        rw [hv, hx]
        exact ih _ _ _ _ _ _ h
    | root s =>
      simp only [serModel, hb] at h
      by_cases h2 : (fl.excludeUnset && !set.contains "root") = true
      · simp only [Bool.and_eq_true, Bool.not_eq_true', List.contains_eq_mem, decide_eq_false_iff_not] at h2
        exact .rootUnset hb h2.1 h2.2
      · rw [if_neg h2] at h
        obtain ⟨x, hx, h⟩ := bind_ok h
        exact .root hb (getAttr_ok hx) (ih _ _ _ _ _ _ h)
  | _ => cases h

theorem ser_shaped {env : Env} (n : Nat) : ∀ (fl : Flags) (s : Ser) (el el' : Elem) (v enc : Val), ser env n fl s el v enc = .ok el' →
    Shaped env fl (.field s v enc) := by
  induction n with
  | zero => intro fl s el el' v enc h; cases h
  | succ n ih =>
    intro fl s el el' v enc h
    change serStep env (ser env n) fl s el v enc = .ok el' at h
    cases s with
    | text c nillable => exact .text
    | attr name c => exact .attr
    | elem name nsmap mode c nillable => exact .elem
    | attrs a => exact .attrs (serAttrs_ok_iff.mp ⟨_, h⟩)
    | mapElem a name mode =>
      simp only [serStep] at h
      by_cases hs : fl.skipEmpty = true
      · rw [if_pos hs] at h
        refine .mapElem (fun h => by simp [hs] at h) fun _ => ?_
        split at h
        · cases h
        · rename_i h0; exact .inl h0
        · rename_i k hk
          obtain ⟨sub, h1, _⟩ := bind_ok h
          rcases serAttrs_ok_iff.mp ⟨_, h1⟩ with rfl | hd
          · cases hk
          · exact .inr ⟨by simp [hk], hd⟩
      · rw [if_neg hs] at h
        obtain ⟨sub, h1, _⟩ := bind_ok h
        exact .mapElem (fun _ => serAttrs_ok_iff.mp ⟨_, h1⟩) fun h => absurd h hs
    | raw name mode c =>
      simp only [serStep] at h
      cases v with
      | none => exact .rawNone
      | raw node => exact .raw
      | _ => cases h
    | proxy p =>
      simp only [serStep] at h
      split at h
      · cases h
      · rename_i m hm
        by_cases hv : v.isNone = true
        · cases Val.eq_none_of_isNone hv
          exact .proxyNone hm
        · simp only [hv, Bool.and_false, Bool.false_eq_true, if_false] at h
          obtain ⟨sub, h1, _⟩ := bind_ok h
          exact .proxy hm (serModel_shaped ih _ _ _ _ _ h1)
    | primUnion c inner => exact .primUnion (ih _ _ _ _ _ _ h)
    | modelUnion title c alts =>
      simp only [serStep] at h
      cases v with
      | model cls fields set =>
        simp only at h
        cases hf : alts.find? (fun p => p.cls = cls) with
        | none =>
          refine .modelUnionOther fun p hp fields' set' he => ?_
          cases he
          have := List.find?_eq_none.mp hf p hp
          simp at this
        | some p =>
          rw [hf] at h
          obtain ⟨hp, pre, post, rfl, hpre⟩ := List.find?_eq_some_iff_append.mp hf
          exact .modelUnion (by simpa using hp) (fun q hq => by simpa using hpre q hq) (ih _ _ _ _ _ _ h)
      | _ => exact .modelUnionOther fun p hp fields' set' he => by cases he
    | tagged c discr attrName mode alts =>
      simp only [serStep] at h
      cases enc with
      | dict d =>
        simp only at h
        cases hx : Dict.get? d discr with
        | none => exact .taggedNone ⟨d, rfl⟩ (.inl hx)
        | some x =>
          rw [hx] at h
          cases x with
          | str tag =>
            simp only at h
            by_cases ht : tag = ""
            · subst ht; exact .taggedNone ⟨d, rfl⟩ (.inr (.inr hx))
            · rw [if_neg ht] at h
              cases ha : Dict.get? alts tag with
              | none => rw [ha] at h; cases h
              | some p =>
                rw [ha] at h
                exact .tagged hx ht ha (ih _ _ _ _ _ _ h)
          | none => exact .taggedNone ⟨d, rfl⟩ (.inr (.inl hx))
          | _ => cases h
      | _ => cases h
    | wrap path nsmap mode c inner =>
      simp only [serStep] at h
      by_cases hv : v.isNone = true
      · exact .wrapNone (.inl (Val.eq_none_of_isNone hv))
      · rw [if_neg hv] at h
        split at h
        · rename_i he
          simp only [Bool.and_eq_true, decide_eq_true_eq] at he
          exact .wrapNone (.inr he)
        · obtain ⟨e, e', h⟩ := ascend_ok _ _ _ h
          exact .wrap (ih _ _ _ _ _ _ h)
    | homog title c inner =>
      simp only [serStep] at h
      by_cases hv : v.isNone = true
      · cases Val.eq_none_of_isNone hv
        exact .homogNone
      · rw [if_neg hv] at h
        split at h
        · refine .homog fun i v enc h1 h2 h3 => ?_
          obtain ⟨e, e', h⟩ := serItems_ok _ _ _ _ h i v enc h1 h2 h3
          exact ih _ _ _ _ _ _ h
        · cases h
    | hetero title c inners =>
      simp only [serStep] at h
      by_cases hv : v.isNone = true
      · cases Val.eq_none_of_isNone hv
        exact .heteroNone
      · rw [if_neg hv] at h
        split at h
        · rename_i vs encs
          by_cases he : (fl.skipEmpty && vs.isEmpty) = true
          · simp only [Bool.and_eq_true, List.isEmpty_iff] at he
            obtain ⟨he, rfl⟩ := he
            exact .heteroEmpty he
          · rw [if_neg he] at h
            by_cases hl : vs.length ≠ inners.length
            · rw [if_pos hl] at h; cases h
            · rw [if_neg hl] at h
              refine .hetero (by omega) fun i s v enc h0 h1 h2 => ?_
              obtain ⟨e, e', h⟩ := serTuple_ok _ _ _ _ _ h i s v enc h0 h1 h2
              exact ih _ _ _ _ _ _ h
        · cases h

/-! ## What has the right shape is written -/

/-- Succeeds for every element. -/
abbrev Succeeds (f : Elem → Out Elem) : Prop := ∀ el : Elem, el.Good → ∃ el', f el = .ok el' ∧ el'.Good

theorem serItems_succeeds {rec : Elem → Val → Val → Out Elem} {fl : Flags} : ∀ (vs encs : List Val),
    (∀ (i : Nat) (v enc : Val), vs[i]? = some v → encs[i]? = some enc → (fl.skipEmpty = true → v ≠ .none) → Succeeds (rec · v enc)) →
    Succeeds (serItems rec fl vs encs)
  | [], _, _, el, hg => ⟨el, by unfold serItems; rfl, hg⟩
  | _ :: _, [], _, el, hg => ⟨el, by unfold serItems; rfl, hg⟩
  | v :: vs, enc :: encs, h, el, hg => by
    have ih := serItems_succeeds vs encs fun i v' enc' h1 h2 h3 => h (i + 1) v' enc' (by simpa using h1) (by simpa using h2) h3
    unfold serItems
    by_cases hb : (fl.skipEmpty && v.isNone) = true
    · rw [if_pos hb]; exact ih el hg
    · rw [if_neg hb]
      obtain ⟨e1, h1, hg1⟩ := h 0 v enc rfl rfl (fun hs hv => hb (by subst hv; simp [hs, Val.isNone])) el hg
      simp only [] at h1
      rw [h1]
      exact ih e1 hg1

theorem serTuple_succeeds {rec : Ser → Elem → Val → Val → Out Elem} : ∀ (ss : List Ser) (vs encs : List Val),
    (∀ (i : Nat) (s : Ser) (v enc : Val), ss[i]? = some s → vs[i]? = some v → encs[i]? = some enc → Succeeds (rec s · v enc)) →
    Succeeds (serTuple rec ss vs encs)
  | [], _, _, _, el, hg => ⟨el, by unfold serTuple; rfl, hg⟩
  | _ :: _, [], _, _, el, hg => ⟨el, by unfold serTuple; rfl, hg⟩
  | _ :: _, _ :: _, [], _, el, hg => ⟨el, by unfold serTuple; rfl, hg⟩
  | s :: ss, v :: vs, enc :: encs, h, el, hg => by
    have ih := serTuple_succeeds ss vs encs fun i s' v' enc' h0 h1 h2 =>
      h (i + 1) s' v' enc' (by simpa using h0) (by simpa using h1) (by simpa using h2)
    unfold serTuple
    obtain ⟨e1, h1, hg1⟩ := h 0 s v enc rfl rfl rfl el hg
    simp only [] at h1
    rw [h1]
    exact ih e1 hg1

theorem serFields_succeeds {rec : Ser → Elem → Val → Val → Out Elem} {fl : Flags} {self : Val} {fields : Dict String Val}
    {set : List String} {enc : Val} : ∀ (fs : List Field),
    (∀ f ∈ fs, f.Included fl set → ∃ v, fields.get? f.name = some v ∧ (∀ g, f.serializer = some g → Succeeds (g self · v)) ∧
      (f.serializer = none → ∃ x, enc.entry? f.name = some x ∧ Succeeds (rec f.ser · v x))) →
    Succeeds (serFields rec fl self fields set enc fs)
  | [], _, el, hg => ⟨el, by unfold serFields; rfl, hg⟩
  | f :: fs, h, el, hg => by
    have ih := serFields_succeeds (rec := rec) fs fun f hf => h f (.tail _ hf)
    unfold serFields
    by_cases h1 : f.exclude = true
    · rw [if_pos h1]; exact ih el hg
    · rw [if_neg h1]
      by_cases h2 : (fl.excludeUnset && !set.contains f.name) = true
      · rw [if_pos h2]; exact ih el hg
      · rw [if_neg h2]
        obtain ⟨v, hv, hc, hn⟩ := h f (.head _) ⟨by simpa using h1, by
          intro hu
          simpa [hu] using h2⟩
        have hv' : getAttr fields f.name = .ok v := by simp [getAttr, hv]
        cases hs : f.serializer with
        | some g =>
          obtain ⟨e1, h3, hg1⟩ := hc g hs el hg
          simp only [hv', Out.bind, h3]
          exact ih e1 hg1
        | none =>
          obtain ⟨x, hx, hr⟩ := hn hs
          obtain ⟨e1, h3, hg1⟩ := hr el hg
          have hx' : getItem enc f.name = .ok x := by
            unfold Val.entry? at hx
            unfold getItem
            split at hx
            · simp [hx]
            · cases hx
          simp only [hv', hx', Out.bind, h3]
          exact ih e1 hg1

theorem ascend_succeeds {b : Backend} {mode : Mode} {nsmap : Option NsMap} {f : Elem → Out Elem} (hf : Succeeds f) :
    ∀ (path : List String), Succeeds (ascend b mode nsmap f path)
  | [], el, hg => hf el hg
  | t :: ts, el, hg => by
    obtain ⟨⟨o, el1⟩, h1, hg1, hi⟩ := findElement_ok hg t mode
    simp only [ascend, h1]
    cases o with
    | none =>
      obtain ⟨c', h2, hg2⟩ := ascend_succeeds hf ts _ (makeElement_good b t nsmap)
      rw [h2]
      exact ⟨_, rfl, (Writes.append (P := anywhere) _ _ hg2).good hg1⟩
    | some i =>
      obtain ⟨c, hc⟩ := hi i rfl
      simp only at hc hg1
      obtain ⟨c', h2, hg2⟩ := ascend_succeeds hf ts c (hg1.child hc)
      simp only [hc]
      rw [h2]
      refine ⟨_, rfl, ?_⟩
      rw [good_iff] at hg1 ⊢
      refine ⟨by simpa [setChild] using hg1.1, ?_⟩
      intro x hx
      rcases List.mem_or_eq_of_mem_set hx with hx | rfl
      · exact hg1.2 x hx
      · exact hg2

theorem appendUnlessEmpty_good {fl : Flags} {el sub : Elem} (h : el.Good) (hs : sub.Good) : (appendUnlessEmpty fl el sub).Good :=
  (appendUnlessEmpty_writes (P := anywhere) fl el sub hs).good h

theorem serText_good {env : Env} {nillable : Bool} {fl : Flags} {el : Elem} {v enc : Val} (h : el.Good) :
    (serText env nillable fl el v enc).Good :=
  (serText_writes (P := anywhere) env nillable fl el v enc trivial fun _ => trivial).good h

theorem serAttrs_succeeds {env : Env} {a : AttrsSer} {v enc : Val} (h : v = .none ∨ enc.IsDict) : Succeeds (serAttrs env a · v enc) := by
  intro el hg
  obtain ⟨el', h'⟩ := serAttrs_ok_iff (env := env) (a := a) (el := el).mpr h
  exact ⟨el', h', (serAttrs_writes (P := anywhere) h' trivial).good hg⟩

/-- What `Shaped` promises. -/
def Written.Succeeds (env : Env) (fl : Flags) : Written → Prop
  | .field s v enc => ∃ N, ∀ n, N ≤ n → PXml.Succeeds (ser env n fl s · v enc)
  | .model m v enc => (∃ cls, env.model cls = some m) → ∃ N, ∀ n, N ≤ n → PXml.Succeeds (serModel (ser env n) m fl · v enc)

theorem succeeds_step {env : Env} {fl : Flags} {s : Ser} {v enc : Val} {N : Nat}
    (h : ∀ n, N ≤ n → Succeeds (serStep env (ser env n) fl s · v enc)) : (Written.field s v enc).Succeeds env fl := by
  refine ⟨N + 1, fun n hn => ?_⟩
  cases n with
  | zero => omega
  | succ n => exact h n (by omega)

theorem Shaped.succeeds {env : Env} (hw : env.SerializersWrite) (hs : env.SerializersSucceed) {fl : Flags} {w : Written}
    (h : Shaped env fl w) : w.Succeeds env fl := by
  induction h with
  | text => exact succeeds_step (N := 0) fun n _ el hg => ⟨_, rfl, serText_good hg⟩
  | attr =>
    refine succeeds_step (N := 0) fun n _ el hg => ?_
    simp only [serStep]
    split
    · exact ⟨el, rfl, hg⟩
    · exact ⟨_, rfl, (Writes.setAttribute (P := anywhere) _ _ _ trivial).good hg⟩
  | elem =>
    refine succeeds_step (N := 0) fun n _ el hg => ?_
    simp only [serStep]
    split
    · exact ⟨el, rfl, hg⟩
    · exact ⟨_, rfl, appendUnlessEmpty_good hg (serText_good (makeElement_good _ _ _))⟩
  | attrs h => exact succeeds_step (N := 0) fun n _ => serAttrs_succeeds h
  | @mapElem fl a name mode v enc h1 h2 =>
    refine succeeds_step (N := 0) fun n _ el hg => ?_
    simp only [serStep]
    by_cases hb : fl.skipEmpty = true
    · rw [if_pos hb]
      rcases h2 hb with h2 | ⟨h2, h3⟩
      · rw [h2]; exact ⟨el, rfl, hg⟩
      · obtain ⟨k, hk⟩ := Option.isSome_iff_exists.mp h2
        rw [hk]
        cases k with
        | zero => exact ⟨el, rfl, hg⟩
        | succ k =>
          obtain ⟨sub, h4, h5⟩ := serAttrs_succeeds (env := env) (a := a) (v := v) (.inr h3) _ (makeElement_good env.backend name a.nsmap)
          simp only at h4
          simp only [h4]
          exact ⟨_, rfl, appendUnlessEmpty_good hg h5⟩
    · rw [if_neg hb]
      obtain ⟨sub, h4, h5⟩ := serAttrs_succeeds (env := env) (a := a) (h1 (by simpa using hb)) _ (makeElement_good env.backend name a.nsmap)
      simp only at h4
      rw [h4]
      exact ⟨_, rfl, (Writes.append (P := anywhere) _ _ h5).good hg⟩
  | rawNone => exact succeeds_step (N := 0) fun n _ el hg => ⟨el, rfl, hg⟩
  | raw => exact succeeds_step (N := 0) fun n _ el hg => ⟨_, rfl, appendUnlessEmpty_good hg (fromNative_good _ _)⟩
  | @proxyNone fl p m enc hm =>
    refine succeeds_step (N := 0) fun n _ el hg => ?_
    simp only [serStep, hm, Val.isNone]
    split
    · exact ⟨el, rfl, hg⟩
    · split
      · refine ⟨_, rfl, (Writes.append (P := anywhere) _ _ ?_).good hg⟩
        exact (Writes.setAttribute (P := anywhere) _ _ _ trivial).good (makeElement_good _ _ _)
      · exact ⟨el, rfl, hg⟩
  | @proxy fl p m v enc hm _ ih =>
    obtain ⟨N, hN⟩ := ih ⟨_, hm⟩
    refine succeeds_step (N := N) fun n hn el hg => ?_
    simp only [serStep, hm]
    split
    · exact ⟨el, rfl, hg⟩
    · split
      · refine ⟨_, rfl, (Writes.append (P := anywhere) _ _ ?_).good hg⟩
        exact (Writes.setAttribute (P := anywhere) _ _ _ trivial).good (makeElement_good _ _ _)
      · split
        · exact ⟨el, rfl, hg⟩
        · obtain ⟨sub, h1, h2⟩ := hN n hn _ (makeElement_good env.backend p.name p.nsmap)
          simp only at h1
          rw [h1]
          exact ⟨_, rfl, appendUnlessEmpty_good hg h2⟩
  | primUnion _ ih =>
    obtain ⟨N, hN⟩ := ih
    exact succeeds_step (N := N) hN
  | @modelUnion fl title cls c pre post p fields set enc h1 h2 _ ih =>
    obtain ⟨N, hN⟩ := ih
    refine succeeds_step (N := N) fun n hn el hg => ?_
    have hf : (pre ++ p :: post).find? (fun q => q.cls = cls) = some p :=
      List.find?_eq_some_iff_append.mpr ⟨by simpa using h1, pre, post, rfl, fun q hq => by simpa using h2 q hq⟩
    simp only [serStep, hf]
    exact hN n hn el hg
  | @modelUnionOther fl title c alts v enc h =>
    refine succeeds_step (N := 0) fun n hn el hg => ?_
    simp only [serStep]
    cases v with
    | model cls fields set =>
      have hf : alts.find? (fun q => q.cls = cls) = Option.none :=
        List.find?_eq_none.mpr fun p hp hc => h p hp fields set (by simp at hc; rw [hc])
      simp only [hf]
      exact ⟨el, rfl, hg⟩
    | _ => exact ⟨el, rfl, hg⟩
  | @tagged fl c discr attrName tag mode alts p v enc h1 h2 h3 _ ih =>
    obtain ⟨N, hN⟩ := ih
    refine succeeds_step (N := N) fun n hn el hg => ?_
    cases enc with
    | dict d =>
      have h1 : Dict.get? d discr = some (.str tag) := h1
      simp only [serStep, h1, if_neg h2, h3]
      exact hN n hn el hg
    | _ => cases h1
  | @taggedNone fl c discr attrName mode alts v enc hd h =>
    obtain ⟨d, rfl⟩ := hd
    refine succeeds_step (N := 0) fun n hn el hg => ?_
    simp only [Val.entry?] at h
    rcases h with h | h | h
    · simp only [serStep, h]; exact ⟨el, rfl, hg⟩
    · simp only [serStep, h]; exact ⟨el, rfl, hg⟩
    · simp only [serStep, h, if_true]; exact ⟨el, rfl, hg⟩
  | @wrapNone fl path nsmap mode c inner v enc h =>
    refine succeeds_step (N := 0) fun n hn el hg => ?_
    rcases h with rfl | ⟨h1, h2⟩
    · exact ⟨el, rfl, hg⟩
    · simp only [serStep]
      split
      · exact ⟨el, rfl, hg⟩
      · simp only [h1, h2, decide_true, Bool.and_self, if_true]
        exact ⟨el, rfl, hg⟩
  | @wrap fl path nsmap mode c inner v enc _ ih =>
    obtain ⟨N, hN⟩ := ih
    refine succeeds_step (N := N) fun n hn el hg => ?_
    simp only [serStep]
    split
    · exact ⟨el, rfl, hg⟩
    · split
      · exact ⟨el, rfl, hg⟩
      · exact ascend_succeeds (hN n hn) path el hg
  | homogNone => exact succeeds_step (N := 0) fun n _ el hg => ⟨el, rfl, hg⟩
  | @homog fl title c inner vs encs _ ih =>
    obtain ⟨N, hN⟩ := exists_fuel (List.range vs.length) (P := fun i n => ∀ (v enc : Val), vs[i]? = some v → encs[i]? = some enc →
        (fl.skipEmpty = true → v ≠ .none) → Succeeds (ser env n fl inner · v enc)) (by
      intro i _
      by_cases hx : ∃ v enc, vs[i]? = some v ∧ encs[i]? = some enc ∧ (fl.skipEmpty = true → v ≠ .none)
      · obtain ⟨v, enc, h1, h2, h3⟩ := hx
        obtain ⟨N, hN⟩ := ih i v enc h1 h2 h3
        refine ⟨N, fun n hn v' enc' h1' h2' _ => ?_⟩
        rw [h1] at h1'; rw [h2] at h2'
        cases h1'; cases h2'
        exact hN n hn
      · exact ⟨0, fun n _ v enc h1 h2 h3 => absurd ⟨v, enc, h1, h2, h3⟩ hx⟩)
    refine succeeds_step (N := N) fun n hn => ?_
    exact serItems_succeeds vs encs fun i v enc h1 h2 h3 =>
      hN n hn i (List.mem_range.mpr (List.getElem?_eq_some_iff.mp h1).1) v enc h1 h2 h3
  | heteroNone => exact succeeds_step (N := 0) fun n _ el hg => ⟨el, rfl, hg⟩
  | @heteroEmpty fl title c inners encs h =>
    refine succeeds_step (N := 0) fun n hn el hg => ?_
    simp only [serStep, h, List.isEmpty_nil, Bool.and_self, if_true]
    exact ⟨el, rfl, hg⟩
  | @hetero fl title c inners vs encs hl _ ih =>
    obtain ⟨N, hN⟩ := exists_fuel (List.range vs.length) (P := fun i n => ∀ (s : Ser) (v enc : Val), inners[i]? = some s →
        vs[i]? = some v → encs[i]? = some enc → Succeeds (ser env n fl s · v enc)) (by
      intro i _
      by_cases hx : ∃ s v enc, inners[i]? = some s ∧ vs[i]? = some v ∧ encs[i]? = some enc
      · obtain ⟨s, v, enc, h0, h1, h2⟩ := hx
        obtain ⟨N, hN⟩ := ih i s v enc h0 h1 h2
        refine ⟨N, fun n hn s' v' enc' h0' h1' h2' => ?_⟩
        rw [h0] at h0'; rw [h1] at h1'; rw [h2] at h2'
        cases h0'; cases h1'; cases h2'
        exact hN n hn
      · exact ⟨0, fun n _ s v enc h0 h1 h2 => absurd ⟨s, v, enc, h0, h1, h2⟩ hx⟩)
    refine succeeds_step (N := N) fun n hn el hg => ?_
    change ∃ el', (if (fl.skipEmpty && vs.isEmpty) = true then Out.ok el else if vs.length ≠ inners.length then .crash .serializationError
      else serTuple (ser env n fl) inners vs encs el) = .ok el' ∧ el'.Good
    split
    · exact ⟨el, rfl, hg⟩
    · rw [if_neg (fun h => h hl)]
      exact serTuple_succeeds inners vs encs (fun i s v enc h0 h1 h2 =>
        hN n hn i (List.mem_range.mpr (List.getElem?_eq_some_iff.mp h1).1) s v enc h0 h1 h2) el hg
  | @fields fl m cls fs fields set enc x y hb hx hy _ ih =>
    rintro ⟨cls', hm⟩
    obtain ⟨N, hN⟩ := exists_fuel fs (P := fun f n => f.Included fl set → f.serializer = Option.none →
        Succeeds (ser env n { fl with skipEmpty := m.skipEmpty.getD fl.skipEmpty } f.ser · (x f) (y f))) (by
      intro f hf
      by_cases h : f.Included fl set ∧ f.serializer = Option.none
      · obtain ⟨N, hN⟩ := ih f hf h.1 h.2
        exact ⟨N, fun n hn _ _ => hN n hn⟩
      · exact ⟨0, fun n _ h1 h2 => absurd ⟨h1, h2⟩ h⟩)
    refine ⟨N, fun n hn el hg => ?_⟩
    simp only [serModel, hb]
    refine serFields_succeeds (fl := { fl with skipEmpty := m.skipEmpty.getD fl.skipEmpty }) (self := .model cls fields set) fs (fun f hf (hi : f.Included fl set) => ⟨x f, hx f hf hi, ?_, fun hn' => ⟨y f, hy f hf hi hn', hN n hn f hf hi hn'⟩⟩) el hg
    intro g hg' e he
    obtain ⟨e', h'⟩ := hs cls' m fs hm hb f hf g hg' (.model cls fields set) e (x f)
    exact ⟨e', h', (hw cls' m fs hm hb f hf g hg' _ _ _ _ h').good he⟩
  | @rootUnset fl m cls s fields set enc hb h1 h2 =>
    rintro -
    refine ⟨0, fun n _ el hg => ?_⟩
    simp only [serModel, hb]
    rw [if_pos (by simp [h1, h2])]
    exact ⟨el, rfl, hg⟩
  | @root fl m cls s fields set x enc hb hx _ ih =>
    rintro -
    obtain ⟨N, hN⟩ := ih
    refine ⟨N, fun n hn el hg => ?_⟩
    simp only [serModel, hb]
    split
    · exact ⟨el, rfl, hg⟩
    · have hx' : getAttr fields "root" = .ok x := by simp [getAttr, hx]
      simp only [hx', Out.bind]
      exact hN n hn el hg
  | none => exact fun _ => ⟨0, fun n _ el hg => ⟨el, rfl, hg⟩⟩

end PXml
