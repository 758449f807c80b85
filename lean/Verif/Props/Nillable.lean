import Verif.Lemmas.NillableCompile
import Verif.Props.Sides

/-!
# C98: nillable matters for `xsi:nil` and for `None` only

Specification: `SpecNillable.lean`.
-/

namespace PXml

namespace Elem

/-- Neither the element nor any element inside has an attribute `xsi:nil`. -/
inductive NilFree : Elem → Prop
  | mk {e : Elem} : e.getAttrib nilAttr = none → (∀ c ∈ e.elements, NilFree c) → NilFree e

theorem NilFree.attr {e : Elem} (h : e.NilFree) : e.getAttrib nilAttr = none := by cases h; assumption

theorem NilFree.child {e c : Elem} (h : e.NilFree) (hc : c ∈ e.elements) : c.NilFree := by
  cases h with
  | mk _ h => exact h c hc

theorem NilFree.setChild {e c : Elem} (h : e.NilFree) (hc : c.NilFree) (i : Nat) : (e.setChild i c).NilFree := by
  refine .mk h.attr fun x hx => ?_
  rcases List.mem_or_eq_of_mem_set hx with hx | rfl
  · exact h.child hx
  · exact hc

theorem get_erase_none {k k' : String} : ∀ {d : Dict String String}, Dict.get? d k = none → Dict.get? (Dict.erase d k') k = none
  | [], h => h
  | (a, b) :: d, h => by
    simp only [Dict.get?] at h
    split at h
    · cases h
    · rename_i hne
      simp only [Dict.erase]
      split
      · exact h
      · simp only [Dict.get?, if_neg hne]
        exact get_erase_none h

theorem nilFree_rel : ElemRel (fun e e' => e.NilFree → e'.NilFree) where
  refl e := id
  trans h1 h2 := h2 ∘ h1
  popText e h := .mk h.attr fun c hc => h.child hc
  popAttrib e k h := by
    unfold popAttrib
    split
    · exact .mk (get_erase_none h.attr) fun c hc => h.child hc
    · exact h
  popAttributes e h := .mk rfl fun c hc => h.child hc
  search e tag mode step h := by
    obtain ⟨l, n, h3, h4, _⟩ := search_spec e tag mode step
    rw [h3]
    exact .mk h.attr fun c hc => h.child (h4.mem_iff.1 hc)
  child e i c c' hc h hh := hh.setChild (h (hh.child (List.mem_of_getElem? hc))) i
  stepForward e hlt h := .mk h.attr fun c hc => h.child hc
  applySnapshot e s h hg := .mk (h hg).attr fun c hc => (h hg).child hc
  hollow e i c hc hh := hh.setChild (.mk rfl fun x hx => by cases hx) i

theorem NilFree.isNil {e : Elem} (h : e.NilFree) : e.isNil = (false, e) := by
  unfold Elem.isNil
  rw [popAttrib_absent h.attr]
  rfl

end Elem

mutual
theorem fromNative_nilFree (b : Backend) : ∀ n : Node, n.NilFree → (fromNative b n).NilFree
  | .elem tag attrib nsmap text tail children line, h => by
    cases h with
    | elem h1 h2 =>
      refine .mk ?_ ?_
      · simp only [fromNative, Elem.getAttrib, Option.getD_some]
        exact (Dict.get?_eq_none_iff _ _).2 h1
      · exact fromNativeList_nilFree b children h2
  | .comment text tail, _ => .mk rfl fun c hc => by cases hc
  | .pi text tail, _ => .mk rfl fun c hc => by cases hc
theorem fromNativeList_nilFree (b : Backend) : ∀ ns : List Node, (∀ n ∈ ns, n.NilFree) → ∀ c ∈ fromNativeList b ns, c.NilFree
  | [], _, c, hc => by simp [fromNativeList] at hc
  | n :: ns, h, c, hc => by
    simp only [fromNativeList] at hc
    split at hc
    · exact fromNativeList_nilFree b ns (fun x hx => h x (List.mem_cons_of_mem _ hx)) c hc
    · rcases List.mem_cons.1 hc with rfl | hc
      · exact fromNative_nilFree b n (h n (List.mem_cons_self ..))
      · exact fromNativeList_nilFree b ns (fun x hx => h x (List.mem_cons_of_mem _ hx)) c hc
end

namespace Nillable

open Elem

theorem onChild_free {α : Type} {f g : St → Out α × St} (h : ∀ st, st.el.NilFree → f st = g st) (st : St) (hst : st.el.NilFree) (i : Nat) :
    onChild st i f = onChild st i g := by
  unfold onChild
  cases hc : st.el.elements[i]? with
  | none => rfl
  | some c => simp only [h ⟨c, st.sm⟩ (hst.child (List.mem_of_getElem? hc))]

theorem text_free (eas c nl : Bool) (st : St) (hst : st.el.NilFree) : deserText eas c nl st = deserText eas c false st := by
  unfold deserText
  cases nl with
  | false => rfl
  | true => simp only [if_true, hst.isNil]; rfl

theorem descend_free {mode : Mode} {f g : St → Out Val × St} (h : ∀ st, st.el.NilFree → f st = g st) (path : List String) (st : St)
    (hst : st.el.NilFree) : descend mode f path st = descend mode g path st := by
  induction path generalizing st with
  | nil => exact h st hst
  | cons t ts ih =>
    simp only [descend]
    cases hf : st.el.findElement t mode with
    | error x => rfl
    | ok r =>
      have hr := nilFree_rel.findElement hf hst
      obtain ⟨o, el⟩ := r
      cases o with
      | none => rfl
      | some i => exact onChild_free (fun st hst => ih st hst) { st with el := el } hr i

theorem homog_free {f g : Loc → St → Out Val × St} (h : ∀ loc st, st.el.NilFree → f loc st = g loc st)
    (hk : ∀ loc st, st.el.NilFree → (f loc st).2.el.NilFree) (loc : Loc) (n idx : Nat) (acc : List Val) (errs : Dict ErrKey VErr) (st : St)
    (hst : st.el.NilFree) : homogLoop f loc n idx acc errs st = homogLoop g loc n idx acc errs st := by
  induction n generalizing idx acc errs st with
  | zero => rfl
  | succ n ih =>
    have hr := hk (loc ++ [.idx idx]) st hst
    simp only [homogLoop, ← h _ st hst]
    cases hf : f (loc ++ [.idx idx]) st with
    | mk o st' =>
      rw [hf] at hr
      cases o with
      | ok v => simp only [ih _ _ _ st' hr]
      | verr e => exact ih _ _ _ st' hr
      | crash e => rfl
      | diverge => rfl

theorem hetero_free {f g : Ser → Loc → St → Out Val × St} (h : ∀ s loc st, st.el.NilFree → f s loc st = g s.unnilled loc st)
    (hk : ∀ s loc st, st.el.NilFree → (f s loc st).2.el.NilFree) (loc : Loc) (ss : List Ser) (idx : Nat) (acc : List Val)
    (errs : Dict ErrKey VErr) (st : St) (hst : st.el.NilFree) :
    heteroLoop f loc ss idx acc errs st = heteroLoop g loc (ss.map Ser.unnilled) idx acc errs st := by
  induction ss generalizing idx acc errs st with
  | nil => rfl
  | cons s ss ih =>
    have hr := hk s (loc ++ [.idx idx]) st hst
    simp only [List.map_cons, heteroLoop, ← h s _ st hst]
    cases hf : f s (loc ++ [.idx idx]) st with
    | mk o st' =>
      rw [hf] at hr
      cases o with
      | ok v => exact ih _ _ _ st' hr
      | verr e => exact ih _ _ _ st' hr
      | crash e => rfl
      | diverge => rfl

theorem union_free {f g : Proxy → St → Out Val × St} (h : ∀ p st, st.el.NilFree → f p st = g p.unnilled st) (title : Title) (ps : List Proxy)
    (errs : Dict ErrKey VErr) (st : St) (hst : st.el.NilFree) :
    unionLoop f title ps errs st = unionLoop g title (ps.map Proxy.unnilled) errs st := by
  induction ps generalizing errs st with
  | nil => rfl
  | cons p ps ih =>
    simp only [List.map_cons, unionLoop, ← h p ⟨st.el.createSnapshot, st.sm⟩ hst]
    cases f p ⟨st.el.createSnapshot, st.sm⟩ with
    | mk o st' =>
      cases o with
      | ok v => simp only [ih errs { st with sm := st'.sm } hst]
      | verr e => exact ih _ { st with sm := st'.sm } hst
      | crash e => rfl
      | diverge => rfl

theorem tagged_free {f g : Proxy → St → Out Val × St} (h : ∀ p st, st.el.NilFree → f p st = g p.unnilled st) (loc : Loc) (a : String) (mode : Mode)
    (alts : List (String × Proxy)) (st : St) (hst : st.el.NilFree) :
    taggedLoop f loc a mode alts st = taggedLoop g loc a mode (alts.map fun kp => (kp.1, kp.2.unnilled)) st := by
  induction alts generalizing st with
  | nil => rfl
  | cons p ps ih =>
    obtain ⟨tag, p⟩ := p
    have hname : p.unnilled.name = p.name := rfl
    simp only [List.map_cons, taggedLoop, hname]
    have hs := nilFree_rel.search st.el p.name mode false hst
    cases hf : st.el.search p.name mode false with
    | mk o el =>
      rw [hf] at hs
      cases o with
      | none => exact ih { st with el := el } hs
      | some i =>
        simp only
        cases el.elements[i]? with
        | none => rfl
        | some c => simp only [h p ⟨el, st.sm.set loc c.line⟩ hs, ih { st with el := el } hs]

theorem fields_free {f g : Ser → Loc → St → Out Val × St} (h : ∀ s loc st, st.el.NilFree → f s loc st = g s.unnilled loc st)
    (hk : ∀ s loc st, st.el.NilFree → (f s loc st).2.el.NilFree) (fs : List Field)
    (hv : ∀ fd ∈ fs, ∀ v, fd.validator = some v → ∀ e : Elem, e.NilFree → (v e).2.NilFree) (res : Dict String Val)
    (errs : Dict ErrKey VErr) (st : St) (hst : st.el.NilFree) :
    deserFields f fs res errs st = deserFields g (fs.map Field.unnilled) res errs st := by
  induction fs generalizing res errs st with
  | nil => rfl
  | cons fd fs ih =>
    have ih' := ih (fun x hx => hv x (List.mem_cons_of_mem _ hx))
    have cont : ∀ r : Out Val × St, r.2.el.NilFree →
        (match r with
          | (.ok v, st') => deserFields f fs (if v.isNone then res else res.set (fd.alias.getD fd.name) v) errs st'
          | (.verr e, st') => deserFields f fs res (errs.set (some (.name fd.name)) e) st'
          | (.crash e, st') => (.crash e, st')
          | (.diverge, st') => (.diverge, st')) =
        (match r with
          | (.ok v, st') => deserFields g (fs.map Field.unnilled) (if v.isNone then res else res.set (fd.alias.getD fd.name) v) errs st'
          | (.verr e, st') => deserFields g (fs.map Field.unnilled) res (errs.set (some (.name fd.name)) e) st'
          | (.crash e, st') => (.crash e, st')
          | (.diverge, st') => (.diverge, st')) := by
      rintro ⟨o, st'⟩ hr
      cases o with
      | ok v => exact ih' _ _ st' hr
      | verr e => exact ih' _ _ st' hr
      | crash e => rfl
      | diverge => rfl
    have hname : fd.unnilled.name = fd.name := rfl
    have halias : fd.unnilled.alias = fd.alias := rfl
    have hval : fd.unnilled.validator = fd.validator := rfl
    have hser : fd.unnilled.ser = fd.ser.unnilled := rfl
    simp only [List.map_cons, deserFields, hname, halias, hval, hser]
    cases hvd : fd.validator with
    | some v =>
      simp only
      exact cont ((v st.el).1, _) (hv fd (List.mem_cons_self ..) v hvd st.el hst)
    | none =>
      simp only
      rw [← h fd.ser [.name fd.name] { st with sm := st.sm.set [.name fd.name] st.el.line } hst]
      exact cont _ (hk fd.ser [.name fd.name] { st with sm := st.sm.set [.name fd.name] st.el.line } hst)

theorem model_free (env : Env) (hv : env.ValidatorsRead) {f g : Ser → Loc → St → Out Val × St}
    (h : ∀ s loc st, st.el.NilFree → f s loc st = g s.unnilled loc st) (hk : ∀ s loc st, st.el.NilFree → (f s loc st).2.el.NilFree)
    (cls : String) (m : ModelSer) (hm : env.model cls = some m) (loc : Loc) (st : St) (hst : st.el.NilFree) :
    deserModel env f cls m loc st = deserModel env.unnilled g cls m.unnilled loc st := by
  unfold deserModel
  cases hb : m.body with
  | fields fs =>
    have hb' : m.unnilled.body = .fields (fs.map Field.unnilled) := by simp [ModelSer.unnilled, hb, Body.unnilled]
    simp only [hb', fields_free h hk fs (fun fd hfd v hvd e he => hv.respect nilFree_rel cls m fs hm hb fd hfd v hvd e he) [] [] st hst]
    rfl
  | root s =>
    have hb' : m.unnilled.body = .root s.unnilled := by simp [ModelSer.unnilled, hb, Body.unnilled]
    simp only [hb', h s loc st hst]
    rfl

theorem deser_free (env : Env) (hv : env.ValidatorsRead) (eas : Bool) (n : Nat) (s : Ser) (loc : Loc) (st : St) (hst : st.el.NilFree) :
    deser env eas n s loc st = deser env.unnilled eas n s.unnilled loc st := by
  induction n generalizing s loc st with
  | zero => rfl
  | succ n ih =>
    have hk : ∀ s loc st, st.el.NilFree → (deser env eas n s loc st).2.el.NilFree :=
      fun s loc st h => deser_rel nilFree_rel env (hv.respect nilFree_rel) eas n s loc st h
    change deserStep env eas (deser env eas n) n s loc st = deserStep env.unnilled eas (deser env.unnilled eas n) n s.unnilled loc st
    have hmem : ∀ (e : Elem) (st : St) (t : String) (mode : Mode) (i : Nat), st.el.NilFree → st.el.popElement t mode = (some i, e) → e.NilFree := by
      intro e st t mode i h hp
      have := nilFree_rel.search st.el t mode true h
      rw [show st.el.search t mode true = _ from hp] at this
      exact this
    cases s with
    | text c nl => simp only [Ser.unnilled]; exact text_free eas c nl st hst
    | attr k c => simp only [Ser.unnilled]; rfl
    | elem nm ns mode c nl =>
      simp only [Ser.unnilled, deserStep]
      split
      · rfl
      · cases hp : st.el.popElement nm mode with
        | mk o el =>
          cases o with
          | none => rfl
          | some i =>
            exact onChild_free (fun c' hc => text_free eas c nl { c' with sm := c'.sm.set loc c'.el.line } hc) { st with el := el }
              (hmem el st nm mode i hst hp) i
    | attrs a => simp only [Ser.unnilled]; rfl
    | mapElem a nm mode => simp only [Ser.unnilled]; rfl
    | raw nm mode c => simp only [Ser.unnilled]; rfl
    | primUnion c inner => simp only [Ser.unnilled, deserStep, ih inner loc st hst]
    | modelUnion t c alts =>
      simp only [Ser.unnilled, deserStep]
      rw [union_free (g := fun p st => deser env.unnilled eas n (.proxy p) loc st) (fun p st h => by rw [ih _ _ _ h]; simp only [Ser.unnilled]) _ _ _ _ hst]
    | tagged c d a mode alts =>
      simp only [Ser.unnilled, deserStep]
      rw [tagged_free (g := fun p st => deser env.unnilled eas n (.proxy p) loc st) (fun p st h => by rw [ih _ _ _ h]; simp only [Ser.unnilled])
        _ _ _ _ _ hst]
    | wrap path ns mode c inner =>
      simp only [Ser.unnilled, deserStep]
      rw [descend_free (g := fun c => deser env.unnilled eas n inner.unnilled loc { c with sm := c.sm.set loc c.el.line })
        (fun st h => ih inner loc { st with sm := st.sm.set loc st.el.line } h) path st hst]
    | homog title c inner =>
      simp only [Ser.unnilled, deserStep]
      rw [homog_free (g := fun loc st => deser env.unnilled eas n inner.unnilled loc st) (fun loc st h => ih inner loc st h)
        (fun loc st h => hk inner loc st h) _ _ _ _ _ _ hst]
    | hetero title c inners =>
      simp only [Ser.unnilled, deserStep, unnilledAll_eq, hetero_free (fun s loc st h => ih s loc st h) hk loc inners 0 [] [] st hst]
    | proxy p =>
      simp only [Ser.unnilled, deserStep]
      have hcls : p.unnilled.cls = p.cls := rfl
      have hm : env.unnilled.model p.cls = (env.model p.cls).map ModelSer.unnilled := rfl
      rw [hcls, hm]
      cases hmm : env.model p.cls with
      | none => rfl
      | some m =>
        simp only [Option.map_some]
        have h1 : p.unnilled.computed = p.computed := rfl
        have h2 : p.unnilled.name = p.name := rfl
        have h3 : p.unnilled.mode = p.mode := rfl
        rw [h1, h2, h3]
        split
        · rfl
        · cases hp : st.el.popElement p.name p.mode with
          | mk o el =>
            cases o with
            | none => rfl
            | some i =>
              refine onChild_free (fun c hc => ?_) { st with el := el } (hmem el st p.name p.mode i hst hp) i
              simp only [hc.isNil]
              exact model_free env hv (fun s loc st h => ih s loc st h) hk p.cls m hmm loc ⟨c.el, _⟩ hc

theorem unnilled_read {env : Env} : env.unnilled.ValidatorsRead ↔ env.ValidatorsRead := by
  constructor
  · intro h cls m fs hm hb f hf v hv e
    exact h cls m.unnilled (fs.map Field.unnilled) (by simp [Env.unnilled, hm]) (by simp [ModelSer.unnilled, hb, Body.unnilled]) f.unnilled
      (List.mem_map.2 ⟨f, hf, rfl⟩) v hv e
  · intro h cls m fs hm hb f hf v hv e
    simp only [Env.unnilled, Option.map_eq_some_iff] at hm
    obtain ⟨m', hm, rfl⟩ := hm
    simp only [ModelSer.unnilled] at hb
    cases hb' : m'.body with
    | fields fs' =>
      rw [hb'] at hb
      simp only [Body.unnilled, Body.fields.injEq] at hb
      subst hb
      obtain ⟨f', hf', rfl⟩ := List.mem_map.1 hf
      exact h cls m' fs' hm hb' f' hf' v hv e
    | root s => rw [hb'] at hb; cases hb

theorem tuple_out {f g : Ser → Elem → Val → Val → Out Elem} (h : ∀ s e v x, f s e v x = g s.unnilled e v x) (ss : List Ser) (vs encs : List Val)
    (el : Elem) : serTuple f ss vs encs el = serTuple g (ss.map Ser.unnilled) vs encs el := by
  induction ss generalizing vs encs el with
  | nil => rfl
  | cons s ss ih =>
    cases vs with
    | nil => rfl
    | cons v vs =>
      cases encs with
      | nil => rfl
      | cons x encs =>
        simp only [List.map_cons, serTuple, h]
        congr 1
        funext e
        exact ih vs encs e

theorem fields_out {f g : Ser → Elem → Val → Val → Out Elem} (h : ∀ s e v x, f s e v x = g s.unnilled e v x) (fl : Flags) (self : Val)
    (d : Dict String Val) (set : List String) (enc : Val) (fs : List Field) (el : Elem) :
    serFields f fl self d set enc fs el = serFields g fl self d set enc (fs.map Field.unnilled) el := by
  induction fs generalizing el with
  | nil => rfl
  | cons fd fs ih =>
    have ih' : serFields f fl self d set enc fs = serFields g fl self d set enc (fs.map Field.unnilled) := by funext el; exact ih el
    simp only [List.map_cons, serFields, ih', h]
    rfl

theorem model_out {f g : Flags → Ser → Elem → Val → Val → Out Elem}
    (h : ∀ fl s e v x, fl.excludeNone = true → f fl s e v x = g fl s.unnilled e v x) (m : ModelSer)
    (fl : Flags) (hfl : fl.excludeNone = true) (el : Elem) (v enc : Val) : serModel f m fl el v enc = serModel g m.unnilled fl el v enc := by
  unfold serModel
  cases v with
  | model cls d set =>
    cases hb : m.body with
    | fields fs =>
      have hb' : m.unnilled.body = .fields (fs.map Field.unnilled) := by simp [ModelSer.unnilled, hb, Body.unnilled]
      have hs : m.unnilled.skipEmpty = m.skipEmpty := rfl
      simp only [hb', hs]
      exact fields_out (fun s e v x => h { fl with skipEmpty := m.skipEmpty.getD fl.skipEmpty } s e v x hfl) _ _ _ _ _ _ _
    | root s =>
      have hb' : m.unnilled.body = .root s.unnilled := by simp [ModelSer.unnilled, hb, Body.unnilled]
      have hs : m.unnilled.skipEmpty = m.skipEmpty := rfl
      simp only [hb', hs]
      split
      · rfl
      · congr 1
        funext rv
        exact h _ s el rv enc hfl
  | _ => rfl

theorem find_unnilled (cls : String) (alts : List Proxy) :
    (alts.map Proxy.unnilled).find? (fun p => p.cls = cls) = (alts.find? (fun p => p.cls = cls)).map Proxy.unnilled := by
  rw [List.find?_map]
  rfl

theorem get_unnilled (tag : String) (alts : List (String × Proxy)) :
    Dict.get? (alts.map fun kp => (kp.1, kp.2.unnilled)) tag = (Dict.get? alts tag).map Proxy.unnilled := by
  induction alts with
  | nil => rfl
  | cons x alts ih =>
    simp only [List.map_cons, Dict.get?]
    split
    · rfl
    · exact ih

theorem text_out (env : Env) (nl : Bool) (fl : Flags) (hfl : fl.excludeNone = true) (el : Elem) (v enc : Val) :
    serText env nl fl el v enc = serText env false fl el v enc := by
  unfold serText
  cases hv : v.isNone <;> simp [hfl]

theorem ser_out (env : Env) (n : Nat) (fl : Flags) (hfl : fl.excludeNone = true) (s : Ser) (el : Elem) (v enc : Val) :
    ser env n fl s el v enc = ser env.unnilled n fl s.unnilled el v enc := by
  induction n generalizing fl s el v enc with
  | zero => rfl
  | succ n ih =>
    change serStep env (ser env n) fl s el v enc = serStep env.unnilled (ser env.unnilled n) fl s.unnilled el v enc
    cases s with
    | text c nl => simp only [Ser.unnilled, serStep, text_out env nl fl hfl]; rfl
    | attr k c => simp only [Ser.unnilled]; rfl
    | elem nm ns mode c nl => simp only [Ser.unnilled, serStep, text_out env nl fl hfl]; rfl
    | attrs a => simp only [Ser.unnilled]; rfl
    | mapElem a nm mode => simp only [Ser.unnilled]; rfl
    | raw nm mode c => simp only [Ser.unnilled]; rfl
    | primUnion c inner => simp only [Ser.unnilled, serStep, ih fl hfl inner]
    | modelUnion t c alts =>
      simp only [Ser.unnilled, serStep, find_unnilled]
      cases v with
      | model cls d set =>
        simp only
        cases alts.find? (fun p => p.cls = cls) with
        | none => rfl
        | some p => simp only [Option.map_some, ih fl hfl, Ser.unnilled]
      | _ => rfl
    | tagged c d a mode alts =>
      simp only [Ser.unnilled, serStep, get_unnilled]
      cases enc with
      | dict dd =>
        simp only
        cases Dict.get? dd d with
        | none => rfl
        | some w =>
          cases w with
          | str tag =>
            simp only
            split
            · rfl
            · cases Dict.get? alts tag with
              | none => rfl
              | some p => simp only [Option.map_some, ih fl hfl, Ser.unnilled]
          | _ => rfl
      | _ => rfl
    | wrap path ns mode c inner =>
      simp only [Ser.unnilled, serStep, ih fl hfl inner]
      rfl
    | homog title c inner =>
      simp only [Ser.unnilled, serStep]
      have : ser env n fl inner = ser env.unnilled n fl inner.unnilled := by funext e v x; exact ih fl hfl inner e v x
      rw [this]
    | hetero title c inners =>
      simp only [Ser.unnilled, serStep, unnilledAll_eq, tuple_out (fun s e v x => ih fl hfl s e v x), List.length_map]
    | proxy p =>
      simp only [Ser.unnilled, serStep]
      have hcls : p.unnilled.cls = p.cls := rfl
      have hm : env.unnilled.model p.cls = (env.model p.cls).map ModelSer.unnilled := rfl
      rw [hcls, hm]
      cases env.model p.cls with
      | none => rfl
      | some m =>
        simp only [Option.map_some, model_out (fun fl s e v x hfl => ih fl hfl s e v x) m fl hfl, hfl]
        cases v.isNone with
        | true => rfl
        | false => simp only [Bool.and_false, Bool.false_eq_true, if_false]; rfl

end Nillable

/-- C98: for documents without `xsi:nil` it does not matter for reading, at any depth, which fields are nillable: the same instance or the same error. -/
theorem C98_reading (env env' : Env) (h : env.unnilled = env'.unnilled) (hv : env.ValidatorsRead) (eas : Bool) (n : Nat) (cls : String) (doc : Node)
    (hdoc : doc.NilFree) : fromXmlTree env eas n cls doc = fromXmlTree env' eas n cls doc := by
  have key : ∀ env : Env, env.ValidatorsRead → fromXmlTree env eas n cls doc = fromXmlTree env.unnilled eas n cls doc := by
    intro env hv
    unfold fromXmlTree
    have hm : env.unnilled.model cls = (env.model cls).map ModelSer.unnilled := rfl
    rw [hm]
    cases hmm : env.model cls with
    | none => rfl
    | some m =>
      simp only [Option.map_some, Nillable.model_free env hv (fun s loc st hst => Nillable.deser_free env hv eas n s loc st hst)
        (fun s loc st hst => deser_rel Elem.nilFree_rel env (hv.respect Elem.nilFree_rel) eas n s loc st hst) cls m hmm []
        ⟨fromNative env.backend doc, []⟩ (fromNative_nilFree env.backend doc hdoc)]
      rfl
  rw [key env hv, key env' (Nillable.unnilled_read.1 (h ▸ Nillable.unnilled_read.2 hv)), h]

/-- C98: with `exclude_none` it does not matter for writing, at any depth, which fields are nillable: the same document or the same exception. -/
theorem C98_writing (env env' : Env) (h : env.unnilled = env'.unnilled) (n : Nat) (fl : Flags) (hfl : fl.excludeNone = true) (cls : String) (v : Val) :
    toXmlTree env n fl cls v = toXmlTree env' n fl cls v := by
  have key : ∀ env : Env, toXmlTree env n fl cls v = toXmlTree env.unnilled n fl cls v := by
    intro env
    unfold toXmlTree
    have hm : env.unnilled.model cls = (env.model cls).map ModelSer.unnilled := rfl
    rw [hm]
    cases env.model cls with
    | none => rfl
    | some m =>
      simp only [Option.map_some, Nillable.model_out (fun fl s e v x hfl => Nillable.ser_out env n fl hfl s e v x) m fl hfl]
      rfl
  rw [key env, key env', h]

/-- C98: two programs whose classes differ in nothing but `nillable`, at whatever fields and at whatever depth of `wrapped`, define the same classes but
for this: the same ones are complete, and they are the same if nothing is nillable. -/
theorem C98_definitions (classes classes' : Classes) (h : classes.unnilled = classes'.unnilled) (k : Nat) (es : List Event) (cls : String) :
    (history classes k es .empty cls).map ModelSer.unnilled = (history classes' k es .empty cls).map ModelSer.unnilled := by
  have h1 := congrFun (Nillable.history_un classes k es .empty) cls
  have h2 := congrFun (Nillable.history_un classes' k es .empty) cls
  have h3 : Nillable.classes' classes = Nillable.classes' classes' := h
  rw [h3] at h1
  exact h1.symm.trans h2

/-- C98: a class statement, or a `model_rebuild`, that fails in the one program fails with the same exception in the other. -/
theorem C98_rejected (classes classes' : Classes) (h : classes.unnilled = classes'.unnilled) (k : Nat) (es : List Event) (e : Event) (err : DefErr) :
    e.run classes k (history classes k es .empty) = .error err ↔ e.run classes' k (history classes' k es .empty) = .error err := by
  have h0 : Nillable.built' (history classes k es .empty) = Nillable.built' (history classes' k es .empty) :=
    funext fun c => C98_definitions classes classes' h k es c
  have h1 := Nillable.run_un classes (history classes k es .empty) k e
  have h2 := Nillable.run_un classes' (history classes' k es .empty) k e
  have h3 : Nillable.classes' classes = Nillable.classes' classes' := h
  rw [h3, h0, h2] at h1
  revert h1
  generalize e.run classes k (history classes k es .empty) = x
  generalize e.run classes' k (history classes' k es .empty) = y
  intro h1
  cases x <;> cases y
  · injection h1 with h1; rw [h1]
  · cases h1
  · cases h1
  · exact ⟨nofun, nofun⟩

/-- C98: after two such programs every document without `xsi:nil` is read alike, and with `exclude_none` every instance is written alike. -/
theorem C98_program (classes classes' : Classes) (h : classes.unnilled = classes'.unnilled) (k : Nat) (es : List Event) (env env' : Env)
    (h1 : env.model = history classes k es .empty) (h2 : env'.model = history classes' k es .empty)
    (hsame : env = { env' with model := env.model }) (hv : env.ValidatorsRead) (n : Nat) (cls : String) :
    (∀ eas doc, doc.NilFree → fromXmlTree env eas n cls doc = fromXmlTree env' eas n cls doc) ∧
    (∀ fl v, fl.excludeNone = true → toXmlTree env n fl cls v = toXmlTree env' n fl cls v) := by
  have he : env.unnilled = env'.unnilled := by
    rw [hsame]
    unfold Env.unnilled
    have : (fun cls => Option.map ModelSer.unnilled (env.model cls)) = fun cls => Option.map ModelSer.unnilled (env'.model cls) := by
      funext cls
      rw [h1, h2]
      exact C98_definitions classes classes' h k es cls
    simp only [this]
  exact ⟨fun eas doc hd => C98_reading env env' he hv eas n cls doc hd, fun fl v hfl => C98_writing env env' he n fl hfl cls v⟩

/-! ## Non-vacuity, and the conditions are needed -/

namespace Ex

/-- `Person` with a `nick` that is not nillable and a nillable `home`. -/
def firmPerson : ModelSer := { person .strict with
  body := .fields [
    { name := "id", ser := .attr "id" false },
    { name := "name", ser := .elem "name" none .strict false false },
    { name := "nick", ser := .elem "nick" none .strict false false },
    { name := "mails", ser := .homog "Person" false (.elem "mail" none .strict false false) },
    { name := "phone", ser := .wrap ["contact", "phones"] none .strict false (.elem "phone" none .strict false false) },
    { name := "home", ser := .proxy { cls := "Address", name := "home", mode := .strict, nillable := true } },
    { name := "extra", ser := .mapElem {} "extra" .strict }] }

def firmEnv : Env := { env with model := fun c => if c = "Person" then some firmPerson else env.model c }

theorem firm_unnilled : (env).unnilled = firmEnv.unnilled := by
  unfold Env.unnilled firmEnv
  congr 1
  funext c
  by_cases h : c = "Person"
  · subst h; rfl
  · simp only [if_neg h]

/-- A document with a `nick`, with the given attributes. -/
def nickDoc (attrs : Dict String String) : Node :=
  el "person" none [el "name" (some "Ann"), el "nick" (some "A") [] attrs] [("id", "1")]

theorem nickDoc_free : (nickDoc [("x", "y")]).NilFree := by
  refine .elem (by decide) fun c hc => ?_
  simp only [List.mem_cons, List.not_mem_nil, or_false] at hc
  rcases hc with rfl | rfl
  · exact .elem (by decide) fun c hc => by cases hc
  · exact .elem (by decide) fun c hc => by cases hc

example : fromXmlTree env false 9 "Person" (nickDoc [("x", "y")]) = fromXmlTree firmEnv false 9 "Person" (nickDoc [("x", "y")]) :=
  C98_reading env firmEnv firm_unnilled (Env.NoValidators.read noValidators) false 9 "Person" _ nickDoc_free

/-- `class Note(BaseXmlModel): text: Optional[str] = wrapped('body', element(nillable=…))`. -/
def noteField (nl : Option Bool) : FieldDef where
  name := "text"
  schema := .nullable (.prim "str")
  infos := [.mk (some .wrapped) (some "body") none none none (some (.mk (some .element) none none none nl none))]

def noteClass (nl : Option Bool) : ClassDef where
  name := "Note"
  schema := .model "Note" false
  body := .fields [noteField nl] []

def noteClasses (nl : Option Bool) : Classes := fun c => if c = "Note" then some (noteClass nl) else none

theorem note_unnilled (nl nl' : Option Bool) : (noteClasses nl).unnilled = (noteClasses nl').unnilled := by
  funext c
  unfold Classes.unnilled noteClasses
  split <;> rfl

/-- The definitions are accepted, and differ. -/
example (nl : Bool) : history (noteClasses (some nl)) 9 [.statement "Note" true] .empty "Note" =
    some { name := "Note", elementName := "Note", body := .fields [⟨"text",
      .wrap ["body"] (some []) .strict false (.elem "text" (some []) .strict false nl), none, false, none, none⟩] } := by
  cases nl <;> kernel_rfl

end Ex

/-- C98: that there is no `xsi:nil` is needed: a nillable element with it is `None`, one that is not nillable holds its text. -/
theorem C98_nil_needed :
    (fromXmlTree Ex.env false 9 "Person" (Ex.nickDoc [(Elem.nilAttr, "true")])).1 =
      .ok (.model "Person" [("id", .str "1"), ("name", .str "Ann"), ("nick", .none), ("mails", .none), ("phone", .none), ("home", .none),
        ("extra", .none)] ["id", "name"]) ∧
    (fromXmlTree Ex.firmEnv false 9 "Person" (Ex.nickDoc [(Elem.nilAttr, "true")])).1 =
      .ok (.model "Person" [("id", .str "1"), ("name", .str "Ann"), ("nick", .str "A"), ("mails", .none), ("phone", .none), ("home", .none),
        ("extra", .none)] ["id", "name", "nick"]) := ⟨by kernel_rfl, by kernel_rfl⟩

/-- C98: `exclude_none` is needed: without it a nillable field that is `None` is written with `xsi:nil`, others are not. -/
theorem C98_exclude_needed :
    let v := Val.model "Person" [("id", .str "1"), ("name", .str "Ann"), ("nick", .none), ("mails", .none), ("phone", .none), ("home", .none),
      ("extra", .none)] ["id", "name"]
    toXmlTree Ex.env 9 {} "Person" v = .ok (.elem "person" [("id", "1")] [] none none
      [.elem "name" [] [] (some "Ann") none [] none, .elem "nick" [(Elem.nilAttr, "true")] [] (some "") none [] none,
        .elem "extra" [] [] none none [] none] none) ∧
    toXmlTree Ex.firmEnv 9 {} "Person" v = .ok (.elem "person" [("id", "1")] [] none none
      [.elem "name" [] [] (some "Ann") none [] none, .elem "nick" [] [] (some "") none [] none,
        .elem "home" [(Elem.nilAttr, "true")] [] none none [] none, .elem "extra" [] [] none none [] none] none) :=
  ⟨by kernel_rfl, by kernel_rfl⟩

end PXml
