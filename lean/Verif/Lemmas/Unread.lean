import Verif.SpecUnread
import Verif.Lemmas.NoCrash
import Verif.Lemmas.Content

/-! Data that no field reads stays in the element. -/

namespace PXml

open Elem

theorem Dict.mem_erase_of_ne {α β : Type} [DecidableEq α] {d : Dict α β} {k k' : α} {v : β} (h : (k', v) ∈ d) (hne : k' ≠ k) :
    (k', v) ∈ d.erase k := by
  induction d with
  | nil => cases h
  | cons x d ih =>
    obtain ⟨k1, v1⟩ := x
    simp only [Dict.erase]
    split
    · rename_i hk
      rcases List.mem_cons.1 h with h | h
      · cases h; exact absurd hk hne
      · exact h
    · rcases List.mem_cons.1 h with h | h
      · cases h; exact List.mem_cons_self ..
      · exact List.mem_cons_of_mem _ (ih h)

/-- `Node.Unread` of elements. -/
inductive Elem.Unread (env : Env) : List Ser → Elem → Piece → Prop
  | text {ss : List Ser} {e : Elem} {t : String} : (∀ s ∈ ss, ¬ s.Takes env .text) → e.text = some t → Unread env ss e (.text t)
  | tail {ss : List Ser} {e : Elem} {t : String} : e.tail = some t → Unread env ss e (.tail t)
  | attr {ss : List Ser} {e : Elem} {k v : String} : (k, v) ∈ e.attrib.getD [] → (∀ s ∈ ss, ¬ s.Takes env (.attr k)) →
      Unread env ss e (.attr k v)
  | child {ss ss' : List Ser} {e c : Elem} {p : Piece} : c ∈ e.elements → (∀ s ∈ ss, ¬ s.Takes env (.whole c.tag)) →
      (∀ s ∈ ss, ∀ next, s.Takes env (.child c.tag next) → ∀ s' ∈ next, s' ∈ ss') → Unread env ss' c p → Unread env ss e p

variable {env : Env}

/-- What was unread is unread afterwards. -/
def Spares (env : Env) (ss : List Ser) (e e' : Elem) : Prop := e'.tag = e.tag ∧ ∀ p, e.Unread env ss p → e'.Unread env ss p

theorem Spares.refl (ss : List Ser) (e : Elem) : Spares env ss e e := ⟨rfl, fun _ h => h⟩

theorem Spares.trans {ss : List Ser} {a b c : Elem} (h1 : Spares env ss a b) (h2 : Spares env ss b c) : Spares env ss a c :=
  ⟨h2.1.trans h1.1, fun p h => h2.2 p (h1.2 p h)⟩

/-- A change of text, attributes and order of children that leaves what is not taken. -/
theorem Spares.of {ss : List Ser} {e e' : Elem} (h0 : e'.tag = e.tag)
    (h1 : (∀ s ∈ ss, ¬ s.Takes env .text) → e'.text = e.text) (h2 : e'.tail = e.tail)
    (h3 : ∀ k v, (∀ s ∈ ss, ¬ s.Takes env (.attr k)) → (k, v) ∈ e.attrib.getD [] → (k, v) ∈ e'.attrib.getD [])
    (h4 : ∀ c ∈ e.elements, c ∈ e'.elements) : Spares env ss e e' := by
  refine ⟨h0, fun p h => ?_⟩
  cases h with
  | text ht he => exact .text ht ((h1 ht).trans he)
  | tail he => exact .tail (h2.trans he)
  | attr hk ht => exact .attr (h3 _ _ ht hk) ht
  | child hc hw hn hu => exact .child (h4 _ hc) hw hn hu

/-- The fields `ss` take all that `s` takes. -/
def Cov (env : Env) (s : Ser) (ss : List Ser) : Prop := ∀ x, s.Takes env x → ∃ s' ∈ ss, s'.Takes env x

theorem cov_mem {s : Ser} {ss : List Ser} (h : s ∈ ss) : Cov env s ss := fun _ hx => ⟨s, h, hx⟩

section
variable {ss : List Ser}

theorem spares_popText (e : Elem) (h : ∃ s ∈ ss, s.Takes env .text) : Spares env ss e e.popText.2 :=
  .of rfl (fun hn => by obtain ⟨s, h1, h2⟩ := h; exact absurd h2 (hn s h1)) rfl (fun _ _ _ h => h) (fun _ h => h)

theorem spares_popAttrib (e : Elem) (k : String) (h : ∃ s ∈ ss, s.Takes env (.attr k)) : Spares env ss e (e.popAttrib k).2 := by
  unfold popAttrib
  split
  · refine .of rfl (fun _ => rfl) rfl (fun k' v hn hm => ?_) (fun _ h => h)
    simp only [Option.getD_some]
    have : k' ≠ k := by
      rintro rfl
      obtain ⟨s, h1, h2⟩ := h
      exact hn s h1 h2
    exact Dict.mem_erase_of_ne hm this
  · exact .refl _ _

theorem spares_popAttributes (e : Elem) (h : ∀ k, ∃ s ∈ ss, s.Takes env (.attr k)) : Spares env ss e e.popAttributes.2 :=
  .of rfl (fun _ => rfl) rfl (fun k v hn _ => by obtain ⟨s, h1, h2⟩ := h k; exact absurd h2 (hn s h1)) (fun _ h => h)

theorem spares_search (e : Elem) (tag : String) (mode : Mode) (step : Bool) : Spares env ss e (e.search tag mode step).2 := by
  obtain ⟨l, n, h1, h2, _⟩ := search_spec e tag mode step
  rw [h1]
  exact .of rfl (fun _ => rfl) rfl (fun _ _ _ h => h) (fun c hc => h2.mem_iff.2 hc)

theorem spares_setChild (e : Elem) (i : Nat) (c c' : Elem) (hc : e.elements[i]? = some c)
    (h : ∀ ss', (∀ s ∈ ss, ¬ s.Takes env (.whole c.tag)) →
      (∀ s ∈ ss, ∀ next, s.Takes env (.child c.tag next) → ∀ s' ∈ next, s' ∈ ss') → Spares env ss' c c') (ht : c'.tag = c.tag) :
    Spares env ss e (e.setChild i c') := by
  refine ⟨rfl, fun p hp => ?_⟩
  cases hp with
  | text ht he => exact .text ht he
  | tail he => exact .tail he
  | attr hk ht => exact .attr hk ht
  | @child _ ss' _ d _ hd hw hn hu =>
    obtain ⟨j, hj⟩ := List.getElem?_of_mem hd
    by_cases hij : i = j
    · subst hij
      rw [hc] at hj
      cases hj
      refine .child (c := c') (ss' := ss') ?_ (by rw [ht]; exact hw) (by rw [ht]; exact hn) ((h ss' hw hn).2 p hu)
      exact List.mem_of_getElem? (i := i) (by simp [setChild, (List.getElem?_eq_some_iff.1 hc).1])
    · refine .child (c := d) (ss' := ss') ?_ hw hn hu
      exact List.mem_of_getElem? (i := j) (by simp [setChild, hij, hj])

theorem spares_next (e : Elem) (n : Nat) : Spares env ss e { e with next := n } :=
  .of rfl (fun _ => rfl) rfl (fun _ _ _ h => h) (fun _ h => h)

theorem spares_isNil (e : Elem) (h : ∃ s ∈ ss, s.Takes env (.attr nilAttr)) : Spares env ss e e.isNil.2 := by
  unfold Elem.isNil; exact spares_popAttrib e _ h

theorem spares_findElement {e : Elem} {tag : String} {mode : Mode} {r} (h : e.findElement tag mode = .ok r) :
    Spares env ss e r.2 ∧ ∀ i, r.1 = some i → ∃ c, r.2.elements[i]? = some c ∧ c.tag = tag := by
  unfold Elem.findElement at h
  cases hl : e.lookBehind tag with
  | error x => rw [hl] at h; cases h
  | ok b =>
    rw [hl] at h
    cases b with
    | true =>
      cases h
      refine ⟨.refl _ _, fun i hi => ?_⟩
      cases hi
      unfold lookBehind at hl
      split at hl
      · cases hl
      · split at hl
        · rename_i c hc
          refine ⟨c, hc, ?_⟩
          simpa using hl
        · cases hl
    | false =>
      cases h
      refine ⟨spares_search e tag mode true, fun i hi => ?_⟩
      cases hs : e.search tag mode true with
      | mk o e' =>
        rw [hs] at hi
        simp only at hi
        subst hi
        obtain ⟨c, h1, h2, _⟩ := search_index hs
        exact ⟨c, h1, h2⟩

/-- Running a reader on a child that is looked for. -/
theorem onChild_spares {α : Type} {f : St → Out α × St} (st : St) (i : Nat) (c : Elem) (hc : st.el.elements[i]? = some c)
    (next : List Ser) (ht : ∃ s ∈ ss, s.Takes env (.child c.tag next))
    (h : ∀ ss', (∀ s' ∈ next, s' ∈ ss') → Spares env ss' c (f ⟨c, st.sm⟩).2.el) : Spares env ss st.el (onChild st i f).2.el := by
  unfold onChild
  rw [hc]
  obtain ⟨s, hs, ht⟩ := ht
  refine spares_setChild _ _ c _ hc (fun ss' _ hn => h ss' (hn s hs next ht)) (h next (fun _ h => h)).1

theorem descend_spares {f : St → Out Val × St} {mode : Mode} {ns : Option NsMap} {inner : Ser}
    (h : ∀ ss, Cov env inner ss → ∀ st, Spares env ss st.el (f st).2.el) (path : List String) {ss : List Ser}
    (hcov : Cov env (.wrap path ns mode false inner) ss) (st : St) : Spares env ss st.el (descend mode f path st).2.el := by
  induction path generalizing st ss with
  | nil => exact h ss (fun x hx => hcov x (.wrapped hx)) st
  | cons t ts ih =>
    unfold descend
    split
    · exact .refl _ _
    · rename_i el hf; exact (spares_findElement hf).1
    · rename_i i el hf
      obtain ⟨h1, h2⟩ := spares_findElement (env := env) (ss := ss) hf
      obtain ⟨c, hc, rfl⟩ := h2 i rfl
      refine h1.trans (onChild_spares ⟨el, st.sm⟩ i c hc _ (hcov _ .wrap) fun ss' hs => ?_)
      exact ih (cov_mem (hs _ (List.mem_singleton.2 rfl))) _

theorem homogLoop_spares {f : Loc → St → Out Val × St} (h : ∀ l st, Spares env ss st.el (f l st).2.el) (loc : Loc) (n idx : Nat)
    (acc : List Val) (errs : Dict ErrKey VErr) (st : St) : Spares env ss st.el (homogLoop f loc n idx acc errs st).2.el := by
  induction n generalizing idx acc errs st with
  | zero => exact .refl _ _
  | succ n ih =>
    unfold homogLoop
    have hs := h (loc ++ [.idx idx]) st
    cases hr : f (loc ++ [.idx idx]) st with
    | mk o st' =>
      rw [hr] at hs
      cases o with
      | ok v =>
        simp only
        split
        · exact hs
        · exact hs.trans (ih _ _ _ _)
      | verr e => exact hs.trans (ih _ _ _ _)
      | crash e => exact hs
      | diverge => exact hs

theorem heteroLoop_spares {f : Ser → Loc → St → Out Val × St} (loc : Loc) (inners : List Ser)
    (h : ∀ s ∈ inners, ∀ l st, Spares env ss st.el (f s l st).2.el) (idx : Nat) (acc : List Val) (errs : Dict ErrKey VErr) (st : St) :
    Spares env ss st.el (heteroLoop f loc inners idx acc errs st).2.el := by
  induction inners generalizing idx acc errs st with
  | nil => exact .refl _ _
  | cons s inners ih =>
    have ih := ih (fun s' hs' => h s' (List.mem_cons_of_mem _ hs'))
    unfold heteroLoop
    have hs := h s (List.mem_cons_self ..) (loc ++ [.idx idx]) st
    cases hr : f s (loc ++ [.idx idx]) st with
    | mk o st' =>
      rw [hr] at hs
      cases o with
      | ok v => exact hs.trans (ih _ _ _ _)
      | verr e => exact hs.trans (ih _ _ _ _)
      | crash e => exact hs
      | diverge => exact hs

theorem spares_line (e s : Elem) (h : Spares env ss e s) : Spares env ss e (e.applySnapshot s) :=
  h.trans (.of rfl (fun _ => rfl) rfl (fun _ _ _ h => h) (fun _ h => h))

theorem unionLoop_spares {f : Proxy → St → Out Val × St} (title : Title) (ps : List Proxy)
    (h : ∀ p ∈ ps, ∀ st, Spares env ss st.el (f p st).2.el) (errs : Dict ErrKey VErr) (st : St) :
    Spares env ss st.el (unionLoop f title ps errs st).2.el := by
  induction ps generalizing errs st with
  | nil =>
    unfold unionLoop
    split
    · exact .refl _ _
    · exact spares_next _ _
  | cons p ps ih =>
    have ih := ih (fun p' hp' => h p' (List.mem_cons_of_mem _ hp'))
    unfold unionLoop
    have hs := h p (List.mem_cons_self ..) ⟨st.el.createSnapshot, st.sm⟩
    cases hr : f p ⟨st.el.createSnapshot, st.sm⟩ with
    | mk o st' =>
      rw [hr] at hs
      cases o with
      | ok v =>
        simp only
        split
        · exact ih _ { st with sm := st'.sm }
        · exact spares_line _ _ hs
      | verr e => exact ih _ { st with sm := st'.sm }
      | crash e => exact .refl _ _
      | diverge => exact .refl _ _

theorem taggedLoop_spares {f : Proxy → St → Out Val × St} (loc : Loc) (a : String) (mode : Mode) (ps : List (String × Proxy))
    (h : ∀ p ∈ ps, ∀ st, Spares env ss st.el (f p.2 st).2.el) (st : St) :
    Spares env ss st.el (taggedLoop f loc a mode ps st).2.el := by
  induction ps generalizing st with
  | nil => exact .refl _ _
  | cons p ps ih =>
    have hp := h p (List.mem_cons_self ..)
    have ih := ih (fun p' hp' => h p' (List.mem_cons_of_mem _ hp'))
    obtain ⟨tag, p⟩ := p
    unfold taggedLoop
    have hs := spares_search (env := env) (ss := ss) st.el p.name mode false
    split
    · rename_i i el hp'
      rw [hp'] at hs
      split
      · exact hs
      · rename_i c hc
        split
        · exact hs.trans (hp ⟨el, _⟩)
        · exact hs.trans (ih { st with el := el })
    · rename_i el hp'
      rw [hp'] at hs
      exact hs.trans (ih { st with el := el })

theorem deserText_spares (eas nl : Bool) (hcov : Cov env (.text false nl) ss) (st : St) :
    Spares env ss st.el (deserText eas false nl st).2.el := by
  unfold deserText
  rw [if_neg (by simp)]
  cases nl with
  | false => exact spares_popText _ (hcov _ .text)
  | true =>
    simp only [if_true]
    have hs := spares_isNil (env := env) (ss := ss) st.el (hcov _ .nil)
    cases hn : st.el.isNil with
    | mk b el =>
      rw [hn] at hs
      cases b with
      | true => exact hs
      | false => exact hs.trans (spares_popText el (hcov _ .text))

theorem deserAttrs_spares (a : AttrsSer) (hcov : Cov env (.attrs a) ss) (st : St) :
    Spares env ss st.el (deserAttrs a st).2.el := by
  unfold deserAttrs
  split
  · exact .refl _ _
  · rename_i hc
    have hs := spares_popAttributes (env := env) (ss := ss) st.el (fun k => hcov _ (.attrs (by simpa using hc)))
    cases hn : st.el.popAttributes with
    | mk b el =>
      rw [hn] at hs
      cases b <;> exact hs

theorem deserFields_spares {f : Ser → Loc → St → Out Val × St} (fs : List Field) (hv : ∀ fd ∈ fs, fd.validator = none)
    (h : ∀ fd ∈ fs, ∀ l st, Spares env ss st.el (f fd.ser l st).2.el) (res : Dict String Val) (errs : Dict ErrKey VErr) (st : St) :
    Spares env ss st.el (deserFields f fs res errs st).2.el := by
  induction fs generalizing res errs st with
  | nil => exact .refl _ _
  | cons fd fs ih =>
    have ih := ih (fun g hg => hv g (List.mem_cons_of_mem _ hg)) (fun g hg => h g (List.mem_cons_of_mem _ hg))
    unfold deserFields
    simp only [hv fd (List.mem_cons_self ..)]
    have hs := h fd (List.mem_cons_self ..) [.name fd.name] { st with sm := st.sm.set [.name fd.name] st.el.line }
    cases hr : f fd.ser [.name fd.name] { st with sm := st.sm.set [.name fd.name] st.el.line } with
    | mk o st' =>
      rw [hr] at hs
      cases o with
      | ok v => exact hs.trans (ih _ _ st')
      | verr e => exact hs.trans (ih _ _ st')
      | crash e => exact hs
      | diverge => exact hs

theorem deserModel_spares {f : Ser → Loc → St → Out Val × St} (cls : String) (m : ModelSer)
    (hv : ∀ fs, m.body = .fields fs → ∀ fd ∈ fs, fd.validator = none)
    (h : ∀ s ∈ m.sers, ∀ l st, Spares env ss st.el (f s l st).2.el) (loc : Loc) (st : St) :
    Spares env ss st.el (deserModel env f cls m loc st).2.el := by
  unfold deserModel
  split
  · rename_i fs hb
    have hs := deserFields_spares (env := env) (ss := ss) (f := f) fs (hv fs hb)
      (fun fd hfd => h fd.ser (by simp only [ModelSer.sers, hb]; exact List.mem_map.2 ⟨fd, hfd, rfl⟩)) [] [] st
    cases hr : deserFields f fs [] [] st with
    | mk o st' =>
      rw [hr] at hs
      cases o with
      | ok v => simp only; split <;> exact hs
      | verr e => exact hs
      | crash e => exact hs
      | diverge => exact hs
  · rename_i s hb
    have hs := h s (by simp [ModelSer.sers, hb]) loc st
    cases hr : f s loc st with
    | mk o st' =>
      rw [hr] at hs
      cases o <;> exact hs
end

/-- Reading with a serializer leaves everything unread that it does not take. -/
theorem deser_spares (hno : env.NoValidators) (eas : Bool) (n : Nat) (s : Ser) {ss : List Ser} (hcov : Cov env s ss) (loc : Loc)
    (st : St) : Spares env ss st.el (deser env eas n s loc st).2.el := by
  induction n generalizing s ss loc st with
  | zero => exact .refl _ _
  | succ n ih =>
    change Spares env ss st.el (deserStep env eas (deser env eas n) n s loc st).2.el
    generalize deser env eas n = F at ih ⊢
    unfold deserStep
    cases s with
    | text c nl =>
      cases c
      · exact deserText_spares eas nl hcov st
      · exact .refl _ _
    | attr nm c =>
      cases c
      · simp only
        have hs := spares_popAttrib (env := env) (ss := ss) st.el nm (hcov _ .attr)
        cases hn : st.el.popAttrib nm with
        | mk b el => rw [hn] at hs; cases b <;> exact hs
      · exact .refl _ _
    | elem nm ns m c nl =>
      cases c
      · simp only
        have hs := spares_search (env := env) (ss := ss) st.el nm m true
        simp only [popElement]
        rw [if_neg (by simp)]
        cases hp : st.el.search nm m true with
        | mk o el =>
          rw [hp] at hs
          cases o with
          | none => exact hs
          | some i =>
            obtain ⟨c, hc, rfl, _⟩ := search_index hp
            refine hs.trans (onChild_spares ⟨el, st.sm⟩ i c hc _ (hcov _ .elem) fun ss' hss => ?_)
            exact deserText_spares eas nl (cov_mem (hss _ (List.mem_singleton.2 rfl))) _
      · exact .refl _ _
    | attrs a => exact deserAttrs_spares a hcov st
    | mapElem a nm m =>
      simp only
      split
      · exact .refl _ _
      · rename_i hca
        have hs := spares_search (env := env) (ss := ss) st.el nm m true
        simp only [popElement]
        cases hp : st.el.search nm m true with
        | mk o el =>
          rw [hp] at hs
          cases o with
          | none => exact hs
          | some i =>
            obtain ⟨c, hc, rfl, _⟩ := search_index hp
            refine hs.trans (onChild_spares ⟨el, st.sm⟩ i c hc _ (hcov _ (.mapElem (by simpa using hca))) fun ss' hss => ?_)
            exact deserAttrs_spares a (cov_mem (hss _ (List.mem_singleton.2 rfl))) _
    | raw nm m c =>
      cases c
      · simp only
        rw [if_neg (by simp)]
        unfold popElementRemove popElement
        have hs := spares_search (env := env) (ss := ss) st.el nm m true
        cases hp : st.el.search nm m true with
        | mk o el =>
          rw [hp] at hs
          cases o with
          | none => exact hs
          | some i =>
            obtain ⟨c, hc, rfl, _⟩ := search_index hp
            simp only [hc]
            obtain ⟨s, h1, h2⟩ := hcov _ .raw
            exact hs.trans (spares_setChild _ _ c _ hc (fun ss' hw => absurd h2 (hw s h1)) rfl)
      · exact .refl _ _
    | proxy p =>
      simp only
      split
      · exact .refl _ _
      · rename_i m hm
        split
        · exact .refl _ _
        · rename_i hcp
          have hs := spares_search (env := env) (ss := ss) st.el p.name p.mode true
          simp only [popElement]
          cases hp : st.el.search p.name p.mode true with
          | mk o el =>
            rw [hp] at hs
            cases o with
            | none => exact hs
            | some i =>
              obtain ⟨c, hc, ht, _⟩ := search_index hp
              refine hs.trans (onChild_spares ⟨el, st.sm⟩ i c hc _ (ht ▸ hcov _ (.proxy (by simpa using hcp) hm)) fun ss' hss => ?_)
              have hs := spares_isNil (env := env) (ss := ss') c ⟨_, hss _ (List.mem_cons_self ..), .attr⟩
              cases hn : c.isNil with
              | mk b el' =>
                rw [hn] at hs
                simp only
                cases b with
                | true => exact hs
                | false =>
                  exact hs.trans (deserModel_spares p.cls m (fun fs hb => hno p.cls m fs hm hb)
                    (fun s hs' l st => ih s (cov_mem (hss _ (List.mem_cons_of_mem _ hs'))) l st) loc ⟨el', _⟩)
    | primUnion c inner =>
      cases c
      · exact ih inner (fun x hx => hcov x (.primUnion hx)) _ _
      · exact .refl _ _
    | modelUnion t c alts =>
      cases c
      · exact unionLoop_spares t alts (fun p hp st => ih (.proxy p) (fun x hx => hcov x (.modelUnion hp hx)) loc st) [] st
      · exact .refl _ _
    | tagged c d a m alts =>
      cases c
      · exact taggedLoop_spares loc a m alts (fun p hp st => ih (.proxy p.2) (fun x hx => hcov x (.tagged hp hx)) loc st) st
      · exact .refl _ _
    | wrap path ns m c inner =>
      cases c
      · exact descend_spares (ns := ns) (inner := inner)
          (fun ss hc st => ih inner hc loc ⟨st.el, st.sm.set loc st.el.line⟩) path hcov st
      · exact .refl _ _
    | homog t c inner =>
      cases c
      · simp only
        rw [if_neg (by simp)]
        have hs := homogLoop_spares (env := env) (ss := ss) (fun l => ih inner (fun x hx => hcov x (.homog hx)) l) loc n 0 [] [] st
        cases hr : homogLoop (fun loc st => F inner loc st) loc n 0 [] [] st with
        | mk o st' =>
          rw [hr] at hs
          cases o <;> exact hs
      · exact .refl _ _
    | hetero t c inners =>
      cases c
      · simp only
        rw [if_neg (by simp)]
        have hs := heteroLoop_spares (env := env) (ss := ss) (f := F) loc inners
          (fun s hs l st => ih s (fun x hx => hcov x (.hetero hs hx)) l st) 0 [] [] st
        cases hr : heteroLoop F loc inners 0 [] [] st with
        | mk o st' =>
          rw [hr] at hs
          cases o <;> exact hs
      · exact .refl _ _

theorem deserModel_env_spares (hno : env.NoValidators) (eas : Bool) (n : Nat) (cls : String) (m : ModelSer)
    (hm : env.model cls = some m) (loc : Loc) (st : St) :
    Spares env m.sers st.el (deserModel env (deser env eas n) cls m loc st).2.el :=
  deserModel_spares cls m (fun fs hb => hno cls m fs hm hb) (fun s hs => deser_spares hno eas n s (cov_mem hs)) loc st

theorem fromNative_tag (b : Backend) (n : Node) : (fromNative b n).tag = n.tag := by
  cases n <;> rfl

theorem mem_fromNativeList {b : Backend} {l : List Node} {c : Node} (h : c ∈ l) (hc : c.isComment = false) :
    fromNative b c ∈ fromNativeList b l := by
  induction l with
  | nil => cases h
  | cons d l ih =>
    unfold fromNativeList
    rcases List.mem_cons.1 h with rfl | h
    · rw [hc]; simp
    · split
      · exact ih h
      · exact List.mem_cons_of_mem _ (ih h)

theorem fromNative_unread (b : Backend) {ss : List Ser} {n : Node} {p : Piece} (h : n.Unread env ss p) :
    (fromNative b n).Unread env ss p := by
  induction h with
  | text ht => exact .text ht rfl
  | tail => exact .tail rfl
  | attr hk ht => exact .attr hk ht
  | @child ss ss' _ _ _ _ _ cs _ c p hc hw hn hu ih =>
    have hcc : c.isComment = false := by cases hu <;> rfl
    exact .child (c := fromNative b c) (by simp only [fromNative]; exact mem_fromNativeList hc hcc)
      (by rw [fromNative_tag]; exact hw) (by rw [fromNative_tag]; exact hn) ih
  | piText ht => exact .text ht rfl
  | piTail => exact .tail rfl

theorem Elem.Unread.content {ss : List Ser} {e : Elem} {p : Piece} (h : e.Unread env ss p) : p ∈ e.content := by
  induction h with
  | text _ h => rw [content_eq]; simp [own, h]
  | tail h => rw [content_eq]; simp [own, h]
  | attr h _ =>
    rw [content_eq]
    simp only [own, List.mem_append, List.mem_map]
    exact .inl (.inr ⟨_, h, rfl⟩)
  | @child _ _ e c p hc _ _ _ ih =>
    rw [content_eq]
    exact List.mem_append_right _ (List.mem_flatMap.2 ⟨c, hc, ih⟩)

mutual
theorem Node.unread_nil (n : Node) (p : Piece) (h : p ∈ n.pieces) : n.Unread env [] p := by
  cases n with
  | elem tag attrib nsmap text tail children line =>
    simp only [Node.pieces, List.mem_append, List.mem_map] at h
    rcases h with ((⟨t, h, rfl⟩ | ⟨t, h, rfl⟩) | ⟨kv, h, rfl⟩) | h
    · cases text with
      | none => simp at h
      | some t' => simp at h; subst h; exact .text (by simp)
    · cases tail with
      | none => simp at h
      | some t' => simp at h; subst h; exact .tail
    · exact .attr h (by simp)
    · obtain ⟨c, hc, hu⟩ := Node.unread_nilList children p h
      exact .child hc (by simp) (by simp) hu
  | comment a b => simp [Node.pieces] at h
  | pi text tail =>
    simp only [Node.pieces, List.mem_append, List.mem_map] at h
    rcases h with ⟨t, h, rfl⟩ | ⟨t, h, rfl⟩
    · cases text with
      | none => simp at h
      | some t' => simp at h; subst h; exact .piText (by simp)
    · cases tail with
      | none => simp at h
      | some t' => simp at h; subst h; exact .piTail
theorem Node.unread_nilList (l : List Node) (p : Piece) (h : p ∈ Node.piecesList l) : ∃ c ∈ l, c.Unread env [] p := by
  cases l with
  | nil => simp [Node.piecesList] at h
  | cons c l =>
    simp only [Node.piecesList, List.mem_append] at h
    rcases h with h | h
    · exact ⟨c, List.mem_cons_self .., Node.unread_nil c p h⟩
    · obtain ⟨d, hd, hu⟩ := Node.unread_nilList l p h
      exact ⟨d, List.mem_cons_of_mem _ hd, hu⟩
end

theorem Node.Stranger.unread {ss : List Ser} {n x : Node} {p : Piece} (h : n.Stranger env ss x) (hp : p ∈ x.pieces) :
    n.Unread env ss p := by
  induction h with
  | @here ss n c hc hw hn =>
    cases n with
    | elem => exact .child hc hw (fun s hs l hl => absurd hl (hn s hs l)) (Node.unread_nil c p hp)
    | comment => simp [Node.children] at hc
    | pi => simp [Node.children] at hc
  | @inside ss ss' n c x hc hw hn _ ih =>
    cases n with
    | elem => exact .child hc hw hn (ih hp)
    | comment => simp [Node.children] at hc
    | pi => simp [Node.children] at hc

end PXml
