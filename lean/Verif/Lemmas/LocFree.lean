import Verif.Lemmas.RestOf

/-! What is read does not depend on the location under which errors are reported, nor on the lines recorded so far. -/

namespace PXml

open Elem

/-- The outcomes are of one kind: the same value, errors on both sides, the same exception. -/
def Out.SameKind {α : Type} (R : α → α → Prop) : Out α → Out α → Prop
  | .ok a, .ok b => R a b
  | .verr _, .verr _ => True
  | .crash e, .crash e' => e = e'
  | .diverge, .diverge => True
  | _, _ => False

/-- The runs differ at most in what is reported. -/
def SameRead {α : Type} (R : α → α → Prop) (r r' : Out α × St) : Prop := r.1.SameKind R r'.1 ∧ r.2.el = r'.2.el

theorem SameRead.ok {α : Type} {R : α → α → Prop} {a b : α} {st st' : St} (h : R a b) (h' : st.el = st'.el) :
    SameRead R (.ok a, st) (.ok b, st') := ⟨h, h'⟩

/-- The functions read the same from the same element. -/
def ReadAlike {α : Type} (R : α → α → Prop) (f g : St → Out α × St) : Prop := ∀ st st', st.el = st'.el → SameRead R (f st) (g st')

/-- There are errors in both or in none. -/
def SameFound {α : Type} (a b : α × Dict ErrKey VErr) : Prop := a.1 = b.1 ∧ a.2.isEmpty = b.2.isEmpty

theorem isEmpty_set {d : Dict ErrKey VErr} {k : ErrKey} {e : VErr} : (d.set k e).isEmpty = false := by
  cases d with
  | nil => rfl
  | cons x d =>
    simp only [Dict.set]
    split <;> rfl

theorem onChild_alike {α : Type} {R : α → α → Prop} {f g : St → Out α × St} (h : ReadAlike R f g) {st st' : St} (he : st.el = st'.el) (i : Nat) :
    SameRead R (onChild st i f) (onChild st' i g) := by
  unfold onChild
  rw [he]
  cases st'.el.elements[i]? with
  | none => exact ⟨rfl, he⟩
  | some c =>
    obtain ⟨h1, h2⟩ := h ⟨c, st.sm⟩ ⟨c, st'.sm⟩ rfl
    exact ⟨h1, by simp only [h2]⟩

theorem popChild_alike {f g : St → Out Val × St} (h : ReadAlike Eq f g) (u : String) (m : Mode) : ReadAlike Eq (fun st =>
    match st.el.popElement u m with
    | (none, el) => (.ok .none, { st with el := el })
    | (some i, el) => onChild { st with el := el } i f) (fun st =>
    match st.el.popElement u m with
    | (none, el) => (.ok .none, { st with el := el })
    | (some i, el) => onChild { st with el := el } i g) := by
  intro st st' he
  simp only
  rw [he]
  cases st'.el.popElement u m with
  | mk o e' =>
    cases o with
    | none => exact ⟨rfl, rfl⟩
    | some i => exact onChild_alike (st := ⟨e', st.sm⟩) (st' := ⟨e', st'.sm⟩) h rfl i

theorem deserText_alike (eas c nl : Bool) : ReadAlike Eq (deserText eas c nl) (deserText eas c nl) := by
  intro st st' he
  obtain ⟨e, sm⟩ := st
  obtain ⟨e', sm'⟩ := st'
  cases he
  unfold deserText
  split
  · exact ⟨rfl, rfl⟩
  · simp only
    split <;> exact ⟨rfl, rfl⟩

theorem deserAttrs_alike (a : AttrsSer) : ReadAlike Eq (deserAttrs a) (deserAttrs a) := by
  intro st st' he
  obtain ⟨e, sm⟩ := st
  obtain ⟨e', sm'⟩ := st'
  cases he
  unfold deserAttrs
  split
  · exact ⟨rfl, rfl⟩
  · simp only
    split <;> exact ⟨rfl, rfl⟩

theorem descend_alike {f g : St → Out Val × St} (h : ReadAlike Eq f g) (m : Mode) (path : List String) :
    ReadAlike Eq (descend m f path) (descend m g path) := by
  induction path with
  | nil => exact h
  | cons u us ih =>
    intro st st' he
    simp only [descend, he]
    split
    · exact ⟨rfl, he⟩
    · exact ⟨rfl, rfl⟩
    · refine onChild_alike ih ?_ _
      rfl

theorem homogLoop_alike {f g : Loc → St → Out Val × St} (h : ∀ l l', ReadAlike Eq (f l) (g l')) (loc loc' : Loc) (n idx : Nat)
    (acc : List Val) (errs errs' : Dict ErrKey VErr) (hE : errs.isEmpty = errs'.isEmpty) :
    ReadAlike SameFound (homogLoop f loc n idx acc errs) (homogLoop g loc' n idx acc errs') := by
  induction n generalizing idx acc errs errs' with
  | zero => exact fun st st' he => ⟨trivial, he⟩
  | succ n ih =>
    intro st st' he
    unfold homogLoop
    obtain ⟨h1, h2⟩ := h (loc ++ [.idx idx]) (loc' ++ [.idx idx]) st st' he
    cases hf : f (loc ++ [.idx idx]) st with
    | mk o s1 =>
      cases hg : g (loc' ++ [.idx idx]) st' with
      | mk o' s2 =>
        rw [hf, hg] at h1 h2
        cases o <;> cases o' <;> simp only [Out.SameKind] at h1
        · subst h1
          simp only
          split
          · exact ⟨⟨rfl, hE⟩, h2⟩
          · exact ih _ _ _ _ hE _ _ h2
        · exact ih _ _ _ _ (by cases errs <;> cases errs' <;> rfl) _ _ h2
        · exact ⟨h1, h2⟩
        · exact ⟨trivial, h2⟩

theorem heteroLoop_alike {f g : Ser → Loc → St → Out Val × St} (h : ∀ s l l', ReadAlike Eq (f s l) (g s l')) (loc loc' : Loc)
    (ss : List Ser) (idx : Nat) (acc : List Val) (errs errs' : Dict ErrKey VErr) (hE : errs.isEmpty = errs'.isEmpty) :
    ReadAlike SameFound (heteroLoop f loc ss idx acc errs) (heteroLoop g loc' ss idx acc errs') := by
  induction ss generalizing idx acc errs errs' with
  | nil => exact fun st st' he => ⟨⟨rfl, hE⟩, he⟩
  | cons s ss ih =>
    intro st st' he
    unfold heteroLoop
    obtain ⟨h1, h2⟩ := h s (loc ++ [.idx idx]) (loc' ++ [.idx idx]) st st' he
    cases hf : f s (loc ++ [.idx idx]) st with
    | mk o s1 =>
      cases hg : g s (loc' ++ [.idx idx]) st' with
      | mk o' s2 =>
        rw [hf, hg] at h1 h2
        cases o <;> cases o' <;> simp only [Out.SameKind] at h1
        · subst h1
          exact ih _ _ _ _ hE _ _ h2
        · exact ih _ _ _ _ (by cases errs <;> cases errs' <;> rfl) _ _ h2
        · exact ⟨h1, h2⟩
        · exact ⟨trivial, h2⟩

theorem unionLoop_alike {f g : Proxy → St → Out Val × St} (h : ∀ p, ReadAlike Eq (f p) (g p)) (title : Title) (ps : List Proxy)
    (errs errs' : Dict ErrKey VErr) (hE : errs.isEmpty = errs'.isEmpty) :
    ReadAlike Eq (unionLoop f title ps errs) (unionLoop g title ps errs') := by
  induction ps generalizing errs errs' with
  | nil =>
    intro st st' he
    unfold unionLoop
    rw [hE, he]
    split
    · exact ⟨rfl, he⟩
    · exact ⟨trivial, rfl⟩
  | cons p ps ih =>
    intro st st' he
    unfold unionLoop
    obtain ⟨h1, h2⟩ := h p ⟨st.el.createSnapshot, st.sm⟩ ⟨st'.el.createSnapshot, st'.sm⟩ (by rw [he])
    cases hf : f p ⟨st.el.createSnapshot, st.sm⟩ with
    | mk o s1 =>
      cases hg : g p ⟨st'.el.createSnapshot, st'.sm⟩ with
      | mk o' s2 =>
        rw [hf, hg] at h1 h2
        cases o <;> cases o' <;> simp only [Out.SameKind] at h1
        · subst h1
          simp only
          split
          · exact ih _ _ hE _ _ he
          · exact ⟨rfl, by simp only at h2; simp only [h2, he]⟩
        · exact ih _ _ (by rw [isEmpty_set, isEmpty_set]) _ _ he
        · exact ⟨h1, he⟩
        · exact ⟨trivial, he⟩

theorem taggedLoop_alike {f g : Proxy → St → Out Val × St} (h : ∀ p, ReadAlike Eq (f p) (g p)) (loc loc' : Loc) (a : String) (m : Mode)
    (alts : List (String × Proxy)) : ReadAlike Eq (taggedLoop f loc a m alts) (taggedLoop g loc' a m alts) := by
  induction alts with
  | nil => exact fun st st' he => ⟨rfl, he⟩
  | cons p alts ih =>
    obtain ⟨tag, p⟩ := p
    intro st st' he
    unfold taggedLoop
    rw [he]
    cases st'.el.search p.name m false with
    | mk o e' =>
      cases o with
      | none => exact ih _ _ rfl
      | some i =>
        simp only
        cases e'.elements[i]? with
        | none => exact ⟨rfl, rfl⟩
        | some c =>
          simp only
          split
          · exact h p _ _ rfl
          · exact ih _ _ rfl

theorem deserFields_alike {f : Ser → Loc → St → Out Val × St} (h : ∀ s l, ReadAlike Eq (f s l) (f s l)) (fs : List Field)
    (hno : ∀ f ∈ fs, f.validator = none) (res : Dict String Val) (errs errs' : Dict ErrKey VErr) (hE : errs.isEmpty = errs'.isEmpty) :
    ReadAlike SameFound (deserFields f fs res errs) (deserFields f fs res errs') := by
  induction fs generalizing res errs errs' with
  | nil => exact fun st st' he => ⟨⟨rfl, hE⟩, he⟩
  | cons fd fs ih =>
    have ih := ih fun g hg => hno g (List.mem_cons_of_mem _ hg)
    intro st st' he
    unfold deserFields
    simp only [hno fd List.mem_cons_self]
    obtain ⟨h1, h2⟩ := h fd.ser [.name fd.name] ⟨st.el, st.sm.set [.name fd.name] st.el.line⟩ ⟨st'.el, st'.sm.set [.name fd.name] st'.el.line⟩ he
    cases hf : f fd.ser [.name fd.name] ⟨st.el, st.sm.set [.name fd.name] st.el.line⟩ with
    | mk o s1 =>
      cases hg : f fd.ser [.name fd.name] ⟨st'.el, st'.sm.set [.name fd.name] st'.el.line⟩ with
      | mk o' s2 =>
        rw [hf, hg] at h1 h2
        cases o <;> cases o' <;> simp only [Out.SameKind] at h1
        · subst h1
          exact ih _ _ _ hE _ _ h2
        · exact ih _ _ _ (by rw [isEmpty_set, isEmpty_set]) _ _ h2
        · exact ⟨h1, h2⟩
        · exact ⟨trivial, h2⟩

theorem deserModel_alike {env : Env} (hno : env.NoValidators) {f : Ser → Loc → St → Out Val × St}
    (h : ∀ s l l', ReadAlike Eq (f s l) (f s l')) {cls : String} {m : ModelSer} (hm : env.model cls = some m) (loc loc' : Loc) :
    ReadAlike Eq (deserModel env f cls m loc) (deserModel env f cls m loc') := by
  intro st st' he
  have hval : ∀ d (st st' : St), st.el = st'.el → (validateModel env cls m d st).SameKind Eq (validateModel env cls m d st') := by
    intro d st st' he
    unfold validateModel
    rw [he]
    split
    · trivial
    · split
      · rfl
      · trivial
  unfold deserModel
  cases hb : m.body with
  | fields fs =>
    simp only
    obtain ⟨h1, h2⟩ := deserFields_alike (fun s l => h s l l) fs (hno cls m fs hm hb) [] [] [] rfl st st' he
    cases hf : deserFields f fs [] [] st with
    | mk o s1 =>
      cases hg : deserFields f fs [] [] st' with
      | mk o' s2 =>
        rw [hf, hg] at h1 h2
        cases o <;> cases o' <;> simp only [Out.SameKind, SameFound] at h1
        · obtain ⟨h3, h4⟩ := h1
          simp only [h3, h4]
          split
          · exact ⟨hval _ _ _ h2, h2⟩
          · exact ⟨trivial, h2⟩
        · exact ⟨trivial, h2⟩
        · exact ⟨h1, h2⟩
        · exact ⟨trivial, h2⟩
  | root s =>
    simp only
    obtain ⟨h1, h2⟩ := h s loc loc' st st' he
    cases hf : f s loc st with
    | mk o s1 =>
      cases hg : f s loc' st' with
      | mk o' s2 =>
        rw [hf, hg] at h1 h2
        cases o <;> cases o' <;> simp only [Out.SameKind] at h1
        · subst h1
          exact ⟨hval _ _ _ h2, h2⟩
        · exact ⟨trivial, h2⟩
        · exact ⟨h1, h2⟩
        · exact ⟨trivial, h2⟩

theorem deser_alike {env : Env} (hno : env.NoValidators) (eas : Bool) (n : Nat) (s : Ser) (loc loc' : Loc) :
    ReadAlike Eq (deser env eas n s loc) (deser env eas n s loc') := by
  induction n generalizing s loc loc' with
  | zero => exact fun st st' he => ⟨trivial, he⟩
  | succ n ih =>
    intro st st' he
    change SameRead Eq (deserStep env eas (deser env eas n) n s loc st) (deserStep env eas (deser env eas n) n s loc' st')
    unfold deserStep
    cases s with
    | text c nl => exact deserText_alike eas c nl st st' he
    | attr nm c =>
      simp only
      split
      · exact ⟨rfl, he⟩
      · rw [he]
        split <;> exact ⟨rfl, rfl⟩
    | elem nm ns m c nl =>
      simp only
      split
      · exact ⟨rfl, he⟩
      · exact popChild_alike (f := fun k => deserText eas c nl { k with sm := k.sm.set loc k.el.line })
          (g := fun k => deserText eas c nl { k with sm := k.sm.set loc' k.el.line }) (fun s1 s2 h => deserText_alike eas c nl _ _ h) nm m st st' he
    | attrs a => exact deserAttrs_alike a st st' he
    | mapElem a nm m =>
      simp only
      split
      · exact ⟨rfl, he⟩
      · exact popChild_alike (f := fun k => deserAttrs a { k with sm := k.sm.set loc k.el.line })
          (g := fun k => deserAttrs a { k with sm := k.sm.set loc' k.el.line }) (fun s1 s2 h => deserAttrs_alike a _ _ h) nm m st st' he
    | raw nm m c =>
      simp only
      split
      · exact ⟨rfl, he⟩
      · rw [he]
        split <;> exact ⟨rfl, rfl⟩
    | proxy p =>
      simp only
      cases hm : env.model p.cls with
      | none => exact ⟨rfl, he⟩
      | some m =>
        simp only
        split
        · exact ⟨rfl, he⟩
        · refine popChild_alike (f := _) (g := _) ?_ p.name p.mode st st' he
          intro s1 s2 h
          simp only [h]
          split
          · exact ⟨rfl, rfl⟩
          · exact deserModel_alike hno (fun s l l' => ih s l l') hm loc loc' _ _ rfl
    | primUnion c s =>
      simp only
      split
      · exact ⟨rfl, he⟩
      · exact ih s loc loc' st st' he
    | modelUnion title c alts =>
      simp only
      split
      · exact ⟨rfl, he⟩
      · exact unionLoop_alike (fun p => ih (.proxy p) loc loc') title alts [] [] rfl st st' he
    | tagged c d a m alts =>
      simp only
      split
      · exact ⟨rfl, he⟩
      · exact taggedLoop_alike (fun p => ih (.proxy p) loc loc') loc loc' a m alts st st' he
    | wrap path ns m c s =>
      simp only
      split
      · exact ⟨rfl, he⟩
      · exact descend_alike (f := fun k => deser env eas n s loc { k with sm := k.sm.set loc k.el.line })
          (g := fun k => deser env eas n s loc' { k with sm := k.sm.set loc' k.el.line }) (fun s1 s2 h => ih s loc loc' _ _ h) m path st st' he
    | homog title c s =>
      simp only
      split
      · exact ⟨rfl, he⟩
      · obtain ⟨h1, h2⟩ := homogLoop_alike (f := fun l st => deser env eas n s l st) (g := fun l st => deser env eas n s l st)
          (fun l l' => ih s l l') loc loc' n 0 [] [] [] rfl st st' he
        cases hf : homogLoop (fun l st => deser env eas n s l st) loc n 0 [] [] st with
        | mk o s1 =>
          cases hg : homogLoop (fun l st => deser env eas n s l st) loc' n 0 [] [] st' with
          | mk o' s2 =>
            rw [hf, hg] at h1 h2
            cases o <;> cases o' <;> simp only [Out.SameKind, SameFound] at h1
            · obtain ⟨h3, h4⟩ := h1
              refine ⟨?_, h2⟩
              simp only [homogFinish, h3, h4]
              (repeat' split) <;> first | rfl | trivial
            · exact ⟨trivial, h2⟩
            · exact ⟨h1, h2⟩
            · exact ⟨trivial, h2⟩
    | hetero title c ss =>
      simp only
      split
      · exact ⟨rfl, he⟩
      · obtain ⟨h1, h2⟩ := heteroLoop_alike (f := deser env eas n) (g := deser env eas n) (fun s l l' => ih s l l') loc loc' ss 0 [] [] [] rfl
          st st' he
        cases hf : heteroLoop (deser env eas n) loc ss 0 [] [] st with
        | mk o s1 =>
          cases hg : heteroLoop (deser env eas n) loc' ss 0 [] [] st' with
          | mk o' s2 =>
            rw [hf, hg] at h1 h2
            cases o <;> cases o' <;> simp only [Out.SameKind, SameFound] at h1
            · obtain ⟨h3, h4⟩ := h1
              refine ⟨?_, h2⟩
              simp only [heteroFinish, h3, h4]
              (repeat' split) <;> first | rfl | trivial
            · exact ⟨trivial, h2⟩
            · exact ⟨h1, h2⟩
            · exact ⟨trivial, h2⟩

end PXml
