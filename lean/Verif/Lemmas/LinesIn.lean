import Verif.Lemmas.NoCrash

/-! Where the line numbers of errors come from: an invariant of reading. -/

namespace PXml
namespace Elem

mutual
/-- All elements of the tree have a line with the property. -/
def LinesIn (L : Int → Prop) : Elem → Prop
  | ⟨_, _, _, _, _, elements, _, line⟩ => L line ∧ LinesInList L elements
def LinesInList (L : Int → Prop) : List Elem → Prop
  | [] => True
  | c :: cs => LinesIn L c ∧ LinesInList L cs
end

variable {L : Int → Prop}

theorem linesInList_iff (l : List Elem) : LinesInList L l ↔ ∀ c ∈ l, c.LinesIn L := by
  induction l with
  | nil => simp [LinesInList]
  | cons c l ih => simp [LinesInList, ih]

theorem linesIn_iff (e : Elem) : e.LinesIn L ↔ L e.line ∧ ∀ c ∈ e.elements, c.LinesIn L := by
  cases e; simp [LinesIn, linesInList_iff]

theorem linesIn_congr {e e' : Elem} (h1 : e.line = e'.line) (h2 : e.elements = e'.elements) (h : e.LinesIn L) :
    e'.LinesIn L := by
  rw [linesIn_iff] at h ⊢
  rw [← h1, ← h2]
  exact h

theorem linesIn_child {e c : Elem} (h : e.LinesIn L) (hc : c ∈ e.elements) : c.LinesIn L := ((linesIn_iff e).1 h).2 c hc

theorem linesIn_setChild {e c : Elem} (h : e.LinesIn L) (hc : c.LinesIn L) (i : Nat) : (e.setChild i c).LinesIn L := by
  rw [linesIn_iff] at h ⊢
  refine ⟨h.1, fun x hx => ?_⟩
  rcases List.mem_or_eq_of_mem_set hx with hx | rfl
  · exact h.2 x hx
  · exact hc

theorem linesIn_hollow {e : Elem} (h : e.LinesIn L) : e.hollow.LinesIn L := by
  rw [linesIn_iff] at h ⊢
  exact ⟨h.1, by simp [hollow]⟩

theorem linesIn_search {e : Elem} (h : e.LinesIn L) (t : String) (m : Mode) (step : Bool) : (e.search t m step).2.LinesIn L := by
  obtain ⟨l, n, h3, h4, _⟩ := search_spec e t m step
  rw [h3, linesIn_iff]
  rw [linesIn_iff] at h
  exact ⟨h.1, fun c hc => h.2 c (h4.mem_iff.1 hc)⟩

theorem linesIn_popAttrib {e : Elem} (h : e.LinesIn L) (k : String) : (e.popAttrib k).2.LinesIn L := by
  unfold popAttrib; split <;> exact linesIn_congr (e := e) rfl rfl h

theorem linesIn_find {e : Elem} (h : e.LinesIn L) {t : String} {m : Mode} {r} (hf : e.findElement t m = .ok r) : r.2.LinesIn L := by
  unfold findElement at hf
  cases hl : e.lookBehind t with
  | error x => rw [hl] at hf; cases hf
  | ok b =>
    rw [hl] at hf
    cases b with
    | true => cases hf; exact h
    | false => cases hf; exact linesIn_search h t m true

mutual
theorem getUnbound_inLines (path : List (String × Int)) (hp : ∀ tl ∈ path, L tl.2) (e : Elem) (h : e.LinesIn L) :
    ∀ u ∈ e.getUnbound path, ∀ tl ∈ u.path, L tl.2 := by
  have ht : ∀ t, ∀ u ∈ unboundText path t, u.path = path := by
    intro t u hu
    cases t with
    | none => cases hu
    | some t =>
      simp only [unboundText] at hu
      split at hu
      · cases hu
      · simp at hu; rw [hu]
  cases e with
  | mk tag nsmap text tail attrib elements next line =>
    simp only [LinesIn] at h
    intro u hu
    simp only [getUnbound, List.mem_append, List.mem_map] at hu
    rcases hu with ((hu | hu) | ⟨kv, _, rfl⟩) | hu
    · rw [ht _ _ hu]; exact hp
    · rw [ht _ _ hu]; exact hp
    · exact hp
    · exact getUnboundList_inLines path hp elements h.2 u hu
theorem getUnboundList_inLines (path : List (String × Int)) (hp : ∀ tl ∈ path, L tl.2) (l : List Elem) (h : LinesInList L l) :
    ∀ u ∈ getUnboundList path l, ∀ tl ∈ u.path, L tl.2 := by
  cases l with
  | nil => intro u hu; cases hu
  | cons c l =>
    simp only [LinesInList] at h
    intro u hu
    simp only [getUnboundList, List.mem_append] at hu
    rcases hu with hu | hu
    · refine getUnbound_inLines (path ++ [(c.tag, c.line)]) ?_ c h.1 u hu
      intro tl htl
      rcases List.mem_append.1 htl with htl | htl
      · exact hp tl htl
      · rw [List.mem_singleton.1 htl]; exact ((linesIn_iff c).1 h.1).1
    · exact getUnboundList_inLines path hp l h.2 u hu
end

end Elem

open Elem

/-- All errors carry a line with the property. -/
def VErr.LinesIn (L : Int → Prop) (e : VErr) : Prop := ∀ x ∈ e.errs, ∃ l, x.line = some l ∧ L l

/-- The lines of the source map have the property. -/
def SMap.LinesIn (L : Int → Prop) (sm : SMap) : Prop := ∀ k l, sm.get? k = some l → L l

/-- An outcome with good lines in all errors. -/
def Out.LinesIn {α : Type} (L : Int → Prop) : Out α → Prop
  | .verr e => e.LinesIn L
  | _ => True

/-- The invariant of the state. -/
def St.LinesIn (L : Int → Prop) (st : St) : Prop := st.el.LinesIn L ∧ st.sm.LinesIn L

/-- The known locations stay known. -/
def SMap.Grows (sm sm' : SMap) : Prop := ∀ k, sm.get? k ≠ none → sm'.get? k ≠ none

variable {L : Int → Prop}

theorem SMap.LinesIn.set {sm : SMap} (h : sm.LinesIn L) {l : Int} (hl : L l) (k : Loc) : SMap.LinesIn L (sm.set k l) := by
  intro k' l' hk
  rw [Dict.get?_set] at hk
  split at hk
  · cases hk; exact hl
  · exact h _ _ hk

theorem SMap.Grows.refl (sm : SMap) : sm.Grows sm := fun _ h => h

theorem SMap.Grows.trans {a b c : SMap} (h1 : a.Grows b) (h2 : b.Grows c) : a.Grows c := fun k h => h2 k (h1 k h)

theorem SMap.Grows.set (sm : SMap) (k : Loc) (l : Int) : SMap.Grows sm (sm.set k l) := by
  intro k' h
  rw [Dict.get?_set]
  split
  · simp
  · exact h

/-- What a step of reading has to satisfy. -/
def InLines (L : Int → Prop) {α : Type} (st : St) (r : Out α × St) : Prop :=
  r.1.LinesIn L ∧ r.2.LinesIn L ∧ st.sm.Grows r.2.sm

theorem InLines.trans {α β : Type} {st : St} {r : Out α × St} {q : Out β × St} (h1 : InLines L st r) (h2 : InLines L r.2 q) : InLines L st q :=
  ⟨h2.1, h2.2.1, h1.2.2.trans h2.2.2⟩

theorem into_inLines {title : Title} {d : Dict ErrKey VErr} (h : ∀ x ∈ d, x.2.LinesIn L) : (intoValidationError title d).LinesIn L := by
  intro x hx
  simp only [intoValidationError, List.mem_flatMap, List.mem_map] at hx
  obtain ⟨⟨k, e⟩, hke, l, hl, rfl⟩ := hx
  obtain ⟨i, h1, h2⟩ := h (k, e) hke l hl
  cases k <;> exact ⟨i, h1, h2⟩

theorem set_inLines {d : Dict ErrKey VErr} (h : ∀ x ∈ d, x.2.LinesIn L) {e : VErr} (he : e.LinesIn L) (k : ErrKey) :
    ∀ x ∈ d.set k e, x.2.LinesIn L := by
  induction d with
  | nil => intro x hx; simp only [Dict.set, List.mem_singleton] at hx; subst hx; exact he
  | cons y d ih =>
    intro x hx
    simp only [Dict.set] at hx
    split at hx
    · rcases List.mem_cons.1 hx with rfl | hx
      · exact he
      · exact h x (List.mem_cons_of_mem _ hx)
    · rcases List.mem_cons.1 hx with rfl | hx
      · exact h _ (List.mem_cons_self ..)
      · exact ih (fun z hz => h z (List.mem_cons_of_mem _ hz)) x hx

theorem append_inLines {d : Dict ErrKey VErr} (h : ∀ x ∈ d, x.2.LinesIn L) {e : VErr} (he : e.LinesIn L) (k : ErrKey) :
    ∀ x ∈ d ++ [(k, e)], x.2.LinesIn L := by
  intro x hx
  rcases List.mem_append.1 hx with hx | hx
  · exact h x hx
  · rw [List.mem_singleton.1 hx]; exact he

theorem checkExtra_inLines {title : Title} {e : Elem} (h : e.LinesIn L) {x : VErr} (hx : checkExtra title e = some x) : x.LinesIn L := by
  unfold checkExtra at hx
  split at hx
  · cases hx
  · cases hx
    intro y hy
    simp only [List.mem_map] at hy
    obtain ⟨u, hu, rfl⟩ := hy
    refine ⟨_, rfl, ?_⟩
    have h1 := getUnbound_inLines [] (by simp) e h u hu
    cases hp : u.path.getLast? with
    | none => exact ((linesIn_iff e).1 h).1
    | some tl => exact h1 tl (List.mem_of_getLast? hp)

theorem onChild_inLines {f : St → Out Val × St} (h : ∀ st, st.LinesIn L → InLines L st (f st)) (st : St) (hs : st.LinesIn L) (i : Nat) :
    InLines L st (onChild st i f) := by
  unfold onChild
  split
  · exact ⟨trivial, hs, .refl _⟩
  · rename_i c hc
    have hc' := linesIn_child hs.1 (List.mem_of_getElem? hc)
    have := h ⟨c, st.sm⟩ ⟨hc', hs.2⟩
    exact ⟨this.1, ⟨linesIn_setChild hs.1 this.2.1.1 i, this.2.1.2⟩, this.2.2⟩

theorem descend_inLines {f : St → Out Val × St} (h : ∀ st, st.LinesIn L → InLines L st (f st)) (mode : Mode) (path : List String)
    (st : St) (hs : st.LinesIn L) : InLines L st (descend mode f path st) := by
  induction path generalizing st with
  | nil => exact h st hs
  | cons t ts ih =>
    unfold descend
    split
    · exact ⟨trivial, hs, .refl _⟩
    · rename_i el hf; exact ⟨trivial, ⟨linesIn_find hs.1 hf, hs.2⟩, .refl _⟩
    · rename_i i el hf
      exact onChild_inLines ih { st with el := el } ⟨linesIn_find hs.1 hf, hs.2⟩ i

/-- Errors gathered by a loop. -/
def LoopInLines (L : Int → Prop) (st : St) (r : Out (List Val × Dict ErrKey VErr) × St) : Prop :=
  InLines L st r ∧ ∀ x, r.1 = .ok x → ∀ y ∈ x.2, y.2.LinesIn L

theorem homogLoop_inLines {f : Loc → St → Out Val × St} (h : ∀ l st, st.LinesIn L → InLines L st (f l st)) (loc : Loc) (n idx : Nat)
    (acc : List Val) (errs : Dict ErrKey VErr) (he : ∀ x ∈ errs, x.2.LinesIn L) (st : St) (hs : st.LinesIn L) :
    LoopInLines L st (homogLoop f loc n idx acc errs st) := by
  induction n generalizing idx acc errs st with
  | zero => exact ⟨⟨trivial, hs, .refl _⟩, fun _ h => by cases h⟩
  | succ n ih =>
    unfold homogLoop
    have hk := h (loc ++ [.idx idx]) st hs
    cases hr : f (loc ++ [.idx idx]) st with
    | mk o st' =>
      rw [hr] at hk
      cases o with
      | ok v =>
        simp only
        split
        · exact ⟨⟨trivial, hk.2⟩, fun x hx => by cases hx; exact he⟩
        · have h1 := ih (idx + 1) (acc ++ [v]) errs he st' hk.2.1
          exact ⟨hk.trans h1.1, h1.2⟩
      | verr e =>
        have h1 := ih (idx + 1) acc _ (append_inLines he hk.1 (some (.idx idx))) st' hk.2.1
        exact ⟨hk.trans h1.1, h1.2⟩
      | crash e => exact ⟨⟨trivial, hk.2⟩, fun x hx => by cases hx⟩
      | diverge => exact ⟨⟨trivial, hk.2⟩, fun x hx => by cases hx⟩

theorem heteroLoop_inLines {f : Ser → Loc → St → Out Val × St} (h : ∀ s l st, st.LinesIn L → InLines L st (f s l st)) (loc : Loc)
    (ss : List Ser) (idx : Nat) (acc : List Val) (errs : Dict ErrKey VErr) (he : ∀ x ∈ errs, x.2.LinesIn L) (st : St)
    (hs : st.LinesIn L) : LoopInLines L st (heteroLoop f loc ss idx acc errs st) := by
  induction ss generalizing idx acc errs st with
  | nil => exact ⟨⟨trivial, hs, .refl _⟩, fun x hx => by cases hx; exact he⟩
  | cons s ss ih =>
    unfold heteroLoop
    have hk := h s (loc ++ [.idx idx]) st hs
    cases hr : f s (loc ++ [.idx idx]) st with
    | mk o st' =>
      rw [hr] at hk
      cases o with
      | ok v =>
        have h1 := ih (idx + 1) (acc ++ [v]) errs he st' hk.2.1
        exact ⟨hk.trans h1.1, h1.2⟩
      | verr e =>
        have h1 := ih (idx + 1) acc _ (append_inLines he hk.1 (some (.idx idx))) st' hk.2.1
        exact ⟨hk.trans h1.1, h1.2⟩
      | crash e => exact ⟨⟨trivial, hk.2⟩, fun x hx => by cases hx⟩
      | diverge => exact ⟨⟨trivial, hk.2⟩, fun x hx => by cases hx⟩

theorem unionLoop_inLines {f : Proxy → St → Out Val × St} (h : ∀ p st, st.LinesIn L → InLines L st (f p st)) (title : Title)
    (ps : List Proxy) (errs : Dict ErrKey VErr) (he : ∀ x ∈ errs, x.2.LinesIn L) (st : St) (hs : st.LinesIn L) :
    InLines L st (unionLoop f title ps errs st) := by
  induction ps generalizing errs st with
  | nil =>
    unfold unionLoop
    split
    · exact ⟨trivial, hs, .refl _⟩
    · exact ⟨into_inLines he, ⟨linesIn_congr (e := st.el) rfl rfl hs.1, hs.2⟩, .refl _⟩
  | cons p ps ih =>
    unfold unionLoop
    have hk := h p ⟨st.el.createSnapshot, st.sm⟩ hs
    cases hr : f p ⟨st.el.createSnapshot, st.sm⟩ with
    | mk o st' =>
      rw [hr] at hk
      have hs' : St.LinesIn L { st with sm := st'.sm } := ⟨hs.1, hk.2.1.2⟩
      cases o with
      | ok v =>
        simp only
        split
        · have h1 := ih errs he { st with sm := st'.sm } hs'
          exact ⟨h1.1, h1.2.1, hk.2.2.trans h1.2.2⟩
        · refine ⟨trivial, ⟨?_, hk.2.1.2⟩, hk.2.2⟩
          have h1 := (linesIn_iff _).1 hk.2.1.1
          exact (linesIn_iff _).2 ⟨((linesIn_iff _).1 hs.1).1, h1.2⟩
      | verr e =>
        have h1 := ih _ (set_inLines he hk.1 (some (.name e.title.text))) { st with sm := st'.sm } hs'
        exact ⟨h1.1, h1.2.1, hk.2.2.trans h1.2.2⟩
      | crash e => exact ⟨trivial, hs', hk.2.2⟩
      | diverge => exact ⟨trivial, hs', hk.2.2⟩

theorem taggedLoop_inLines {f : Proxy → St → Out Val × St} (h : ∀ p st, st.LinesIn L → InLines L st (f p st)) (loc : Loc) (a : String)
    (mode : Mode) (ps : List (String × Proxy)) (st : St) (hs : st.LinesIn L) :
    InLines L st (taggedLoop f loc a mode ps st) := by
  induction ps generalizing st with
  | nil => exact ⟨trivial, hs, .refl _⟩
  | cons p ps ih =>
    obtain ⟨tag, p⟩ := p
    unfold taggedLoop
    have hl := linesIn_search hs.1 p.name mode false
    split
    · rename_i i el hp
      rw [hp] at hl
      split
      · exact ⟨trivial, ⟨hl, hs.2⟩, .refl _⟩
      · rename_i c hc
        split
        · have h1 := h p ⟨el, st.sm.set loc c.line⟩
            ⟨hl, hs.2.set ((linesIn_iff c).1 (linesIn_child hl (List.mem_of_getElem? hc))).1 loc⟩
          exact ⟨h1.1, h1.2.1, (SMap.Grows.set _ _ _).trans h1.2.2⟩
        · exact ih { st with el := el } ⟨hl, hs.2⟩
    · rename_i el hp
      rw [hp] at hl
      exact ih { st with el := el } ⟨hl, hs.2⟩

theorem deserFields_inLines {f : Ser → Loc → St → Out Val × St} (h : ∀ s l st, st.LinesIn L → InLines L st (f s l st))
    (fs : List Field) (hno : ∀ fd ∈ fs, fd.validator = none) (res : Dict String Val) (errs : Dict ErrKey VErr)
    (he : ∀ x ∈ errs, x.2.LinesIn L) (st : St) (hs : st.LinesIn L) :
    InLines L st (deserFields f fs res errs st) ∧ ∀ x, (deserFields f fs res errs st).1 = .ok x →
      (∀ y ∈ x.2, y.2.LinesIn L) ∧ ∀ fd ∈ fs, (deserFields f fs res errs st).2.sm.get? [.name fd.name] ≠ none := by
  induction fs generalizing res errs st with
  | nil => exact ⟨⟨trivial, hs, .refl _⟩, fun x hx => by cases hx; exact ⟨he, by simp⟩⟩
  | cons fd fs ih =>
    have ih := ih (fun g hg => hno g (List.mem_cons_of_mem _ hg))
    unfold deserFields
    simp only [hno fd (List.mem_cons_self ..)]
    have hk := h fd.ser [.name fd.name] { st with sm := st.sm.set [.name fd.name] st.el.line }
      ⟨hs.1, hs.2.set ((linesIn_iff _).1 hs.1).1 _⟩
    have hg : (st.sm.set [.name fd.name] st.el.line).get? [.name fd.name] ≠ none := by simp
    cases hr : f fd.ser [.name fd.name] { st with sm := st.sm.set [.name fd.name] st.el.line } with
    | mk o st' =>
      rw [hr] at hk
      have hg' := hk.2.2 _ hg
      have hk' : st.sm.Grows st'.sm := (SMap.Grows.set _ _ _).trans hk.2.2
      have fin : ∀ res errs, (∀ x ∈ errs, x.2.LinesIn L) → InLines L st (deserFields f fs res errs st') ∧
          ∀ x, (deserFields f fs res errs st').1 = .ok x → (∀ y ∈ x.2, y.2.LinesIn L) ∧
            ∀ fd' ∈ fd :: fs, (deserFields f fs res errs st').2.sm.get? [.name fd'.name] ≠ none := by
        intro res errs he
        have h1 := ih res errs he st' hk.2.1
        refine ⟨⟨h1.1.1, h1.1.2.1, hk'.trans h1.1.2.2⟩, fun x hx => ⟨(h1.2 x hx).1, fun fd' hfd' => ?_⟩⟩
        rcases List.mem_cons.1 hfd' with rfl | hfd'
        · exact h1.1.2.2 _ hg'
        · exact (h1.2 x hx).2 fd' hfd'
      cases o with
      | ok v => exact fin _ errs he
      | verr e => exact fin res _ (set_inLines he hk.1 _)
      | crash e => exact ⟨⟨trivial, hk.2.1, hk'⟩, fun x hx => by cases hx⟩
      | diverge => exact ⟨⟨trivial, hk.2.1, hk'⟩, fun x hx => by cases hx⟩

/-- Pydantic's errors get good lines, given that all fields of the class are in the source map. -/
def Env.Located (env : Env) (L : Int → Prop) : Prop := ∀ cls m d e (sm : SMap), env.model cls = some m → env.validate cls d = .error e →
  sm.LinesIn L → (∀ fs, m.body = .fields fs → (∃ r, d = .dict r) ∧ ∀ fd ∈ fs, sm.get? [.name fd.name] ≠ none) →
  ∀ l ∈ e.errs, L (lineFor sm l.loc)

theorem validateModel_inLines {env : Env} (hV : env.Located L) {cls : String} {m : ModelSer} (hm : env.model cls = some m) (d : Val)
    (st : St) (hs : st.LinesIn L) (hg : ∀ fs, m.body = .fields fs → (∃ r, d = .dict r) ∧ ∀ fd ∈ fs, st.sm.get? [.name fd.name] ≠ none) :
    (validateModel env cls m d st).LinesIn L := by
  unfold validateModel
  split
  · rename_i e he
    split at he
    · exact checkExtra_inLines hs.1 he
    · cases he
  · split
    · trivial
    · rename_i e he
      intro x hx
      simp only [setSourceline, List.mem_map] at hx
      obtain ⟨l, hl, rfl⟩ := hx
      exact ⟨_, rfl, hV cls m d e st.sm hm he hs.2 hg l hl⟩

theorem deserModel_inLines {env : Env} (hV : env.Located L) {f : Ser → Loc → St → Out Val × St}
    (h : ∀ s l st, st.LinesIn L → InLines L st (f s l st)) {cls : String} {m : ModelSer} (hm : env.model cls = some m)
    (hno : ∀ fs, m.body = .fields fs → ∀ fd ∈ fs, fd.validator = none) (loc : Loc) (st : St) (hs : st.LinesIn L) :
    InLines L st (deserModel env f cls m loc st) := by
  unfold deserModel
  split
  · rename_i fs hb
    have h1 := deserFields_inLines h fs (hno fs hb) [] [] (by simp) st hs
    cases hr : deserFields f fs [] [] st with
    | mk o st' =>
      rw [hr] at h1
      cases o with
      | ok v =>
        have h2 := h1.2 v rfl
        simp only
        split
        · refine ⟨validateModel_inLines hV hm _ _ h1.1.2.1 ?_, h1.1.2⟩
          intro fs' hb'
          rw [hb] at hb'
          cases hb'
          exact ⟨⟨_, rfl⟩, h2.2⟩
        · exact ⟨into_inLines h2.1, h1.1.2⟩
      | verr e => exact h1.1
      | crash e => exact h1.1
      | diverge => exact h1.1
  · rename_i s hb
    have h1 := h s loc st hs
    cases hr : f s loc st with
    | mk o st' =>
      rw [hr] at h1
      cases o with
      | ok v =>
        refine ⟨validateModel_inLines hV hm _ _ h1.2.1 ?_, h1.2⟩
        intro fs' hb'
        rw [hb] at hb'
        cases hb'
      | verr e =>
        refine ⟨into_inLines ?_, h1.2⟩
        intro x hx
        rw [List.mem_singleton.1 hx]
        exact h1.1
      | crash e => exact h1
      | diverge => exact h1

theorem deserText_inLines (eas c nl : Bool) (st : St) (hs : st.LinesIn L) : InLines L st (deserText eas c nl st) := by
  unfold deserText
  split
  · exact ⟨trivial, hs, .refl _⟩
  · cases nl with
    | false => exact ⟨trivial, ⟨linesIn_congr (e := st.el) rfl rfl hs.1, hs.2⟩, .refl _⟩
    | true =>
      have h1 : st.el.isNil.2.LinesIn L := linesIn_popAttrib hs.1 nilAttr
      simp only [if_true]
      cases hn : st.el.isNil with
      | mk b el =>
        rw [hn] at h1
        cases b with
        | true => exact ⟨trivial, ⟨h1, hs.2⟩, .refl _⟩
        | false => exact ⟨trivial, ⟨linesIn_congr (e := el) rfl rfl h1, hs.2⟩, .refl _⟩

theorem deserAttrs_inLines (a : AttrsSer) (st : St) (hs : st.LinesIn L) : InLines L st (deserAttrs a st) := by
  have h1 : st.el.popAttributes.2.LinesIn L := linesIn_congr (e := st.el) rfl rfl hs.1
  unfold deserAttrs
  split
  · exact ⟨trivial, hs, .refl _⟩
  · cases hn : st.el.popAttributes with
    | mk b el =>
      rw [hn] at h1
      cases b <;> exact ⟨trivial, ⟨h1, hs.2⟩, .refl _⟩

/-- Entering a child and noting its line. -/
theorem enter_inLines {f : St → Out Val × St} (h : ∀ st, st.LinesIn L → InLines L st (f st)) (loc : Loc) (st : St) (hs : st.LinesIn L) :
    InLines L st (f { st with sm := st.sm.set loc st.el.line }) := by
  have h1 := h { st with sm := st.sm.set loc st.el.line } ⟨hs.1, hs.2.set ((linesIn_iff _).1 hs.1).1 _⟩
  exact ⟨h1.1, h1.2.1, (SMap.Grows.set _ _ _).trans h1.2.2⟩

theorem deser_inLines {env : Env} (hV : env.Located L) (hno : env.NoValidators) (eas : Bool) (n : Nat) (s : Ser) (loc : Loc) (st : St)
    (hs : st.LinesIn L) : InLines L st (deser env eas n s loc st) := by
  induction n generalizing s loc st with
  | zero => exact ⟨trivial, hs, .refl _⟩
  | succ n ih =>
    change InLines L st (deserStep env eas (deser env eas n) n s loc st)
    generalize deser env eas n = F at ih ⊢
    have skip : InLines L st ((.ok .none, st) : Out Val × St) := ⟨trivial, hs, .refl _⟩
    have pop : ∀ (t : String) (m : Mode) {f : St → Out Val × St}, (∀ st, st.LinesIn L → InLines L st (f st)) →
        InLines L st (match st.el.popElement t m with
          | (none, el) => (.ok .none, { st with el := el })
          | (some i, el) => onChild { st with el := el } i f) := by
      intro t m f hf
      have hl := linesIn_search hs.1 t m true
      cases hp : st.el.popElement t m with
      | mk o el =>
        rw [show st.el.search t m true = _ from hp] at hl
        cases o with
        | none => exact ⟨trivial, ⟨hl, hs.2⟩, .refl _⟩
        | some i => exact onChild_inLines hf { st with el := el } ⟨hl, hs.2⟩ i
    unfold deserStep
    cases s with
    | text c nl => exact deserText_inLines eas c nl st hs
    | attr nm c =>
      simp only
      split
      · exact skip
      · have hl := linesIn_popAttrib hs.1 nm
        cases hn : st.el.popAttrib nm with
        | mk b el => rw [hn] at hl; cases b <;> exact ⟨trivial, ⟨hl, hs.2⟩, .refl _⟩
    | elem nm ns m c nl =>
      simp only
      split
      · exact skip
      · exact pop nm m fun st hs => enter_inLines (f := deserText eas c nl) (fun st hs => deserText_inLines eas c nl st hs) loc st hs
    | attrs a => exact deserAttrs_inLines a st hs
    | mapElem a nm m =>
      simp only
      split
      · exact skip
      · exact pop nm m fun st hs => enter_inLines (f := deserAttrs a) (fun st hs => deserAttrs_inLines a st hs) loc st hs
    | raw nm m c =>
      simp only
      split
      · exact skip
      · unfold popElementRemove popElement
        have hl := linesIn_search hs.1 nm m true
        cases hp : st.el.search nm m true with
        | mk o el =>
          rw [hp] at hl
          cases o with
          | none => exact ⟨trivial, ⟨hl, hs.2⟩, .refl _⟩
          | some i =>
            simp only
            cases hc : el.elements[i]? with
            | none => exact ⟨trivial, ⟨hl, hs.2⟩, .refl _⟩
            | some c =>
              have h1 := linesIn_child hl (List.mem_of_getElem? hc)
              exact ⟨trivial, ⟨linesIn_setChild hl (linesIn_hollow h1) i, hs.2.set ((linesIn_iff c).1 h1).1 loc⟩, .set _ _ _⟩
    | proxy p =>
      simp only
      split
      · exact ⟨trivial, hs, .refl _⟩
      · rename_i m hm
        split
        · exact skip
        · refine pop p.name p.mode fun st hs => ?_
          have h1 : st.el.isNil.2.LinesIn L := linesIn_popAttrib hs.1 nilAttr
          have h2 := hs.2.set ((linesIn_iff _).1 hs.1).1 loc
          cases hn : st.el.isNil with
          | mk b el =>
            rw [hn] at h1
            cases b with
            | true => exact ⟨trivial, ⟨h1, h2⟩, .set _ _ _⟩
            | false =>
              have h3 := deserModel_inLines hV ih hm (fun fs hb => hno _ _ fs hm hb) loc ⟨el, _⟩ ⟨h1, h2⟩
              exact ⟨h3.1, h3.2.1, (SMap.Grows.set _ _ _).trans h3.2.2⟩
    | primUnion c inner =>
      simp only
      split
      · exact skip
      · exact ih _ _ _ hs
    | modelUnion t c alts =>
      simp only
      split
      · exact skip
      · exact unionLoop_inLines (fun p => ih (.proxy p) loc) t alts [] (by simp) st hs
    | tagged c d a m alts =>
      simp only
      split
      · exact skip
      · exact taggedLoop_inLines (fun p => ih (.proxy p) loc) loc a m alts st hs
    | wrap path ns m c inner =>
      simp only
      split
      · exact skip
      · exact descend_inLines (fun st hs => enter_inLines (fun st hs => ih inner loc st hs) loc st hs) m path st hs
    | homog t c inner =>
      simp only
      split
      · exact skip
      · have h1 := homogLoop_inLines (fun l => ih inner l) loc n 0 [] [] (by simp) st hs
        cases hr : homogLoop (fun loc st => F inner loc st) loc n 0 [] [] st with
        | mk o st' =>
          rw [hr] at h1
          cases o with
          | ok r =>
            refine ⟨?_, h1.1.2⟩
            simp only [homogFinish]
            split
            · split <;> trivial
            · exact into_inLines (h1.2 r rfl)
          | verr e => exact h1.1
          | crash e => exact h1.1
          | diverge => exact h1.1
    | hetero t c inners =>
      simp only
      split
      · exact skip
      · have h1 := heteroLoop_inLines ih loc inners 0 [] [] (by simp) st hs
        cases hr : heteroLoop F loc inners 0 [] [] st with
        | mk o st' =>
          rw [hr] at h1
          cases o with
          | ok r =>
            refine ⟨?_, h1.1.2⟩
            simp only [heteroFinish]
            split
            · split <;> trivial
            · exact into_inLines (h1.2 r rfl)
          | verr e => exact h1.1
          | crash e => exact h1.1
          | diverge => exact h1.1

/-- The lines of all errors of a document come from the document. -/
theorem fromXmlTree_inLines {env : Env} (hV : env.Located L) (hno : env.NoValidators) (eas : Bool) (n : Nat) (cls : String) (root : Node)
    (h : (fromNative env.backend root).LinesIn L) : (fromXmlTree env eas n cls root).1.LinesIn L := by
  unfold fromXmlTree
  simp only
  split
  · trivial
  · rename_i m hm
    split
    · exact (deserModel_inLines hV (deser_inLines hV hno eas n) hm (fun fs hb => hno _ _ fs hm hb) [] ⟨_, []⟩
        ⟨h, fun k l hk => by cases hk⟩).1
    · trivial

end PXml
