import Verif.SpecEvolve
import Verif.Props.Fields

/-! Reading with a newer version of the declarations a document that uses none of the additions. -/

namespace PXml

open Elem

/-! ## Elements without new names -/

/-- No element below has a new tag, none has a new attribute. -/
inductive Elem.Lacks (A : Additions) : Elem → Prop
  | mk {e : Elem} : (∀ k ∈ A.attrs, k ∉ (e.attrib.getD []).map Prod.fst) →
      (∀ c ∈ e.elements, c.tag ∉ A.tags) → (∀ c ∈ e.elements, Lacks A c) → Lacks A e

theorem Elem.Lacks.attrs {A : Additions} {e : Elem} (h : e.Lacks A) : ∀ k ∈ A.attrs, k ∉ (e.attrib.getD []).map Prod.fst := by
  cases h; assumption

theorem Elem.Lacks.inner {A : Additions} {e : Elem} (h : e.Lacks A) : ∀ c ∈ e.elements, c.tag ∉ A.tags ∧ c.Lacks A := by
  cases h with
  | mk h1 h2 h3 => exact fun c hc => ⟨h2 c hc, h3 c hc⟩

theorem Elem.Lacks.intro {A : Additions} {e : Elem} (h1 : ∀ k ∈ A.attrs, k ∉ (e.attrib.getD []).map Prod.fst)
    (h2 : ∀ c ∈ e.elements, c.tag ∉ A.tags ∧ c.Lacks A) : e.Lacks A := .mk h1 (fun c hc => (h2 c hc).1) (fun c hc => (h2 c hc).2)

theorem lacks_rel (A : Additions) : ElemRel (fun e e' => e'.tag = e.tag ∧ (e.Lacks A → e'.Lacks A)) where
  refl e := ⟨rfl, id⟩
  trans h1 h2 := ⟨h2.1.trans h1.1, h2.2 ∘ h1.2⟩
  popText e := ⟨rfl, fun h => .intro h.attrs h.inner⟩
  popAttrib e k := by
    unfold popAttrib
    split
    · refine ⟨rfl, fun h => .intro (fun k' hk hm => h.attrs k' hk ?_) h.inner⟩
      simp only [Option.getD_some] at hm
      exact (Dict.keys_erase_sublist _ _).subset hm
    · exact ⟨rfl, id⟩
  popAttributes e := ⟨rfl, fun h => .intro (by simp [popAttributes]) h.inner⟩
  search e tag mode step := by
    obtain ⟨l, n, h3, h4, h5, h6⟩ := search_spec e tag mode step
    rw [h3]
    exact ⟨rfl, fun h => .intro h.attrs fun c hc => h.inner c (h4.mem_iff.1 hc)⟩
  child e i c c' hc h := by
    refine ⟨rfl, fun hl => .intro hl.attrs ?_⟩
    intro x hx
    rcases List.mem_or_eq_of_mem_set hx with hx | rfl
    · exact hl.inner x hx
    · have := hl.inner c (List.mem_of_getElem? hc)
      exact ⟨by rw [h.1]; exact this.1, h.2 this.2⟩
  stepForward e hlt := ⟨rfl, fun h => .intro h.attrs h.inner⟩
  applySnapshot e s h := ⟨h.1, fun hg => .intro (h.2 hg).attrs (h.2 hg).inner⟩
  hollow e i c hc := by
    refine ⟨rfl, fun hl => .intro hl.attrs ?_⟩
    intro x hx
    rcases List.mem_or_eq_of_mem_set hx with hx | rfl
    · exact hl.inner x hx
    · exact ⟨(hl.inner c (List.mem_of_getElem? hc)).1, .intro (by simp [hollow]) (by simp [hollow])⟩

/-- Without new names, and with the cursors within the children. -/
def Elem.Fit (A : Additions) (e : Elem) : Prop := e.Lacks A ∧ e.Good

theorem fit_rel (A : Additions) : ElemRel (fun e e' => e'.tag = e.tag ∧ (e.Fit A → e'.Fit A)) where
  refl e := ⟨rfl, id⟩
  trans h1 h2 := ⟨h2.1.trans h1.1, h2.2 ∘ h1.2⟩
  popText e := ⟨rfl, fun h => ⟨((lacks_rel A).popText e).2 h.1, good_rel.popText e h.2⟩⟩
  popAttrib e k := ⟨((lacks_rel A).popAttrib e k).1, fun h => ⟨((lacks_rel A).popAttrib e k).2 h.1, good_rel.popAttrib e k h.2⟩⟩
  popAttributes e := ⟨rfl, fun h => ⟨((lacks_rel A).popAttributes e).2 h.1, good_rel.popAttributes e h.2⟩⟩
  search e t m s := ⟨((lacks_rel A).search e t m s).1, fun h => ⟨((lacks_rel A).search e t m s).2 h.1, good_rel.search e t m s h.2⟩⟩
  child e i c c' hc h := by
    refine ⟨rfl, fun hf => ?_⟩
    have h1 := hf.1.attrs
    have h2 := hf.1.inner
    obtain ⟨_, ⟨h3, h4⟩⟩ := hf
    have hm := List.mem_of_getElem? hc
    have hc' := h.2 ⟨(h2 c hm).2, h4 c hm⟩
    refine ⟨.intro h1 ?_, ⟨by simpa [setChild] using h3, ?_⟩⟩
    · intro x hx
      rcases List.mem_or_eq_of_mem_set hx with hx | rfl
      · exact h2 x hx
      · exact ⟨by rw [h.1]; exact (h2 c hm).1, hc'.1⟩
    · intro x hx
      rcases List.mem_or_eq_of_mem_set hx with hx | rfl
      · exact h4 x hx
      · exact hc'.2
  stepForward e hlt := ⟨rfl, fun h => ⟨((lacks_rel A).stepForward e hlt).2 h.1, good_rel.stepForward e hlt h.2⟩⟩
  applySnapshot e s h := by
    refine ⟨h.1, fun hf => ?_⟩
    have h1 := (h.2 hf).1
    obtain ⟨_, ⟨h3, h4⟩⟩ := h.2 hf
    exact ⟨.intro h1.attrs h1.inner, ⟨h3, h4⟩⟩
  hollow e i c hc := ⟨rfl, fun h => ⟨((lacks_rel A).hollow e i c hc).2 h.1, good_rel.hollow e i c hc h.2⟩⟩

theorem Elem.Fit.child {A : Additions} {e : Elem} (h : e.Fit A) {i : Nat} {c : Elem} (hc : e.elements[i]? = some c) : c.Fit A := by
  have h2 := h.1.inner
  obtain ⟨_, ⟨_, h4⟩⟩ := h
  have hm := List.mem_of_getElem? hc
  exact ⟨(h2 c hm).2, h4 c hm⟩

theorem Elem.Fit.candidate {A : Additions} {e : Elem} (h : e.Fit A) {t : String} (ht : t ∈ A.tags) (m : Mode) :
    e.candidate t m = none := by
  have h2 := h.1.inner
  have hu : ∀ c ∈ e.unread, c.tag ≠ t := fun c hc he => (h2 c (List.mem_of_mem_drop hc)).1 (he ▸ ht)
  cases m with
  | strict =>
    simp only [Elem.candidate, Option.filter_eq_none_iff, decide_eq_true_eq]
    intro c hc
    exact hu c (List.mem_of_mem_head? hc)
  | ordered => simpa [Elem.candidate] using hu
  | unordered => simpa [Elem.candidate] using hu

theorem Elem.Fit.getAttrib {A : Additions} {e : Elem} (h : e.Fit A) {k : String} (hk : k ∈ A.attrs) : e.getAttrib k = none := by
  have h1 := h.1.attrs
  exact (Dict.get?_eq_none_iff _ _).2 (h1 k hk)

theorem Elem.Fit.findElement {A : Additions} {e : Elem} (h : e.Fit A) {t : String} (ht : t ∈ A.tags) (m : Mode) :
    e.findElement t m = .ok (none, e) := by
  have hc := h.candidate ht m
  have h2 := h.1.inner
  obtain ⟨_, ⟨h3, _⟩⟩ := h
  unfold Elem.findElement
  rw [lookBehind_absent h3 (fun w hw he => (h2 w (List.mem_of_mem_take (List.mem_of_getLast? hw))).1 (he ▸ ht)), candidate_none hc]
  rfl

mutual
theorem fromNative_lacks (A : Additions) (b : Backend) : ∀ n : Node, n.Lacks A → (fromNative b n).Lacks A
  | .elem _ _ _ _ _ cs _, h => by
    simp only [Node.Lacks] at h
    simp only [fromNative]
    exact .intro h.1 (fromNativeList_lacks A b cs h.2)
  | .comment _ _, _ => .intro (by simp [fromNative]) (by simp [fromNative])
  | .pi _ _, _ => .intro (by simp [fromNative]) (by simp [fromNative])
theorem fromNativeList_lacks (A : Additions) (b : Backend) : ∀ ns : List Node, Node.LacksList A ns →
    ∀ c ∈ fromNativeList b ns, c.tag ∉ A.tags ∧ c.Lacks A
  | [], _ => by simp [fromNativeList]
  | n :: ns, h => by
    simp only [Node.LacksList] at h
    have h1 := fromNative_lacks A b n h.1.2
    have h2 := fromNativeList_lacks A b ns h.2
    intro c hc
    unfold fromNativeList at hc
    split at hc
    · exact h2 c hc
    · rcases List.mem_cons.1 hc with rfl | hc
      · refine ⟨?_, h1⟩
        have := h.1.1
        cases n <;> simpa [fromNative, Node.tag] using this
      · exact h2 c hc
end

/-! ## New fields are absent -/

theorem Ser.nesting_mem {s : Ser} : ∀ {ss : List Ser}, s ∈ ss → s.nesting ≤ Ser.nestingList ss
  | t :: ts, h => by
    rcases List.mem_cons.1 h with rfl | h
    · simp only [Ser.nestingList]; omega
    · have := Ser.nesting_mem h
      simp only [Ser.nestingList]; omega

theorem Ser.nesting_pos (s : Ser) : 0 < s.nesting := by
  cases s <;> simp [Ser.nesting]

theorem new_absent (A : Additions) (env : Env) (eas : Bool) {s : Ser} (hr : s.Everywhere (Ser.Resolved env)) (h : s.New A) {n : Nat}
    (hn : s.nesting ≤ n) (e : Elem) (he : e.Fit A) (loc : Loc) (sm : SMap) :
    deser env eas n s loc ⟨e, sm⟩ = (.ok .none, ⟨e, sm⟩) := by
  induction h generalizing n loc sm with
  | @attr nm c ha =>
    obtain ⟨k, rfl⟩ : ∃ k, n = k + 1 := ⟨n - 1, by simp only [Ser.nesting] at hn; omega⟩
    change deserStep env eas (deser env eas k) k (.attr nm c) loc ⟨e, sm⟩ = _
    simp only [deserStep, popAttrib_absent (he.getAttrib ha), ite_self]
  | @elem nm ns m c nl hc =>
    obtain ⟨k, rfl⟩ : ∃ k, n = k + 1 := ⟨n - 1, by simp only [Ser.nesting] at hn; omega⟩
    change deserStep env eas (deser env eas k) k (.elem nm ns m c nl) loc ⟨e, sm⟩ = _
    simp only [deserStep, popElement, candidate_none (he.candidate hc m), ite_self]
  | @mapElem a nm m hc =>
    obtain ⟨k, rfl⟩ : ∃ k, n = k + 1 := ⟨n - 1, by simp only [Ser.nesting] at hn; omega⟩
    change deserStep env eas (deser env eas k) k (.mapElem a nm m) loc ⟨e, sm⟩ = _
    simp only [deserStep, popElement, candidate_none (he.candidate hc m), ite_self]
  | @raw nm m c hc =>
    obtain ⟨k, rfl⟩ : ∃ k, n = k + 1 := ⟨n - 1, by simp only [Ser.nesting] at hn; omega⟩
    change deserStep env eas (deser env eas k) k (.raw nm m c) loc ⟨e, sm⟩ = _
    simp only [deserStep, popElementRemove, popElement, candidate_none (he.candidate hc m), ite_self]
  | @proxy p hc =>
    obtain ⟨k, rfl⟩ : ∃ k, n = k + 1 := ⟨n - 1, by simp only [Ser.nesting] at hn; omega⟩
    change deserStep env eas (deser env eas k) k (.proxy p) loc ⟨e, sm⟩ = _
    have := (Ser.everywhere_iff.1 hr).1
    simp only [Ser.Resolved, Option.isSome_iff_exists] at this
    obtain ⟨m, hm⟩ := this
    simp only [deserStep, hm, popElement, candidate_none (he.candidate hc p.mode), ite_self]
  | @primUnion c inner _ ih =>
    obtain ⟨k, rfl⟩ : ∃ k, n = k + 1 := ⟨n - 1, by simp only [Ser.nesting] at hn; omega⟩
    change deserStep env eas (deser env eas k) k (.primUnion c inner) loc ⟨e, sm⟩ = _
    simp only [deserStep, ih ((Ser.everywhere_iff.1 hr).2 inner (by simp [Ser.subs])) (n := k) (by simp only [Ser.nesting] at hn; omega),
      ite_self]
  | @modelUnion t c alts hc =>
    obtain ⟨k, rfl⟩ : ∃ k, n = k + 2 := ⟨n - 2, by simp only [Ser.nesting] at hn; omega⟩
    change deserStep env eas (deser env eas (k + 1)) (k + 1) (.modelUnion t c alts) loc ⟨e, sm⟩ = _
    have key : ∀ ps : List Proxy, (∀ p ∈ ps, p ∈ alts) →
        unionLoop (fun p st => deser env eas (k + 1) (.proxy p) loc st) t ps [] ⟨e, sm⟩ = (.ok .none, ⟨e, sm⟩) := by
      intro ps
      induction ps with
      | nil => intro _; rfl
      | cons p ps ih =>
        intro hsub
        have hp := hsub p (by simp)
        have hres := (Ser.everywhere_iff.1 ((Ser.everywhere_iff.1 hr).2 (.proxy p) (by
          simp only [Ser.subs, List.mem_map]; exact ⟨p, hp, rfl⟩))).1
        simp only [Ser.Resolved, Option.isSome_iff_exists] at hres
        obtain ⟨m, hm⟩ := hres
        have h1 : deser env eas (k + 1) (.proxy p) loc ⟨e, sm⟩ = (.ok .none, ⟨e, sm⟩) := by
          change deserStep env eas (deser env eas k) k (.proxy p) loc ⟨e, sm⟩ = _
          simp only [deserStep, hm, popElement, candidate_none (he.candidate (hc p hp) p.mode), ite_self]
        unfold unionLoop
        simp only [createSnapshot, h1, Val.isNone, if_true]
        exact ih fun q hq => hsub q (by simp [hq])
    simp only [deserStep, key alts (fun _ h => h), ite_self]
  | @tagged c d a m alts hc =>
    obtain ⟨k, rfl⟩ : ∃ k, n = k + 1 := ⟨n - 1, by simp only [Ser.nesting] at hn; omega⟩
    change deserStep env eas (deser env eas k) k (.tagged c d a m alts) loc ⟨e, sm⟩ = _
    have key : ∀ (rec : Proxy → St → Out Val × St) (ps : List (String × Proxy)), (∀ p ∈ ps, p ∈ alts) →
        taggedLoop rec loc a m ps ⟨e, sm⟩ = (.ok .none, ⟨e, sm⟩) := by
      intro rec ps
      induction ps with
      | nil => intro _; rfl
      | cons p ps ih =>
        intro hsub
        obtain ⟨t, p⟩ := p
        unfold taggedLoop
        simp only [candidate_none (he.candidate (hc (t, p) (hsub _ (by simp))) m)]
        exact ih fun q hq => hsub q (by simp [hq])
    simp only [deserStep, key _ alts (fun _ h => h), ite_self]
  | @wrap t ts ns m c inner ht =>
    obtain ⟨k, rfl⟩ : ∃ k, n = k + 1 := ⟨n - 1, by simp only [Ser.nesting] at hn; omega⟩
    change deserStep env eas (deser env eas k) k (.wrap (t :: ts) ns m c inner) loc ⟨e, sm⟩ = _
    simp only [deserStep, descend, he.findElement ht m, ite_self]
  | @homog t c inner _ ih =>
    have hp := inner.nesting_pos
    obtain ⟨k, rfl⟩ : ∃ k, n = k + 2 := ⟨n - 2, by simp only [Ser.nesting] at hn; omega⟩
    change deserStep env eas (deser env eas (k + 1)) (k + 1) (.homog t c inner) loc ⟨e, sm⟩ = _
    have : homogLoop (fun loc st => deser env eas (k + 1) inner loc st) loc (k + 1) 0 [] [] ⟨e, sm⟩ = (.ok ([], []), ⟨e, sm⟩) := by
      unfold homogLoop
      simp [ih ((Ser.everywhere_iff.1 hr).2 inner (by simp [Ser.subs])) (n := k + 1) (by simp only [Ser.nesting] at hn; omega), Val.isNone]
    simp only [deserStep, this, homogFinish, List.isEmpty_nil, if_true, ite_self]
  | @hetero t c inners _ ih =>
    obtain ⟨k, rfl⟩ : ∃ k, n = k + 1 := ⟨n - 1, by simp only [Ser.nesting] at hn; omega⟩
    change deserStep env eas (deser env eas k) k (.hetero t c inners) loc ⟨e, sm⟩ = _
    have key : ∀ (ss : List Ser) (idx : Nat) (acc : List Val), (∀ s ∈ ss, s ∈ inners) → acc.all Val.isNone = true →
        ∃ r, heteroLoop (deser env eas k) loc ss idx acc [] ⟨e, sm⟩ = (.ok (r, []), ⟨e, sm⟩) ∧ r.all Val.isNone = true := by
      intro ss
      induction ss with
      | nil => intro idx acc _ ha; exact ⟨acc, rfl, ha⟩
      | cons s ss ihs =>
        intro idx acc hsub ha
        unfold heteroLoop
        have hs := hsub s (by simp)
        rw [ih s hs ((Ser.everywhere_iff.1 hr).2 s (by simpa [Ser.subs] using hs)) (n := k) (by
          have := Ser.nesting_mem hs
          simp only [Ser.nesting] at hn; omega)]
        exact ihs _ _ (fun x hx => hsub x (by simp [hx])) (by simp [ha, Val.isNone])
    obtain ⟨r, h1, h2⟩ := key inners 0 [] (fun _ h => h) rfl
    simp only [deserStep, h1, heteroFinish, List.isEmpty_nil, if_true, h2, ite_self]
  | @computed s hc =>
    have hp := s.nesting_pos
    obtain ⟨k, rfl⟩ : ∃ k, n = k + 1 := ⟨n - 1, by omega⟩
    exact C20_never_read env eas k s hc (Ser.everywhere_iff.1 hr).1 loc _

/-! ## Upgraded values and errors -/

section
variable {fill : Filling}

theorem upgradeList_eq (vs : List Val) : Val.upgradeList fill vs = vs.map (Val.upgrade fill) := by
  induction vs with
  | nil => rfl
  | cons v vs ih => simp [Val.upgradeList, ih]

theorem upgradePairs_eq (d : List (String × Val)) : Val.upgradePairs fill d = d.map fun kv => (kv.1, kv.2.upgrade fill) := by
  induction d with
  | nil => rfl
  | cons v vs ih => obtain ⟨k, v⟩ := v; simp [Val.upgradePairs, ih]

theorem upgrade_isNone (v : Val) : (v.upgrade fill).isNone = v.isNone := by cases v <;> rfl

theorem Dict.map_set {α β γ : Type} [DecidableEq α] (f : β → γ) (d : Dict α β) (k : α) (v : β) :
    (d.set k v).map (fun kv => (kv.1, f kv.2)) = Dict.set (d.map fun kv => (kv.1, f kv.2)) k (f v) := by
  induction d with
  | nil => rfl
  | cons x d ih =>
    obtain ⟨k', v'⟩ := x
    simp only [Dict.set, List.map_cons]
    split <;> simp_all

/-- The gathered errors about the upgraded inputs. -/
def upErrs (fill : Filling) (d : Dict ErrKey VErr) : Dict ErrKey VErr := d.map fun kv => (kv.1, kv.2.upgrade fill)

theorem upErrs_isEmpty (d : Dict ErrKey VErr) : (upErrs fill d).isEmpty = d.isEmpty := by cases d <;> rfl

theorem intoValidationError_upgrade (title : Title) (d : Dict ErrKey VErr) :
    (intoValidationError title d).upgrade fill = intoValidationError title (upErrs fill d) := by
  simp only [intoValidationError, VErr.upgrade, VErr.mk.injEq, true_and, upErrs]
  induction d with
  | nil => rfl
  | cons x d ih =>
    obtain ⟨k, e⟩ := x
    simp only [List.flatMap_cons, List.map_append, List.map_cons, ih, List.map_map]
    congr 1
    apply List.map_congr_left
    intro l _
    cases k <;> rfl

theorem checkExtra_upgrade {title : Title} {e : Elem} {x : VErr} (h : checkExtra title e = some x) : x.upgrade fill = x := by
  unfold checkExtra at h
  split at h
  · cases h
  · injection h with h
    subst h
    simp only [VErr.upgrade, List.map_map, VErr.mk.injEq, true_and]
    apply List.map_congr_left
    intro u _
    rfl

end

/-! ## Agreement -/

/-- The older version does not terminate, or uses a class that is not there. -/
def Bad {α : Type} (o : Out α) : Prop := o = .diverge ∨ o = .crash .assertionError

section
variable {A : Additions} {fill : Filling}

/-- The outcome of the newer version is the upgraded outcome of the older one, up to lines. -/
def OutUp (fill : Filling) : Out Val → Out Val → Prop
  | .ok v, .ok w => w = v.upgrade fill
  | .verr e, .verr f => (e.upgrade fill).lines (fun _ => -1) = f.lines (fun _ => -1)
  | .crash e, .crash f => e = f
  | _, _ => False

def UpRes (fill : Filling) (r1 r2 : Out Val × St) : Prop := Bad r1.1 ∨ (OutUp fill r1.1 r2.1 ∧ r1.2.el = r2.2.el)

def LoopUp (fill : Filling) (r1 r2 : Out (List Val × Dict ErrKey VErr) × St) : Prop :=
  Bad r1.1 ∨ (r1.2.el = r2.2.el ∧ match r1.1, r2.1 with
    | .ok r, .ok r' => r'.1 = r.1.map (Val.upgrade fill) ∧ ErrsRel (fun _ => -1) (upErrs fill r.2) r'.2
    | .crash e, .crash f => e = f
    | _, _ => False)

def FieldsUp (fill : Filling) (keys : List String) (r1 r2 : Out (Dict String Val × Dict ErrKey VErr) × St) : Prop :=
  Bad r1.1 ∨ (r1.2.el = r2.2.el ∧ match r1.1, r2.1 with
    | .ok r, .ok r' => r'.1 = Val.upgradePairs fill r.1 ∧ ErrsRel (fun _ => -1) (upErrs fill r.2) r'.2 ∧ ∀ kv ∈ r.1, kv.1 ∈ keys
    | .crash e, .crash f => e = f
    | _, _ => False)

/-- The reader functions agree on elements without new names. -/
def Upgrades (A : Additions) (fill : Filling) (f g : St → Out Val × St) : Prop :=
  ∀ el sm1 sm2, el.Fit A → UpRes fill (f ⟨el, sm1⟩) (g ⟨el, sm2⟩)

/-- The reader function leaves no new names. -/
def Keeping (A : Additions) (f : St → Out Val × St) : Prop :=
  ∀ st, (f st).2.el.tag = st.el.tag ∧ (st.el.Fit A → (f st).2.el.Fit A)

theorem UpRes.none {el : Elem} {sm1 sm2 : SMap} : UpRes fill (.ok .none, ⟨el, sm1⟩) (.ok .none, ⟨el, sm2⟩) := .inr ⟨rfl, rfl⟩

theorem UpRes.crash {x : PyErr} {el : Elem} {sm1 sm2 : SMap} : UpRes fill (.crash x, ⟨el, sm1⟩) (.crash x, ⟨el, sm2⟩) := .inr ⟨rfl, rfl⟩

theorem onChild_up {f g : St → Out Val × St} (h : Upgrades A fill f g) (el : Elem) (hf : el.Fit A) (sm1 sm2 : SMap) (i : Nat) :
    UpRes fill (onChild ⟨el, sm1⟩ i f) (onChild ⟨el, sm2⟩ i g) := by
  unfold onChild
  cases hc : el.elements[i]? with
  | none => exact .crash
  | some c =>
    simp only
    rcases h c sm1 sm2 (hf.child hc) with h1 | ⟨h1, h2⟩
    · exact .inl h1
    · exact .inr ⟨h1, by simp only [h2]⟩

theorem descend_up {f g : St → Out Val × St} (h : Upgrades A fill f g) (mode : Mode) (path : List String) :
    Upgrades A fill (descend mode f path) (descend mode g path) := by
  induction path with
  | nil => exact h
  | cons t ts ih =>
    intro el sm1 sm2 hf
    unfold descend
    simp only
    cases hr : el.findElement t mode with
    | error x => exact .crash
    | ok r =>
      obtain ⟨o, e⟩ := r
      have he : e.Fit A := ((fit_rel A).findElement hr).2 hf
      cases o with
      | none => exact UpRes.none
      | some i => exact onChild_up ih e he sm1 sm2 i

theorem bad_of_eq {α : Type} {o : Out α} {β : Type} {r : Out β} (hd : o = .diverge → r = .diverge)
    (hc : o = .crash .assertionError → r = .crash .assertionError) (h : Bad o) : Bad r :=
  h.elim (fun x => .inl (hd x)) (fun x => .inr (hc x))

theorem homogLoop_up {f g : Loc → St → Out Val × St} (h : ∀ l, Upgrades A fill (f l) (g l)) (hk : ∀ l, Keeping A (f l)) (loc : Loc)
    (n n' : Nat) (hn : n ≤ n') (idx : Nat) (acc : List Val) {errs1 errs2 : Dict ErrKey VErr}
    (he : ErrsRel (fun _ => -1) (upErrs fill errs1) errs2) (el : Elem) (hf : el.Fit A) (sm1 sm2 : SMap) :
    LoopUp fill (homogLoop f loc n idx acc errs1 ⟨el, sm1⟩)
      (homogLoop g loc n' idx (acc.map (Val.upgrade fill)) errs2 ⟨el, sm2⟩) := by
  induction n generalizing n' idx acc errs1 errs2 el sm1 sm2 with
  | zero => exact .inl (.inl rfl)
  | succ n ih =>
    obtain ⟨k, rfl⟩ : ∃ k, n' = k + 1 := ⟨n' - 1, by omega⟩
    unfold homogLoop
    rcases hf1 : f (loc ++ [.idx idx]) ⟨el, sm1⟩ with ⟨o1, el1, t1⟩
    rcases hg1 : g (loc ++ [.idx idx]) ⟨el, sm2⟩ with ⟨o2, el2, t2⟩
    have h1 := h (loc ++ [.idx idx]) el sm1 sm2 hf
    have hk1 := (hk (loc ++ [.idx idx]) ⟨el, sm1⟩).2 hf
    rw [hf1, hg1] at h1 ⊢
    rw [hf1] at hk1
    simp only at hk1
    rcases h1 with (h1 | h1) | ⟨h1, h2⟩
    · simp only at h1; subst h1; exact .inl (.inl rfl)
    · simp only at h1; subst h1; exact .inl (.inr rfl)
    · simp only at h1 h2
      subst h2
      cases o1 <;> cases o2 <;> simp only [OutUp] at h1
      · subst h1
        simp only [upgrade_isNone]
        split
        · exact .inr ⟨rfl, rfl, he⟩
        · rename_i v _
          have := ih k (by omega) (idx + 1) (acc ++ [v]) he el1 hk1 t1 t2
          simpa using this
      · exact ih k (by omega) _ _ (by
          have he' := he
          simp only [ErrsRel, upErrs, List.map_append, List.map_cons, List.map_nil, h1] at he' ⊢
          rw [he']) _ hk1 _ _
      · exact .inr ⟨rfl, h1⟩

theorem heteroLoop_up {F G : Ser → Loc → St → Out Val × St} (hk : ∀ s l, Keeping A (F s l)) (loc : Loc) (ss ss' : List Ser)
    (hl : ss.length = ss'.length) (h : ∀ p ∈ ss.zip ss', ∀ l, Upgrades A fill (F p.1 l) (G p.2 l)) (idx : Nat) (acc : List Val)
    {errs1 errs2 : Dict ErrKey VErr} (he : ErrsRel (fun _ => -1) (upErrs fill errs1) errs2) (el : Elem) (hf : el.Fit A)
    (sm1 sm2 : SMap) : LoopUp fill (heteroLoop F loc ss idx acc errs1 ⟨el, sm1⟩)
      (heteroLoop G loc ss' idx (acc.map (Val.upgrade fill)) errs2 ⟨el, sm2⟩) := by
  induction ss generalizing ss' idx acc errs1 errs2 el sm1 sm2 with
  | nil =>
    cases ss' with
    | nil => exact .inr ⟨rfl, rfl, he⟩
    | cons s' ss' => cases hl
  | cons s ss ih =>
    cases ss' with
    | nil => cases hl
    | cons s' ss' =>
      have hl' : ss.length = ss'.length := by simpa using hl
      have h' : ∀ p ∈ ss.zip ss', ∀ l, Upgrades A fill (F p.1 l) (G p.2 l) := fun p hp => h p (by simp [hp])
      unfold heteroLoop
      rcases hf1 : F s (loc ++ [.idx idx]) ⟨el, sm1⟩ with ⟨o1, el1, t1⟩
      rcases hg1 : G s' (loc ++ [.idx idx]) ⟨el, sm2⟩ with ⟨o2, el2, t2⟩
      have h1 := h (s, s') (by simp) (loc ++ [.idx idx]) el sm1 sm2 hf
      have hk1 := (hk s (loc ++ [.idx idx]) ⟨el, sm1⟩).2 hf
      simp only at h1
      rw [hf1, hg1] at h1 ⊢
      rw [hf1] at hk1
      simp only at hk1
      rcases h1 with (h1 | h1) | ⟨h1, h2⟩
      · simp only at h1; subst h1; exact .inl (.inl rfl)
      · simp only at h1; subst h1; exact .inl (.inr rfl)
      · simp only at h1 h2
        subst h2
        cases o1 <;> cases o2 <;> simp only [OutUp] at h1
        · subst h1
          rename_i v
          have := ih ss' hl' h' (idx + 1) (acc ++ [v]) he el1 hk1 t1 t2
          simpa using this
        · exact ih ss' hl' h' _ _ (by
            have he' := he
            simp only [ErrsRel, upErrs, List.map_append, List.map_cons, List.map_nil, h1] at he' ⊢
            rw [he']) _ hk1 _ _
        · exact .inr ⟨rfl, h1⟩

theorem errsRel_nil : ErrsRel (fun _ => -1) (upErrs fill []) [] := rfl

theorem errsRel_isEmpty {errs1 errs2 : Dict ErrKey VErr} (he : ErrsRel (fun _ => -1) (upErrs fill errs1) errs2) :
    errs1.isEmpty = errs2.isEmpty := by rw [← isEmpty_lines he, upErrs_isEmpty]

theorem errsRel_set {errs1 errs2 : Dict ErrKey VErr} (he : ErrsRel (fun _ => -1) (upErrs fill errs1) errs2) (k : ErrKey)
    {e f : VErr} (h : (e.upgrade fill).lines (fun _ => -1) = f.lines (fun _ => -1)) :
    ErrsRel (fun _ => -1) (upErrs fill (errs1.set k e)) (errs2.set k f) := by
  unfold upErrs
  rw [Dict.map_set (fun x : VErr => x.upgrade fill)]
  exact errs_set_lines he k h

theorem unionLoop_up {f g : Proxy → St → Out Val × St} (title : Title) {ps ps' : List Proxy} {P : Proxy → Prop}
    (h : ∀ p, Upgrades A fill (f p) (g p)) (hnew : ∀ p, P p → ∀ el sm, el.Fit A → g p ⟨el, sm⟩ = (.ok .none, ⟨el, sm⟩))
    (hi : Inserted Eq P ps ps') {errs1 errs2 : Dict ErrKey VErr} (he : ErrsRel (fun _ => -1) (upErrs fill errs1) errs2) :
    Upgrades A fill (unionLoop f title ps errs1) (unionLoop g title ps' errs2) := by
  induction hi generalizing errs1 errs2 with
  | nil =>
    intro el sm1 sm2 hf
    unfold unionLoop
    rw [errsRel_isEmpty he]
    split
    · exact UpRes.none
    · refine .inr ⟨?_, rfl⟩
      simp only [OutUp, intoValidationError_upgrade, intoValidationError_lines]
      rw [he]
  | @new p ps ps' hp _ ih =>
    intro el sm1 sm2 hf
    conv => rhs; unfold unionLoop
    simp only [createSnapshot, hnew p hp el sm2 hf, Val.isNone, if_true]
    exact ih he el sm1 sm2 hf
  | @keep p p' ps ps' hpe _ ih =>
    subst hpe
    intro el sm1 sm2 hf
    unfold unionLoop
    simp only
    rcases hf1 : f p ⟨el.createSnapshot, sm1⟩ with ⟨o1, el1, t1⟩
    rcases hg1 : g p ⟨el.createSnapshot, sm2⟩ with ⟨o2, el2, t2⟩
    have h1 := h p el.createSnapshot sm1 sm2 hf
    rw [hf1, hg1] at h1
    rcases h1 with (h1 | h1) | ⟨h1, h2⟩
    · simp only at h1; subst h1; exact .inl (.inl rfl)
    · simp only at h1; subst h1; exact .inl (.inr rfl)
    · simp only at h1 h2
      subst h2
      cases o1 <;> cases o2 <;> simp only [OutUp] at h1
      · subst h1
        simp only [upgrade_isNone]
        split
        · exact ih he _ _ _ hf
        · exact .inr ⟨rfl, rfl⟩
      · rename_i e1 e2
        have ht : e1.title = e2.title := by have := congrArg VErr.title h1; exact this
        simp only
        rw [← ht]
        exact ih (errsRel_set he _ h1) _ _ _ hf
      · exact .inr ⟨h1, rfl⟩

theorem taggedLoop_up {f g : Proxy → St → Out Val × St} (h : ∀ p, Upgrades A fill (f p) (g p)) (loc : Loc) (a : String)
    (mode : Mode) {ps ps' : List (String × Proxy)} (hi : Inserted Eq (fun tp => tp.2.name ∈ A.tags) ps ps') :
    Upgrades A fill (taggedLoop f loc a mode ps) (taggedLoop g loc a mode ps') := by
  induction hi with
  | nil => intro el sm1 sm2 _; exact UpRes.none
  | @new tp ps ps' hp _ ih =>
    obtain ⟨tag, p⟩ := tp
    intro el sm1 sm2 hf
    conv => rhs; unfold taggedLoop
    simp only [candidate_none (hf.candidate hp mode)]
    exact ih el sm1 sm2 hf
  | @keep tp tp' ps ps' hpe _ ih =>
    subst hpe
    obtain ⟨tag, p⟩ := tp
    intro el sm1 sm2 hf
    unfold taggedLoop
    simp only
    have hs := ((fit_rel A).search el p.name mode false).2 hf
    cases hr : el.search p.name mode false with
    | mk o e =>
      rw [hr] at hs
      simp only at hs
      cases o with
      | none => exact ih _ _ _ hs
      | some i =>
        simp only
        cases e.elements[i]? with
        | none => exact .crash
        | some c =>
          simp only
          split
          · exact h p _ _ _ hs
          · exact ih _ _ _ hs

theorem deserFields_up {F G : Ser → Loc → St → Out Val × St} {env : Env} {K : Nat} (hk : ∀ s l, Keeping A (F s l))
    (h : ∀ s s', s.Grows A env s' → ∀ l, Upgrades A fill (F s l) (G s' l))
    (hnew : ∀ f : Field, f.New A K env → ∀ l el sm, el.Fit A → G f.ser l ⟨el, sm⟩ = (.ok .none, ⟨el, sm⟩)) {fs fs' : List Field}
    (hv : ∀ f ∈ fs, ∀ v, f.validator = some v → ∀ e : Elem, (v e).2.tag = e.tag ∧ (e.Fit A → (v e).2.Fit A))
    (hi : Inserted (Field.Grows A fill env) (Field.New A K env) fs fs') (keys : List String)
    (hkeys : ∀ f ∈ fs, f.alias.getD f.name ∈ keys) (res : Dict String Val) (hres : ∀ kv ∈ res, kv.1 ∈ keys)
    {errs1 errs2 : Dict ErrKey VErr} (he : ErrsRel (fun _ => -1) (upErrs fill errs1) errs2) (el : Elem) (hf : el.Fit A)
    (sm1 sm2 : SMap) : FieldsUp fill keys (deserFields F fs res errs1 ⟨el, sm1⟩)
      (deserFields G fs' (Val.upgradePairs fill res) errs2 ⟨el, sm2⟩) := by
  induction hi generalizing res errs1 errs2 el sm1 sm2 with
  | nil => exact .inr ⟨rfl, rfl, he, hres⟩
  | @new f fs fs' hp _ ih =>
    rw [deserFields_cons]
    have hr : readField G f ⟨el, sm2⟩ = (.ok .none, ⟨el, sm2.set [.name f.name] el.line⟩) := by
      simp only [readField, hp.1]
      exact hnew f hp _ _ _ hf
    rw [hr]
    exact ih hv hkeys res hres he el hf _ _
  | @keep f f' fs fs' hg _ ih =>
    have ih := ih (fun x hx => hv x (by simp [hx])) (fun x hx => hkeys x (by simp [hx]))
    rw [deserFields_cons, deserFields_cons]
    obtain ⟨g1, g2, g3, g4⟩ := hg
    have hr : UpRes fill (readField F f ⟨el, sm1⟩) (readField G f' ⟨el, sm2⟩) := by
      unfold readField
      rw [g1, g4]
      cases hval : f.validator with
      | some v =>
        simp only [Option.map_some]
        cases hve : v el with
        | mk o e' =>
          cases o with
          | ok x => exact .inr ⟨rfl, rfl⟩
          | verr x => exact .inr ⟨rfl, rfl⟩
          | crash x => exact .inr ⟨rfl, rfl⟩
          | diverge => exact .inl (.inl rfl)
      | none => exact h _ _ g3 _ _ _ _ hf
    have hfit : (readField F f ⟨el, sm1⟩).2.el.Fit A := by
      unfold readField
      cases hval : f.validator with
      | some v => exact (hv f (by simp) v hval el).2 hf
      | none => exact (hk _ _ _).2 hf
    rcases hf1 : readField F f ⟨el, sm1⟩ with ⟨o1, el1, t1⟩
    rcases hg1 : readField G f' ⟨el, sm2⟩ with ⟨o2, el2, t2⟩
    rw [hf1] at hfit
    simp only at hfit
    rw [hf1, hg1] at hr
    rcases hr with (h1 | h1) | ⟨h1, h2⟩
    · simp only at h1; subst h1; exact .inl (.inl rfl)
    · simp only at h1; subst h1; exact .inl (.inr rfl)
    · simp only at h1 h2
      subst h2
      cases o1 <;> cases o2 <;> simp only [OutUp] at h1
      · subst h1
        rename_i v
        simp only [upgrade_isNone]
        cases hn : v.isNone with
        | true =>
          simp only [if_true]
          exact ih res hres he _ hfit _ _
        | false =>
          simp only [Bool.false_eq_true, if_false]
          rw [g1, g2]
          have := ih (res.set (f.alias.getD f.name) v) (by
            intro kv hkv
            have : kv.1 ∈ (res.set (f.alias.getD f.name) v).keys := List.mem_map_of_mem hkv
            rw [Dict.keys_set] at this
            have hin : kv.1 ∈ res.keys ∨ kv.1 = f.alias.getD f.name := by
              split at this
              · exact .inl this
              · simpa using this
            rcases hin with h | h
            · obtain ⟨x, hx, hx'⟩ := List.mem_map.1 h
              rw [← hx']; exact hres x hx
            · rw [h]; exact hkeys f (by simp)) he el1 hfit t1 t2
          rw [upgradePairs_eq, Dict.map_set (Val.upgrade fill), ← upgradePairs_eq] at this
          exact this
      · simp only
        rw [g1]
        exact ih res hres (errsRel_set he _ h1) _ hfit _ _
      · exact .inr ⟨rfl, h1⟩

theorem setSourceline_upgrade (hide : Bool) (sm1 sm2 : SMap) (e : VErr) :
    ((setSourceline hide sm1 e).upgrade fill).lines (fun _ => -1) = (setSourceline hide sm2 (e.upgrade fill)).lines (fun _ => -1) := by
  simp [setSourceline, VErr.upgrade, VErr.lines]

theorem validateModel_up {env env' : Env} {K : Nat} (hg : env.Grows A K fill env') {cls : String} {m m' : ModelSer}
    (hm : env.model cls = some m) (hmg : m.Grows A K fill env' m') {d : Val} (hd : m.DataOf (fun _ => True) d) (el : Elem)
    (sm1 sm2 : SMap) :
    OutUp fill (validateModel env cls m d ⟨el, sm1⟩) (validateModel env' cls m' (d.upgrade fill) ⟨el, sm2⟩) := by
  obtain ⟨h1, _, h3, h4, _⟩ := hmg
  have ht : m'.title = m.title := by simp only [ModelSer.title, h1, h4]
  unfold validateModel
  rw [h3, h4, ht, hg.validate cls m d hm hd]
  simp only
  split
  · rename_i x hx
    split at hx
    · simp only [OutUp, checkExtra_upgrade hx]
    · cases hx
  · cases env.validate cls d with
    | ok r => rfl
    | error e => exact setSourceline_upgrade _ _ _ _

theorem deserModel_up {env env' : Env} {K : Nat} (hg : env.Grows A K fill env') {F G : Ser → Loc → St → Out Val × St}
    (hk : ∀ s l, Keeping A (F s l)) (h : ∀ s s', s.Grows A env' s' → ∀ l, Upgrades A fill (F s l) (G s' l))
    (hnew : ∀ f : Field, f.New A K env' → ∀ l el sm, el.Fit A → G f.ser l ⟨el, sm⟩ = (.ok .none, ⟨el, sm⟩))
    {cls : String} {m m' : ModelSer} (hm : env.model cls = some m) (hmg : m.Grows A K fill env' m')
    (hv : ∀ fs, m.body = .fields fs → ∀ f ∈ fs, ∀ v, f.validator = some v →
      ∀ e : Elem, (v e).2.tag = e.tag ∧ (e.Fit A → (v e).2.Fit A)) (loc : Loc) :
    Upgrades A fill (deserModel env F cls m loc) (deserModel env' G cls m' loc) := by
  intro el sm1 sm2 hf
  have ht : m'.title = m.title := by simp only [ModelSer.title, hmg.1, hmg.2.2.2.1]
  have hbody := hmg.2.2.2.2
  unfold deserModel
  cases hb : m.body with
  | fields fs =>
    cases hb' : m'.body with
    | root s' => rw [hb, hb'] at hbody; exact hbody.elim
    | fields fs' =>
      rw [hb, hb'] at hbody
      simp only at hbody ⊢
      have hr := deserFields_up hk h hnew (hv fs hb) hbody (fs.map fun f => f.alias.getD f.name)
        (fun f hf => List.mem_map.2 ⟨f, hf, rfl⟩) [] (by simp) (errs1 := []) (errs2 := []) errsRel_nil el hf sm1 sm2
      simp only [Val.upgradePairs] at hr
      rcases hf1 : deserFields F fs [] [] ⟨el, sm1⟩ with ⟨o1, el1, t1⟩
      rcases hg1 : deserFields G fs' [] [] ⟨el, sm2⟩ with ⟨o2, el2, t2⟩
      rw [hf1, hg1] at hr
      rcases hr with (h1 | h1) | ⟨h1, h2⟩
      · simp only at h1; subst h1; exact .inl (.inl rfl)
      · simp only at h1; subst h1; exact .inl (.inr rfl)
      · simp only at h1 h2
        subst h1
        cases o1 <;> cases o2 <;> simp only at h2
        · rename_i r1 r2
          obtain ⟨d1, e1⟩ := r1
          obtain ⟨d2, e2⟩ := r2
          obtain ⟨h3, h4, h5⟩ := h2
          simp only at h3 h4 h5
          subst h3
          simp only
          rw [errsRel_isEmpty h4]
          split
          · refine .inr ⟨?_, rfl⟩
            have hd : m.DataOf (fun _ => True) (.dict d1) := by
              simp only [ModelSer.DataOf, hb]
              refine ⟨d1, rfl, fun kv hkv => ⟨trivial, ?_⟩⟩
              obtain ⟨f, hf, he⟩ := List.mem_map.1 (h5 kv hkv)
              exact ⟨f, hf, he.symm⟩
            exact validateModel_up hg hm hmg hd el1 t1 t2
          · refine .inr ⟨?_, rfl⟩
            simp only [OutUp, intoValidationError_upgrade, intoValidationError_lines, ht]
            rw [h4]
        · exact .inr ⟨h2, rfl⟩
  | root s =>
    cases hb' : m'.body with
    | fields fs' => rw [hb, hb'] at hbody; exact hbody.elim
    | root s' =>
      rw [hb, hb'] at hbody
      simp only at hbody ⊢
      have hr := h s s' hbody loc el sm1 sm2 hf
      rcases hf1 : F s loc ⟨el, sm1⟩ with ⟨o1, el1, t1⟩
      rcases hg1 : G s' loc ⟨el, sm2⟩ with ⟨o2, el2, t2⟩
      rw [hf1, hg1] at hr
      rcases hr with (h1 | h1) | ⟨h1, h2⟩
      · simp only at h1; subst h1; exact .inl (.inl rfl)
      · simp only at h1; subst h1; exact .inl (.inr rfl)
      · simp only at h1 h2
        subst h2
        cases o1 <;> cases o2 <;> simp only [OutUp] at h1
        · subst h1
          rename_i v
          refine .inr ⟨?_, rfl⟩
          simp only [upgrade_isNone]
          have hd : m.DataOf (fun _ => True) (if v.isNone then .undef else v) := by
            simp only [ModelSer.DataOf, hb, or_true]
          have := validateModel_up hg hm hmg hd el1 t1 t2
          cases hn : v.isNone <;> rw [hn] at this <;> exact this
        · refine .inr ⟨?_, rfl⟩
          simp only [OutUp, intoValidationError_upgrade, intoValidationError_lines, upErrs, List.map_cons, List.map_nil, h1, ht]
        · exact .inr ⟨h1, rfl⟩

theorem inserted_refl {α : Type} {P : α → Prop} (xs : List α) : Inserted Eq P xs xs := by
  induction xs with
  | nil => exact .nil
  | cons x xs ih => exact .keep rfl ih

theorem UpRes.of_str {o : Out Val} (h : o = .diverge ∨ OutUp fill o o) {el : Elem} {sm1 sm2 : SMap} :
    UpRes fill (o, ⟨el, sm1⟩) (o, ⟨el, sm2⟩) := h.elim (fun h => .inl (.inl h)) (fun h => .inr ⟨h, rfl⟩)

theorem deserText_up (eas c nl : Bool) : Upgrades A fill (deserText eas c nl) (deserText eas c nl) := by
  intro el sm1 sm2 _
  unfold deserText
  split
  · exact UpRes.none
  · simp only
    split
    · exact UpRes.none
    · refine .inr ⟨?_, rfl⟩
      simp only [OutUp]
      unfold textVal
      split <;> split <;> first | rfl | (split <;> rfl)

theorem strDict_upgrade (f : String × String → String) (d : Dict String String) :
    (Val.dict (Dict.ofItems (d.map fun kv => (f kv, Val.str kv.2)))).upgrade fill =
      .dict (Dict.ofItems (d.map fun kv => (f kv, Val.str kv.2))) := by
  simp only [Val.upgrade, upgradePairs_eq, Dict.ofItems]
  congr 1
  have key : ∀ (l : List (String × String)) (acc : Dict String Val), (acc.map fun kv => (kv.1, kv.2.upgrade fill)) = acc →
      ((l.map fun kv => (f kv, Val.str kv.2)).foldl (fun d kv => d.set kv.1 kv.2) acc).map (fun kv => (kv.1, kv.2.upgrade fill)) =
        (l.map fun kv => (f kv, Val.str kv.2)).foldl (fun d kv => d.set kv.1 kv.2) acc := by
    intro l
    induction l with
    | nil => intro acc h; exact h
    | cons x l ih =>
      intro acc h
      simp only [List.map_cons, List.foldl_cons]
      refine ih _ ?_
      rw [Dict.map_set (Val.upgrade fill), h]
      rfl
  exact key d [] rfl

theorem deserAttrs_up (a : AttrsSer) : Upgrades A fill (deserAttrs a) (deserAttrs a) := by
  intro el sm1 sm2 _
  unfold deserAttrs
  split
  · exact UpRes.none
  · simp only
    split
    · exact UpRes.none
    · refine .inr ⟨?_, rfl⟩
      simp only [OutUp]
      exact (strDict_upgrade _ _).symm

theorem deser_up {env env' : Env} {K : Nat} (hg : env.Grows A K fill env')
    (hv : env.ValidatorsRead) (eas : Bool) (n : Nat) (k : Nat) (hk : K + 2 ≤ k) (s s' : Ser) (hs : s.Grows A env' s') (loc : Loc) :
    Upgrades A fill (deser env eas n s loc) (deser env' eas (n + k) s' loc) := by
  induction n generalizing s s' loc with
  | zero => intro el sm1 sm2 _; exact .inl (.inl rfl)
  | succ n ih =>
    have hnewf : ∀ f : Field, f.New A K env' → ∀ l el sm, el.Fit A →
        deser env' eas (n + k) f.ser l ⟨el, sm⟩ = (.ok .none, ⟨el, sm⟩) :=
      fun f hf l el sm he => new_absent A env' eas hf.2.2.1 hf.2.1 (by have := hf.2.2.2; omega) el he l sm
    have hnewp : ∀ p : Proxy, p.name ∈ A.tags ∧ (env'.model p.cls).isSome → ∀ el sm, el.Fit A →
        deser env' eas (n + k) (.proxy p) loc ⟨el, sm⟩ = (.ok .none, ⟨el, sm⟩) := by
      intro p hp el sm he
      refine new_absent A env' eas ?_ (.proxy hp.1) (by simp only [Ser.nesting]; omega) el he loc sm
      rw [Ser.everywhere_iff]
      exact ⟨hp.2, by simp [Ser.subs]⟩
    have hkeep : ∀ s l, Keeping A (deser env eas n s l) :=
      fun s l st => deser_rel (fit_rel A) env (hv.respect (fit_rel A)) eas n s l st
    have hvr := hv.respect (fit_rel A)
    intro el sm1 sm2 hf
    have hstep : n + 1 + k = (n + k) + 1 := by omega
    rw [hstep]
    change UpRes fill (deserStep env eas (deser env eas n) n s loc ⟨el, sm1⟩)
      (deserStep env' eas (deser env' eas (n + k)) (n + k) s' loc ⟨el, sm2⟩)
    generalize deser env eas n = F at ih hkeep ⊢
    generalize deser env' eas (n + k) = G at ih hnewf hnewp ⊢
    have hsm : ∀ {f g : St → Out Val × St}, Upgrades A fill f g →
        Upgrades A fill (fun c => f ⟨c.el, c.sm.set loc c.el.line⟩) (fun c => g ⟨c.el, c.sm.set loc c.el.line⟩) :=
      fun h e s1 s2 hf => h e _ _ hf
    have hchild : ∀ (t : String) (m : Mode) {f g : St → Out Val × St}, Upgrades A fill f g →
        UpRes fill (match el.popElement t m with
          | (none, el) => (.ok .none, ⟨el, sm1⟩)
          | (some i, el) => onChild ⟨el, sm1⟩ i f : Out Val × St)
          (match el.popElement t m with
          | (none, el) => (.ok .none, ⟨el, sm2⟩)
          | (some i, el) => onChild ⟨el, sm2⟩ i g : Out Val × St) := by
      intro t m f g hfg
      have he := ((fit_rel A).search el t m true).2 hf
      unfold popElement
      cases hr : el.search t m true with
      | mk o e =>
        rw [hr] at he
        cases o with
        | none => exact UpRes.none
        | some i => exact onChild_up hfg e he sm1 sm2 i
    unfold deserStep
    cases s with
    | text c nl => cases hs; exact deserText_up eas c nl _ _ _ hf
    | attr nm c =>
      cases hs
      simp only
      split
      · exact UpRes.none
      · split
        · exact .inr ⟨rfl, rfl⟩
        · exact UpRes.none
    | elem nm ns m c nl =>
      cases hs
      simp only
      split
      · exact UpRes.none
      · exact hchild nm m (hsm (deserText_up eas _ nl))
    | attrs a => cases hs; exact deserAttrs_up a _ _ _ hf
    | mapElem a nm m =>
      cases hs
      simp only
      split
      · exact UpRes.none
      · exact hchild nm m (hsm (deserAttrs_up a))
    | raw nm m c =>
      cases hs
      simp only [hg.backend]
      split
      · exact UpRes.none
      · split
        · exact .inr ⟨rfl, rfl⟩
        · exact UpRes.none
    | proxy p =>
      cases hs
      simp only
      cases hm : env.model p.cls with
      | none => exact .inl (.inr rfl)
      | some m =>
        obtain ⟨m', hm', hmg⟩ := hg.models p.cls m hm
        rw [hm']
        simp only
        split
        · exact UpRes.none
        · refine hchild p.name p.mode
            (f := fun c => match c.el.isNil with
              | (true, el) => (.ok .none, ⟨el, c.sm.set loc c.el.line⟩)
              | (false, el) => deserModel env F p.cls m loc ⟨el, c.sm.set loc c.el.line⟩)
            (g := fun c => match c.el.isNil with
              | (true, el) => (.ok .none, ⟨el, c.sm.set loc c.el.line⟩)
              | (false, el) => deserModel env' G p.cls m' loc ⟨el, c.sm.set loc c.el.line⟩) ?_
          intro e s1 s2 he
          simp only
          have hne := ((fit_rel A).isNil e).2 he
          cases hnil : e.isNil with
          | mk b e' =>
            rw [hnil] at hne
            cases b with
            | true => exact UpRes.none
            | false =>
              exact deserModel_up hg hkeep (fun s s' h l => ih s s' h l) hnewf hm hmg (fun fs hb => hvr p.cls m fs hm hb) loc _ _ _ hne
    | primUnion c inner =>
      obtain ⟨inner', rfl, hi⟩ : ∃ inner', s' = .primUnion c inner' ∧ inner.Grows A env' inner' := by
        cases hs with
        | same => exact ⟨_, rfl, .same⟩
        | primUnion h => exact ⟨_, rfl, h⟩
      simp only
      split
      · exact UpRes.none
      · exact ih inner inner' hi loc _ _ _ hf
    | modelUnion t c alts =>
      obtain ⟨alts', rfl, hi⟩ : ∃ alts', s' = .modelUnion t c alts' ∧
          Inserted Eq (fun p => p.name ∈ A.tags ∧ (env'.model p.cls).isSome) alts alts' := by
        cases hs with
        | same => exact ⟨_, rfl, inserted_refl _⟩
        | modelUnion h => exact ⟨_, rfl, h⟩
      simp only
      split
      · exact UpRes.none
      · exact unionLoop_up t (fun p => ih (.proxy p) (.proxy p) .same loc) hnewp hi (errs1 := []) (errs2 := []) errsRel_nil _ _ _ hf
    | tagged c d a m alts =>
      obtain ⟨alts', rfl, hi⟩ : ∃ alts', s' = .tagged c d a m alts' ∧ Inserted Eq (fun tp => tp.2.name ∈ A.tags) alts alts' := by
        cases hs with
        | same => exact ⟨_, rfl, inserted_refl _⟩
        | tagged h => exact ⟨_, rfl, h⟩
      simp only
      split
      · exact UpRes.none
      · exact taggedLoop_up (fun p => ih (.proxy p) (.proxy p) .same loc) loc a m hi _ _ _ hf
    | wrap path ns m c inner =>
      obtain ⟨inner', rfl, hi⟩ : ∃ inner', s' = .wrap path ns m c inner' ∧ inner.Grows A env' inner' := by
        cases hs with
        | same => exact ⟨_, rfl, .same⟩
        | wrap h => exact ⟨_, rfl, h⟩
      simp only
      split
      · exact UpRes.none
      · exact descend_up (hsm (ih inner inner' hi loc)) m path _ _ _ hf
    | homog t c inner =>
      obtain ⟨inner', rfl, hi⟩ : ∃ inner', s' = .homog t c inner' ∧ inner.Grows A env' inner' := by
        cases hs with
        | same => exact ⟨_, rfl, .same⟩
        | homog h => exact ⟨_, rfl, h⟩
      simp only
      split
      · exact UpRes.none
      · have hr := homogLoop_up (fun l => ih inner inner' hi l) (fun l => hkeep inner l) loc n (n + k) (by omega) 0 []
          (errs1 := []) (errs2 := []) errsRel_nil el hf sm1 sm2
        simp only [List.map_nil] at hr
        rcases hf1 : homogLoop (fun loc st => F inner loc st) loc n 0 [] [] ⟨el, sm1⟩ with ⟨o1, el1, t1⟩
        rcases hg1 : homogLoop (fun loc st => G inner' loc st) loc (n + k) 0 [] [] ⟨el, sm2⟩ with ⟨o2, el2, t2⟩
        rw [hf1, hg1] at hr
        rcases hr with (h1 | h1) | ⟨h1, h2⟩
        · simp only at h1; subst h1; exact .inl (.inl rfl)
        · simp only at h1; subst h1; exact .inl (.inr rfl)
        · simp only at h1 h2
          subst h1
          cases o1 <;> cases o2 <;> simp only at h2
          · obtain ⟨h3, h4⟩ := h2
            refine .inr ⟨?_, rfl⟩
            simp only [homogFinish]
            rw [errsRel_isEmpty h4, h3]
            split
            · simp only [List.isEmpty_map]
              split
              · rfl
              · simp only [OutUp, Val.upgrade, upgradeList_eq]
            · simp only [OutUp, intoValidationError_upgrade, intoValidationError_lines]
              rw [h4]
          · exact .inr ⟨h2, rfl⟩
    | hetero t c inners =>
      obtain ⟨inners', rfl, hl, hi⟩ : ∃ inners', s' = .hetero t c inners' ∧ inners.length = inners'.length ∧
          ∀ p ∈ inners.zip inners', Ser.Grows A env' p.1 p.2 := by
        cases hs with
        | same =>
          refine ⟨_, rfl, rfl, fun p hp => ?_⟩
          have : p.1 = p.2 := by
            revert hp
            induction inners with
            | nil => intro hp; cases hp
            | cons x xs ihx =>
              intro hp
              rcases List.mem_cons.1 hp with rfl | hp
              · rfl
              · exact ihx hp
          rw [this]; exact .same
        | hetero h1 h2 => exact ⟨_, rfl, h1, h2⟩
      simp only
      split
      · exact UpRes.none
      · have hr := heteroLoop_up hkeep loc inners inners' hl (fun p hp l => ih p.1 p.2 (hi p hp) l) 0 []
          (errs1 := []) (errs2 := []) errsRel_nil el hf sm1 sm2
        simp only [List.map_nil] at hr
        rcases hf1 : heteroLoop F loc inners 0 [] [] ⟨el, sm1⟩ with ⟨o1, el1, t1⟩
        rcases hg1 : heteroLoop G loc inners' 0 [] [] ⟨el, sm2⟩ with ⟨o2, el2, t2⟩
        rw [hf1, hg1] at hr
        rcases hr with (h1 | h1) | ⟨h1, h2⟩
        · simp only at h1; subst h1; exact .inl (.inl rfl)
        · simp only at h1; subst h1; exact .inl (.inr rfl)
        · simp only at h1 h2
          subst h1
          cases o1 <;> cases o2 <;> simp only at h2
          · obtain ⟨h3, h4⟩ := h2
            refine .inr ⟨?_, rfl⟩
            simp only [heteroFinish]
            rw [errsRel_isEmpty h4, h3]
            split
            · simp only [List.all_map, Function.comp_def, upgrade_isNone]
              split
              · rfl
              · simp only [OutUp, Val.upgrade, upgradeList_eq]
            · simp only [OutUp, intoValidationError_upgrade, intoValidationError_lines]
              rw [h4]
          · exact .inr ⟨h2, rfl⟩

theorem OutUp.noLines {o o' : Out Val} (h : OutUp fill o o') : o'.noLines = (o.upgrade fill).noLines := by
  cases o <;> cases o' <;> simp only [OutUp] at h
  · simp [Out.upgrade, Out.noLines, Out.lines, h]
  · simp [Out.upgrade, Out.noLines, Out.lines, h]
  · simp [Out.upgrade, Out.noLines, Out.lines, h]

end

end PXml
