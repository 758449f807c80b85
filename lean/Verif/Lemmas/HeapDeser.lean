import Verif.Lemmas.Heap
import Verif.Lemmas.SimMeta

/-! Reading with object identity does what reading with values does. -/

namespace PXml
namespace Heap

/-- The two results agree, and the element at `a` is the one the other model returns. -/
structure Refines {α : Type} (h : Store) (a : Addr) (F : Addr → Prop) (r : Out α × St) (q : Out α × HSt) : Prop where
  out : q.1 = r.1
  sm : q.2.sm = r.2.sm
  step : Step h a F q.2.h r.2.el

section
variable {α : Type} {h h' : Store} {e : Elem} {a la : Addr} {F : Addr → Prop} {da : Option Addr} {as : List Addr}
  {G : Addr → Addr → Prop} {sm : SMap}

theorem IsTree.same (r : IsTree h e a F) (o : Out α) : Refines h a F (o, ⟨e, sm⟩) (o, ⟨h, sm⟩) := ⟨rfl, rfl, r.step⟩

theorem Refines.after {r : Out α × St} {q : Out α × HSt} {F' : Addr → Prop} (ext : Ext h h' F)
    (hF : ∀ x, F' x → F x ∨ h.length ≤ x) (s : Refines h' a F' r q) : Refines h a F r q :=
  ⟨s.out, s.sm, s.step.trans ext hF⟩

theorem Refines.cast {β : Type} {r : Out α × St} {q : Out α × HSt} (s : Refines h a F r q) (o : Out β) :
    Refines h a F (o, r.2) (o, q.2) := ⟨rfl, s.sm, s.step⟩

/-- Work on a child. -/
theorem View.onChild (v : View h e a F da la as G) {i : Nat} {b : Addr} {c : Elem} {f : St → Out α × St} {q : Out α × HSt}
    (hb : as[i]? = some b) (hc : e.elements[i]? = some c) (s : Refines h b (G b) (f ⟨c, sm⟩) q) :
    Refines h a F (PXml.onChild ⟨e, sm⟩ i f) q := by
  simp only [PXml.onChild, hc]
  exact ⟨s.out, s.sm, v.child hb s.step⟩

/-- The outcomes of a search, side by side. -/
theorem search_cases (r : IsTree h e a F) (tag : String) (mode : Mode) (step : Bool) :
    (∃ h1 e1, e.search tag mode step = (none, e1) ∧ h.search a tag mode step = (none, h1) ∧ Step h a F h1 e1) ∨
    ∃ h1 e1 i b c da la as G, e.search tag mode step = (some i, e1) ∧ h.search a tag mode step = (some b, h1) ∧
      View h1 e1 a F da la as G ∧ Ext h h1 F ∧ as[i]? = some b ∧ e1.elements[i]? = some c ∧ IsTree h1 c b (G b) := by
  obtain ⟨da, la, as, G, v⟩ := r.view
  obtain ⟨as', hs1, v1, ext1⟩ := search_view v tag mode step
  rcases hse : e.search tag mode step with ⟨i?, e1⟩
  rcases hsh : h.search a tag mode step with ⟨b?, h1⟩
  rw [hse, hsh] at hs1 v1
  rw [hsh] at ext1
  simp only at hs1 v1 ext1
  cases i? with
  | none =>
    simp only [Option.bind_none] at hs1
    subst hs1
    exact .inl ⟨h1, e1, rfl, rfl, F, v1.tree, ext1, fun _ => .inl⟩
  | some i =>
    obtain ⟨c, hc, _⟩ := PXml.search_index hse
    obtain ⟨b, hb, rc⟩ := v1.kid_of_index hc
    simp only [Option.bind_some] at hs1
    rw [hb] at hs1
    subst hs1
    exact .inr ⟨h1, e1, i, b, c, da, la, as', G, rfl, rfl, v1, ext1, hb, hc, rc⟩

theorem deserText_refines (r : IsTree h e a F) (eas computed nillable : Bool) :
    Refines h a F (PXml.deserText eas computed nillable ⟨e, sm⟩) (deserText eas computed nillable a ⟨h, sm⟩) := by
  simp only [PXml.deserText, deserText]
  cases computed with
  | true => exact r.same _
  | false =>
    simp only [Bool.false_eq_true, if_false]
    cases nillable with
    | false =>
      simp only [Bool.false_eq_true, if_false]
      obtain ⟨h1, h2⟩ := popText_step r
      exact ⟨by rw [h1], rfl, h2⟩
    | true =>
      simp only [if_true]
      obtain ⟨h1, F1, r1, ext1, hF1⟩ := isNil_step r
      rcases he : e.isNil with ⟨b, e1⟩
      rcases hh : h.isNil a with ⟨b', h1'⟩
      rw [he, hh] at h1
      rw [he, hh] at r1
      rw [hh] at ext1
      simp only at h1 r1 ext1
      subst h1
      cases b' with
      | true => exact ⟨rfl, rfl, F1, r1, ext1, hF1⟩
      | false =>
        obtain ⟨h1, h2⟩ := popText_step r1
        exact Refines.after ext1 hF1 ⟨by simp only [h1], rfl, h2⟩

theorem deserAttrs_refines (r : IsTree h e a F) (s : AttrsSer) :
    Refines h a F (PXml.deserAttrs s ⟨e, sm⟩) (deserAttrs s a ⟨h, sm⟩) := by
  simp only [PXml.deserAttrs, deserAttrs]
  cases s.computed with
  | true => exact r.same _
  | false =>
    simp only [Bool.false_eq_true, if_false]
    obtain ⟨h1, h2⟩ := popAttributes_step r
    rcases he : e.popAttributes with ⟨d, e1⟩
    rcases hh : h.popAttributes a with ⟨x, h1'⟩
    rw [he, hh] at h1 h2
    simp only at h1 h2
    subst h1
    cases x with
    | none => exact ⟨rfl, rfl, h2⟩
    | some x => exact ⟨rfl, rfl, h2⟩

/-- What is assumed of the function for the serializers that work is delegated to. -/
def RecOK (rec : Ser → Loc → St → Out Val × St) (rech : Ser → Loc → Addr → HSt → Out Val × HSt) : Prop :=
  ∀ s loc (h : Store) (e : Elem) (a : Addr) (F : Addr → Prop) (sm : SMap), IsTree h e a F →
    Refines h a F (rec s loc ⟨e, sm⟩) (rech s loc a ⟨h, sm⟩)

theorem descend_refines {f : St → Out Val × St} {g : Addr → HSt → Out Val × HSt} (mode : Mode)
    (hf : ∀ (h : Store) (e : Elem) (a : Addr) (F : Addr → Prop) (sm : SMap), IsTree h e a F →
      Refines h a F (f ⟨e, sm⟩) (g a ⟨h, sm⟩)) :
    ∀ (path : List String) (h : Store) (e : Elem) (a : Addr) (F : Addr → Prop) (sm : SMap), IsTree h e a F →
      Refines h a F (PXml.descend mode f path ⟨e, sm⟩) (descend mode g path a ⟨h, sm⟩)
  | [], h, e, a, F, sm, r => hf h e a F sm r
  | t :: ts, h, e, a, F, sm, r => by
    obtain ⟨da, la, as, G, v⟩ := r.view
    simp only [PXml.descend, descend]
    rcases findElement_view v t mode with ⟨err, h1, h2⟩ | ⟨as', fi, e', fb, h', h1, h2, hfb, v', ext⟩
    · rw [h1, h2]
      exact r.same _
    · rw [h1, h2]
      cases fi with
      | none =>
        simp only [Option.bind_none] at hfb
        subst hfb
        exact ⟨rfl, rfl, F, v'.tree, ext, fun _ => .inl⟩
      | some i =>
        obtain ⟨c, hc, _⟩ := Elem.findElement_index h1
        obtain ⟨b, hb, rc⟩ := v'.kid_of_index hc
        simp only [Option.bind_some, hb] at hfb
        subst hfb
        exact Refines.after ext (fun _ => .inl) (v'.onChild hb hc (descend_refines mode hf ts _ _ _ _ _ rc))

/-- Continue with what a refined step has left. -/
theorem Refines.tree {r : Out α × St} {q : Out α × HSt} (s : Refines h a F r q) :
    ∃ o st h' F', r = (o, st) ∧ q = (o, ⟨h', st.sm⟩) ∧ IsTree h' st.el a F' ∧ Ext h h' F ∧ ∀ x, F' x → F x ∨ h.length ≤ x := by
  obtain ⟨h1, h2, F', r', ext, hF⟩ := s
  refine ⟨r.1, r.2, q.2.h, F', rfl, ?_, r', ext, hF⟩
  rw [← h1, ← h2]

theorem homogLoop_refines {rec : Loc → St → Out Val × St} {rech : Loc → HSt → Out Val × HSt} {a : Addr} (loc : Loc)
    (hr : ∀ loc (h : Store) (e : Elem) (F : Addr → Prop) (sm : SMap), IsTree h e a F →
      Refines h a F (rec loc ⟨e, sm⟩) (rech loc ⟨h, sm⟩)) :
    ∀ (n idx : Nat) (acc : List Val) (errs : Dict ErrKey VErr) (h : Store) (e : Elem) (F : Addr → Prop) (sm : SMap), IsTree h e a F →
      Refines h a F (PXml.homogLoop rec loc n idx acc errs ⟨e, sm⟩) (homogLoop rech loc n idx acc errs ⟨h, sm⟩)
  | 0, _, _, _, h, e, F, sm, r => r.same _
  | n + 1, idx, acc, errs, h, e, F, sm, r => by
    obtain ⟨o, st, h', F', h1, h2, r', ext, hF⟩ := (hr (loc ++ [.idx idx]) h e F sm r).tree
    simp only [PXml.homogLoop, homogLoop, h1, h2]
    cases o with
    | ok v =>
      simp only
      split
      · exact ⟨rfl, rfl, F', r', ext, hF⟩
      · exact .after ext hF (homogLoop_refines loc hr n _ _ _ h' st.el F' st.sm r')
    | verr x => exact .after ext hF (homogLoop_refines loc hr n _ _ _ h' st.el F' st.sm r')
    | crash x => exact ⟨rfl, rfl, F', r', ext, hF⟩
    | diverge => exact ⟨rfl, rfl, F', r', ext, hF⟩

theorem heteroLoop_refines {rec : Ser → Loc → St → Out Val × St} {rech : Ser → Loc → HSt → Out Val × HSt} {a : Addr} (loc : Loc)
    (hr : ∀ s loc (h : Store) (e : Elem) (F : Addr → Prop) (sm : SMap), IsTree h e a F →
      Refines h a F (rec s loc ⟨e, sm⟩) (rech s loc ⟨h, sm⟩)) :
    ∀ (ss : List Ser) (idx : Nat) (acc : List Val) (errs : Dict ErrKey VErr) (h : Store) (e : Elem) (F : Addr → Prop) (sm : SMap),
      IsTree h e a F →
      Refines h a F (PXml.heteroLoop rec loc ss idx acc errs ⟨e, sm⟩) (heteroLoop rech loc ss idx acc errs ⟨h, sm⟩)
  | [], _, _, _, h, e, F, sm, r => r.same _
  | s :: ss, idx, acc, errs, h, e, F, sm, r => by
    obtain ⟨o, st, h', F', h1, h2, r', ext, hF⟩ := (hr s (loc ++ [.idx idx]) h e F sm r).tree
    simp only [PXml.heteroLoop, heteroLoop, h1, h2]
    cases o with
    | ok v => exact .after ext hF (heteroLoop_refines loc hr ss _ _ _ h' st.el F' st.sm r')
    | verr x => exact .after ext hF (heteroLoop_refines loc hr ss _ _ _ h' st.el F' st.sm r')
    | crash x => exact ⟨rfl, rfl, F', r', ext, hF⟩
    | diverge => exact ⟨rfl, rfl, F', r', ext, hF⟩

/-- Whatever is done to a tree of new objects leaves the old ones alone. -/
theorem Fresh.ext_old {s : Addr} {h1 h2 : Store} {e' : Elem} {F' : Addr → Prop} (g : Grow h h1)
    (hF : ∀ x, F' x → h.length ≤ x) (st : Step h1 s F' h2 e') : Grow h h2 := by
  obtain ⟨F2, _, ext, _⟩ := st
  refine ⟨Nat.le_trans g.le ext.le, fun x hx _ => ?_⟩
  rw [ext.same x (Nat.lt_of_lt_of_le hx g.le) fun hF' => absurd hx (Nat.not_lt.2 (hF x hF')), g.get hx]

theorem unionLoop_refines {rec : Proxy → St → Out Val × St} {rech : Proxy → Addr → HSt → Out Val × HSt} (title : Title)
    (hr : ∀ p (h : Store) (e : Elem) (a : Addr) (F : Addr → Prop) (sm : SMap), IsTree h e a F →
      Refines h a F (rec p ⟨e, sm⟩) (rech p a ⟨h, sm⟩)) :
    ∀ (ps : List Proxy) (errs : Dict ErrKey VErr) (h : Store) (e : Elem) (a : Addr) (F : Addr → Prop) (sm : SMap), IsTree h e a F →
      Refines h a F (PXml.unionLoop rec title ps errs ⟨e, sm⟩) (unionLoop rech title a ps errs ⟨h, sm⟩)
  | [], errs, h, e, a, F, sm, r => by
    simp only [PXml.unionLoop, unionLoop]
    split
    · exact r.same _
    · exact ⟨rfl, rfl, stepForward_step r⟩
  | p :: ps, errs, h, e, a, F, sm, r => by
    obtain ⟨s, h1, hs, F1, r1, hF1, g⟩ := r.snapshot
    obtain ⟨o, st, h2, F2, hq1, hq2, r2, ext2, hF2⟩ := (hr p h1 e s F1 sm r1).tree
    have g2 : Grow h h2 := Fresh.ext_old g hF1 ⟨F2, r2, ext2, hF2⟩
    have ra : IsTree h2 e a F := r.grow g2
    simp only [PXml.unionLoop, unionLoop, hs, Elem.createSnapshot, hq1, hq2]
    have next : ∀ errs, Refines h a F (PXml.unionLoop rec title ps errs ⟨e, st.sm⟩) (unionLoop rech title a ps errs ⟨h2, st.sm⟩) :=
      fun errs => .after g2.ext (fun _ => .inl) (unionLoop_refines title hr ps errs h2 e a F st.sm ra)
    cases o with
    | ok v =>
      simp only
      split
      · exact next errs
      · refine ⟨rfl, rfl, ?_⟩
        obtain ⟨da, la, as, G, v2⟩ := r2.view
        obtain ⟨_, _, _, _, va⟩ := ra.view
        simp only [Store.applySnapshot, v2.obj?, va.modify]
        refine v2.takeover (e' := e.applySnapshot st.el) ?_ (r.lt r.root) r.root g2 rfl rfl
        intro x hx
        rcases hF2 x hx with h | h
        · exact hF1 x h
        · exact Nat.le_trans g.le h
    | verr x => exact next _
    | crash x => exact ⟨rfl, rfl, F, ra, g2.ext, fun _ => .inl⟩
    | diverge => exact ⟨rfl, rfl, F, ra, g2.ext, fun _ => .inl⟩

theorem taggedLoop_refines {rec : Proxy → St → Out Val × St} {rech : Proxy → HSt → Out Val × HSt} {a : Addr} (loc : Loc)
    (attrName : String) (mode : Mode)
    (hr : ∀ p (h : Store) (e : Elem) (F : Addr → Prop) (sm : SMap), IsTree h e a F →
      Refines h a F (rec p ⟨e, sm⟩) (rech p ⟨h, sm⟩)) :
    ∀ (alts : List (String × Proxy)) (h : Store) (e : Elem) (F : Addr → Prop) (sm : SMap), IsTree h e a F →
      Refines h a F (PXml.taggedLoop rec loc attrName mode alts ⟨e, sm⟩) (taggedLoop rech loc attrName mode a alts ⟨h, sm⟩)
  | [], h, e, F, sm, r => r.same _
  | (tag, p) :: alts, h, e, F, sm, r => by
    simp only [PXml.taggedLoop, taggedLoop]
    rcases search_cases r p.name mode false with ⟨h1, e1, hs1, hs2, F1, r1, ext, hF⟩ |
      ⟨h1, e1, i, b, c, da, la, as, G, hs1, hs2, v1, ext, hb, hc, rc⟩
    · rw [hs1, hs2]
      exact .after ext hF (taggedLoop_refines loc attrName mode hr alts h1 e1 F1 sm r1)
    · rw [hs1, hs2]
      simp only [hc, rc.getAttrib, rc.line]
      split
      · exact .after ext (fun _ => .inl) (hr p h1 e1 F _ v1.tree)
      · exact .after ext (fun _ => .inl) (taggedLoop_refines loc attrName mode hr alts h1 e1 F sm v1.tree)

theorem runValidator_refines (r : IsTree h e a F) (v : Elem → Out Val × Elem) :
    Refines h a F ((v e).1, ⟨(v e).2, sm⟩) (runValidator v a ⟨h, sm⟩) := by
  simp only [runValidator, r.read]
  refine ⟨rfl, rfl, ?_⟩
  obtain ⟨F', rb, hF, g⟩ := put_fresh h (v e).2
  obtain ⟨da, la, as, G, vb⟩ := rb.view
  obtain ⟨_, _, _, _, va⟩ := (r.grow g).view
  simp only [vb.obj?, va.modify, Option.getD_some]
  exact vb.takeover hF (r.lt r.root) r.root g rfl rfl

theorem deserFields_refines {rec : Ser → Loc → St → Out Val × St} {rech : Ser → Loc → HSt → Out Val × HSt} {a : Addr}
    (hr : ∀ s loc (h : Store) (e : Elem) (F : Addr → Prop) (sm : SMap), IsTree h e a F →
      Refines h a F (rec s loc ⟨e, sm⟩) (rech s loc ⟨h, sm⟩)) :
    ∀ (fs : List Field) (res : Dict String Val) (errs : Dict ErrKey VErr) (h : Store) (e : Elem) (F : Addr → Prop) (sm : SMap),
      IsTree h e a F →
      Refines h a F (PXml.deserFields rec fs res errs ⟨e, sm⟩) (deserFields rech a fs res errs ⟨h, sm⟩)
  | [], _, _, h, e, F, sm, r => r.same _
  | f :: fs, res, errs, h, e, F, sm, r => by
    simp only [PXml.deserFields, deserFields, r.line]
    have cont : ∀ (r : Out Val × St) (q : Out Val × HSt), Refines h a F r q →
        Refines h a F
          (match r with
            | (.ok v, st') => PXml.deserFields rec fs (if v.isNone then res else res.set (f.alias.getD f.name) v) errs st'
            | (.verr e, st') => PXml.deserFields rec fs res (errs.set (some (.name f.name)) e) st'
            | (.crash e, st') => (.crash e, st')
            | (.diverge, st') => (.diverge, st'))
          (match q with
            | (.ok v, st') => deserFields rech a fs (if v.isNone then res else res.set (f.alias.getD f.name) v) errs st'
            | (.verr e, st') => deserFields rech a fs res (errs.set (some (.name f.name)) e) st'
            | (.crash e, st') => (.crash e, st')
            | (.diverge, st') => (.diverge, st')) := by
      intro r q hs
      obtain ⟨o, st, h', F', h1, h2, r', ext, hF⟩ := hs.tree
      rw [h1, h2]
      cases o with
      | ok v => exact .after ext hF (deserFields_refines hr fs _ _ h' st.el F' st.sm r')
      | verr x => exact .after ext hF (deserFields_refines hr fs _ _ h' st.el F' st.sm r')
      | crash x => exact ⟨rfl, rfl, F', r', ext, hF⟩
      | diverge => exact ⟨rfl, rfl, F', r', ext, hF⟩
    cases f.validator with
    | some v => exact cont _ _ (runValidator_refines r v)
    | none => exact cont _ _ (hr _ _ h e F _ r)

theorem validateModel_eq (r : IsTree h e a F) (env : Env) (cls : String) (m : ModelSer) (data : Val) :
    validateModel env cls m data a ⟨h, sm⟩ = PXml.validateModel env cls m data ⟨e, sm⟩ := by
  simp only [validateModel, r.read]

theorem deserModel_refines {rec : Ser → Loc → St → Out Val × St} {rech : Ser → Loc → HSt → Out Val × HSt}
    (hr : ∀ s loc (h : Store) (e : Elem) (F : Addr → Prop) (sm : SMap), IsTree h e a F →
      Refines h a F (rec s loc ⟨e, sm⟩) (rech s loc ⟨h, sm⟩)) (env : Env) (cls : String) (m : ModelSer) (loc : Loc)
    (r : IsTree h e a F) :
    Refines h a F (PXml.deserModel env rec cls m loc ⟨e, sm⟩) (deserModel env rech cls m loc a ⟨h, sm⟩) := by
  simp only [PXml.deserModel, deserModel]
  cases m.body with
  | fields fs =>
    obtain ⟨o, st, h', F', h1, h2, r', ext, hF⟩ := (deserFields_refines hr fs [] [] h e F sm r).tree
    simp only [h1, h2]
    cases o with
    | ok x =>
      obtain ⟨res, errs⟩ := x
      simp only
      split
      · exact ⟨validateModel_eq r' .., rfl, F', r', ext, hF⟩
      · exact ⟨rfl, rfl, F', r', ext, hF⟩
    | verr x => exact ⟨rfl, rfl, F', r', ext, hF⟩
    | crash x => exact ⟨rfl, rfl, F', r', ext, hF⟩
    | diverge => exact ⟨rfl, rfl, F', r', ext, hF⟩
  | root s =>
    obtain ⟨o, st, h', F', h1, h2, r', ext, hF⟩ := (hr s loc h e F sm r).tree
    simp only [h1, h2]
    cases o with
    | ok x => exact ⟨validateModel_eq r' .., rfl, F', r', ext, hF⟩
    | verr x => exact ⟨rfl, rfl, F', r', ext, hF⟩
    | crash x => exact ⟨rfl, rfl, F', r', ext, hF⟩
    | diverge => exact ⟨rfl, rfl, F', r', ext, hF⟩

theorem deserStep_refines {rec : Ser → Loc → St → Out Val × St} {rech : Ser → Loc → Addr → HSt → Out Val × HSt}
    (hr : RecOK rec rech) (env : Env) (eas : Bool) (fuel : Nat) :
    RecOK (PXml.deserStep env eas rec fuel) (deserStep env eas rech fuel) := by
  intro s loc h e a F sm r
  cases s with
  | text computed nillable => exact deserText_refines r eas computed nillable
  | attr name computed =>
    simp only [PXml.deserStep, deserStep]
    cases computed with
    | true => exact r.same _
    | false =>
      simp only [Bool.false_eq_true, if_false]
      obtain ⟨h1, h2⟩ := popAttrib_step r name
      rcases he : e.popAttrib name with ⟨v, e1⟩
      rcases hh : h.popAttrib a name with ⟨v', h1'⟩
      rw [he, hh] at h1 h2
      simp only at h1 h2
      subst h1
      cases v' with
      | none => exact ⟨rfl, rfl, h2⟩
      | some v => exact ⟨rfl, rfl, h2⟩
  | elem name nsmap mode computed nillable =>
    simp only [PXml.deserStep, deserStep, Elem.popElement]
    cases computed with
    | true => exact r.same _
    | false =>
      simp only [Bool.false_eq_true, if_false]
      rcases search_cases r name mode true with ⟨h1, e1, hs1, hs2, hst⟩ |
        ⟨h1, e1, i, b, c, da, la, as, G, hs1, hs2, v1, ext, hb, hc, rc⟩
      · rw [hs1, hs2]
        exact ⟨rfl, rfl, hst⟩
      · rw [hs1, hs2]
        simp only [rc.line]
        refine .after ext (fun _ => .inl) (v1.onChild hb hc ?_)
        exact deserText_refines rc eas false nillable
  | attrs s => exact deserAttrs_refines r s
  | mapElem s name mode =>
    simp only [PXml.deserStep, deserStep, Elem.popElement]
    by_cases hcomp : s.computed = true
    · simp only [hcomp, if_true]
      exact r.same _
    · simp only [hcomp, Bool.false_eq_true, if_false]
      rcases search_cases r name mode true with ⟨h1, e1, hs1, hs2, hst⟩ |
        ⟨h1, e1, i, b, c, da, la, as, G, hs1, hs2, v1, ext, hb, hc, rc⟩
      · rw [hs1, hs2]
        exact ⟨rfl, rfl, hst⟩
      · rw [hs1, hs2]
        simp only [rc.line]
        refine .after ext (fun _ => .inl) (v1.onChild hb hc ?_)
        exact deserAttrs_refines rc s
  | raw name mode computed =>
    simp only [PXml.deserStep, deserStep]
    cases computed with
    | true => exact r.same _
    | false =>
      simp only [Bool.false_eq_true, if_false]
      obtain ⟨hc, hst⟩ := popElementRemove_step r name mode
      rcases he : e.popElementRemove name mode with ⟨c?, e1⟩
      rcases hh : h.popElementRemove a name mode with ⟨d?, h1⟩
      rw [he, hh] at hc hst
      simp only at hc hst
      rcases hc with ⟨rfl, rfl⟩ | ⟨c, d, rfl, rfl, Fd, rd⟩
      · exact ⟨rfl, rfl, hst⟩
      · simp only [rd.read, rd.line]
        exact ⟨rfl, rfl, hst⟩
  | proxy p =>
    simp only [PXml.deserStep, deserStep, Elem.popElement]
    cases env.model p.cls with
    | none => exact r.same _
    | some m =>
      simp only
      by_cases hcomp : p.computed = true
      · simp only [hcomp, if_true]
        exact r.same _
      · simp only [hcomp, Bool.false_eq_true, if_false]
        rcases search_cases r p.name p.mode true with ⟨h1, e1, hs1, hs2, hst⟩ |
          ⟨h1, e1, i, b, c, da, la, as, G, hs1, hs2, v1, ext, hb, hc, rc⟩
        · rw [hs1, hs2]
          exact ⟨rfl, rfl, hst⟩
        · rw [hs1, hs2]
          simp only [rc.line]
          refine .after ext (fun _ => .inl) (v1.onChild hb hc ?_)
          obtain ⟨hn, F2, r2, ext2, hF2⟩ := isNil_step rc
          rcases he : c.isNil with ⟨x, c2⟩
          rcases hh : h1.isNil b with ⟨x', h2⟩
          rw [he, hh] at hn r2
          rw [hh] at ext2
          simp only at hn r2 ext2
          subst hn
          simp only
          cases x' with
          | true => exact ⟨rfl, rfl, F2, r2, ext2, hF2⟩
          | false =>
            exact .after ext2 hF2 (deserModel_refines (fun s loc h e F sm r => hr s loc h e b F sm r) env p.cls m loc r2)
  | primUnion computed inner =>
    simp only [PXml.deserStep, deserStep]
    cases computed with
    | true => exact r.same _
    | false => exact hr inner loc h e a F sm r
  | modelUnion title computed alts =>
    simp only [PXml.deserStep, deserStep]
    cases computed with
    | true => exact r.same _
    | false => exact unionLoop_refines title (fun p h e a F sm r => hr (.proxy p) loc h e a F sm r) alts [] h e a F sm r
  | tagged computed discr attrName mode alts =>
    simp only [PXml.deserStep, deserStep]
    cases computed with
    | true => exact r.same _
    | false => exact taggedLoop_refines loc attrName mode (fun p h e F sm r => hr (.proxy p) loc h e a F sm r) alts h e F sm r
  | wrap path nsmap mode computed inner =>
    simp only [PXml.deserStep, deserStep]
    cases computed with
    | true => exact r.same _
    | false =>
      refine descend_refines mode (fun h e a F sm r => ?_) path h e a F sm r
      simp only [r.line]
      exact hr inner loc h e a F _ r
  | homog title computed inner =>
    simp only [PXml.deserStep, deserStep]
    cases computed with
    | true => exact r.same _
    | false =>
      simp only [Bool.false_eq_true, if_false]
      obtain ⟨o, st, h', F', h1, h2, r', ext, hF⟩ :=
        (homogLoop_refines (a := a) loc (fun loc h e F sm r => hr inner loc h e a F sm r) fuel 0 [] [] h e F sm r).tree
      rw [h1, h2]
      cases o <;> exact ⟨rfl, rfl, F', r', ext, hF⟩
  | hetero title computed inners =>
    simp only [PXml.deserStep, deserStep]
    cases computed with
    | true => exact r.same _
    | false =>
      simp only [Bool.false_eq_true, if_false]
      obtain ⟨o, st, h', F', h1, h2, r', ext, hF⟩ :=
        (heteroLoop_refines (a := a) loc (fun s loc h e F sm r => hr s loc h e a F sm r) inners 0 [] [] h e F sm r).tree
      rw [h1, h2]
      cases o <;> exact ⟨rfl, rfl, F', r', ext, hF⟩

theorem deser_refines (env : Env) (eas : Bool) : ∀ n, RecOK (PXml.deser env eas n) (deser env eas n)
  | 0 => fun _ _ _ _ _ _ _ r => r.same _
  | n + 1 => deserStep_refines (deser_refines env eas n) env eas n

theorem fromXmlTree_refines (env : Env) (eas : Bool) (n : Nat) (cls : String) {t : Node} {root : Addr} (r : IsNode h t root) :
    (fromXmlTree env eas n cls root h).1 = (PXml.fromXmlTree env eas n cls t).1 ∧
      Grow h (fromXmlTree env eas n cls root h).2 := by
  simp only [fromXmlTree, PXml.fromXmlTree]
  cases env.model cls with
  | none => exact ⟨rfl, .refl⟩
  | some m =>
    simp only [r.nodeTag]
    split
    · obtain ⟨b, h1, hf, F1, r1, hF1, g⟩ := r.fromNative env.backend
      rw [hf]
      have s := deserModel_refines (fun s loc h e F sm r => deser_refines env eas n s loc h e b F sm r) env cls m [] r1 (sm := [])
      exact ⟨s.out, Fresh.ext_old g hF1 s.step⟩
    · exact ⟨rfl, .refl⟩

end
end Heap
end PXml
