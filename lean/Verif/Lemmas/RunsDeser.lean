import Verif.Lemmas.Runs
import Verif.Lemmas.HeapDeser

/-! A thread that runs alone reads as `Heap.fromXmlTree` does. -/

namespace PXml
namespace Conc

open Heap (Addr Obj NodeObj HVal Cell Store HSt IsTree IsNode Refines RecOK)

variable {α β : Type} {h : Store} {a : Addr} {e : Elem} {F : Addr → Prop} {sm : SMap}

/-- With enough room for recursion the program returns `x` and leaves `h'`. -/
def Ev (P : Nat → Prog α) (h : Store) (x : α) (h' : Store) : Prop := ∃ K, ∀ k, K ≤ k → (P k).run h = (x, h')

theorem Ev.of {P : Nat → Prog α} {x : α} {h' : Store} (hp : ∀ k, (P k).run h = (x, h')) : Ev P h x h' := ⟨0, fun k _ => hp k⟩

theorem Ev.pure {x : α} : Ev (fun _ => Pure.pure x) h x h := .of fun _ => rfl

theorem Ev.bind {P : Nat → Prog α} {f : Nat → α → Prog β} {x : α} {y : β} {h1 h2 : Store} (hp : Ev P h x h1)
    (hf : Ev (fun k => f k x) h1 y h2) : Ev (fun k => P k >>= f k) h y h2 := by
  obtain ⟨K, hK⟩ := hp
  obtain ⟨L, hL⟩ := hf
  refine ⟨max K L, fun k hk => ?_⟩
  rw [run_bind, hK k (Nat.le_trans (Nat.le_max_left ..) hk), hL k (Nat.le_trans (Nat.le_max_right ..) hk)]

/-- The reader returns what the other model returns. -/
abbrev EvR (P : Nat → Prog (Out α × SMap)) (h : Store) (q : Out α × HSt) : Prop := Ev P h (q.1, q.2.sm) q.2.h

theorem tree?_ev (r : IsTree h e a F) : Ev (fun k => tree? k a) h (some e) h := ⟨h.length, fun _ hk => run_tree? hk r.read⟩

theorem run_deserText (eas computed nillable : Bool) :
    (deserText eas computed nillable a sm).run h =
      (((Heap.deserText eas computed nillable a ⟨h, sm⟩).1, (Heap.deserText eas computed nillable a ⟨h, sm⟩).2.sm),
        (Heap.deserText eas computed nillable a ⟨h, sm⟩).2.h) := by
  simp only [deserText, Heap.deserText]
  cases computed with
  | true => rfl
  | false =>
    simp only [Bool.false_eq_true, if_false, run_bind]
    cases nillable with
    | false => simp
    | true =>
      simp only [if_true, run_isNil]
      generalize h.isNil a = q
      obtain ⟨_ | _, h1⟩ := q <;> simp

theorem run_deserAttrs (s : AttrsSer) :
    (deserAttrs s a sm).run h = (((Heap.deserAttrs s a ⟨h, sm⟩).1, (Heap.deserAttrs s a ⟨h, sm⟩).2.sm),
        (Heap.deserAttrs s a ⟨h, sm⟩).2.h) := by
  simp only [deserAttrs, Heap.deserAttrs]
  cases s.computed with
  | true => rfl
  | false =>
    simp only [Bool.false_eq_true, if_false, run_bind, run_popAttributes]
    generalize h.popAttributes a = q
    obtain ⟨_ | da, h1⟩ := q <;> simp

/-- What is assumed of the function for the serializers that work is delegated to. -/
def EvRec (rec : Nat → Ser → Loc → Addr → Reads) (rech : Ser → Loc → Addr → HSt → Out Val × HSt) : Prop :=
  ∀ s loc (h : Store) (e : Elem) (a : Addr) (F : Addr → Prop) (sm : SMap), IsTree h e a F →
    EvR (fun k => rec k s loc a sm) h (rech s loc a ⟨h, sm⟩)

theorem descend_ev {f : Nat → Addr → Reads} {g : Addr → HSt → Out Val × HSt} (mode : Mode)
    (hf : ∀ (h : Store) (e : Elem) (a : Addr) (F : Addr → Prop) (sm : SMap), IsTree h e a F →
      EvR (fun k => f k a sm) h (g a ⟨h, sm⟩)) :
    ∀ (path : List String) (h : Store) (e : Elem) (a : Addr) (F : Addr → Prop) (sm : SMap), IsTree h e a F →
      EvR (fun k => descend mode (f k) path a sm) h (Heap.descend mode g path a ⟨h, sm⟩)
  | [], h, e, a, F, sm, r => hf h e a F sm r
  | t :: ts, h, e, a, F, sm, r => by
    obtain ⟨da, la, as, G, v⟩ := r.view
    simp only [Heap.descend]
    rcases Heap.findElement_view v t mode with ⟨err, h1, h2⟩ | ⟨as', fi, e', fb, h', h1, h2, hfb, v', ext⟩
    · rw [h2]
      exact .bind (.of fun k => by rw [run_findElement, h2]) .pure
    · rw [h2]
      refine .bind (.of fun k => by rw [run_findElement, h2]) ?_
      cases fi with
      | none =>
        simp only [Option.bind_none] at hfb
        subst hfb
        exact .pure
      | some i =>
        obtain ⟨c, hc, _⟩ := Elem.findElement_index h1
        obtain ⟨b, hb, rc⟩ := v'.kid_of_index hc
        simp only [Option.bind_some, hb] at hfb
        subst hfb
        exact descend_ev mode hf ts _ _ _ _ _ rc

theorem homogLoop_ev {f : Loc → St → Out Val × St} {rec : Nat → Loc → Reads} {rech : Loc → HSt → Out Val × HSt} {a : Addr}
    (loc : Loc)
    (hr : ∀ loc (h : Store) (e : Elem) (F : Addr → Prop) (sm : SMap), IsTree h e a F →
      Refines h a F (f loc ⟨e, sm⟩) (rech loc ⟨h, sm⟩))
    (he : ∀ loc (h : Store) (e : Elem) (F : Addr → Prop) (sm : SMap), IsTree h e a F →
      EvR (fun k => rec k loc sm) h (rech loc ⟨h, sm⟩)) :
    ∀ (n idx : Nat) (acc : List Val) (errs : Dict ErrKey VErr) (h : Store) (e : Elem) (F : Addr → Prop) (sm : SMap), IsTree h e a F →
      EvR (fun k => homogLoop (rec k) loc n idx acc errs sm) h (Heap.homogLoop rech loc n idx acc errs ⟨h, sm⟩)
  | 0, _, _, _, h, e, F, sm, r => .pure
  | n + 1, idx, acc, errs, h, e, F, sm, r => by
    obtain ⟨o, st, h', F', h1, h2, r', ext, hF⟩ := (hr (loc ++ [.idx idx]) h e F sm r).tree
    have hev := he (loc ++ [.idx idx]) h e F sm r
    simp only [Heap.homogLoop]
    rw [h2] at hev ⊢
    refine .bind hev ?_
    cases o with
    | ok v =>
      simp only
      split
      · exact .pure
      · exact homogLoop_ev loc hr he n _ _ _ h' st.el F' st.sm r'
    | verr x => exact homogLoop_ev loc hr he n _ _ _ h' st.el F' st.sm r'
    | crash x => exact .pure
    | diverge => exact .pure

theorem heteroLoop_ev {f : Ser → Loc → St → Out Val × St} {rec : Nat → Ser → Loc → Reads}
    {rech : Ser → Loc → HSt → Out Val × HSt} {a : Addr} (loc : Loc)
    (hr : ∀ s loc (h : Store) (e : Elem) (F : Addr → Prop) (sm : SMap), IsTree h e a F →
      Refines h a F (f s loc ⟨e, sm⟩) (rech s loc ⟨h, sm⟩))
    (he : ∀ s loc (h : Store) (e : Elem) (F : Addr → Prop) (sm : SMap), IsTree h e a F →
      EvR (fun k => rec k s loc sm) h (rech s loc ⟨h, sm⟩)) :
    ∀ (ss : List Ser) (idx : Nat) (acc : List Val) (errs : Dict ErrKey VErr) (h : Store) (e : Elem) (F : Addr → Prop) (sm : SMap),
      IsTree h e a F →
      EvR (fun k => heteroLoop (rec k) loc ss idx acc errs sm) h (Heap.heteroLoop rech loc ss idx acc errs ⟨h, sm⟩)
  | [], _, _, _, h, e, F, sm, r => .pure
  | s :: ss, idx, acc, errs, h, e, F, sm, r => by
    obtain ⟨o, st, h', F', h1, h2, r', ext, hF⟩ := (hr s (loc ++ [.idx idx]) h e F sm r).tree
    have hev := he s (loc ++ [.idx idx]) h e F sm r
    simp only [Heap.heteroLoop]
    rw [h2] at hev ⊢
    refine .bind hev ?_
    cases o with
    | ok v => exact heteroLoop_ev loc hr he ss _ _ _ h' st.el F' st.sm r'
    | verr x => exact heteroLoop_ev loc hr he ss _ _ _ h' st.el F' st.sm r'
    | crash x => exact .pure
    | diverge => exact .pure

theorem unionLoop_ev {f : Proxy → St → Out Val × St} {rec : Nat → Proxy → Addr → Reads}
    {rech : Proxy → Addr → HSt → Out Val × HSt} (title : Title)
    (hr : ∀ p (h : Store) (e : Elem) (a : Addr) (F : Addr → Prop) (sm : SMap), IsTree h e a F →
      Refines h a F (f p ⟨e, sm⟩) (rech p a ⟨h, sm⟩))
    (he : ∀ p (h : Store) (e : Elem) (a : Addr) (F : Addr → Prop) (sm : SMap), IsTree h e a F →
      EvR (fun k => rec k p a sm) h (rech p a ⟨h, sm⟩)) :
    ∀ (ps : List Proxy) (errs : Dict ErrKey VErr) (h : Store) (e : Elem) (a : Addr) (F : Addr → Prop) (sm : SMap), IsTree h e a F →
      EvR (fun k => unionLoop k (rec k) title a ps errs sm) h (Heap.unionLoop rech title a ps errs ⟨h, sm⟩)
  | [], errs, h, e, a, F, sm, r => by
    simp only [unionLoop, Heap.unionLoop]
    split
    · exact .pure
    · exact .bind (.of fun k => run_stepForward a) .pure
  | p :: ps, errs, h, e, a, F, sm, r => by
    obtain ⟨s, h1, hs, F1, r1, hF1, g⟩ := r.snapshot
    obtain ⟨o, st, h2, F2, hq1, hq2, r2, ext2, hF2⟩ := (hr p h1 e s F1 sm r1).tree
    have hev := he p h1 e s F1 sm r1
    have g2 : Heap.Grow h h2 := Heap.Fresh.ext_old g hF1 ⟨F2, r2, ext2, hF2⟩
    have ra : IsTree h2 e a F := r.grow g2
    simp only [Heap.unionLoop, hs]
    rw [hq2] at hev ⊢
    refine .bind (x := some s) (h1 := h1) ⟨h.length, fun k hk => run_copy hk hs⟩ (.bind hev ?_)
    cases o with
    | ok v =>
      simp only
      split
      · exact unionLoop_ev title hr he ps errs h2 e a F st.sm ra
      · exact .bind (.of fun k => run_applySnapshot a s) .pure
    | verr x => exact unionLoop_ev title hr he ps _ h2 e a F st.sm ra
    | crash x => exact .pure
    | diverge => exact .pure

theorem taggedLoop_ev {rec : Nat → Proxy → Reads} {rech : Proxy → HSt → Out Val × HSt} {a : Addr} (loc : Loc)
    (attrName : String) (mode : Mode)
    (he : ∀ p (h : Store) (e : Elem) (F : Addr → Prop) (sm : SMap), IsTree h e a F →
      EvR (fun k => rec k p sm) h (rech p ⟨h, sm⟩)) :
    ∀ (alts : List (String × Proxy)) (h : Store) (e : Elem) (F : Addr → Prop) (sm : SMap), IsTree h e a F →
      EvR (fun k => taggedLoop (rec k) loc attrName mode a alts sm) h (Heap.taggedLoop rech loc attrName mode a alts ⟨h, sm⟩)
  | [], h, e, F, sm, r => .pure
  | (tag, p) :: alts, h, e, F, sm, r => by
    simp only [Heap.taggedLoop]
    rcases Heap.search_cases r p.name mode false with ⟨h1, e1, hs1, hs2, F1, r1, ext, hF⟩ |
      ⟨h1, e1, i, b, c, da, la, as, G, hs1, hs2, v1, ext, hb, hc, rc⟩
    · rw [hs2]
      refine .bind (.of fun k => by rw [run_search, hs2]) ?_
      exact taggedLoop_ev loc attrName mode he alts h1 e1 F1 sm r1
    · rw [hs2]
      refine .bind (.of fun k => by rw [run_search, hs2]) (.bind (.of fun k => run_getAttrib b attrName) ?_)
      by_cases ht : h1.getAttrib b attrName = some tag
      · simp only [ht, if_true]
        exact .bind (.of fun k => run_line b) (he p h1 e1 F _ v1.tree)
      · simp only [ht, if_false]
        exact taggedLoop_ev loc attrName mode he alts h1 e1 F sm v1.tree

theorem runValidator_ev (r : IsTree h e a F) (v : Elem → Out Val × Elem) :
    EvR (fun k => runValidator k v a sm) h (Heap.runValidator v a ⟨h, sm⟩) := by
  simp only [Heap.runValidator, r.read]
  refine .bind (tree?_ev r) ?_
  refine .of fun k => ?_
  obtain ⟨F', rb, hF, g⟩ := Heap.put_fresh h (v e).2
  obtain ⟨da, la, as, G, vb⟩ := rb.view
  simp [run_put, vb.obj?]

theorem deserFields_ev {f : Ser → Loc → St → Out Val × St} {rec : Nat → Ser → Loc → Reads}
    {rech : Ser → Loc → HSt → Out Val × HSt} {a : Addr}
    (hr : ∀ s loc (h : Store) (e : Elem) (F : Addr → Prop) (sm : SMap), IsTree h e a F →
      Refines h a F (f s loc ⟨e, sm⟩) (rech s loc ⟨h, sm⟩))
    (he : ∀ s loc (h : Store) (e : Elem) (F : Addr → Prop) (sm : SMap), IsTree h e a F →
      EvR (fun k => rec k s loc sm) h (rech s loc ⟨h, sm⟩)) :
    ∀ (fs : List Field) (res : Dict String Val) (errs : Dict ErrKey VErr) (h : Store) (e : Elem) (F : Addr → Prop) (sm : SMap),
      IsTree h e a F →
      EvR (fun k => deserFields k (rec k) a fs res errs sm) h (Heap.deserFields rech a fs res errs ⟨h, sm⟩)
  | [], _, _, h, e, F, sm, r => .pure
  | fl :: fs, res, errs, h, e, F, sm, r => by
    simp only [deserFields, Heap.deserFields]
    refine .bind (.of fun k => run_line a) ?_
    have cont : ∀ (P : Nat → Prog (Out Val × SMap)) (x : Out Val × St) (q : Out Val × HSt), Refines h a F x q → EvR P h q →
        EvR (fun k => P k >>= fun y => match y with
            | (.ok v, sm) => deserFields k (rec k) a fs (if v.isNone then res else res.set (fl.alias.getD fl.name) v) errs sm
            | (.verr e, sm) => deserFields k (rec k) a fs res (errs.set (some (.name fl.name)) e) sm
            | (.crash e, sm) => Pure.pure (.crash e, sm)
            | (.diverge, sm) => Pure.pure (.diverge, sm)) h
          (match q with
            | (.ok v, st') => Heap.deserFields rech a fs (if v.isNone then res else res.set (fl.alias.getD fl.name) v) errs st'
            | (.verr e, st') => Heap.deserFields rech a fs res (errs.set (some (.name fl.name)) e) st'
            | (.crash e, st') => (.crash e, st')
            | (.diverge, st') => (.diverge, st')) := by
      intro P x q hs hev
      obtain ⟨o, st, h', F', h1, h2, r', ext, hF⟩ := hs.tree
      rw [h2] at hev ⊢
      refine .bind hev ?_
      cases o with
      | ok v => exact deserFields_ev hr he fs _ _ h' st.el F' st.sm r'
      | verr x => exact deserFields_ev hr he fs _ _ h' st.el F' st.sm r'
      | crash x => exact .pure
      | diverge => exact .pure
    cases fl.validator with
    | some v => exact cont _ _ _ (Heap.runValidator_refines r v) (runValidator_ev r v)
    | none => exact cont _ _ _ (hr _ _ h e F _ r) (he _ _ h e F _ r)

theorem validateModel_ev (r : IsTree h e a F) (env : Env) (cls : String) (m : ModelSer) (data : Val) :
    EvR (fun k => validateModel k env cls m data a sm) h (Heap.validateModel env cls m data a ⟨h, sm⟩, ⟨h, sm⟩) := by
  simp only [Heap.validateModel, r.read]
  exact .bind (tree?_ev r) .pure

theorem deserModel_ev {f : Ser → Loc → St → Out Val × St} {rec : Nat → Ser → Loc → Reads}
    {rech : Ser → Loc → HSt → Out Val × HSt}
    (hr : ∀ s loc (h : Store) (e : Elem) (F : Addr → Prop) (sm : SMap), IsTree h e a F →
      Refines h a F (f s loc ⟨e, sm⟩) (rech s loc ⟨h, sm⟩))
    (he : ∀ s loc (h : Store) (e : Elem) (F : Addr → Prop) (sm : SMap), IsTree h e a F →
      EvR (fun k => rec k s loc sm) h (rech s loc ⟨h, sm⟩)) (env : Env) (cls : String) (m : ModelSer) (loc : Loc)
    (r : IsTree h e a F) :
    EvR (fun k => deserModel k env (rec k) cls m loc a sm) h (Heap.deserModel env rech cls m loc a ⟨h, sm⟩) := by
  simp only [deserModel, Heap.deserModel]
  cases m.body with
  | fields fs =>
    obtain ⟨o, st, h', F', h1, h2, r', ext, hF⟩ := (Heap.deserFields_refines hr fs [] [] h e F sm r).tree
    have hev := deserFields_ev hr he fs [] [] h e F sm r
    simp only
    rw [h2] at hev ⊢
    refine .bind hev ?_
    cases o with
    | ok x =>
      obtain ⟨res, errs⟩ := x
      simp only
      split
      · exact validateModel_ev r' ..
      · exact .pure
    | verr x => exact .pure
    | crash x => exact .pure
    | diverge => exact .pure
  | root s =>
    obtain ⟨o, st, h', F', h1, h2, r', ext, hF⟩ := (hr s loc h e F sm r).tree
    have hev := he s loc h e F sm r
    simp only
    rw [h2] at hev ⊢
    refine .bind hev ?_
    cases o with
    | ok x => exact validateModel_ev r' ..
    | verr x => exact .pure
    | crash x => exact .pure
    | diverge => exact .pure

theorem deserStep_ev {f : Ser → Loc → St → Out Val × St} {rec : Nat → Ser → Loc → Addr → Reads}
    {rech : Ser → Loc → Addr → HSt → Out Val × HSt} (hr : RecOK f rech) (he : EvRec rec rech) (env : Env) (eas : Bool) (fuel : Nat) :
    EvRec (fun k => deserStep k env eas (rec k) fuel) (Heap.deserStep env eas rech fuel) := by
  intro s loc h e a F sm r
  cases s with
  | text computed nillable => exact .of fun k => run_deserText eas computed nillable
  | attr name computed =>
    simp only [deserStep, Heap.deserStep]
    cases computed with
    | true => exact .pure
    | false =>
      simp only [Bool.false_eq_true, if_false]
      refine .of fun k => ?_
      rw [run_bind, run_popAttrib]
      generalize h.popAttrib a name = q
      obtain ⟨_ | v, h1⟩ := q <;> rfl
  | elem name nsmap mode computed nillable =>
    simp only [deserStep, Heap.deserStep]
    cases computed with
    | true => exact .pure
    | false =>
      simp only [Bool.false_eq_true, if_false]
      refine .of fun k => ?_
      rw [run_bind, run_search]
      generalize h.search a name mode true = q
      obtain ⟨_ | b, h1⟩ := q
      · rfl
      · simp only [run_bind, run_line]
        exact run_deserText eas false nillable
  | attrs s => exact .of fun k => run_deserAttrs s
  | mapElem s name mode =>
    simp only [deserStep, Heap.deserStep]
    by_cases hcomp : s.computed = true
    · simp only [hcomp, if_true]
      exact .pure
    · simp only [hcomp, Bool.false_eq_true, if_false]
      refine .of fun k => ?_
      rw [run_bind, run_search]
      generalize h.search a name mode true = q
      obtain ⟨_ | b, h1⟩ := q
      · rfl
      · simp only [run_bind, run_line]
        exact run_deserAttrs s
  | raw name mode computed =>
    simp only [deserStep, Heap.deserStep]
    cases computed with
    | true => exact .pure
    | false =>
      simp only [Bool.false_eq_true, if_false]
      obtain ⟨hc, hst⟩ := Heap.popElementRemove_step r name mode
      rcases hh : h.popElementRemove a name mode with ⟨d?, h1⟩
      refine .bind (.of fun k => by rw [run_popElementRemove, hh]) ?_
      rw [hh] at hc
      simp only at hc
      rcases hc with ⟨_, rfl⟩ | ⟨c, d, _, rfl, Fd, rd⟩
      · exact .pure
      · simp only [rd.read]
        exact .bind (tree?_ev rd) (.bind (.of fun k => run_line d) .pure)
  | proxy p =>
    simp only [deserStep, Heap.deserStep]
    cases env.model p.cls with
    | none => exact .pure
    | some m =>
      simp only
      by_cases hcomp : p.computed = true
      · simp only [hcomp, if_true]
        exact .pure
      · simp only [hcomp, Bool.false_eq_true, if_false]
        rcases Heap.search_cases r p.name p.mode true with ⟨h1, e1, hs1, hs2, hst⟩ |
          ⟨h1, e1, i, b, c, da, la, as, G, hs1, hs2, v1, ext, hb, hc, rc⟩
        · rw [hs2]
          exact .bind (.of fun k => by rw [run_search, hs2]) .pure
        · rw [hs2]
          refine .bind (.of fun k => by rw [run_search, hs2]) (.bind (.of fun k => run_line b) ?_)
          obtain ⟨hn, F2, r2, ext2, hF2⟩ := Heap.isNil_step rc
          rcases hh : h1.isNil b with ⟨x', h2⟩
          rw [hh] at r2
          refine .bind (.of fun k => by rw [run_isNil, hh]) ?_
          simp only [hh]
          cases x' with
          | true => exact .pure
          | false =>
            exact deserModel_ev (fun s loc h e F sm r => hr s loc h e b F sm r) (fun s loc h e F sm r => he s loc h e b F sm r)
              env p.cls m loc r2
  | primUnion computed inner =>
    simp only [deserStep, Heap.deserStep]
    cases computed with
    | true => exact .pure
    | false => exact he inner loc h e a F sm r
  | modelUnion title computed alts =>
    simp only [deserStep, Heap.deserStep]
    cases computed with
    | true => exact .pure
    | false =>
      exact unionLoop_ev title (fun p h e a F sm r => hr (.proxy p) loc h e a F sm r)
        (fun p h e a F sm r => he (.proxy p) loc h e a F sm r) alts [] h e a F sm r
  | tagged computed discr attrName mode alts =>
    simp only [deserStep, Heap.deserStep]
    cases computed with
    | true => exact .pure
    | false => exact taggedLoop_ev loc attrName mode (fun p h e F sm r => he (.proxy p) loc h e a F sm r) alts h e F sm r
  | wrap path nsmap mode computed inner =>
    simp only [deserStep, Heap.deserStep]
    cases computed with
    | true => exact .pure
    | false =>
      refine descend_ev (f := fun k b sm => do rec k inner loc b (sm.set loc (← line b))) mode (fun h e a F sm r => ?_) path h e a F sm r
      exact .bind (.of fun k => run_line a) (he inner loc h e a F _ r)
  | homog title computed inner =>
    simp only [deserStep, Heap.deserStep]
    cases computed with
    | true => exact .pure
    | false =>
      simp only [Bool.false_eq_true, if_false]
      have hev := homogLoop_ev (a := a) loc (fun loc h e F sm r => hr inner loc h e a F sm r)
        (fun loc h e F sm r => he inner loc h e a F sm r) fuel 0 [] [] h e F sm r
      refine .bind hev ?_
      generalize Heap.homogLoop (fun loc st => rech inner loc a st) loc fuel 0 [] [] ⟨h, sm⟩ = q
      obtain ⟨o, st⟩ := q
      cases o <;> exact .pure
  | hetero title computed inners =>
    simp only [deserStep, Heap.deserStep]
    cases computed with
    | true => exact .pure
    | false =>
      simp only [Bool.false_eq_true, if_false]
      have hev := heteroLoop_ev (a := a) loc (fun s loc h e F sm r => hr s loc h e a F sm r)
        (fun s loc h e F sm r => he s loc h e a F sm r) inners 0 [] [] h e F sm r
      refine .bind hev ?_
      generalize Heap.heteroLoop (fun s loc st => rech s loc a st) loc inners 0 [] [] ⟨h, sm⟩ = q
      obtain ⟨o, st⟩ := q
      cases o <;> exact .pure

theorem deser_ev (env : Env) (eas : Bool) : ∀ n, EvRec (fun k => deser k env eas n) (Heap.deser env eas n)
  | 0 => fun _ _ _ _ _ _ _ _ => .pure
  | n + 1 => deserStep_ev (Heap.deser_refines env eas n) (deser_ev env eas n) env eas n

theorem fromXmlTree_ev (env : Env) (eas : Bool) (n : Nat) (cls : String) {t : Node} {root : Addr} (r : IsNode h t root) :
    Ev (fun k => fromXmlTree k env eas n cls root) h (Heap.fromXmlTree env eas n cls root h).1
      (Heap.fromXmlTree env eas n cls root h).2 := by
  simp only [fromXmlTree, Heap.fromXmlTree]
  cases env.model cls with
  | none => exact .pure
  | some m =>
    simp only
    refine .bind (.of fun k => run_nodeTag root) ?_
    by_cases ht : h.nodeTag root = m.elementName
    · simp only [ht, if_true]
      obtain ⟨a, h1, hs, F1, r1, hF1, g⟩ := r.fromNative env.backend
      simp only [hs]
      refine .bind (x := some a) (h1 := h1) ⟨h.length, fun k hk => run_fromNative hk hs⟩ ?_
      refine .bind (deserModel_ev (fun s loc h e F sm r => Heap.deser_refines env eas n s loc h e a F sm r)
        (fun s loc h e F sm r => deser_ev env eas n s loc h e a F sm r) env cls m [] r1) ?_
      exact .pure
    · simp only [ht, if_false]
      exact .pure

end Conc
end PXml
