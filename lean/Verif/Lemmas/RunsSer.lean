import Verif.Lemmas.RunsDeser
import Verif.Lemmas.HeapSer

/-! A thread that runs alone writes as `Heap.toXmlTree` does. -/

namespace PXml
namespace Conc

open Heap (Addr Obj NodeObj HVal Cell Store IsTree IsNode IsVal WRefines WRecOK Given Grow Ext)

variable {h : Store} {a : Addr} {e : Elem} {F : Addr → Prop}

@[simp] theorem run_cell? (v : HVal) : (cell? v).run h = (h.cell? v, h) := by cases v <;> rfl

@[simp] theorem run_items? (v : HVal) : (items? v).run h = (h.items? v, h) := by
  simp only [items?, run_bind, run_cell?, Store.items?]
  generalize h.cell? v = c
  rcases c with _ | c
  · rfl
  · cases c <;> rfl

@[simp] theorem run_inst? (v : HVal) : (inst? v).run h = (h.inst? v, h) := by
  simp only [inst?, run_bind, run_cell?, Store.inst?]
  generalize h.cell? v = c
  rcases c with _ | c
  · rfl
  · cases c <;> rfl

@[simp] theorem run_len? (v : HVal) : (len? v).run h = (h.len? v, h) := by
  unfold len? Store.len?
  split
  · rfl
  · rfl
  · simp only [run_bind, run_cell?]
    generalize h.cell? v = c
    rcases c with _ | c
    · rfl
    · cases c with
      | node n => cases n <;> rfl
      | _ => rfl

@[simp] theorem run_isEmpty (a : Addr) : (isEmpty a).run h = (h.isEmpty a, h) := by
  simp only [isEmpty, run_bind, run_obj?, Store.isEmpty]
  cases h.obj? a <;> simp

@[simp] theorem run_setText (a : Addr) (t : String) : (setText a t).run h = ((), h.setText a t) := by simp [setText, Store.setText]

@[simp] theorem run_setAttribute (a : Addr) (k v : String) : (setAttribute a k v).run h = ((), h.setAttribute a k v) := by
  simp only [setAttribute, run_bind, run_obj?, Store.setAttribute]
  cases (h.obj? a).bind Obj.attrib <;> simp

@[simp] theorem run_setAttributes (a : Addr) (d : Dict String String) : (setAttributes a d).run h = ((), h.setAttributes a d) := by
  simp [setAttributes, Store.setAttributes]

@[simp] theorem run_append (a b : Addr) : (append a b).run h = ((), h.append a b) := by
  simp only [append, run_bind, run_obj?, Store.append]
  cases h.obj? a <;> simp

@[simp] theorem run_makeElement (b : Backend) (tag : String) (nsmap : Option NsMap) :
    (makeElement b tag nsmap).run h = h.makeElement b tag nsmap := by
  cases b <;> simp [makeElement, Store.makeElement]

@[simp] theorem run_makeNil (a : Addr) : (makeNil a).run h = ((), h.makeNil a) := by simp [makeNil, Store.makeNil]

mutual
theorem run_putNode (h : Store) : (t : Node) → (putNode t).run h = h.putNode t
  | .elem tag attrib nsmap text tail children line => by
    unfold putNode Store.putNode
    simp only [run_bind, run_alloc, run_putNodes _ children]
  | .comment text tail => by unfold putNode Store.putNode; rfl
  | .pi text tail => by unfold putNode Store.putNode; rfl
theorem run_putNodes (h : Store) : (ts : List Node) → (putNodes ts).run h = h.putNodes ts
  | [] => by unfold putNodes Store.putNodes; rfl
  | t :: ts => by
    unfold putNodes Store.putNodes
    simp only [run_bind, run_putNode h t, run_putNodes _ ts, run_pure]
end

@[simp] theorem run_assign (a : Addr) (e : Elem) : (assign a e).run h = ((), h.assign a e) := by
  simp [assign, Store.assign, run_put]

theorem run_mapNodes {f : Addr → Prog (Option Node)} {g : Addr → Option Node}
    (hf : ∀ a e, g a = some e → (f a).run h = (some e, h)) {as : List Addr} {es : List Node}
    (hg : Store.nodesAll g as = some es) : (mapAll f as).run h = (some es, h) := by
  induction as generalizing es with
  | nil => cases hg; rfl
  | cons a as ih =>
    simp only [Store.nodesAll] at hg
    cases h1 : g a with
    | none => simp [h1] at hg
    | some e =>
      simp only [h1] at hg
      cases h2 : Store.nodesAll g as with
      | none => simp [h2] at hg
      | some es' =>
        simp only [h2] at hg
        cases hg
        simp [mapAll, hf _ _ h1, ih h2]

theorem run_nodes {n k : Nat} (hk : n ≤ k) {a : Addr} {t : Node} (hc : Store.nodes n h a = some t) :
    (nodes k a).run h = (some t, h) := by
  induction n generalizing k a t with
  | zero => simp [Store.nodes] at hc
  | succ n ih =>
    cases k with
    | zero => omega
    | succ k =>
      simp only [Store.nodes] at hc
      simp only [nodes, run_bind, run_load, asNode_eq]
      cases ho : h.node? a with
      | none => simp [ho] at hc
      | some nd =>
        simp only [ho] at hc
        cases nd with
        | elem tag attrib nsmap text tail children line =>
          simp only at hc
          cases h1 : Store.nodesAll (Store.nodes n h) children with
          | none => simp [h1] at hc
          | some ts =>
            simp only [h1] at hc
            have := run_mapNodes (h := h) (f := nodes k) (fun a e hc => ih (Nat.le_of_succ_le_succ hk) hc) h1
            cases hc
            simp [this]
        | comment text tail => cases hc; rfl
        | pi text tail => cases hc; rfl

theorem run_mapValues {f : HVal → Prog (Option Val)} {g : HVal → Option Val}
    (hf : ∀ a e, g a = some e → (f a).run h = (some e, h)) {as : List HVal} {es : List Val}
    (hg : Store.valuesAll g as = some es) : (mapAll f as).run h = (some es, h) := by
  induction as generalizing es with
  | nil => cases hg; rfl
  | cons a as ih =>
    simp only [Store.valuesAll] at hg
    cases h1 : g a with
    | none => simp [h1] at hg
    | some e =>
      simp only [h1] at hg
      cases h2 : Store.valuesAll g as with
      | none => simp [h2] at hg
      | some es' =>
        simp only [h2] at hg
        cases hg
        simp [mapAll, hf _ _ h1, ih h2]

theorem run_fieldsAll {f : HVal → Prog (Option Val)} {g : HVal → Option Val}
    (hf : ∀ a e, g a = some e → (f a).run h = (some e, h)) {d : List (String × HVal)} {d' : List (String × Val)}
    (hg : Store.fieldsAll g d = some d') : (fieldsAll f d).run h = (some d', h) := by
  simp only [Store.fieldsAll] at hg
  cases h1 : Store.valuesAll g (d.map Prod.snd) with
  | none => simp [h1] at hg
  | some ws =>
    rw [h1] at hg
    simp [fieldsAll, run_mapValues hf h1, ← hg]

theorem run_deref {n k m : Nat} (hm : h.length ≤ m) (hk : n ≤ k) {v : HVal} {w : Val} (hc : Store.deref n h v = some w) :
    (deref m k v).run h = (some w, h) := by
  induction n generalizing k v w with
  | zero =>
    simp only [Store.deref] at hc
    cases k with
    | zero => simp [deref, hc]
    | succ k =>
      cases v with
      | ref a => cases hc
      | _ => simp [deref, hc]
  | succ n ih =>
    cases k with
    | zero => omega
    | succ k =>
      have ih' := fun a e hc => ih (k := k) (v := a) (w := e) (Nat.le_of_succ_le_succ hk) hc
      cases v with
      | ref a =>
        simp only [Store.deref] at hc
        simp only [deref, run_bind, run_load]
        cases ha : h[a]? with
        | none => simp [ha] at hc
        | some c =>
          simp only [ha] at hc
          cases c with
          | pyList vs =>
            simp only at hc ⊢
            cases h1 : Store.valuesAll (Store.deref n h) vs with
            | none => simp [h1] at hc
            | some ws => rw [h1] at hc; simp [run_mapValues ih' h1, ← hc]
          | pyDict d =>
            simp only at hc ⊢
            cases h1 : Store.fieldsAll (Store.deref n h) d with
            | none => simp [h1] at hc
            | some ws => rw [h1] at hc; simp [run_fieldsAll ih' h1, ← hc]
          | inst cls fs set =>
            simp only at hc ⊢
            cases h1 : Store.fieldsAll (Store.deref n h) fs with
            | none => simp [h1] at hc
            | some ws => rw [h1] at hc; simp [run_fieldsAll ih' h1, ← hc]
          | node nd =>
            simp only at hc ⊢
            cases h1 : Store.nodes h.length h a with
            | none => simp [h1] at hc
            | some t => rw [h1] at hc; simp [run_nodes hm h1, ← hc]
          | _ => simp at hc
      | _ => simp only [Store.deref] at hc; simp [deref, hc]

theorem deref_ev {v : HVal} {w : Val} (r : IsVal h v w) : Ev (fun k => deref k k v) h (some w) h :=
  ⟨h.length, fun _ hk => run_deref hk hk r.read⟩

/-- The writer returns what the other model returns. -/
abbrev EvW (P : Nat → Prog (Out Unit)) (h : Store) (q : Out Unit × Store) : Prop := Ev P h q.1 q.2

theorem andThen_ev {P K : Nat → Prog (Out Unit)} {r : Out Elem} {q : Out Unit × Store} {kh : Store → Out Unit × Store}
    (s : WRefines h a F r q) (hp : EvW P h q)
    (hk : ∀ (h' : Store) (e' : Elem) (F' : Addr → Prop), IsTree h' e' a F' → Ext h h' F → (∀ x, F' x → F x ∨ h.length ≤ x) →
      EvW K h' (kh h')) : EvW (fun k => andThen (P k) (K k)) h (Heap.andThen q kh) := by
  refine .bind hp ?_
  obtain ⟨o, h1⟩ := q
  have hs := s.step
  cases r with
  | ok e' =>
    obtain ⟨rfl, F', r', ext, hF⟩ := hs
    exact hk h1 e' F' r' ext hF
  | verr x => cases hs; exact .pure
  | crash x => cases hs; exact .pure
  | diverge => cases hs; exact .pure

theorem andThen_ev' {P K : Nat → Prog (Out Unit)} {q : Out Unit × Store} {kh : Store → Out Unit × Store} (hp : EvW P h q)
    (hk : ∀ h', EvW K h' (kh h')) : EvW (fun k => andThen (P k) (K k)) h (Heap.andThen q kh) := by
  refine .bind hp ?_
  obtain ⟨o, h1⟩ := q
  cases o with
  | ok x => exact hk h1
  | verr x => exact .pure
  | crash x => exact .pure
  | diverge => exact .pure

@[simp] theorem run_serText (env : Env) (nillable : Bool) (fl : Flags) (a : Addr) (v : HVal) (enc : Val) :
    (serText env nillable fl a v enc).run h = ((), Heap.serText env nillable fl a v enc h) := by
  unfold serText Heap.serText
  split
  · rfl
  · cases hb : nillable && v.isNone <;> simp

@[simp] theorem run_serAttrs (env : Env) (s : AttrsSer) (a : Addr) (v : HVal) (enc : Val) :
    (serAttrs env s a v enc).run h = Heap.serAttrs env s a v enc h := by
  unfold serAttrs Heap.serAttrs
  split
  · rfl
  · cases enc with
    | dict d => simp
    | _ => rfl

@[simp] theorem run_appendUnlessEmpty (fl : Flags) (a b : Addr) :
    (appendUnlessEmpty fl a b).run h = ((), Heap.appendUnlessEmpty fl a b h) := by
  simp only [appendUnlessEmpty, run_bind, run_isEmpty, Heap.appendUnlessEmpty]
  split <;> simp

/-- What is assumed of the function for the serializers that work is delegated to. -/
def EvWRec (h0 : Store) (rec : Nat → Flags → Ser → Addr → HVal → Val → Prog (Out Unit))
    (rech : Flags → Ser → Addr → HVal → Val → Store → Out Unit × Store) : Prop :=
  ∀ fl s (h : Store) (e : Elem) (a : Addr) (F : Addr → Prop) (v : HVal) (w enc : Val), IsTree h e a F → Given h0 h F → IsVal h0 v w →
    EvW (fun k => rec k fl s a v enc) h (rech fl s a v enc h)

theorem ascend_ev {h0 : Store} {f : Nat → Addr → Prog (Out Unit)} {fh : Addr → Store → Out Unit × Store} (b : Backend) (mode : Mode)
    (nsmap : Option NsMap)
    (hf : ∀ (h : Store) (e : Elem) (a : Addr) (F : Addr → Prop), IsTree h e a F → Given h0 h F → EvW (fun k => f k a) h (fh a h)) :
    ∀ (path : List String) (h : Store) (e : Elem) (a : Addr) (F : Addr → Prop), IsTree h e a F → Given h0 h F →
      EvW (fun k => ascend b mode nsmap (f k) path a) h (Heap.ascend b mode nsmap fh path a h)
  | [], h, e, a, F, r, g => hf h e a F r g
  | t :: ts, h, e, a, F, r, g => by
    obtain ⟨da, la, as, G, v⟩ := r.view
    simp only [Heap.ascend]
    rcases Heap.findElement_view v t mode with ⟨err, h1, h2⟩ | ⟨as', fi, e', fb, h', h1, h2, hfb, v', ext⟩
    · rw [h2]
      exact .bind (.of fun k => by rw [run_findElement, h2]) .pure
    · rw [h2]
      refine .bind (.of fun k => by rw [run_findElement, h2]) ?_
      have g' : Given h0 h' F := g.next ext fun _ => .inl
      cases fi with
      | none =>
        simp only [Option.bind_none] at hfb
        subst hfb
        simp only
        obtain ⟨Fb, rb, hFb, gr⟩ := Heap.makeElement_fresh h' b t nsmap
        obtain ⟨v2, ext2⟩ := (v'.grow gr).append rb fun x hx hF => absurd (v'.tree.lt hF) (Nat.not_lt.2 (hFb x hx))
        have hb : (as' ++ [(h'.makeElement b t nsmap).1])[e'.elements.length]? = some (h'.makeElement b t nsmap).1 := by
          rw [List.getElem?_append_right (by rw [v'.kids.len]; exact Nat.le_refl _), v'.kids.len]
          simp
        have rc : IsTree ((h'.makeElement b t nsmap).2.append a (h'.makeElement b t nsmap).1) (PXml.makeElement b t nsmap)
            (h'.makeElement b t nsmap).1
            ((fun b' => if b' = (h'.makeElement b t nsmap).1 then Fb else G b') (h'.makeElement b t nsmap).1) :=
          v2.kids.kid _ _ _ hb (by simp [Elem.append])
        have ext3 : Ext h' ((h'.makeElement b t nsmap).2.append a (h'.makeElement b t nsmap).1) F :=
          Ext.trans gr.ext (fun _ => .inl) ext2
        have hF3 : ∀ x, (F x ∨ Fb x) → F x ∨ h'.length ≤ x := fun x hx => hx.imp id (hFb x)
        have g3 : Given h0 ((h'.makeElement b t nsmap).2.append a (h'.makeElement b t nsmap).1) (fun x => F x ∨ Fb x) :=
          g'.next ext3 hF3
        have ih := ascend_ev b mode nsmap hf ts _ _ _ _ rc ⟨g3.grow, fun x hx => g3.new x (.inr (by simpa using hx))⟩
        exact .bind (.of fun k => run_makeElement b t nsmap) (.bind (.of fun k => run_append a _) ih)
      | some i =>
        obtain ⟨c, hc, _⟩ := PXml.Elem.findElement_index h1
        obtain ⟨b', hb, rc⟩ := v'.kid_of_index hc
        simp only [Option.bind_some, hb] at hfb
        subst hfb
        have hm := List.mem_of_getElem? hb
        exact ascend_ev b mode nsmap hf ts h' c b' (G b') rc
          ⟨g'.grow, fun x hx => g'.new x ((v'.foot x).2 (.inr (.inr (.inr ⟨b', hm, hx⟩))))⟩

theorem serItems_ev {h0 : Store} {f : Elem → Val → Val → Out Elem} {rec : Nat → HVal → Val → Prog (Out Unit)}
    {rech : HVal → Val → Store → Out Unit × Store} {a : Addr} (fl : Flags)
    (hr : ∀ (h : Store) (e : Elem) (F : Addr → Prop) (v : HVal) (w enc : Val), IsTree h e a F → Given h0 h F → IsVal h0 v w →
      WRefines h a F (f e w enc) (rech v enc h))
    (he : ∀ (h : Store) (e : Elem) (F : Addr → Prop) (v : HVal) (w enc : Val), IsTree h e a F → Given h0 h F → IsVal h0 v w →
      EvW (fun k => rec k v enc) h (rech v enc h)) :
    ∀ (vs : List HVal) (ws encs : List Val) (h : Store) (e : Elem) (F : Addr → Prop), IsTree h e a F → Given h0 h F →
      vs.length = ws.length → (∀ (i : Nat) (v : HVal) (w : Val), vs[i]? = some v → ws[i]? = some w → IsVal h0 v w) →
      EvW (fun k => serItems (rec k) fl vs encs) h (Heap.serItems rech fl vs encs h)
  | [], _, _, h, e, F, _, _, _, _ => .pure
  | _ :: _, [], _, _, _, _, _, _, hl, _ => by cases hl
  | v :: vs, w :: ws, [], h, e, F, _, _, _, _ => .pure
  | v :: vs, w :: ws, enc :: encs, h, e, F, r, g, hl, hv => by
    have h0v := hv 0 v w rfl rfl
    have hv' : ∀ (i : Nat) (v : HVal) (w : Val), vs[i]? = some v → ws[i]? = some w → IsVal h0 v w :=
      fun i v w h1 h2 => hv (i + 1) v w (by simpa using h1) (by simpa using h2)
    simp only [serItems, Heap.serItems]
    split
    · exact serItems_ev fl hr he vs ws encs h e F r g (Nat.succ.inj hl) hv'
    · exact andThen_ev (hr h e F v w enc r g h0v) (he h e F v w enc r g h0v) fun h' e' F' r' ext hF =>
        serItems_ev fl hr he vs ws encs h' e' F' r' (g.next ext hF) (Nat.succ.inj hl) hv'

theorem serTuple_ev {h0 : Store} {f : Ser → Elem → Val → Val → Out Elem} {rec : Nat → Ser → HVal → Val → Prog (Out Unit)}
    {rech : Ser → HVal → Val → Store → Out Unit × Store} {a : Addr}
    (hr : ∀ s (h : Store) (e : Elem) (F : Addr → Prop) (v : HVal) (w enc : Val), IsTree h e a F → Given h0 h F → IsVal h0 v w →
      WRefines h a F (f s e w enc) (rech s v enc h))
    (he : ∀ s (h : Store) (e : Elem) (F : Addr → Prop) (v : HVal) (w enc : Val), IsTree h e a F → Given h0 h F → IsVal h0 v w →
      EvW (fun k => rec k s v enc) h (rech s v enc h)) :
    ∀ (ss : List Ser) (vs : List HVal) (ws encs : List Val) (h : Store) (e : Elem) (F : Addr → Prop), IsTree h e a F → Given h0 h F →
      vs.length = ws.length → (∀ (i : Nat) (v : HVal) (w : Val), vs[i]? = some v → ws[i]? = some w → IsVal h0 v w) →
      EvW (fun k => serTuple (rec k) ss vs encs) h (Heap.serTuple rech ss vs encs h)
  | [], _, _, _, h, e, F, r, _, _, _ => by simp only [serTuple, Heap.serTuple]; exact .pure
  | _ :: _, [], _, _, h, e, F, r, _, _, _ => .pure
  | _ :: _, _ :: _, [], _, _, _, _, _, _, hl, _ => by cases hl
  | _ :: _, v :: vs, w :: ws, [], h, e, F, r, _, _, _ => .pure
  | s :: ss, v :: vs, w :: ws, enc :: encs, h, e, F, r, g, hl, hv => by
    simp only [serTuple, Heap.serTuple]
    exact andThen_ev (hr s h e F v w enc r g (hv 0 v w rfl rfl)) (he s h e F v w enc r g (hv 0 v w rfl rfl))
      fun h' e' F' r' ext hF => serTuple_ev hr he ss vs ws encs h' e' F' r' (g.next ext hF) (Nat.succ.inj hl)
        fun i v w h1 h2 => hv (i + 1) v w (by simpa using h1) (by simpa using h2)

theorem runSerializer_ev {h0 : Store} (r : IsTree h e a F) (g : Given h0 h F) (f : Val → Elem → Val → Out Elem)
    {self v : HVal} {wself w : Val} (hself : IsVal h0 self wself) (hv : IsVal h0 v w) :
    EvW (fun k => runSerializer k f self a v) h (Heap.runSerializer f self a v h) := by
  simp only [Heap.runSerializer, r.read, (hself.grow g.grow).read, (hv.grow g.grow).read]
  refine .bind (tree?_ev r) (.bind (deref_ev (hself.grow g.grow)) (.bind (deref_ev (hv.grow g.grow)) ?_))
  simp only
  cases f wself e w with
  | ok e' => exact .bind (.of fun k => run_assign a e') .pure
  | verr x => exact .pure
  | crash x => exact .pure
  | diverge => exact .pure

theorem serFields_ev {h0 : Store} {f : Ser → Elem → Val → Val → Out Elem} {rec : Nat → Ser → HVal → Val → Prog (Out Unit)}
    {rech : Ser → HVal → Val → Store → Out Unit × Store} {a : Addr} (fl : Flags)
    (hr : ∀ s (h : Store) (e : Elem) (F : Addr → Prop) (v : HVal) (w enc : Val), IsTree h e a F → Given h0 h F → IsVal h0 v w →
      WRefines h a F (f s e w enc) (rech s v enc h))
    (he : ∀ s (h : Store) (e : Elem) (F : Addr → Prop) (v : HVal) (w enc : Val), IsTree h e a F → Given h0 h F → IsVal h0 v w →
      EvW (fun k => rec k s v enc) h (rech s v enc h))
    {self : HVal} {wself : Val} (hself : IsVal h0 self wself) (d : List (String × HVal)) (d' : List (String × Val)) (set : List String)
    (hk : d.map Prod.fst = d'.map Prod.fst)
    (hv : ∀ (i : Nat) (v : HVal) (w : Val), (d.map Prod.snd)[i]? = some v → (d'.map Prod.snd)[i]? = some w → IsVal h0 v w) (enc : Val) :
    ∀ (fs : List Field) (h : Store) (e : Elem) (F : Addr → Prop), IsTree h e a F → Given h0 h F →
      EvW (fun k => serFields k (rec k) fl self d set enc a fs) h (Heap.serFields rech fl self d set enc a fs h)
  | [], h, e, F, r, _ => .pure
  | fd :: fs, h, e, F, r, g => by
    simp only [serFields, Heap.serFields]
    have ih := serFields_ev fl hr he hself d d' set hk hv enc fs
    split
    · exact ih h e F r g
    · split
      · exact ih h e F r g
      · rcases Heap.get?_related (P := IsVal h0) fd.name d d' hk hv with ⟨v, w, h1, h2, hvw⟩ | ⟨h1, h2⟩
        · simp only [h1]
          cases fd.serializer with
          | some s =>
            exact andThen_ev (Heap.runSerializer_refines r g s hself hvw) (runSerializer_ev r g s hself hvw)
              fun h' e' F' r' ext hF => ih h' e' F' r' (g.next ext hF)
          | none =>
            simp only
            cases getItem enc fd.name with
            | ok x =>
              exact andThen_ev (hr fd.ser h e F v w x r g hvw) (he fd.ser h e F v w x r g hvw)
                fun h' e' F' r' ext hF => ih h' e' F' r' (g.next ext hF)
            | verr x => exact .pure
            | crash x => exact .pure
            | diverge => exact .pure
        · simp only [h1]
          exact .pure

theorem serModel_ev {h0 : Store} {f : Flags → Ser → Elem → Val → Val → Out Elem}
    {rec : Nat → Flags → Ser → Addr → HVal → Val → Prog (Out Unit)}
    {rech : Flags → Ser → Addr → HVal → Val → Store → Out Unit × Store} (hr : WRecOK h0 f rech) (he : EvWRec h0 rec rech)
    (m : ModelSer) (fl : Flags) {v : HVal} {w : Val} (enc : Val) (r : IsTree h e a F) (g : Given h0 h F) (hv : IsVal h0 v w) :
    EvW (fun k => serModel k (rec k) m fl a v enc) h (Heap.serModel rech m fl a v enc h) := by
  have hi := hv.grow g.grow
  simp only [serModel, Heap.serModel]
  by_cases hn : v.isNone = true
  · simp only [hn, if_true]
    exact .pure
  · simp only [hn, Bool.false_eq_true, if_false]
    refine .bind (.of fun k => run_inst? v) ?_
    rcases hv.inst? with ⟨cls, d, d', set, h1, rfl, hk, hvals⟩ | ⟨h1, h2⟩
    · have h1' : h.inst? v = some (cls, d, set) := by
        rcases hi.inst? with ⟨cls', d2, d2', set2, h3, h4, _, _⟩ | ⟨_, h4⟩
        · simp only [Store.inst?, Store.cell?] at h1 ⊢
          cases v with
          | ref x => simp only [g.grow.get hv.lt]; exact h1
          | _ => cases h1
        · exact absurd rfl (h4 _ _ _)
      simp only [h1']
      cases m.body with
      | fields fs =>
        exact serFields_ev _ (fun s h e F v w enc r g hv => hr _ s h e a F v w enc r g hv)
          (fun s h e F v w enc r g hv => he _ s h e a F v w enc r g hv) hv d d' set hk hvals enc fs h e F r g
      | root s =>
        simp only
        split
        · exact .pure
        · rcases Heap.get?_related (P := IsVal h0) "root" d d' hk hvals with ⟨rv, rw', h2, h3, hvw⟩ | ⟨h2, h3⟩
          · simp only [h2]
            exact he _ s h e a F rv rw' enc r g hvw
          · simp only [h2]
            exact .pure
    · have h1' : h.inst? v = none := by
        rcases hi.inst? with ⟨cls', d2, d2', set2, h3, h4, _, _⟩ | ⟨h3, _⟩
        · exact absurd h4 (h2 _ _ _)
        · exact h3
      simp only [h1']
      exact .pure

theorem fromNative_none {bk : Backend} {x : Addr} (hx : h.node? x = none) :
    Ev (fun k => fromNative bk k x) h none h ∧ ∀ n, Store.fromNative bk n h x = none := by
  refine ⟨.of fun k => ?_, fun n => ?_⟩
  · cases k with
    | zero => rfl
    | succ k => simp [fromNative, hx]
  · cases n with
    | zero => rfl
    | succ k => simp [Store.fromNative, hx]

theorem serStep_ev {h0 : Store} {f : Flags → Ser → Elem → Val → Val → Out Elem}
    {rec : Nat → Flags → Ser → Addr → HVal → Val → Prog (Out Unit)}
    {rech : Flags → Ser → Addr → HVal → Val → Store → Out Unit × Store} (hr : WRecOK h0 f rech) (he : EvWRec h0 rec rech)
    (env : Env) : EvWRec h0 (fun k => serStep k env (rec k)) (Heap.serStep env rech) := by
  intro fl s h e a F v w enc r g hv
  have hi := hv.grow g.grow
  cases s with
  | text computed nillable => exact .of fun k => by simp [serStep, Heap.serStep]
  | attr name computed =>
    refine .of fun k => ?_
    simp only [serStep, Heap.serStep]
    split <;> simp
  | elem name nsmap mode computed nillable =>
    refine .of fun k => ?_
    simp only [serStep, Heap.serStep]
    split <;> simp
  | attrs s => exact .of fun k => run_serAttrs env s a v enc
  | mapElem s name mode =>
    simp only [serStep, Heap.serStep]
    split
    · refine .bind (.of fun k => run_len? v) ?_
      rcases h.len? v with _ | _ | _
      · exact .pure
      · exact .pure
      · refine .bind (.of fun k => run_makeElement env.backend name s.nsmap) ?_
        exact andThen_ev' (.of fun k => run_serAttrs env s _ v enc) fun h' => .of fun k => (by simp only [run_bind, run_appendUnlessEmpty, run_pure]; rfl)
    · refine .bind (.of fun k => run_makeElement env.backend name s.nsmap) ?_
      exact andThen_ev' (.of fun k => run_serAttrs env s _ v enc) fun h' => .of fun k => (by simp only [run_bind, run_append, run_pure]; rfl)
  | raw name mode computed =>
    simp only [serStep, Heap.serStep]
    have other : ∀ x, h.node? x = none → EvW (fun k => do
          match ← fromNative env.backend k x with
          | none => return .crash .attributeError
          | some b =>
            appendUnlessEmpty fl a b
            return .ok ()) h (match h.fromNative env.backend h.length x with
          | none => (.crash .attributeError, h)
          | some (b, h) => (.ok (), Heap.appendUnlessEmpty fl a b h)) := by
      intro x hx
      obtain ⟨h1, h2⟩ := fromNative_none (bk := env.backend) hx
      rw [h2]
      exact .bind h1 .pure
    have node : ∀ x c, h0[x]? = some c → h.node? x = match c with | .node n => some n | _ => none := by
      intro x c hx
      have := (g.grow.get (Heap.lt_of_some hx)).trans hx
      simp only [Store.node?, this]
      cases c <;> rfl
    cases hv with
    | none => exact .pure
    | raw ht =>
      obtain ⟨b, h1, hf, fr⟩ := (ht.grow g.grow).fromNative env.backend
      simp only [hf]
      refine .bind (x := some b) (h1 := h1) ⟨h.length, fun k hk => run_fromNative hk hf⟩ ?_
      exact .bind (.of fun k => run_appendUnlessEmpty fl a b) .pure
    | @list x vs ws h1 => exact other x (node x _ h1)
    | @dict x d d' h1 => exact other x (node x _ h1)
    | @model x cls d d' set h1 => exact other x (node x _ h1)
    | _ => exact .pure
  | proxy p =>
    simp only [serStep, Heap.serStep]
    cases env.model p.cls with
    | none => exact .pure
    | some m =>
      simp only
      split
      · exact .pure
      · obtain ⟨Fb, rb, hFb, gr⟩ := Heap.makeElement_fresh h env.backend p.name p.nsmap
        split
        · exact .of fun k => by simp
        · split
          · exact .pure
          · refine .bind (.of fun k => run_makeElement env.backend p.name p.nsmap) ?_
            exact andThen_ev' (serModel_ev hr he m fl enc rb (g.fresh gr hFb) hv) fun h' => .of fun k =>
              (by simp only [run_bind, run_appendUnlessEmpty, run_pure]; rfl)
  | primUnion computed inner => exact he fl inner h e a F v w enc r g hv
  | modelUnion title computed alts =>
    simp only [serStep, Heap.serStep]
    refine .bind (.of fun k => run_inst? v) ?_
    cases h.inst? v with
    | none => exact .pure
    | some x =>
      obtain ⟨cls, d, set⟩ := x
      simp only
      cases alts.find? fun p => decide (p.cls = cls) with
      | none => exact .pure
      | some p => exact he fl (.proxy p) h e a F v _ enc r g hv
  | tagged computed discr attrName mode alts =>
    simp only [serStep, Heap.serStep]
    cases enc with
    | dict d =>
      simp only
      cases hd : Dict.get? d discr with
      | none => exact .pure
      | some x =>
        cases x with
        | str tag =>
          simp only
          split
          · exact .pure
          · cases Dict.get? alts tag with
            | none => exact .pure
            | some p => exact he fl (.proxy p) h e a F v w _ r g hv
        | none => exact .pure
        | _ => exact .pure
    | _ => exact .pure
  | wrap path nsmap mode computed inner =>
    simp only [serStep, Heap.serStep]
    split
    · exact .pure
    · refine .bind (.of fun k => run_len? v) ?_
      split
      · exact .pure
      · exact ascend_ev env.backend mode nsmap (fun h e a F r g => he fl inner h e a F v w enc r g hv) path h e a F r g
  | homog title computed inner =>
    simp only [serStep, Heap.serStep]
    split
    · exact .pure
    · refine .bind (.of fun k => run_items? v) ?_
      rcases hv.items? with ⟨vs, ws, h1, rfl, hl, hvs⟩ | ⟨h1, h2⟩
      · have h1' : h.items? v = some vs := by
          simp only [Store.items?, Store.cell?] at h1 ⊢
          cases v with
          | ref x => simp only [g.grow.get hv.lt]; exact h1
          | _ => cases h1
        rw [h1']
        cases enc with
        | list encs =>
          exact serItems_ev fl (fun h e F v w enc r g hv => hr fl inner h e a F v w enc r g hv)
            (fun h e F v w enc r g hv => he fl inner h e a F v w enc r g hv) vs ws encs h e F r g hl hvs
        | _ => exact .pure
      · have h1' : h.items? v = none := by
          rcases hi.items? with ⟨_, _, _, h4, _, _⟩ | ⟨h3, _⟩
          · exact absurd h4 (h2 _)
          · exact h3
        rw [h1']
        exact .pure
  | hetero title computed inners =>
    simp only [serStep, Heap.serStep]
    split
    · exact .pure
    · refine .bind (.of fun k => run_items? v) ?_
      rcases hv.items? with ⟨vs, ws, h1, rfl, hl, hvs⟩ | ⟨h1, h2⟩
      · have h1' : h.items? v = some vs := by
          simp only [Store.items?, Store.cell?] at h1 ⊢
          cases v with
          | ref x => simp only [g.grow.get hv.lt]; exact h1
          | _ => cases h1
        rw [h1']
        cases enc with
        | list encs =>
          simp only
          split
          · exact .pure
          · split
            · exact .pure
            · exact serTuple_ev (fun s h e F v w enc r g hv => hr fl s h e a F v w enc r g hv)
                (fun s h e F v w enc r g hv => he fl s h e a F v w enc r g hv) inners vs ws encs h e F r g hl hvs
        | _ => exact .pure
      · have h1' : h.items? v = none := by
          rcases hi.items? with ⟨_, _, _, h4, _, _⟩ | ⟨h3, _⟩
          · exact absurd h4 (h2 _)
          · exact h3
        rw [h1']
        exact .pure

theorem ser_ev (h0 : Store) (env : Env) : ∀ n, EvWRec h0 (fun k => ser k env n) (Heap.ser env n)
  | 0 => fun _ _ _ _ _ _ _ _ _ _ _ _ => .pure
  | n + 1 => serStep_ev (Heap.ser_refines h0 env n) (ser_ev h0 env n) env

theorem toXmlTree_ev (env : Env) (n : Nat) (fl : Flags) (cls : String) {v : HVal} {w : Val} (hv : IsVal h v w) :
    Ev (fun k => toXmlTree k env n fl cls v) h (Heap.toXmlTree env n fl cls v h).1 (Heap.toXmlTree env n fl cls v h).2 := by
  simp only [toXmlTree, Heap.toXmlTree]
  cases env.model cls with
  | none => exact .pure
  | some m =>
    obtain ⟨F, r, hF, g⟩ := Heap.Fresh.init (h := h) .nil m.elementName m.nsmap none none none 0 (-1)
    simp only [(hv.grow g).read]
    refine .bind (.of fun k => run_init ..) (.bind (deref_ev (hv.grow g)) ?_)
    have hs := Heap.serModel_refines (Heap.ser_refines h env n) m fl (env.toJsonable w) r ⟨g, hF⟩ hv
    have hev := serModel_ev (Heap.ser_refines h env n) (ser_ev h env n) m fl (env.toJsonable w) r ⟨g, hF⟩ hv
    refine .bind hev ?_
    revert hs
    generalize Heap.serModel (Heap.ser env n) m fl _ v (env.toJsonable w) _ = q
    generalize PXml.serModel (PXml.ser env n) m fl _ w (env.toJsonable w) = o
    intro hs
    obtain ⟨oq, h2⟩ := q
    have hst := hs.step
    cases o with
    | ok e' =>
      obtain ⟨rfl, F', r', _, _⟩ := hst
      simp only [r'.read]
      exact .bind (tree?_ev r') (.bind (.of fun k => run_putNode h2 _) .pure)
    | verr x => cases hst; exact .pure
    | crash x => cases hst; exact .pure
    | diverge => cases hst; exact .pure

end Conc
end PXml
