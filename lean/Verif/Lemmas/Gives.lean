import Verif.Lemmas.LocFree
import Verif.Lemmas.Shaped
import Verif.Props.Flow

/-! Every value that a field reads is at the place that its declaration names. -/

namespace PXml

open Elem

/-- Run on what is left of the node, the function leaves a part of it, and the values that it returns satisfy `P`. -/
def Draws {α : Type} (b : Backend) (node : Node) (P : α → Prop) (f : St → Out α × St) : Prop :=
  ∀ st, RestOf b node st.el → RestOf b node (f st).2.el ∧ ∀ v, (f st).1 = .ok v → P v

section
variable {b : Backend} {node : Node}

theorem Draws.at {α : Type} {P : α → Prop} {f : St → Out α × St} (h : Draws b node P f) {st st' : St} (hst : RestOf b node st.el) {o : Out α}
    (he : f st = (o, st')) : RestOf b node st'.el ∧ ∀ v, o = .ok v → P v := by
  have := h st hst
  rwa [he] at this

theorem onChild_draws {P : Val → Prop} {f : St → Out Val × St} {st : St} (hst : RestOf b node st.el) {i : Nat} (hi : i < st.el.next)
    {k : Node} (hk : k ∈ node.children) (hkc : k.isComment = false) {c : Elem} (hc : st.el.elements[i]? = some c)
    (h : RestOf b k (f ⟨c, st.sm⟩).2.el ∧ ∀ v, (f ⟨c, st.sm⟩).1 = .ok v → P v) :
    RestOf b node (onChild st i f).2.el ∧ ∀ v, (onChild st i f).1 = .ok v → P v := by
  unfold onChild
  simp only [hc]
  exact ⟨hst.setChild hi hk hkc h.1, h.2⟩

theorem popChild_draws {P : Val → Prop} (h0 : P .none) {f : St → Out Val × St} (u : String) (m : Mode)
    (h : ∀ k ∈ node.children, k.isComment = false → k.tag = u → ∀ sm, RestOf b k (f ⟨fromNative b k, sm⟩).2.el ∧
      ∀ v, (f ⟨fromNative b k, sm⟩).1 = .ok v → P v) : Draws b node P (fun st =>
    match st.el.popElement u m with
    | (none, el) => (.ok .none, { st with el := el })
    | (some i, el) => onChild { st with el := el } i f) := by
  intro st hst
  simp only
  cases hs : st.el.popElement u m with
  | mk o e' =>
    obtain ⟨h1, h2⟩ := hst.search hs
    cases o with
    | none => exact ⟨h1, fun v hv => by cases hv; exact h0⟩
    | some i =>
      obtain ⟨hi, k, hk, hkc, ht, hc⟩ := h2 rfl i rfl
      exact onChild_draws (st := ⟨e', st.sm⟩) h1 hi hk hkc hc (h k hk hkc ht _)

theorem isNil_rest {e : Elem} (h : RestOf b node e) : RestOf b node e.isNil.2 := h.popAttrib nilAttr

variable {env : Env} {eas : Bool}

theorem deserText_draws (c nl : Bool) : Draws b node (Ser.Gives env eas (.text c nl) node) (deserText eas c nl) := by
  intro st hst
  unfold deserText
  split
  · exact ⟨hst, fun v hv => by cases hv; exact .absent⟩
  · rename_i hc
    cases Bool.eq_false_iff.2 hc
    split
    · rename_i el hel
      refine ⟨?_, fun v hv => by cases hv; exact .absent⟩
      split at hel
      · have := isNil_rest hst
        rwa [hel] at this
      · cases hel
    · rename_i el hel
      have hr : RestOf b node el := by
        split at hel
        · have := isNil_rest hst
          rwa [hel] at this
        · cases hel; exact hst
      refine ⟨hr.popText, ?_⟩
      intro v hv
      simp only [popText, Out.ok.injEq] at hv
      subst hv
      unfold textVal
      split
      · rename_i t ht
        split
        · split
          · exact .emptyText ‹_›
          · exact .absent
        · rcases hr.text with hn | hn
          · rw [hn] at ht; cases ht
          · exact .text (by rw [← hn, ht])
      · split
        · exact .emptyText ‹_›
        · exact .absent

theorem deserAttrs_draws (a : AttrsSer) : Draws b node (Ser.Gives env eas (.attrs a) node) (deserAttrs a) := by
  intro st hst
  unfold deserAttrs
  split
  · exact ⟨hst, fun v hv => by cases hv; exact .absent⟩
  · rename_i hc
    simp only [popAttributes]
    have hr := hst.popAttributes
    cases ha : st.el.attrib with
    | none => exact ⟨hr, fun v hv => by cases hv; exact .absent⟩
    | some d =>
      refine ⟨hr, fun v hv => ?_⟩
      cases hv
      refine .attrs (Bool.eq_false_iff.2 hc) ?_
      intro kv hkv
      rcases Dict.mem_update hkv with h | h
      · cases h
      · obtain ⟨x, hx, rfl⟩ := List.mem_map.1 h
        exact ⟨x.1, x.2, hst.attrs x (by rw [ha]; exact hx), rfl, rfl⟩

theorem descend_draws {ns : Option NsMap} {s : Ser} {f : St → Out Val × St} (m : Mode)
    (h : ∀ node, Draws b node (Ser.Gives env eas s node) f) (path : List String) (node : Node) :
    Draws b node (Ser.Gives env eas (.wrap path ns m false s) node) (descend m f path) := by
  induction path generalizing node with
  | nil =>
    intro st hst
    obtain ⟨h1, h2⟩ := h node st hst
    exact ⟨h1, fun v hv => .wrapped (h2 v hv)⟩
  | cons u us ih =>
    intro st hst
    simp only [descend]
    cases hf : st.el.findElement u m with
    | error x => exact ⟨hst, nofun⟩
    | ok r =>
      obtain ⟨o, e'⟩ := r
      obtain ⟨h1, h2⟩ := hst.find hf
      cases o with
      | none => exact ⟨h1, fun v hv => by cases hv; exact .absent⟩
      | some i =>
        obtain ⟨hi, k, hk, hkc, ht, x, hx, hxr⟩ := h2 i rfl
        obtain ⟨g1, g2⟩ := ih k ⟨x, st.sm⟩ hxr
        exact onChild_draws (st := ⟨e', st.sm⟩) h1 hi hk hkc hx ⟨g1, fun v hv => .wrap hk hkc ht (g2 v hv)⟩

theorem homogLoop_draws {P : Val → Prop} {f : Loc → St → Out Val × St} (h : ∀ l, Draws b node P (f l)) (loc : Loc) (n idx : Nat)
    (acc : List Val) (hacc : ∀ v ∈ acc, P v) (errs : Dict ErrKey VErr) :
    Draws b node (fun r => ∀ v ∈ r.1, P v) (homogLoop f loc n idx acc errs) := by
  induction n generalizing idx acc errs with
  | zero => exact fun st hst => ⟨hst, nofun⟩
  | succ n ih =>
    intro st hst
    unfold homogLoop
    cases hf : f (loc ++ [.idx idx]) st with
    | mk o st' =>
      obtain ⟨h1, h2⟩ := (h _).at hst hf
      cases o with
      | ok v =>
        simp only
        split
        · exact ⟨h1, fun r hr => by cases hr; exact hacc⟩
        · refine ih _ _ ?_ _ st' h1
          intro x hx
          rcases List.mem_append.1 hx with hx | hx
          · exact hacc x hx
          · cases List.mem_singleton.1 hx; exact h2 _ rfl
      | verr e => exact ih _ _ hacc _ st' h1
      | crash e => exact ⟨h1, nofun⟩
      | diverge => exact ⟨h1, nofun⟩

theorem heteroLoop_draws {P : Ser → Val → Prop} {f : Ser → Loc → St → Out Val × St} (h : ∀ s l, Draws b node (P s) (f s l)) (loc : Loc)
    (ss : List Ser) (idx : Nat) (acc : List Val) (errs : Dict ErrKey VErr) :
    Draws b node (fun r => r.2.isEmpty = true → errs.isEmpty = true ∧ ∃ ws, r.1 = acc ++ ws ∧ ws.length = ss.length ∧
      ∀ (i : Nat) (s : Ser) (v : Val), ss[i]? = some s → ws[i]? = some v → P s v) (heteroLoop f loc ss idx acc errs) := by
  induction ss generalizing idx acc errs with
  | nil =>
    intro st hst
    refine ⟨hst, fun r hr he => ?_⟩
    cases hr
    exact ⟨he, [], by simp, rfl, by simp⟩
  | cons s ss ih =>
    intro st hst
    unfold heteroLoop
    cases hf : f s (loc ++ [.idx idx]) st with
    | mk o st' =>
      obtain ⟨h1, h2⟩ := (h _ _).at hst hf
      cases o with
      | ok v =>
        obtain ⟨g1, g2⟩ := ih (idx + 1) (acc ++ [v]) errs st' h1
        refine ⟨g1, fun r hr he => ?_⟩
        obtain ⟨g3, ws, g4, g5, g6⟩ := g2 r hr he
        refine ⟨g3, v :: ws, by simp [g4], by simp [g5], ?_⟩
        intro i s' v' hs hv
        cases i with
        | zero => cases hs; cases hv; exact h2 _ rfl
        | succ i => exact g6 i s' v' hs hv
      | verr e =>
        obtain ⟨g1, g2⟩ := ih (idx + 1) acc (errs ++ [(some (.idx idx), e)]) st' h1
        refine ⟨g1, fun r hr he => ?_⟩
        have := (g2 r hr he).1
        cases errs <;> cases this
      | crash e => exact ⟨h1, nofun⟩
      | diverge => exact ⟨h1, nofun⟩

theorem unionLoop_draws {title : Title} {f : Proxy → St → Out Val × St} {all : List Proxy}
    (h : ∀ p, Draws b node (Ser.Gives env eas (.proxy p) node) (f p)) (ps : List Proxy) (hps : ∀ p ∈ ps, p ∈ all) (errs : Dict ErrKey VErr) :
    Draws b node (Ser.Gives env eas (.modelUnion title false all) node) (unionLoop f title ps errs) := by
  induction ps generalizing errs with
  | nil =>
    intro st hst
    unfold unionLoop
    split
    · exact ⟨hst, fun v hv => by cases hv; exact .absent⟩
    · exact ⟨hst.stepForward, nofun⟩
  | cons p ps ih =>
    have ih := ih fun q hq => hps q (List.mem_cons_of_mem _ hq)
    intro st hst
    unfold unionLoop
    cases hf : f p ⟨st.el.createSnapshot, st.sm⟩ with
    | mk o st' =>
      obtain ⟨h1, h2⟩ := (h p).at (st := ⟨st.el.createSnapshot, st.sm⟩) hst hf
      cases o with
      | ok v =>
        simp only
        split
        · exact ih _ ⟨st.el, st'.sm⟩ hst
        · refine ⟨RestOf.intro h1.tag h1.text h1.attrs h1.fresh h1.kids, fun w hw => ?_⟩
          cases hw
          exact .modelUnion (hps p List.mem_cons_self) (h2 _ rfl)
      | verr e => exact ih _ ⟨st.el, st'.sm⟩ hst
      | crash e => exact ⟨hst, nofun⟩
      | diverge => exact ⟨hst, nofun⟩

theorem taggedLoop_draws {d : String} {f : Proxy → St → Out Val × St} {all : List (String × Proxy)}
    (h : ∀ p, Draws b node (Ser.Gives env eas (.proxy p) node) (f p)) (loc : Loc) (a : String) (m : Mode) (alts : List (String × Proxy))
    (hps : ∀ p ∈ alts, p ∈ all) : Draws b node (Ser.Gives env eas (.tagged false d a m all) node) (taggedLoop f loc a m alts) := by
  induction alts with
  | nil => exact fun st hst => ⟨hst, fun v hv => by cases hv; exact .absent⟩
  | cons p alts ih =>
    obtain ⟨tag, p⟩ := p
    have ih := ih fun q hq => hps q (List.mem_cons_of_mem _ hq)
    intro st hst
    unfold taggedLoop
    cases hs : st.el.search p.name m false with
    | mk o e' =>
      obtain ⟨h1, _⟩ := hst.search hs
      cases o with
      | none => exact ih ⟨e', st.sm⟩ h1
      | some i =>
        simp only
        cases e'.elements[i]? with
        | none => exact ⟨h1, nofun⟩
        | some c =>
          simp only
          split
          · obtain ⟨g1, g2⟩ := h p ⟨e', st.sm.set loc c.line⟩ h1
            exact ⟨g1, fun v hv => .tagged (hps _ List.mem_cons_self) (g2 v hv)⟩
          · exact ih ⟨e', st.sm⟩ h1

theorem deserFields_draws {P : Ser → Val → Prop} {f : Ser → Loc → St → Out Val × St} (h : ∀ s l, Draws b node (P s) (f s l)) (all fs : List Field)
    (hall : ∀ f ∈ fs, f ∈ all) (hno : ∀ f ∈ fs, f.validator = none) (res : Dict String Val)
    (hres : ∀ kv ∈ res, ∃ f ∈ all, kv.1 = f.key ∧ P f.ser kv.2) (errs : Dict ErrKey VErr) :
    Draws b node (fun r => ∀ kv ∈ r.1, ∃ f ∈ all, kv.1 = f.key ∧ P f.ser kv.2) (deserFields f fs res errs) := by
  induction fs generalizing res errs with
  | nil => exact fun st hst => ⟨hst, fun r hr => by cases hr; exact hres⟩
  | cons fd fs ih =>
    have ih := ih (fun g hg => hall g (List.mem_cons_of_mem _ hg)) fun g hg => hno g (List.mem_cons_of_mem _ hg)
    intro st hst
    unfold deserFields
    simp only [hno fd List.mem_cons_self]
    cases hf : f fd.ser [.name fd.name] ⟨st.el, st.sm.set [.name fd.name] st.el.line⟩ with
    | mk o st' =>
      obtain ⟨h1, h2⟩ := (h _ _).at (st := ⟨st.el, st.sm.set [.name fd.name] st.el.line⟩) hst hf
      cases o with
      | ok v =>
        refine ih _ ?_ _ st' h1
        split
        · exact hres
        · intro kv hkv
          rcases Dict.mem_set hkv with hkv | rfl
          · exact hres kv hkv
          · exact ⟨fd, hall fd List.mem_cons_self, rfl, h2 _ rfl⟩
      | verr e => exact ih _ hres _ st' h1
      | crash e => exact ⟨h1, nofun⟩
      | diverge => exact ⟨h1, nofun⟩

theorem deserModel_rest (hno : env.NoValidators) {P : Ser → Val → Prop} {f : Ser → Loc → St → Out Val × St}
    (h : ∀ s l, Draws b node (P s) (f s l)) {cls : String} {m : ModelSer} (hm : env.model cls = some m) (loc : Loc) :
    Draws b node (fun _ => True) (deserModel env f cls m loc) := by
  intro st hst
  refine ⟨?_, fun _ _ => trivial⟩
  unfold deserModel
  cases hb : m.body with
  | fields fs =>
    have := (deserFields_draws h fs fs (fun _ h => h) (hno cls m fs hm hb) [] (by simp) [] st hst).1
    simp only
    cases hf : deserFields f fs [] [] st with
    | mk o st' =>
      rw [hf] at this
      cases o with
      | ok r => simp only; split <;> exact this
      | _ => exact this
  | root s =>
    have := (h s loc st hst).1
    simp only
    cases hf : f s loc st with
    | mk o st' =>
      rw [hf] at this
      cases o <;> exact this

theorem toNative_detached (c : Elem) : toNative b c.detached = toNative b c := by cases c; rfl

theorem fromNative_asRoot (k : Node) (t : String) : fromNative b (k.asRoot t) = { (fromNative b k).isNil.2 with tag := t } := by
  cases k with
  | elem tag attrib nsmap text tail cs line =>
    simp only [Node.asRoot, fromNative, isNil, popAttrib]
    cases attrib with
    | nil => rfl
    | cons x d =>
      simp only [truthyMap, if_true, Option.getD_some]
  | comment text tail => cases b <;> rfl
  | pi text tail => cases b <;> rfl

theorem asRoot_tag (k : Node) (t : String) : (k.asRoot t).tag = t := by cases k <;> rfl

/-- A sub-model is what its class reads from the child, taken as a document. -/
theorem deserModel_asRoot (hno : env.NoValidators) {n : Nat} {cls : String} {m : ModelSer} (hm : env.model cls = some m) (loc : Loc) (k : Node)
    (sm : SMap) {v : Val} (h : (deserModel env (deser env eas n) cls m loc ⟨(fromNative env.backend k).isNil.2, sm⟩).1 = .ok v) :
    (fromXmlTree env eas n cls (k.asRoot m.elementName)).1 = .ok v := by
  unfold fromXmlTree
  simp only [hm, asRoot_tag, if_true, fromNative_asRoot]
  have h1 := (deserModel_alike hno (fun s l l' => deser_alike hno eas n s l l') hm loc [] ⟨(fromNative env.backend k).isNil.2, sm⟩
    ⟨(fromNative env.backend k).isNil.2, []⟩ rfl).1
  rw [h] at h1
  have h2 := deserModel_retag (t := m.elementName) hno (eas := eas) (n := n) cls m hm [] ⟨(fromNative env.backend k).isNil.2, []⟩
  simp only [St.retag] at h2
  rw [h2]
  simp only
  cases hx : (deserModel env (deser env eas n) cls m [] ⟨(fromNative env.backend k).isNil.2, []⟩).1 with
  | ok w => rw [hx] at h1; exact congrArg Out.ok (Eq.symm h1)
  | verr e => rw [hx] at h1; exact h1.elim
  | crash e => rw [hx] at h1; exact h1.elim
  | diverge => rw [hx] at h1; exact h1.elim

end

theorem deser_draws {env : Env} (hno : env.NoValidators) (eas : Bool) (n : Nat) (s : Ser) (loc : Loc) (node : Node) :
    Draws env.backend node (s.Gives env eas node) (deser env eas n s loc) := by
  induction n generalizing s loc node with
  | zero => exact fun st hst => ⟨hst, nofun⟩
  | succ n ih =>
    intro st hst
    change RestOf _ node (deserStep env eas (deser env eas n) n s loc st).2.el ∧
      ∀ v, (deserStep env eas (deser env eas n) n s loc st).1 = .ok v → s.Gives env eas node v
    have absent : ∀ v, (Out.ok Val.none : Out Val) = .ok v → s.Gives env eas node v := fun v hv => by cases hv; exact .absent
    unfold deserStep
    cases s with
    | text c nl => exact deserText_draws c nl st hst
    | attr nm c =>
      simp only
      split
      · exact ⟨hst, absent⟩
      · rename_i hc
        cases Bool.eq_false_iff.2 hc
        have hr := hst.popAttrib nm
        cases hp : st.el.popAttrib nm with
        | mk o e' =>
          rw [hp] at hr
          cases o with
          | none => exact ⟨hr, absent⟩
          | some x =>
            refine ⟨hr, fun v hv => ?_⟩
            cases hv
            refine .attr (hst.attrs _ ?_)
            unfold popAttrib at hp
            split at hp
            · simp only [Prod.mk.injEq] at hp
              exact Dict.mem_of_get? hp.1
            · cases hp
    | elem nm ns m c nl =>
      simp only
      split
      · exact ⟨hst, absent⟩
      · rename_i hc
        cases Bool.eq_false_iff.2 hc
        refine popChild_draws (P := Ser.Gives env eas (.elem nm ns m false nl) node)
          (f := fun k => deserText eas false nl { k with sm := k.sm.set loc k.el.line }) .absent nm m ?_ st hst
        intro k hk hkc ht sm
        obtain ⟨h1, h2⟩ := deserText_draws (env := env) (eas := eas) false nl ⟨_, sm.set loc (fromNative env.backend k).line⟩ (RestOf.ofNode env.backend k)
        exact ⟨h1, fun v hv => .elem hk hkc ht (h2 v hv)⟩
    | attrs a => exact deserAttrs_draws a st hst
    | mapElem a nm m =>
      simp only
      split
      · exact ⟨hst, absent⟩
      · refine popChild_draws (P := Ser.Gives env eas (.mapElem a nm m) node)
          (f := fun k => deserAttrs a { k with sm := k.sm.set loc k.el.line }) .absent nm m ?_ st hst
        intro k hk hkc ht sm
        obtain ⟨h1, h2⟩ := deserAttrs_draws (env := env) (eas := eas) a ⟨_, sm.set loc (fromNative env.backend k).line⟩ (RestOf.ofNode env.backend k)
        exact ⟨h1, fun v hv => .mapElem hk hkc ht (h2 v hv)⟩
    | raw nm m c =>
      simp only
      split
      · exact ⟨hst, absent⟩
      · rename_i hc
        cases Bool.eq_false_iff.2 hc
        simp only [popElementRemove, popElement]
        cases hs : st.el.search nm m true with
        | mk o e' =>
          obtain ⟨h1, h2⟩ := hst.search hs
          cases o with
          | none => exact ⟨h1, absent⟩
          | some i =>
            obtain ⟨hi, k, hk, hkc, ht, hc⟩ := h2 rfl i rfl
            simp only [hc]
            refine ⟨h1.setChild hi hk hkc ?_, fun v hv => ?_⟩
            · exact RestOf.intro (fromNative_tag env.backend k) (.inl rfl) (by simp [hollow]) (by simp [hollow, unread]) (by simp [hollow])
            · cases hv
              rw [toNative_detached]
              exact .raw hk hkc ht
    | proxy p =>
      simp only
      cases hm : env.model p.cls with
      | none => exact ⟨hst, nofun⟩
      | some m =>
        simp only
        split
        · exact ⟨hst, absent⟩
        · rename_i hp
          replace hp := Bool.eq_false_iff.2 hp
          refine popChild_draws (P := Ser.Gives env eas (.proxy p) node) .absent p.name p.mode ?_ st hst
          intro k hk hkc ht sm
          have hr := isNil_rest (RestOf.ofNode env.backend k)
          simp only
          cases hn : (fromNative env.backend k).isNil with
          | mk x el =>
            rw [hn] at hr
            cases x with
            | true => exact ⟨hr, absent⟩
            | false =>
              obtain ⟨g1, _⟩ := deserModel_rest hno (fun s l => ih s l k) hm loc ⟨el, sm.set loc (fromNative env.backend k).line⟩ hr
              refine ⟨g1, fun v hv => .proxy hp hm hk hkc ht (n := n) ?_⟩
              refine deserModel_asRoot hno hm loc k (sm.set loc (fromNative env.backend k).line) ?_
              rw [hn]
              exact hv
    | primUnion c s =>
      simp only
      split
      · exact ⟨hst, absent⟩
      · rename_i hc
        cases Bool.eq_false_iff.2 hc
        obtain ⟨h1, h2⟩ := ih s loc node st hst
        exact ⟨h1, fun v hv => .primUnion (h2 v hv)⟩
    | modelUnion title c alts =>
      simp only
      split
      · exact ⟨hst, absent⟩
      · rename_i hc
        cases Bool.eq_false_iff.2 hc
        exact unionLoop_draws (fun p => ih (.proxy p) loc node) alts (fun _ h => h) [] st hst
    | tagged c d a m alts =>
      simp only
      split
      · exact ⟨hst, absent⟩
      · rename_i hc
        cases Bool.eq_false_iff.2 hc
        exact taggedLoop_draws (fun p => ih (.proxy p) loc node) loc a m alts (fun _ h => h) st hst
    | wrap path ns m c s =>
      simp only
      split
      · exact ⟨hst, absent⟩
      · rename_i hc
        cases Bool.eq_false_iff.2 hc
        exact descend_draws (f := fun k => deser env eas n s loc { k with sm := k.sm.set loc k.el.line }) m
          (fun node st hst => ih s loc node ⟨st.el, st.sm.set loc st.el.line⟩ hst) path node st hst
    | homog title c s =>
      simp only
      split
      · exact ⟨hst, absent⟩
      · rename_i hc
        cases Bool.eq_false_iff.2 hc
        obtain ⟨h1, h2⟩ := homogLoop_draws (f := fun l st => deser env eas n s l st) (fun l => ih s l node) loc n 0 [] (by simp) [] st hst
        cases hf : homogLoop (fun l st => deser env eas n s l st) loc n 0 [] [] st with
        | mk o s1 =>
          rw [hf] at h1 h2
          cases o with
          | ok r =>
            refine ⟨h1, fun v hv => ?_⟩
            simp only [homogFinish] at hv
            split at hv
            · split at hv
              · exact absent v hv
              · cases hv; exact .homog (h2 _ rfl)
            · cases hv
          | verr e => exact ⟨h1, nofun⟩
          | crash e => exact ⟨h1, nofun⟩
          | diverge => exact ⟨h1, nofun⟩
    | hetero title c ss =>
      simp only
      split
      · exact ⟨hst, absent⟩
      · rename_i hc
        cases Bool.eq_false_iff.2 hc
        obtain ⟨h1, h2⟩ := heteroLoop_draws (fun s l => ih s l node) loc ss 0 [] [] st hst
        cases hf : heteroLoop (deser env eas n) loc ss 0 [] [] st with
        | mk o s1 =>
          rw [hf] at h1 h2
          cases o with
          | ok r =>
            refine ⟨h1, fun v hv => ?_⟩
            simp only [heteroFinish] at hv
            split at hv
            · rename_i he
              obtain ⟨_, ws, g4, g5, g6⟩ := h2 r rfl he
              rw [List.nil_append] at g4
              split at hv
              · exact absent v hv
              · cases hv
                rw [g4]
                exact .hetero g5 g6
            · cases hv
          | verr e => exact ⟨h1, nofun⟩
          | crash e => exact ⟨h1, nofun⟩
          | diverge => exact ⟨h1, nofun⟩

end PXml
