import Verif.SpecSubDoc
import Verif.Props.Writing

/-! The name of an element has no influence on what is written into it. -/

namespace PXml

open Elem

/-- Another name and other namespace declarations. -/
def Elem.rename (t : String) (ns : Option NsMap) (e : Elem) : Elem := { e with tag := t, nsmap := ns }

/-- The function pays no attention to the name of the element. -/
def NameBlind (t : String) (ns : Option NsMap) (f : Elem → Out Elem) : Prop :=
  ∀ e, f (e.rename t ns) = (f e).bind fun e' => .ok (e'.rename t ns)

section
variable {t : String} {ns : Option NsMap}

theorem search_rename (e : Elem) (u : String) (m : Mode) (step : Bool) :
    (e.rename t ns).search u m step = ((e.search u m step).1, (e.search u m step).2.rename t ns) := by
  unfold Elem.rename
  cases m with
  | strict =>
    simp only [search, strictSearch]
    split
    · split
      · split <;> rfl
      · rfl
    · rfl
  | ordered =>
    simp only [search, orderedSearch, firstMatch]
    split
    · split <;> rfl
    · rfl
  | unordered =>
    simp only [search, unorderedSearch, firstMatch]
    split <;> rfl

theorem serText_rename (env : Env) (nl : Bool) (fl : Flags) (e : Elem) (v enc : Val) :
    serText env nl fl (e.rename t ns) v enc = (serText env nl fl e v enc).rename t ns := by
  unfold serText
  split
  · rfl
  · split <;> rfl

theorem serAttrs_rename (env : Env) (a : AttrsSer) (v enc : Val) : NameBlind t ns (fun e => serAttrs env a e v enc) := by
  intro e
  simp only [serAttrs]
  split
  · rfl
  · cases enc <;> rfl

theorem bind_blind {α : Type} {o : Out α} {f : α → Elem → Out Elem} (h : ∀ a, NameBlind t ns (f a)) : NameBlind t ns (fun e => o.bind fun a => f a e) := by
  intro e
  cases o with
  | ok a => exact h a e
  | verr x => rfl
  | crash x => rfl
  | diverge => rfl

theorem then_blind {f g : Elem → Out Elem} (hf : NameBlind t ns f) (hg : NameBlind t ns g) : NameBlind t ns (fun e => (f e).bind g) := by
  intro e
  simp only
  rw [hf e]
  cases f e with
  | ok a => exact hg a
  | verr x => rfl
  | crash x => rfl
  | diverge => rfl

theorem appendUnlessEmpty_rename (fl : Flags) (e sub : Elem) :
    appendUnlessEmpty fl (e.rename t ns) sub = (appendUnlessEmpty fl e sub).rename t ns := by
  unfold appendUnlessEmpty
  split <;> rfl

theorem ascend_blind {b : Backend} {m : Mode} {ns' : Option NsMap} {f : Elem → Out Elem} (hf : NameBlind t ns f) (path : List String) :
    NameBlind t ns (ascend b m ns' f path) := by
  cases path with
  | nil => exact hf
  | cons u us =>
    intro e
    simp only [ascend]
    have hl : (e.rename t ns).lookBehind u = e.lookBehind u := rfl
    have hn : (e.rename t ns).next = e.next := rfl
    simp only [findElement, hl, hn]
    have fin : ∀ (o : Option Nat) (e' : Elem),
        (match (Except.ok (o, e'.rename t ns) : Except PyErr (Option Nat × Elem)) with
          | .error e => .crash e
          | .ok (some i, el') =>
            match el'.elements[i]? with
            | none => .crash .indexError
            | some c => (ascend b m ns' f us c).bind fun c' => .ok (el'.setChild i c')
          | .ok (none, el') => (ascend b m ns' f us (makeElement b u ns')).bind fun c' => .ok (el'.append c')) =
        (match (Except.ok (o, e') : Except PyErr (Option Nat × Elem)) with
          | .error e => .crash e
          | .ok (some i, el') =>
            match el'.elements[i]? with
            | none => .crash .indexError
            | some c => (ascend b m ns' f us c).bind fun c' => .ok (el'.setChild i c')
          | .ok (none, el') => (ascend b m ns' f us (makeElement b u ns')).bind fun c' => .ok (el'.append c') : Out Elem).bind
            fun e' => .ok (e'.rename t ns) := by
      intro o e'
      cases o with
      | none =>
        simp only
        cases ascend b m ns' f us (makeElement b u ns') <;> rfl
      | some i =>
        simp only [show (e'.rename t ns).elements = e'.elements from rfl]
        cases e'.elements[i]? with
        | none => rfl
        | some c =>
          simp only
          cases ascend b m ns' f us c <;> rfl
    cases e.lookBehind u with
    | error x => rfl
    | ok x =>
      cases x with
      | true => exact fin (some (e.next - 1)) e
      | false =>
        simp only [bind, Except.bind, Bool.false_eq_true, if_false, search_rename]
        cases e.search u m true with
        | mk o e' => exact fin o e'

theorem serItems_blind {rec : Elem → Val → Val → Out Elem} (h : ∀ v enc, NameBlind t ns (fun e => rec e v enc)) (fl : Flags) (vs encs : List Val) :
    NameBlind t ns (serItems rec fl vs encs) := by
  induction vs generalizing encs with
  | nil => intro e; unfold serItems; rfl
  | cons v vs ih =>
    cases encs with
    | nil => intro e; unfold serItems; rfl
    | cons enc encs =>
      intro e
      unfold serItems
      split
      · exact ih encs e
      · exact then_blind (h v enc) (ih encs) e

theorem serTuple_blind {rec : Ser → Elem → Val → Val → Out Elem} (h : ∀ s v enc, NameBlind t ns (fun e => rec s e v enc)) (ss : List Ser)
    (vs encs : List Val) : NameBlind t ns (serTuple rec ss vs encs) := by
  induction ss generalizing vs encs with
  | nil => intro e; unfold serTuple; rfl
  | cons s ss ih =>
    cases vs with
    | nil => intro e; unfold serTuple; rfl
    | cons v vs =>
      cases encs with
      | nil => intro e; unfold serTuple; rfl
      | cons enc encs =>
        intro e
        unfold serTuple
        exact then_blind (h s v enc) (ih vs encs) e

theorem serFields_blind {rec : Ser → Elem → Val → Val → Out Elem} (h : ∀ s v enc, NameBlind t ns (fun e => rec s e v enc)) (fl : Flags) (self : Val)
    (fields : Dict String Val) (set : List String) (enc : Val) (fs : List Field) (hno : ∀ f ∈ fs, f.serializer = none) :
    NameBlind t ns (serFields rec fl self fields set enc fs) := by
  induction fs with
  | nil => intro e; rfl
  | cons f fs ih =>
    have ih := ih fun g hg => hno g (List.mem_cons_of_mem _ hg)
    intro e
    unfold serFields
    simp only [hno f List.mem_cons_self]
    split
    · exact ih e
    · split
      · exact ih e
      · exact then_blind (f := fun e => (getAttr fields f.name).bind fun v => (getItem enc f.name).bind fun x => rec f.ser e v x)
          (bind_blind (f := fun v e => (getItem enc f.name).bind fun x => rec f.ser e v x) fun v => bind_blind (f := fun x e => rec f.ser e v x) fun x =>
            h f.ser v x) ih e

theorem serModel_blind {env : Env} (hno : env.NoSerializers) {rec : Flags → Ser → Elem → Val → Val → Out Elem}
    (h : ∀ fl s v enc, NameBlind t ns (fun e => rec fl s e v enc)) {cls : String} {m : ModelSer} (hm : env.model cls = some m) (fl : Flags)
    (v enc : Val) : NameBlind t ns (fun e => serModel rec m fl e v enc) := by
  intro e
  simp only [serModel]
  split
  · rfl
  · split
    · rename_i hb
      exact serFields_blind (h _) _ _ _ _ _ _ (hno cls m _ hm hb) e
    · split
      · rfl
      · exact bind_blind (f := fun rv e => rec _ _ e rv enc) (fun rv => h _ _ _ _) e
  · rfl

theorem ser_blind {env : Env} (n : Nat) (fl : Flags) (s : Ser) (v enc : Val) : NameBlind t ns (fun e => ser env n fl s e v enc) := by
  induction n generalizing fl s v enc with
  | zero => intro e; rfl
  | succ n ih =>
    intro e
    change serStep env (ser env n) fl s _ v enc = (serStep env (ser env n) fl s e v enc).bind _
    unfold serStep
    cases s with
    | text c nl => simp only [serText_rename]; rfl
    | attr nm c =>
      simp only
      split <;> rfl
    | elem nm ns' m c nl =>
      simp only
      split
      · rfl
      · simp only [appendUnlessEmpty_rename]; rfl
    | attrs a => exact serAttrs_rename env a v enc e
    | mapElem a nm m =>
      simp only
      split
      · cases v.len? with
        | none => rfl
        | some k =>
          cases k with
          | zero => rfl
          | succ k =>
            simp only [appendUnlessEmpty_rename]
            cases serAttrs env a (makeElement env.backend nm a.nsmap) v enc <;> rfl
      · cases serAttrs env a (makeElement env.backend nm a.nsmap) v enc <;> rfl
    | raw nm m c =>
      cases v <;> first | rfl | (simp only [appendUnlessEmpty_rename]; rfl)
    | proxy p =>
      simp only
      cases env.model p.cls with
      | none => rfl
      | some m =>
        simp only
        split
        · rfl
        · split
          · rfl
          · split
            · rfl
            · simp only [appendUnlessEmpty_rename]
              cases serModel (ser env n) m fl (makeElement env.backend p.name p.nsmap) v enc <;> rfl
    | primUnion c s => exact ih fl s v enc e
    | modelUnion title c alts =>
      simp only
      cases v with
      | model cls fields set =>
        simp only
        cases alts.find? (fun p => p.cls = cls) with
        | none => rfl
        | some p => exact ih fl (.proxy p) _ enc e
      | _ => rfl
    | tagged c d a m alts =>
      cases enc with
      | dict d' =>
        simp only
        cases Dict.get? d' d with
        | none => rfl
        | some x =>
          cases x with
          | str tag =>
            simp only
            split
            · rfl
            · cases Dict.get? alts tag with
              | none => rfl
              | some p => exact ih fl (.proxy p) v _ e
          | _ => rfl
      | _ => rfl
    | wrap path ns' m c s =>
      simp only
      split
      · rfl
      · split
        · rfl
        · exact ascend_blind (fun e => ih fl s v enc e) path e
    | homog title c s =>
      simp only
      split
      · rfl
      · cases v with
        | list vs =>
          cases enc with
          | list encs => exact serItems_blind (fun v enc => ih fl s v enc) fl vs encs e
          | _ => rfl
        | _ => rfl
    | hetero title c ss =>
      simp only
      split
      · rfl
      · cases v with
        | list vs =>
          cases enc with
          | list encs =>
            simp only
            split
            · rfl
            · split
              · rfl
              · exact serTuple_blind (fun s v enc => ih fl s v enc) ss vs encs e
          | _ => rfl
        | _ => rfl

end

/-- The function leaves the children with the tag as they are. -/
def Leaves (t : String) (f : Elem → Out Elem) : Prop :=
  ∀ e e', e.AtEnd → f e = .ok e' → e'.AtEnd ∧ ∀ (i : Nat) (c : Elem), e.elements[i]? = some c → c.tag = t → e'.elements[i]? = some c

section
variable {t : String}

theorem Leaves.of_same {e e' : Elem} (h : e.AtEnd) (h1 : e'.elements = e.elements) (h2 : e'.next = e.next) :
    e'.AtEnd ∧ ∀ (i : Nat) (c : Elem), e.elements[i]? = some c → c.tag = t → e'.elements[i]? = some c :=
  ⟨by unfold AtEnd at h ⊢; rw [h1, h2]; exact h, fun i c hc _ => by rw [h1]; exact hc⟩

theorem Leaves.append {e : Elem} (h : e.AtEnd) (sub : Elem) :
    (e.append sub).AtEnd ∧ ∀ (i : Nat) (c : Elem), e.elements[i]? = some c → c.tag = t → (e.append sub).elements[i]? = some c := by
  refine ⟨by simp [AtEnd, Elem.append] at h ⊢; omega, fun i c hc _ => ?_⟩
  simp only [Elem.append]
  rw [List.getElem?_append_left (List.getElem?_eq_some_iff.1 hc).1]
  exact hc

theorem Leaves.appendUnlessEmpty {e : Elem} (h : e.AtEnd) (fl : Flags) (sub : Elem) :
    (appendUnlessEmpty fl e sub).AtEnd ∧ ∀ (i : Nat) (c : Elem), e.elements[i]? = some c → c.tag = t → (PXml.appendUnlessEmpty fl e sub).elements[i]? = some c := by
  unfold PXml.appendUnlessEmpty
  split
  · exact Leaves.of_same h rfl rfl
  · exact Leaves.append h sub

theorem serText_same (env : Env) (nl : Bool) (fl : Flags) (e : Elem) (v enc : Val) :
    (serText env nl fl e v enc).elements = e.elements ∧ (serText env nl fl e v enc).next = e.next := by
  unfold serText
  split
  · exact ⟨rfl, rfl⟩
  · split <;> exact ⟨rfl, rfl⟩

theorem Leaves.comp {f g : Elem → Out Elem} (hf : Leaves t f) (hg : Leaves t g) : Leaves t (fun e => (f e).bind g) := by
  intro e e' he h
  obtain ⟨e1, h1, h2⟩ := bind_ok h
  obtain ⟨a1, a2⟩ := hf e e1 he h1
  obtain ⟨b1, b2⟩ := hg e1 e' a1 h2
  exact ⟨b1, fun i c hc ht => b2 i c (a2 i c hc ht) ht⟩

theorem serItems_spares {rec : Elem → Val → Val → Out Elem} (h : ∀ v enc, Leaves t (fun e => rec e v enc)) (fl : Flags) (vs encs : List Val) :
    Leaves t (serItems rec fl vs encs) := by
  induction vs generalizing encs with
  | nil => intro e e' he h; unfold serItems at h; cases h; exact Leaves.of_same he rfl rfl
  | cons v vs ih =>
    cases encs with
    | nil => intro e e' he h; unfold serItems at h; cases h; exact Leaves.of_same he rfl rfl
    | cons enc encs =>
      intro e e' he hr
      unfold serItems at hr
      split at hr
      · exact ih encs e e' he hr
      · exact Leaves.comp (h v enc) (ih encs) e e' he hr

theorem serTuple_spares {rec : Ser → Elem → Val → Val → Out Elem} (ss : List Ser) (h : ∀ s ∈ ss, ∀ v enc, Leaves t (fun e => rec s e v enc))
    (vs encs : List Val) : Leaves t (serTuple rec ss vs encs) := by
  induction ss generalizing vs encs with
  | nil => intro e e' he h; unfold serTuple at h; cases h; exact Leaves.of_same he rfl rfl
  | cons s ss ih =>
    have ih := ih fun s hs => h s (List.mem_cons_of_mem _ hs)
    cases vs with
    | nil => intro e e' he h; unfold serTuple at h; cases h; exact Leaves.of_same he rfl rfl
    | cons v vs =>
      cases encs with
      | nil => intro e e' he h; unfold serTuple at h; cases h; exact Leaves.of_same he rfl rfl
      | cons enc encs =>
        intro e e' he hr
        unfold serTuple at hr
        exact Leaves.comp (h s List.mem_cons_self v enc) (ih vs encs) e e' he hr

theorem ascend_spares {b : Backend} {m : Mode} {ns : Option NsMap} {f : Elem → Out Elem} {u : String} (hu : u ≠ t) (us : List String) :
    Leaves t (ascend b m ns f (u :: us)) := by
  intro e e' he h
  simp only [ascend, C41_finds_last_only e he] at h
  cases hl : e.lastNamed u with
  | none =>
    rw [hl] at h
    obtain ⟨c', _, h2⟩ := bind_ok h
    cases h2
    exact Leaves.append he c'
  | some x =>
    rw [hl] at h
    simp only [Option.map_some] at h
    have hx : e.elements[e.elements.length - 1]? = some x ∧ x.tag = u := by
      simp only [lastNamed, Option.filter_eq_some_iff, List.getLast?_eq_getElem?] at hl
      exact ⟨hl.1, by simpa using hl.2⟩
    rw [hx.1] at h
    obtain ⟨c', _, h2⟩ := bind_ok h
    cases h2
    refine ⟨by simpa [AtEnd, setChild] using he, fun i c hc ht => ?_⟩
    rw [getElem?_setChild, if_neg, hc]
    rintro rfl
    rw [hx.1] at hc
    cases hc
    exact hu (hx.2.symm.trans ht)

theorem ser_spares {env : Env} (n : Nat) (fl : Flags) (s : Ser) (hs : ¬ s.Through t) (v enc : Val) : Leaves t (fun e => ser env n fl s e v enc) := by
  induction n generalizing fl s v enc with
  | zero => intro e e' _ h; cases h
  | succ n ih =>
    intro e e' he h
    change serStep env (ser env n) fl s e v enc = .ok e' at h
    have prox : ∀ p, ¬ (Ser.proxy p).Through t := fun p hp => by cases hp
    unfold serStep at h
    cases s with
    | text c nl =>
      cases h
      exact Leaves.of_same he (serText_same env nl fl e v enc).1 (serText_same env nl fl e v enc).2
    | attr nm c =>
      simp only at h
      split at h <;> cases h <;> exact Leaves.of_same he rfl rfl
    | elem nm ns' m c nl =>
      simp only at h
      split at h
      · cases h; exact Leaves.of_same he rfl rfl
      · cases h; exact Leaves.appendUnlessEmpty he _ _
    | attrs a =>
      simp only [serAttrs] at h
      split at h
      · cases h; exact Leaves.of_same he rfl rfl
      · split at h
        · cases h; exact Leaves.of_same he rfl rfl
        · cases h
    | mapElem a nm m =>
      simp only at h
      split at h
      · split at h
        · cases h
        · cases h; exact Leaves.of_same he rfl rfl
        · obtain ⟨sub, _, h2⟩ := bind_ok h
          cases h2
          exact Leaves.appendUnlessEmpty he _ _
      · obtain ⟨sub, _, h2⟩ := bind_ok h
        cases h2
        exact Leaves.append he _
    | raw nm m c =>
      simp only at h
      split at h
      · cases h; exact Leaves.of_same he rfl rfl
      · cases h; exact Leaves.appendUnlessEmpty he _ _
      · cases h
    | proxy p =>
      simp only at h
      split at h
      · cases h
      · split at h
        · cases h; exact Leaves.of_same he rfl rfl
        · split at h
          · cases h; exact Leaves.append he _
          · split at h
            · cases h; exact Leaves.of_same he rfl rfl
            · obtain ⟨sub, _, h2⟩ := bind_ok h
              cases h2
              exact Leaves.appendUnlessEmpty he _ _
    | primUnion c s => exact ih fl s (fun h => hs (.union h)) v enc e e' he h
    | modelUnion title c alts =>
      simp only at h
      split at h
      · split at h
        · exact ih fl _ (prox _) _ enc e e' he h
        · cases h; exact Leaves.of_same he rfl rfl
      · cases h; exact Leaves.of_same he rfl rfl
    | tagged c d a m alts =>
      simp only at h
      split at h
      · split at h
        · split at h
          · cases h; exact Leaves.of_same he rfl rfl
          · split at h
            · exact ih fl _ (prox _) v _ e e' he h
            · cases h
        · cases h; exact Leaves.of_same he rfl rfl
        · cases h; exact Leaves.of_same he rfl rfl
        · cases h
      · cases h
    | wrap path ns' m c s =>
      simp only at h
      split at h
      · cases h; exact Leaves.of_same he rfl rfl
      · split at h
        · cases h; exact Leaves.of_same he rfl rfl
        · cases path with
          | nil => exact ih fl s (fun h => hs (.inner h)) v enc e e' he h
          | cons u us => exact ascend_spares (fun hu => hs (by subst hu; exact .wrap)) us e e' he h
    | homog title c s =>
      simp only at h
      split at h
      · cases h; exact Leaves.of_same he rfl rfl
      · split at h
        · exact serItems_spares (fun v enc => ih fl s (fun h => hs (.item h)) v enc) fl _ _ e e' he h
        · cases h
    | hetero title c ss =>
      simp only at h
      split at h
      · cases h; exact Leaves.of_same he rfl rfl
      · split at h
        · split at h
          · cases h; exact Leaves.of_same he rfl rfl
          · split at h
            · cases h
            · exact serTuple_spares ss (fun s hss v enc => ih fl s (fun h => hs (.part hss h)) v enc) _ _ e e' he h
        · cases h

theorem serFields_spares {rec : Ser → Elem → Val → Val → Out Elem} {fl : Flags} {self : Val}
    {fields : Dict String Val} {set : List String} {enc : Val} (fs : List Field) (h : ∀ f ∈ fs, ∀ v enc, Leaves t (fun e => rec f.ser e v enc))
    (hno : ∀ f ∈ fs, f.serializer = none) : Leaves t (serFields rec fl self fields set enc fs) := by
  induction fs with
  | nil => intro e e' he h; cases h; exact Leaves.of_same he rfl rfl
  | cons f fs ih =>
    have ih := ih (fun g hg => h g (List.mem_cons_of_mem _ hg)) fun g hg => hno g (List.mem_cons_of_mem _ hg)
    intro e e' he hr
    unfold serFields at hr
    simp only [hno f List.mem_cons_self] at hr
    split at hr
    · exact ih e e' he hr
    · split at hr
      · exact ih e e' he hr
      · obtain ⟨e1, h1, h2⟩ := bind_ok hr
        obtain ⟨v, _, h4⟩ := bind_ok h1
        obtain ⟨x, _, h6⟩ := bind_ok h4
        obtain ⟨a1, a2⟩ := h f List.mem_cons_self v x e e1 he h6
        obtain ⟨b1, b2⟩ := ih e1 e' a1 h2
        exact ⟨b1, fun i c hc ht => b2 i c (a2 i c hc ht) ht⟩

end

theorem Ser.HasSub.notNone {s : Ser} {v enc : Val} {p : Proxy} {w e : Val} (h : s.HasSub v enc p w e) (hw : w.isNone = false) : v.isNone = false := by
  cases h <;> first | exact hw | rfl

/-- The sub-model is written, as the proxy says, and its element is among the children, unless it is skipped. -/
def DeliversSub (env : Env) (fl : Flags) (p : Proxy) (w e : Val) (el' : Elem) : Prop :=
  ∃ j m sub, env.model p.cls = some m ∧ serModel (ser env j) m fl (makeElement env.backend p.name p.nsmap) w e = .ok sub ∧ sub.tag = p.name ∧
    ((fl.skipEmpty = true ∧ sub.isEmpty = true) ∨ ∃ i : Nat, el'.elements[i]? = some sub)

theorem DeliversSub.kept {env : Env} {fl : Flags} {p : Proxy} {w e : Val} {a b : Elem} (h : DeliversSub env fl p w e a)
    (hk : ∀ (i : Nat) c, a.elements[i]? = some c → c.tag = p.name → b.elements[i]? = some c) : DeliversSub env fl p w e b := by
  obtain ⟨j, m, sub, h1, h2, h3, h4⟩ := h
  refine ⟨j, m, sub, h1, h2, h3, ?_⟩
  rcases h4 with h4 | ⟨i, h4⟩
  · exact .inl h4
  · exact .inr ⟨i, hk i sub h4 h3⟩

theorem makeElement_rename {b : Backend} {t : String} {ns : Option NsMap} {t' : String} {ns' : Option NsMap} :
    (makeElement b t ns).rename t' ns' = { tag := t', nsmap := ns' } := rfl

theorem serModel_name {env : Env} (hno : env.NoSerializers) {j : Nat} {cls : String} {m : ModelSer} (hm : env.model cls = some m) {fl : Flags}
    {el : Elem} {w e : Val} {sub : Elem} (h : serModel (ser env j) m fl el w e = .ok sub) : sub.tag = el.tag ∧ sub.nsmap = el.nsmap := by
  have := serModel_blind (t := el.tag) (ns := el.nsmap) hno (rec := ser env j) (fun fl s v enc => ser_blind j fl s v enc) hm fl w e el
  simp only [show el.rename el.tag el.nsmap = el from by cases el; rfl, h, Out.bind, Out.ok.injEq] at this
  have h1 : sub.tag = (sub.rename el.tag el.nsmap).tag := congrArg Elem.tag this
  have h2 : sub.nsmap = (sub.rename el.tag el.nsmap).nsmap := congrArg Elem.nsmap this
  exact ⟨h1, h2⟩

theorem hasSub_delivers {env : Env} (hno : env.NoSerializers) {s : Ser} {v enc : Val} {p : Proxy} {w e : Val} (h : s.HasSub v enc p w e)
    (hw : w.isNone = false) (hs : ¬ s.Through p.name) (n : Nat) (fl : Flags) (el el' : Elem) (he : el.AtEnd)
    (hr : ser env n fl s el v enc = .ok el') : DeliversSub env fl p w e el' := by
  have core : ∀ n (p : Proxy) (v enc : Val), v.isNone = false → ∀ el el', ser env n fl (.proxy p) el v enc = .ok el' → DeliversSub env fl p v enc el' := by
    intro n p v enc hv el el' hr
    cases n with
    | zero => cases hr
    | succ n =>
      change serStep env (ser env n) fl _ el v enc = .ok el' at hr
      simp only [serStep, hv, Bool.and_false, Bool.false_eq_true, if_false] at hr
      cases hm : env.model p.cls with
      | none => rw [hm] at hr; cases hr
      | some m =>
        rw [hm] at hr
        obtain ⟨sub, h1, h2⟩ := bind_ok hr
        refine ⟨n, m, sub, hm, h1, (serModel_name hno hm h1).1, ?_⟩
        cases h2
        unfold appendUnlessEmpty
        split
        · rename_i hx
          exact .inl (by simpa using hx)
        · exact .inr ⟨el.elements.length, by simp [Elem.append]⟩
  induction h generalizing n el el' with
  | proxy => exact core n _ _ _ hw el el' hr
  | @item title c s vs encs i v enc p w e hv henc hsub ih =>
    cases n with
    | zero => cases hr
    | succ n =>
      have hsp : ∀ v enc, Leaves p.name (fun e => ser env n fl s e v enc) := fun v enc => ser_spares n fl s (fun h => hs (.item h)) v enc
      change serItems (ser env n fl s) fl vs encs el = .ok el' at hr
      induction vs generalizing encs el i with
      | nil => cases hv
      | cons x vs ihv =>
        cases encs with
        | nil => cases henc
        | cons y encs =>
          unfold serItems at hr
          cases i with
          | zero =>
            cases hv
            cases henc
            rw [hsub.notNone hw, Bool.and_false] at hr
            obtain ⟨e1, h1, h2⟩ := bind_ok hr
            have := ih hw (fun h => hs (.item h)) n el e1 he h1
            exact this.kept (serItems_spares hsp fl vs encs e1 el' (hsp _ _ el e1 he h1).1 h2).2
          | succ i =>
            split at hr
            · exact ihv hv henc el he hr
            · obtain ⟨e1, h1, h2⟩ := bind_ok hr
              exact ihv hv henc e1 (hsp _ _ el e1 he h1).1 h2
  | @part title c ss vs encs i s v enc p w e hss hv henc hsub ih =>
    cases n with
    | zero => cases hr
    | succ n =>
      have hsp : ∀ s ∈ ss, ∀ v enc, Leaves p.name (fun e => ser env n fl s e v enc) :=
        fun s hs' v enc => ser_spares n fl s (fun h => hs (.part hs' h)) v enc
      have hsp' : ¬ s.Through p.name := fun h => hs (.part (List.mem_of_getElem? hss) h)
      change serStep env (ser env n) fl _ el _ _ = .ok el' at hr
      simp only [serStep, Val.isNone, Bool.false_eq_true, if_false] at hr
      split at hr
      · rename_i hx
        rw [Bool.and_eq_true, List.isEmpty_iff] at hx
        rw [hx.2] at hv
        cases hv
      · split at hr
        · cases hr
        · clear hs
          rename_i h1 h2
          clear h1 h2
          induction ss generalizing vs encs el i with
          | nil => cases hss
          | cons q ss ihv =>
            cases vs with
            | nil => cases hv
            | cons x vs =>
              cases encs with
              | nil => cases henc
              | cons y encs =>
                unfold serTuple at hr
                obtain ⟨e1, h1, h2⟩ := bind_ok hr
                have hae := (hsp q List.mem_cons_self x y el e1 he h1).1
                have hsp2 := fun s (h : s ∈ ss) => hsp s (List.mem_cons_of_mem _ h)
                cases i with
                | zero =>
                  cases hss
                  cases hv
                  cases henc
                  have := ih hw hsp' n el e1 he h1
                  exact this.kept (serTuple_spares ss hsp2 vs encs e1 el' hae h2).2
                | succ i => exact ihv hss hv henc e1 hae hsp2 h2
  | @member title c alts p cls fields set enc hf =>
    cases n with
    | zero => cases hr
    | succ n =>
      change serStep env (ser env n) fl _ el _ _ = .ok el' at hr
      simp only [serStep, hf] at hr
      exact core n p _ enc hw el el' hr
  | @tagged c d a tag mode alts p v enc h1 h2 h3 =>
    cases n with
    | zero => cases hr
    | succ n =>
      change serStep env (ser env n) fl _ el _ _ = .ok el' at hr
      simp only [serStep, h1, if_neg h2, h3] at hr
      exact core n p v _ hw el el' hr

theorem serFields_delivers {env : Env} (hno : env.NoSerializers) {n : Nat} {fl : Flags} {self : Val} {fields : Dict String Val}
    {set : List String} {encs : Val} {p : Proxy} {w e : Val} (hw : w.isNone = false) (fs : List Field) (hnos : ∀ f ∈ fs, f.serializer = none)
    (hs : ∀ f ∈ fs, ¬ f.ser.Through p.name) (f : Field) (hf : f ∈ fs) (hx : f.exclude = false)
    (hset : fl.excludeUnset = true → f.name ∈ set) {v enc : Val} (hv : fields.get? f.name = some v)
    (henc : getItem encs f.name = .ok enc) (h : f.ser.HasSub v enc p w e) (el el' : Elem) (he : el.AtEnd)
    (hr : serFields (ser env n fl) fl self fields set encs fs el = .ok el') : DeliversSub env fl p w e el' := by
  induction fs generalizing el with
  | nil => cases hf
  | cons g fs ih =>
    have hspg : ∀ v enc, Leaves p.name (fun e => ser env n fl g.ser e v enc) := fun v enc => ser_spares n fl g.ser (hs g List.mem_cons_self) v enc
    have hsp : ∀ f ∈ fs, ∀ v enc, Leaves p.name (fun e => ser env n fl f.ser e v enc) :=
      fun f hf v enc => ser_spares n fl f.ser (hs f (List.mem_cons_of_mem _ hf)) v enc
    have hnos' : ∀ f ∈ fs, f.serializer = none := fun f hf => hnos f (List.mem_cons_of_mem _ hf)
    have ih := ih hnos' (fun f hf => hs f (List.mem_cons_of_mem _ hf))
    unfold serFields at hr
    simp only [hnos g List.mem_cons_self] at hr
    rcases List.mem_cons.1 hf with rfl | hf
    · have hu : (fl.excludeUnset && !set.contains f.name) = false := by
        cases hc : fl.excludeUnset with
        | false => rfl
        | true => simpa using hset hc
      rw [hx, hu] at hr
      simp only [Bool.false_eq_true, if_false, getAttr, hv, henc, Out.bind] at hr
      obtain ⟨e1, h1, h2⟩ := bind_ok hr
      exact (hasSub_delivers hno h hw (hs f List.mem_cons_self) n fl el e1 he h1).kept
        (serFields_spares fs hsp hnos' e1 el' (hspg _ _ el e1 he h1).1 h2).2
    · split at hr
      · exact ih hf el he hr
      · split at hr
        · exact ih hf el he hr
        · obtain ⟨e1, h1, h2⟩ := bind_ok hr
          obtain ⟨v', _, h4⟩ := bind_ok h1
          obtain ⟨x', _, h6⟩ := bind_ok h4
          exact ih hf e1 (hspg _ _ el e1 he h6).1 h2

theorem nativeNsmap_make (b : Backend) (t : String) (ns : Option NsMap) : nativeNsmap b (makeElement b t ns).nsmap = nativeNsmap b ns := by
  cases b <;> rfl

theorem DeliversSub.document {env : Env} (hno : env.NoSerializers) {fl : Flags} {p : Proxy} {w : Val} {root : Elem}
    (h : DeliversSub env fl p w (env.toJsonable w) root) : ∃ j sub, toXmlTree env j fl p.cls w = .ok sub ∧
      ((fl.skipEmpty = true ∧ sub.Bare) ∨ sub.renamed p.name (nativeNsmap env.backend p.nsmap) ∈ (toNative env.backend root).children) := by
  obtain ⟨j, m, sub, hm, h1, h2, h3⟩ := h
  have hb := serModel_blind (t := m.elementName) (ns := m.nsmap) hno (rec := ser env j) (fun fl s v enc => ser_blind j fl s v enc) hm fl w (env.toJsonable w)
    (makeElement env.backend p.name p.nsmap)
  simp only [makeElement_rename, h1, Out.bind] at hb
  refine ⟨j, toNative env.backend (sub.rename m.elementName m.nsmap), ?_, ?_⟩
  · unfold toXmlTree
    simp only [hm, hb, Out.bind]
  · have hns := (serModel_name hno hm h1).2
    obtain ⟨tag, nsm, text, tail, attrib, elements, next, line⟩ := sub
    rcases h3 with ⟨h3, h4⟩ | ⟨i, h3⟩
    · refine .inl ⟨h3, ?_⟩
      simp only [Elem.isEmpty, Bool.and_eq_true, Bool.not_eq_true', List.isEmpty_iff] at h4
      obtain ⟨⟨⟨ht, _⟩, ha⟩, hel⟩ := h4
      subst hel
      simp only [Elem.rename, toNative, Node.Bare, toNativeList, and_true]
      constructor
      · cases attrib with
        | none => rfl
        | some d => cases d with
          | nil => rfl
          | cons x d => cases ha
      · cases text with
        | none => exact .inl rfl
        | some x =>
          refine .inr ?_
          simpa [truthy] using ht
    · refine .inr ?_
      have : toNative env.backend ⟨tag, nsm, text, tail, attrib, elements, next, line⟩ ∈ (toNative env.backend root).children := by
        cases root
        simp only [toNative, Node.children]
        have := List.mem_of_getElem? h3
        rename_i es _ _
        clear h3 h1 hb
        simp only at this
        induction es with
        | nil => cases this
        | cons x es ih =>
          simp only [toNativeList]
          rcases List.mem_cons.1 this with rfl | h
          · exact List.mem_cons_self
          · exact List.mem_cons_of_mem _ (ih h)
      simp only at h2 hns
      subst h2 hns
      simpa [Elem.rename, toNative, Node.renamed, nativeNsmap_make] using this

end PXml
