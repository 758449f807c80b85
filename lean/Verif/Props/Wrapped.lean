import Verif.Props.Writing
import Verif.Lemmas.Candidate

/-!
# Wrapped fields: C31
-/

namespace PXml

open Elem

theorem open_iff {e : Elem} : e.Open ↔ e.AtEnd ∧ ∀ c ∈ e.elements, c.Open :=
  ⟨fun h => by cases h with | mk h1 h2 => exact ⟨h1, h2⟩, fun h => .mk h.1 h.2⟩

theorem Elem.Open.along {e : Elem} (h : e.Open) (path : List String) : e.OpenAlong path := by
  induction path generalizing e with
  | nil => trivial
  | cons t ts ih =>
    rw [open_iff] at h
    refine ⟨h.1, fun c hc => ih (h.2 c ?_)⟩
    unfold lastNamed at hc
    exact List.mem_of_getLast? (Option.filter_eq_some_iff.1 hc).1

theorem lastNamed_get {e : Elem} {t : String} {c : Elem} (h : e.lastNamed t = some c) :
    e.elements[e.elements.length - 1]? = some c ∧ c.tag = t := by
  unfold lastNamed at h
  obtain ⟨h1, h2⟩ := Option.filter_eq_some_iff.1 h
  rw [List.getLast?_eq_getElem?] at h1
  exact ⟨h1, by simpa using h2⟩

theorem setChild_last {e : Elem} {c c' : Elem} (h : e.elements[e.elements.length - 1]? = some c) :
    e.setChild (e.elements.length - 1) c' = { e with elements := e.elements.dropLast ++ [c'] } := by
  have hne : e.elements ≠ [] := by intro h0; rw [h0] at h; simp at h
  unfold setChild
  congr 1
  obtain ⟨l, x, hl⟩ := List.eq_nil_or_concat e.elements |>.resolve_left hne
  rw [hl]
  simp

theorem ascend_inside (b : Backend) (mode : Mode) (nsmap : Option NsMap) (f : Elem → Out Elem) (path : List String) (e : Elem)
    (h : e.OpenAlong path) : ascend b mode nsmap f path e = e.inside (fun t => makeElement b t nsmap) f path := by
  induction path generalizing e with
  | nil => rfl
  | cons t ts ih =>
    obtain ⟨h1, h2⟩ := h
    unfold ascend Elem.inside
    rw [C41_finds_last_only e h1]
    cases hl : e.lastNamed t with
    | some c =>
      obtain ⟨h3, _⟩ := lastNamed_get hl
      simp only [Option.map_some, h3, ih c (h2 c hl)]
      cases Elem.inside (fun t => makeElement b t nsmap) f ts c with
      | ok c' => simp only [Out.bind, setChild_last h3]
      | _ => rfl
    | none =>
      simp only [Option.map_none]
      rw [ih (makeElement b t nsmap)]
      have : ∀ (t : String) (ts : List String), (makeElement b t nsmap).OpenAlong ts := fun t ts =>
        (Elem.Open.mk (e := makeElement b t nsmap) rfl (by simp [makeElement])).along ts
      exact this t ts

/-- C31: a wrapped field is written at the end of its path: on each step the last child is reused if it has the tag, otherwise
a new element is added; nothing else changes. -/
theorem C31_write (env : Env) (n : Nat) (fl : Flags) (path : List String) (nsmap : Option NsMap) (mode : Mode) (computed : Bool)
    (inner : Ser) (el : Elem) (v enc : Val) (hv : v ≠ .none) (hfl : fl.skipEmpty = true → v.len? ≠ some 0)
    (hel : el.OpenAlong path) :
    ser env (n + 1) fl (.wrap path nsmap mode computed inner) el v enc =
      el.inside (fun t => makeElement env.backend t nsmap) (fun e => ser env n fl inner e v enc) path := by
  have hvn : v.isNone = false := by cases v <;> first | rfl | exact absurd rfl hv
  change serStep env (ser env n) fl _ el v enc = _
  simp only [serStep, hvn, Bool.false_eq_true, if_false]
  rw [if_neg (by simpa using hfl)]
  exact ascend_inside _ _ _ _ _ _ hel

/-- C31: a wrapped field that is `None` writes nothing, not even the wrapper. -/
theorem C31_write_none (env : Env) (n : Nat) (fl : Flags) (path : List String) (nsmap : Option NsMap) (mode : Mode) (computed : Bool)
    (inner : Ser) (el : Elem) (enc : Val) : ser env (n + 1) fl (.wrap path nsmap mode computed inner) el .none enc = .ok el := rfl

theorem inside_append (fresh : String → Elem) (f : Elem → Out Elem) (p q : List String) (e : Elem) :
    e.inside fresh f (p ++ q) = e.inside fresh (fun c => c.inside fresh f q) p := by
  induction p generalizing e with
  | nil => rfl
  | cons t ts ih => simp only [List.cons_append, Elem.inside, ih]

theorem inside_tag (fresh : String → Elem) (f : Elem → Out Elem) (hf : ∀ e e', f e = .ok e' → e'.tag = e.tag) (p : List String)
    (e e' : Elem) (h : e.inside fresh f p = .ok e') : e'.tag = e.tag := by
  cases p with
  | nil => exact hf _ _ h
  | cons t ts =>
    unfold Elem.inside at h
    split at h
    · obtain ⟨c', _, h2⟩ := bind_ok h; injection h2 with h2; rw [← h2]
    · obtain ⟨c', _, h2⟩ := bind_ok h; injection h2 with h2; rw [← h2]; rfl

theorem lastNamed_append (l : List Elem) (e : Elem) (c : Elem) (t : String) (ht : c.tag = t) :
    ({ e with elements := l ++ [c] } : Elem).lastNamed t = some c := by
  simp [lastNamed, ht]

theorem inside_share (fresh : String → Elem) (hfresh : ∀ t, (fresh t).tag = t) (f g : Elem → Out Elem)
    (hf : ∀ e e', f e = .ok e' → e'.tag = e.tag) (p : List String) (e : Elem) :
    ((e.inside fresh f p).bind fun e1 => e1.inside fresh g p) = e.inside fresh (fun c => (f c).bind g) p := by
  induction p generalizing e with
  | nil => rfl
  | cons t ts ih =>
    unfold Elem.inside
    cases hl : e.lastNamed t with
    | some c =>
      simp only
      rw [← ih c]
      cases hx : c.inside fresh f ts with
      | ok c1 =>
        have ht : c1.tag = t := by rw [inside_tag fresh f hf ts _ _ hx]; exact (lastNamed_get hl).2
        simp only [Out.bind]
        rw [lastNamed_append _ _ _ _ ht]
        cases hy : c1.inside fresh g ts <;> simp [hy]
      | _ => rfl
    | none =>
      simp only
      rw [← ih (fresh t)]
      cases hx : (fresh t).inside fresh f ts with
      | ok c1 =>
        have ht : c1.tag = t := by rw [inside_tag fresh f hf ts _ _ hx]; exact hfresh t
        simp only [Out.bind, Elem.append]
        have : (⟨e.tag, e.nsmap, e.text, e.tail, e.attrib, e.elements ++ [c1], e.next + 1, e.line⟩ : Elem).lastNamed t = some c1 := by
          simp [lastNamed, ht]
        rw [this]
        cases hy : c1.inside fresh g ts <;> simp [hy]
      | _ => rfl

/-- C31: two consecutive wrapped fields whose paths begin alike share the wrapper elements of the common part: together they are
written as one wrapped field with the common path, inside which first the one and then the other is written. -/
theorem C31_share (env : Env) (hns : env.SerializersWrite) (n : Nat) (fl : Flags) (p q1 q2 : List String) (nsmap : Option NsMap)
    (mode1 mode2 : Mode) (c1 c2 : Bool) (s1 s2 : Ser) (el : Elem) (v1 enc1 v2 enc2 : Val) (hv1 : v1 ≠ .none) (hv2 : v2 ≠ .none)
    (hfl1 : fl.skipEmpty = true → v1.len? ≠ some 0) (hfl2 : fl.skipEmpty = true → v2.len? ≠ some 0) (hel : el.Open)
    (hopen : ∀ e1, ser env (n + 1) fl (.wrap (p ++ q1) nsmap mode1 c1 s1) el v1 enc1 = .ok e1 → e1.OpenAlong (p ++ q2)) :
    ((ser env (n + 1) fl (.wrap (p ++ q1) nsmap mode1 c1 s1) el v1 enc1).bind fun e1 =>
        ser env (n + 1) fl (.wrap (p ++ q2) nsmap mode2 c2 s2) e1 v2 enc2) =
      el.inside (fun t => makeElement env.backend t nsmap) (fun w =>
        (w.inside (fun t => makeElement env.backend t nsmap) (fun e => ser env n fl s1 e v1 enc1) q1).bind fun w1 =>
          w1.inside (fun t => makeElement env.backend t nsmap) (fun e => ser env n fl s2 e v2 enc2) q2) p := by
  have h1 := C31_write env n fl (p ++ q1) nsmap mode1 c1 s1 el v1 enc1 hv1 hfl1 (hel.along _)
  have h2 : ((ser env (n + 1) fl (.wrap (p ++ q1) nsmap mode1 c1 s1) el v1 enc1).bind fun e1 =>
        ser env (n + 1) fl (.wrap (p ++ q2) nsmap mode2 c2 s2) e1 v2 enc2) =
      ((ser env (n + 1) fl (.wrap (p ++ q1) nsmap mode1 c1 s1) el v1 enc1).bind fun e1 =>
        e1.inside (fun t => makeElement env.backend t nsmap) (fun e => ser env n fl s2 e v2 enc2) (p ++ q2)) := by
    cases hx : ser env (n + 1) fl (.wrap (p ++ q1) nsmap mode1 c1 s1) el v1 enc1 with
    | ok e1 => exact C31_write env n fl (p ++ q2) nsmap mode2 c2 s2 e1 v2 enc2 hv2 hfl2 (hopen e1 hx)
    | _ => rfl
  rw [h2, h1]
  simp only [inside_append]
  refine inside_share _ (fun _ => rfl) _ _ ?_ p el
  exact fun e e' h => inside_tag _ _ (fun e e' h => (ser_writes hns n fl s1 h).tag) q1 e e' h

/-! ### Written elements are open -/

theorem open_setText {e : Elem} (h : e.Open) (t : String) : (e.setText t).Open := by rw [open_iff] at h ⊢; exact h
theorem open_setAttribute {e : Elem} (h : e.Open) (k t : String) : (e.setAttribute k t).Open := by rw [open_iff] at h ⊢; exact h
theorem open_setAttributes {e : Elem} (h : e.Open) (d : Dict String String) : (e.setAttributes d).Open := by
  rw [open_iff] at h ⊢; exact h
theorem open_make (b : Backend) (t : String) (ns : Option NsMap) : (makeElement b t ns).Open := .mk rfl (by simp [makeElement])

theorem open_append {e c : Elem} (h : e.Open) (hc : c.Open) : (e.append c).Open := by
  rw [open_iff] at h ⊢
  refine ⟨?_, ?_⟩
  · simpa [AtEnd, Elem.append] using h.1
  · intro x hx
    simp only [Elem.append, List.mem_append, List.mem_singleton] at hx
    rcases hx with hx | rfl
    · exact h.2 x hx
    · exact hc

theorem open_unlessEmpty (fl : Flags) {e c : Elem} (h : e.Open) (hc : c.Open) : (appendUnlessEmpty fl e c).Open := by
  unfold appendUnlessEmpty
  split
  · exact h
  · exact open_append h hc

theorem open_serText (env : Env) (nl : Bool) (fl : Flags) {e : Elem} (h : e.Open) (v enc : Val) : (serText env nl fl e v enc).Open := by
  unfold serText
  split
  · exact h
  · apply open_setText
    split
    · exact open_setAttribute h _ _
    · exact h

theorem open_serAttrs {env : Env} {a : AttrsSer} {e e' : Elem} {v enc : Val} (h : e.Open) (hs : serAttrs env a e v enc = .ok e') :
    e'.Open := by
  unfold serAttrs at hs
  split at hs
  · injection hs with hs; subst hs; exact h
  · simp only at hs
    split at hs
    · injection hs with hs; subst hs; exact open_setAttributes h _
    · cases hs

theorem open_inside (fresh : String → Elem) (hfresh : ∀ t, (fresh t).Open) {f : Elem → Out Elem}
    (hf : ∀ e e', e.Open → f e = .ok e' → e'.Open) (p : List String) (e e' : Elem) (h : e.Open) (hs : e.inside fresh f p = .ok e') :
    e'.Open := by
  induction p generalizing e e' with
  | nil => exact hf _ _ h hs
  | cons t ts ih =>
    unfold Elem.inside at hs
    cases hl : e.lastNamed t with
    | some c =>
      rw [hl] at hs
      obtain ⟨c', h1, h2⟩ := bind_ok hs
      injection h2 with h2
      subst h2
      obtain ⟨h3, _⟩ := lastNamed_get hl
      have h4 := (open_iff.1 h).2
      have hc : c'.Open := ih c c' (h4 c (List.mem_of_getElem? h3)) h1
      rw [open_iff]
      refine ⟨?_, ?_⟩
      · have h5 := (open_iff.1 h).1
        have := (List.getElem?_eq_some_iff.1 h3).1
        simp only [AtEnd, List.length_append, List.length_dropLast, List.length_singleton] at h5 ⊢
        omega
      · intro x hx
        simp only [List.mem_append, List.mem_singleton] at hx
        rcases hx with hx | rfl
        · exact h4 x (List.dropLast_subset _ hx)
        · exact hc
    | none =>
      rw [hl] at hs
      obtain ⟨c', h1, h2⟩ := bind_ok hs
      injection h2 with h2
      subst h2
      exact open_append h (ih _ _ (hfresh t) h1)

theorem open_items {rec : Elem → Val → Val → Out Elem} (hrec : ∀ el v enc el', el.Open → rec el v enc = .ok el' → el'.Open)
    (fl : Flags) (vs encs : List Val) {el el' : Elem} (ho : el.Open) (h : serItems rec fl vs encs el = .ok el') : el'.Open := by
  induction vs generalizing encs el with
  | nil => simp only [serItems] at h; injection h with h; subst h; exact ho
  | cons v vs ih =>
    cases encs with
    | nil => simp only [serItems] at h; injection h with h; subst h; exact ho
    | cons enc encs =>
      unfold serItems at h
      split at h
      · exact ih encs ho h
      · obtain ⟨e1, h1, h2⟩ := bind_ok h
        exact ih encs (hrec _ _ _ _ ho h1) h2

theorem open_tuple {rec : Ser → Elem → Val → Val → Out Elem} (ss : List Ser)
    (hrec : ∀ s ∈ ss, ∀ el v enc el', el.Open → rec s el v enc = .ok el' → el'.Open) (vs encs : List Val) {el el' : Elem}
    (ho : el.Open) (h : serTuple rec ss vs encs el = .ok el') : el'.Open := by
  induction ss generalizing vs encs el with
  | nil => simp only [serTuple] at h; injection h with h; subst h; exact ho
  | cons s ss ih =>
    cases vs with
    | nil => simp only [serTuple] at h; injection h with h; subst h; exact ho
    | cons v vs =>
      cases encs with
      | nil => simp only [serTuple] at h; injection h with h; subst h; exact ho
      | cons enc encs =>
        unfold serTuple at h
        obtain ⟨e1, h1, h2⟩ := bind_ok h
        exact ih (fun s hs => hrec s (by simp [hs])) vs encs (hrec s (by simp) _ _ _ _ ho h1) h2

theorem open_model {rec : Flags → Ser → Elem → Val → Val → Out Elem} {m : ModelSer} {fl : Flags} {v enc : Val} {el el' : Elem}
    (hrec : ∀ fs, m.body = .fields fs → ∀ f ∈ fs, (∀ g, f.serializer = some g → ∀ self el v el', el.Open → g self el v = .ok el' → el'.Open) ∧
      ∀ fl el v enc el', el.Open → rec fl f.ser el v enc = .ok el' → el'.Open)
    (hroot : ∀ s, m.body = .root s → ∀ fl el v enc el', el.Open → rec fl s el v enc = .ok el' → el'.Open) (ho : el.Open)
    (h : serModel rec m fl el v enc = .ok el') : el'.Open := by
  unfold serModel at h
  split at h
  · injection h with h; subst h; exact ho
  · simp only at h
    split at h
    · rename_i fs hb
      have hrec := hrec fs hb
      clear hb
      induction fs generalizing el with
      | nil => simp only [serFields] at h; injection h with h; subst h; exact ho
      | cons f fs ih =>
        have ih := fun el ho h => ih (el := el) ho h (fun f hf => hrec f (by simp [hf]))
        unfold serFields at h
        split at h
        · exact ih _ ho h
        · split at h
          · exact ih _ ho h
          · obtain ⟨e1, h1, h2⟩ := bind_ok h
            obtain ⟨hs, hr⟩ := hrec f (by simp)
            split at h1
            · rename_i g hg
              obtain ⟨v', _, h4⟩ := bind_ok h1
              exact ih _ (hs g hg _ _ _ _ ho h4) h2
            · obtain ⟨v', _, h4⟩ := bind_ok h1
              obtain ⟨x, _, h6⟩ := bind_ok h4
              exact ih _ (hr _ _ _ _ _ ho h6) h2
    · rename_i s hb
      split at h
      · injection h with h; subst h; exact ho
      · obtain ⟨rv, _, h2⟩ := bind_ok h
        exact hroot s hb _ _ _ _ _ ho h2
  · cases h

/-- C31: writing keeps the position behind the last child at every depth, so that the theorems on wrapped fields apply to
everything written by fields other than raw elements (custom serializers that keep it there included). -/
theorem C31_open (env : Env) (hns : env.SerializersOpen) (hraw : env.Everywhere Ser.NotRaw) (n : Nat) (fl : Flags) (s : Ser)
    (hs : s.Everywhere Ser.NotRaw) (el el' : Elem) (v enc : Val) (ho : el.Open) (h : ser env n fl s el v enc = .ok el') : el'.Open := by
  induction n generalizing fl s el el' v enc with
  | zero => cases h
  | succ n ih =>
    change serStep env (ser env n) fl s el v enc = .ok el' at h
    have hsub := (Ser.everywhere_iff.1 hs).2
    cases s with
    | text c nl =>
      simp only [serStep] at h
      injection h with h; subst h
      exact open_serText env nl fl ho v enc
    | attr k c =>
      simp only [serStep] at h
      split at h <;> (injection h with h; subst h)
      · exact ho
      · exact open_setAttribute ho _ _
    | elem nm ns m c nl =>
      simp only [serStep] at h
      split at h <;> (injection h with h; subst h)
      · exact ho
      · exact open_unlessEmpty fl ho (open_serText env nl fl (open_make _ _ _) v enc)
    | attrs a => exact open_serAttrs ho h
    | mapElem a nm m =>
      simp only [serStep] at h
      split at h
      · split at h
        · cases h
        · injection h with h; subst h; exact ho
        · obtain ⟨sub, h1, h2⟩ := bind_ok h
          injection h2 with h2; subst h2
          exact open_unlessEmpty fl ho (open_serAttrs (open_make _ _ _) h1)
      · obtain ⟨sub, h1, h2⟩ := bind_ok h
        injection h2 with h2; subst h2
        exact open_append ho (open_serAttrs (open_make _ _ _) h1)
    | raw nm m c => exact absurd (Ser.everywhere_iff.1 hs).1 id
    | proxy p =>
      simp only [serStep] at h
      cases hm : env.model p.cls with
      | none => rw [hm] at h; cases h
      | some m =>
        rw [hm] at h
        simp only at h
        split at h
        · injection h with h; subst h; exact ho
        · split at h
          · injection h with h; subst h
            exact open_append ho (open_setAttribute (open_make _ _ _) _ _)
          · split at h
            · injection h with h; subst h; exact ho
            · obtain ⟨sub, h1, h2⟩ := bind_ok h
              injection h2 with h2; subst h2
              refine open_unlessEmpty fl ho (open_model ?_ ?_ (open_make _ _ _) h1)
              · intro fs hb f hf
                refine ⟨fun g hg => hns _ _ _ hm hb f hf g hg, fun fl el v enc el' ho h => ih fl f.ser ?_ _ _ _ _ ho h⟩
                have := hraw _ _ hm
                simp only [ModelSer.Everywhere, hb] at this
                exact this f hf
              · intro s hb fl el v enc el' ho h
                have := hraw _ _ hm
                simp only [ModelSer.Everywhere, hb] at this
                exact ih fl s this _ _ _ _ ho h
    | primUnion c inner => exact ih fl inner (hsub _ (by simp [Ser.subs])) _ _ _ _ ho h
    | modelUnion t c alts =>
      simp only [serStep] at h
      split at h
      · split at h
        · rename_i p hp
          exact ih _ _ (hsub _ (by simp only [Ser.subs, List.mem_map]; exact ⟨p, List.mem_of_find?_eq_some hp, rfl⟩)) _ _ _ _ ho h
        · injection h with h; subst h; exact ho
      · injection h with h; subst h; exact ho
    | tagged c d a m alts =>
      simp only [serStep] at h
      split at h
      · split at h
        · split at h
          · injection h with h; subst h; exact ho
          · split at h
            · rename_i p hp
              exact ih _ _ (hsub _ (by simp only [Ser.subs, List.mem_map]; exact ⟨(_, p), Dict.mem_of_get? hp, rfl⟩)) _ _ _ _ ho h
            · cases h
        · injection h with h; subst h; exact ho
        · injection h with h; subst h; exact ho
        · cases h
      · cases h
    | wrap path ns m c inner =>
      simp only [serStep] at h
      split at h
      · injection h with h; subst h; exact ho
      · split at h
        · injection h with h; subst h; exact ho
        · rw [ascend_inside _ _ _ _ _ _ (ho.along path)] at h
          exact open_inside _ (fun t => open_make _ _ _)
            (fun e e' ho h => ih fl inner (hsub _ (by simp [Ser.subs])) _ _ _ _ ho h) path _ _ ho h
    | homog t c inner =>
      simp only [serStep] at h
      split at h
      · injection h with h; subst h; exact ho
      · split at h
        · exact open_items (fun el v enc el' ho h => ih fl inner (hsub _ (by simp [Ser.subs])) _ _ _ _ ho h) _ _ _ ho h
        · cases h
    | hetero t c inners =>
      simp only [serStep] at h
      split at h
      · injection h with h; subst h; exact ho
      · split at h
        · split at h
          · injection h with h; subst h; exact ho
          · split at h
            · cases h
            · exact open_tuple inners (fun s hs' el v enc el' ho h => ih fl s (hsub s hs') _ _ _ _ ho h) _ _ ho h
        · cases h

/-! ### Reading -/

theorem descend_append (mode : Mode) (f : St → Out Val × St) (p q : List String) (st : St) :
    descend mode f (p ++ q) st = descend mode (descend mode f q) p st := by
  induction p generalizing st with
  | nil => rfl
  | cons t ts ih =>
    simp only [List.cons_append, descend]
    split <;> try rfl
    have : descend mode f (ts ++ q) = descend mode (descend mode f q) ts := funext fun st => ih st
    rw [this]

theorem findElement_again {e e1 : Elem} {t : String} {mode : Mode} {i : Nat} (h : e.findElement t mode = .ok (some i, e1))
    (c' : Elem) (ht : c'.tag = t) (hlt : i < e1.elements.length) :
    (e1.setChild i c').findElement t mode = .ok (some i, e1.setChild i c') := by
  obtain ⟨h1, _⟩ := findElement_index h
  unfold findElement lookBehind
  have h2 : (e1.setChild i c').next = i + 1 := h1.symm
  rw [h2]
  have h3 : (e1.setChild i c').elements[i + 1 - 1]? = some c' := by simp [setChild, hlt]
  rw [h3]
  simp only [Nat.add_one_ne_zero, if_false, ht, decide_true, bind, Except.bind, if_true, Nat.add_sub_cancel]

theorem findElement_none {e e1 : Elem} {t : String} {mode : Mode} (h : e.findElement t mode = .ok (none, e1)) : e1 = e := by
  unfold findElement at h
  cases hl : e.lookBehind t with
  | error x => rw [hl] at h; cases h
  | ok b =>
    rw [hl] at h
    cases b with
    | true => cases h
    | false =>
      simp only [bind, Except.bind, Bool.false_eq_true, if_false] at h
      injection h with h
      cases hc : e.candidate t mode with
      | none => rw [candidate_none hc] at h; exact (Prod.mk.inj h).2.symm
      | some c =>
        obtain ⟨i, e', h1, _⟩ := candidate_some hc true
        rw [h1] at h; cases h

/-- Reading along the same path twice. -/
theorem descend_twice (mode : Mode) (f g : St → Out Val × St) (hf : ∀ st, (f st).2.el.tag = st.el.tag) (path : List String) (st : St) :
    ((descend mode f path st).1, descend mode g path (descend mode f path st).2) =
      (((readBoth mode f g path st).1, (readBoth mode f g path st).2)) := by
  induction path generalizing st with
  | nil => rfl
  | cons t ts ih =>
    have htag : ∀ ts st, (descend mode f ts st).2.el.tag = st.el.tag := by
      intro ts st
      induction ts generalizing st with
      | nil => exact hf st
      | cons t ts ih =>
        unfold descend
        split
        · rfl
        · rename_i el h; rw [findElement_none h]
        · rename_i i el h
          unfold onChild
          split
          · have := (findElement_index h).2
            obtain ⟨c, hc, _⟩ := this
            simp_all
          · simp only [setChild]
            have := (Elem.Writes.find (P := anywhere) _ _ _ _ _ h).tag
            exact this
    cases hfe : st.el.findElement t mode with
    | error x =>
      have h1 : descend mode f (t :: ts) st = (.crash x, st) := by simp only [descend, hfe]
      have h2 : descend mode g (t :: ts) st = (.crash x, st) := by simp only [descend, hfe]
      rw [h1]
      simp only [h2, readBoth, hfe]
    | ok r =>
      obtain ⟨o, el⟩ := r
      cases o with
      | none =>
        have he := findElement_none hfe
        subst he
        have h1 : descend mode f (t :: ts) st = (.ok .none, st) := by simp only [descend, hfe]
        have h2 : descend mode g (t :: ts) st = (.ok .none, st) := by simp only [descend, hfe]
        rw [h1]
        simp only [h2, readBoth, hfe]
      | some i =>
        obtain ⟨_, c, hc, hct⟩ := findElement_index hfe
        have hlt := (List.getElem?_eq_some_iff.1 hc).1
        have h1 : descend mode f (t :: ts) st =
            ((descend mode f ts ⟨c, st.sm⟩).1, ⟨el.setChild i (descend mode f ts ⟨c, st.sm⟩).2.el, (descend mode f ts ⟨c, st.sm⟩).2.sm⟩) := by
          simp only [descend, hfe, onChild, hc]
        have h2 := findElement_again hfe (descend mode f ts ⟨c, st.sm⟩).2.el (by rw [htag]; exact hct) hlt
        rw [h1]
        simp only [readBoth, hfe, hc]
        have ih' := ih ⟨c, st.sm⟩
        have h3 : ∀ s : St, s.el.findElement t mode = .ok (some i, s.el) → ∀ c1, s.el.elements[i]? = some c1 →
            descend mode g (t :: ts) s = ((descend mode g ts ⟨c1, s.sm⟩).1,
              ⟨s.el.setChild i (descend mode g ts ⟨c1, s.sm⟩).2.el, (descend mode g ts ⟨c1, s.sm⟩).2.sm⟩) := by
          intro s hs c1 hc1
          simp only [descend, hs, onChild, hc1]
        rw [h3 ⟨el.setChild i (descend mode f ts ⟨c, st.sm⟩).2.el, (descend mode f ts ⟨c, st.sm⟩).2.sm⟩ h2 (descend mode f ts ⟨c, st.sm⟩).2.el (by simp [setChild, hlt])]
        simp only [Prod.mk.injEq] at ih'
        obtain ⟨h4, h5⟩ := ih'
        rw [← h4, show (⟨(descend mode f ts ⟨c, st.sm⟩).2.el, (descend mode f ts ⟨c, st.sm⟩).2.sm⟩ : St) =
          (descend mode f ts ⟨c, st.sm⟩).2 from rfl, h5]
        simp [setChild]

/-- The reader of the content of a wrapped field. -/
def readInner (env : Env) (eas : Bool) (n : Nat) (s : Ser) (loc : Loc) (st : St) : Out Val × St :=
  deser env eas n s loc { st with sm := st.sm.set loc st.el.line }

/-- C31: two consecutive wrapped fields whose paths begin alike are read from the same wrapper elements: the common path is
looked up once, and in the element found there first the one and then the other is read. -/
theorem C31_read (env : Env) (hv : env.ValidatorsRead) (eas : Bool) (n : Nat) (p q1 q2 : List String) (ns1 ns2 : Option NsMap)
    (mode : Mode) (s1 s2 : Ser) (loc1 loc2 : Loc) (st : St) :
    let r1 := deser env eas (n + 1) (.wrap (p ++ q1) ns1 mode false s1) loc1 st
    let r2 := deser env eas (n + 1) (.wrap (p ++ q2) ns2 mode false s2) loc2 r1.2
    (r1.1, r2) = readBoth mode (descend mode (readInner env eas n s1 loc1) q1) (descend mode (readInner env eas n s2 loc2) q2) p st := by
  intro r1 r2
  have h1 : r1 = descend mode (descend mode (readInner env eas n s1 loc1) q1) p st := by rw [← descend_append]; rfl
  have h2 : r2 = descend mode (descend mode (readInner env eas n s2 loc2) q2) p r1.2 := by rw [← descend_append]; rfl
  rw [h2, h1]
  refine descend_twice mode _ _ ?_ p st
  intro st
  have hR := sameChildren_rel
  have := descend_rel hR (f := readInner env eas n s1 loc1) (fun st => by
    have := deser_rel hR env (hv.respect hR) eas n s1 loc1 { st with sm := st.sm.set loc1 st.el.line }
    exact this) mode q1 st
  exact this.1

/-- Non-vacuity of C31: `phone` is written behind another child, then `fax` with a path that begins alike shares the
wrapper. -/
example : ∃ e1 e2, ser Ex.env 2 {} (.wrap ["contact", "phones"] none .strict false (.elem "phone" none .strict false false))
      { tag := "person", elements := [{ tag := "name" }], next := 1 } (.str "123") (.str "123") = .ok e1 ∧
    ser Ex.env 2 {} (.wrap ["contact", "fax"] none .strict false (.text false false)) e1 (.str "456") (.str "456") = .ok e2 ∧
    e2.elements = [{ tag := "name" }, { tag := "contact", next := 2, elements := [
      { tag := "phones", next := 1, elements := [{ tag := "phone", text := some "123" }] }, { tag := "fax", text := some "456" }] }] :=
  ⟨_, _, rfl, rfl, rfl⟩

/-- ... and both are read back from it. -/
example : let st : St := ⟨fromNative .lxml (Ex.el "person" none [Ex.el "name", Ex.el "contact" none
      [Ex.el "phones" none [Ex.el "phone" (some "123")], Ex.el "fax" (some "456")]]), []⟩
    let r1 := deser Ex.env false 2 (.wrap (["contact"] ++ ["phones"]) none .ordered false (.elem "phone" none .ordered false false)) [] st
    let r2 := deser Ex.env false 2 (.wrap (["contact"] ++ ["fax"]) none .ordered false (.text false false)) [] r1.2
    r1.1 = .ok (.str "123") ∧ r2.1 = .ok (.str "456") := ⟨rfl, rfl⟩

example : ({ tag := "person", elements := [{ tag := "name" }], next := 1 } : Elem).Open :=
  .mk rfl (by simp only [List.mem_singleton, forall_eq]; exact .mk rfl (by simp))

end PXml
