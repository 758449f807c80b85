import Verif.Lemmas.Content

/-! What writing a field can do to an element. -/

namespace PXml

open Elem

namespace Elem.Writes

theorem mono {P Q : List String → Slot → Prop} {e e' : Elem} (h : Writes P e e') (hPQ : ∀ p k, P p k → Q p k) :
    Writes Q e e' := by
  induction h generalizing Q with
  | refl => exact .refl _
  | trans _ _ ih1 ih2 => exact (ih1 hPQ).trans (ih2 hPQ)
  | setText e t h => exact .setText e t (hPQ _ _ h)
  | setAttribute e k v h => exact .setAttribute e k v (hPQ _ _ h)
  | setAttributes e d h => exact .setAttributes e d (hPQ _ _ h)
  | append e c h => exact .append e c h
  | find e t m o e' h => exact .find e t m o e' h
  | child e i c c' h1 h2 _ ih => exact .child e i c c' h1 h2 (ih fun p k => hPQ _ k)

theorem all {P : List String → Slot → Prop} {e e' : Elem} (h : Writes P e e') : Writes anywhere e e' :=
  h.mono fun _ _ _ => trivial

end Elem.Writes

theorem Env.NoSerializers.write {env : Env} (h : env.NoSerializers) : env.SerializersWrite := by
  intro cls m fs h1 h2 f hf g hg
  rw [h cls m fs h1 h2 f hf] at hg
  cases hg

theorem search_before {t : String} {m : Mode} {e e' : Elem} {i : Nat} (h : e.search t m true = (some i, e')) :
    i + 1 = e'.next ∧ ∃ c, e'.elements[i]? = some c ∧ c.tag = t := by
  cases m with
  | strict =>
    simp only [search, strictSearch] at h
    split at h
    · split at h
      · rename_i c hc ht
        simp only [if_true, Prod.mk.injEq, Option.some.injEq] at h
        obtain ⟨rfl, rfl⟩ := h
        exact ⟨rfl, c, hc, ht⟩
      · cases h
    · cases h
  | ordered =>
    simp only [search, orderedSearch] at h
    split at h
    · rename_i j hj
      simp only [if_true, Prod.mk.injEq, Option.some.injEq] at h
      obtain ⟨rfl, rfl⟩ := h
      obtain ⟨_, ⟨c, hc, ht⟩, _⟩ := firstMatch_some hj
      exact ⟨rfl, c, hc, ht⟩
    · cases h
  | unordered =>
    simp only [search, unorderedSearch] at h
    split at h
    · rename_i j hj
      simp only [if_true, Prod.mk.injEq, Option.some.injEq] at h
      obtain ⟨rfl, rfl⟩ := h
      obtain ⟨hn, ⟨c, hc, ht⟩, _⟩ := firstMatch_some hj
      have hl := firstMatch_lt hj
      exact ⟨rfl, c, by rw [swap_getElem? (by omega) hl]; simp [hc], ht⟩
    · cases h

/-- The element found by `find_element` lies just before the cursor. -/
theorem findElement_index {e e' : Elem} {t : String} {m : Mode} {i : Nat} (h : e.findElement t m = .ok (some i, e')) :
    i + 1 = e'.next ∧ ∃ c, e'.elements[i]? = some c ∧ c.tag = t := by
  unfold findElement at h
  unfold lookBehind at h
  by_cases h0 : e.next = 0
  · rw [if_pos h0] at h
    simp only [bind, Except.bind, Bool.false_eq_true, if_false, Except.ok.injEq] at h
    exact search_before h
  · rw [if_neg h0] at h
    cases hc : e.elements[e.next - 1]? with
    | none => rw [hc] at h; cases h
    | some c =>
      rw [hc] at h
      simp only [bind, Except.bind] at h
      by_cases ht : c.tag = t
      · simp only [ht, decide_true, if_true, Except.ok.injEq, Prod.mk.injEq, Option.some.injEq] at h
        obtain ⟨rfl, rfl⟩ := h
        exact ⟨by omega, c, hc, ht⟩
      · simp only [ht, decide_false, Bool.false_eq_true, if_false, Except.ok.injEq] at h
        exact search_before h

theorem good_iff {e : Elem} : e.Good ↔ e.next ≤ e.elements.length ∧ ∀ c ∈ e.elements, c.Good :=
  ⟨fun h => by cases h with | mk h1 h2 => exact ⟨h1, h2⟩, fun h => .mk h.1 h.2⟩

theorem Elem.Writes.good {P : List String → Slot → Prop} {e e' : Elem} (h : Writes P e e') : e.Good → e'.Good := by
  induction h with
  | refl => exact id
  | trans _ _ ih1 ih2 => exact ih2 ∘ ih1
  | setText e t _ => intro h; rw [good_iff] at h ⊢; exact h
  | setAttribute e k v _ => intro h; rw [good_iff] at h ⊢; exact h
  | setAttributes e d _ => intro h; rw [good_iff] at h ⊢; exact h
  | append e c hc =>
    intro h
    rw [good_iff] at h ⊢
    refine ⟨by simpa [Elem.append] using h.1, ?_⟩
    intro x hx
    simp only [Elem.append, List.mem_append, List.mem_singleton] at hx
    rcases hx with hx | rfl
    · exact h.2 x hx
    · exact hc
  | find e t m o e' hf =>
    exact good_rel.findElement hf
  | child e i c c' hc _ _ ih =>
    intro h
    have hcg := (good_iff.1 h).2 c (List.mem_of_getElem? hc)
    rw [good_iff] at h ⊢
    refine ⟨by simpa [setChild] using h.1, ?_⟩
    intro x hx
    rcases List.mem_or_eq_of_mem_set hx with hx | rfl
    · exact h.2 x hx
    · exact ih hcg

theorem makeElement_good (b : Backend) (t : String) (ns : Option NsMap) : (makeElement b t ns).Good := by
  rw [good_iff]; simp [makeElement]

theorem bind_ok {α β : Type} {o : Out α} {f : α → Out β} {b : β} (h : o.bind f = .ok b) : ∃ a, o = .ok a ∧ f a = .ok b := by
  cases o with
  | ok a => exact ⟨a, rfl, h⟩
  | verr e => cases h
  | crash e => cases h
  | diverge => cases h

theorem serText_writes {P : List String → Slot → Prop} (env : Env) (nl : Bool) (fl : Flags) (el : Elem) (v enc : Val)
    (h1 : P [] .text) (h2 : nl = true → P [] (.attr nilAttr)) : Writes P el (serText env nl fl el v enc) := by
  unfold serText
  split
  · exact .refl _
  · split
    · rename_i h
      simp only [Bool.and_eq_true] at h
      exact (Writes.setAttribute el _ _ (h2 h.1)).trans (.setText _ _ h1)
    · exact .setText _ _ h1

theorem serAttrs_writes {P : List String → Slot → Prop} {env : Env} {a : AttrsSer} {el el' : Elem} {v enc : Val}
    (h : serAttrs env a el v enc = .ok el') (h1 : P [] .attrs) : Writes P el el' := by
  unfold serAttrs at h
  split at h
  · injection h with h; subst h; exact .refl _
  · simp only at h
    split at h
    · injection h with h; subst h; exact .setAttributes _ _ h1
    · cases h

theorem appendUnlessEmpty_writes {P : List String → Slot → Prop} (fl : Flags) (el sub : Elem) (h : sub.Good) :
    Writes P el (appendUnlessEmpty fl el sub) := by
  unfold appendUnlessEmpty
  split
  · exact .refl _
  · exact .append _ _ h

theorem ascend_writes {b : Backend} {mode : Mode} {nsmap : Option NsMap} {f : Elem → Out Elem} (path : List String) :
    ∀ {P : List String → Slot → Prop} {el el' : Elem},
      (∀ el el', f el = .ok el' → Writes (fun p k => P (path ++ p) k) el el') →
      ascend b mode nsmap f path el = .ok el' → Writes P el el' := by
  induction path with
  | nil => intro P el el' hf h; exact hf _ _ h
  | cons t ts ih =>
    intro P el el' hf h
    unfold ascend at h
    cases hr : el.findElement t mode with
    | error e => rw [hr] at h; cases h
    | ok r =>
      rw [hr] at h
      obtain ⟨o, e1⟩ := r
      cases o with
      | some i =>
        obtain ⟨h1, c, h2, h3⟩ := findElement_index hr
        simp only [h2] at h
        obtain ⟨c', h4, h5⟩ := bind_ok h
        injection h5 with h5
        subst h5
        refine (Writes.find _ _ _ _ _ hr).trans (.child _ _ c c' h2 h1 ?_)
        rw [h3]
        exact ih (P := fun p k => P (t :: p) k) (fun x y hxy => hf x y hxy) h4
      | none =>
        simp only at h
        obtain ⟨c', h4, h5⟩ := bind_ok h
        injection h5 with h5
        subst h5
        refine (Writes.find _ _ _ _ _ hr).trans (.append _ _ ?_)
        exact (ih (P := fun p k => P (t :: p) k) (fun x y hxy => hf x y hxy) h4).good (makeElement_good _ _ _)

theorem serItems_writes {P : List String → Slot → Prop} {rec : Elem → Val → Val → Out Elem} {fl : Flags}
    (hrec : ∀ el v enc el', rec el v enc = .ok el' → Writes P el el') (vs encs : List Val) {el el' : Elem}
    (h : serItems rec fl vs encs el = .ok el') : Writes P el el' := by
  induction vs generalizing encs el with
  | nil => simp only [serItems] at h; injection h with h; subst h; exact .refl _
  | cons v vs ih =>
    cases encs with
    | nil => simp only [serItems] at h; injection h with h; subst h; exact .refl _
    | cons enc encs =>
      unfold serItems at h
      split at h
      · exact ih _ h
      · obtain ⟨e1, h1, h2⟩ := bind_ok h
        exact (hrec _ _ _ _ h1).trans (ih _ h2)

theorem serTuple_writes {P : List String → Slot → Prop} {rec : Ser → Elem → Val → Val → Out Elem} (ss : List Ser)
    (hrec : ∀ s ∈ ss, ∀ el v enc el', rec s el v enc = .ok el' → Writes P el el') (vs encs : List Val) {el el' : Elem}
    (h : serTuple rec ss vs encs el = .ok el') : Writes P el el' := by
  induction ss generalizing vs encs el with
  | nil => simp only [serTuple] at h; injection h with h; subst h; exact .refl _
  | cons s ss ih =>
    cases vs with
    | nil => simp only [serTuple] at h; injection h with h; subst h; exact .refl _
    | cons v vs =>
      cases encs with
      | nil => simp only [serTuple] at h; injection h with h; subst h; exact .refl _
      | cons enc encs =>
        unfold serTuple at h
        obtain ⟨e1, h1, h2⟩ := bind_ok h
        exact (hrec s (by simp) _ _ _ _ h1).trans (ih (fun s hs => hrec s (by simp [hs])) _ _ h2)

theorem serFields_writes {P : List String → Slot → Prop} {rec : Ser → Elem → Val → Val → Out Elem} {fl : Flags} {self : Val}
    {fields : Dict String Val} {set : List String} {enc : Val} (fs : List Field)
    (hrec : ∀ f ∈ fs, f.serializer = none → ∀ el v enc el', rec f.ser el v enc = .ok el' → Writes P el el')
    (hcust : ∀ f ∈ fs, ∀ g, f.serializer = some g → ∀ self el v el', g self el v = .ok el' → Writes P el el') {el el' : Elem}
    (h : serFields rec fl self fields set enc fs el = .ok el') : Writes P el el' := by
  induction fs generalizing el with
  | nil => simp only [serFields] at h; injection h with h; subst h; exact .refl _
  | cons f fs ih =>
    have ih' := fun {el : Elem} (h : serFields rec fl self fields set enc fs el = .ok el') =>
      ih (fun f hf => hrec f (by simp [hf])) (fun f hf => hcust f (by simp [hf])) h
    unfold serFields at h
    split at h
    · exact ih' h
    · split at h
      · exact ih' h
      · obtain ⟨e1, h1, h2⟩ := bind_ok h
        refine Writes.trans ?_ (ih' h2)
        cases hg : f.serializer with
        | some g =>
          rw [hg] at h1
          obtain ⟨v, _, h3⟩ := bind_ok h1
          exact hcust f (by simp) g hg _ _ _ _ h3
        | none =>
          rw [hg] at h1
          obtain ⟨v, _, h3⟩ := bind_ok h1
          obtain ⟨x, _, h4⟩ := bind_ok h3
          exact hrec f (by simp) hg _ _ _ _ h4

theorem serModel_writes {P : List String → Slot → Prop} {rec : Flags → Ser → Elem → Val → Val → Out Elem} {m : ModelSer}
    {fl : Flags} {v enc : Val} {el el' : Elem}
    (hrec : ∀ fs, m.body = .fields fs → ∀ f ∈ fs, f.serializer = none → ∀ fl el v enc el', rec fl f.ser el v enc = .ok el' →
      Writes P el el')
    (hcust : ∀ fs, m.body = .fields fs → ∀ f ∈ fs, ∀ g, f.serializer = some g → ∀ self el v el', g self el v = .ok el' →
      Writes P el el')
    (hroot : ∀ s, m.body = .root s → ∀ fl el v enc el', rec fl s el v enc = .ok el' → Writes P el el')
    (h : serModel rec m fl el v enc = .ok el') : Writes P el el' := by
  unfold serModel at h
  cases v with
  | none => simp only at h; injection h with h; subst h; exact .refl _
  | model cls fields set =>
    simp only at h
    cases hb : m.body with
    | fields fs =>
      simp only [hb] at h
      exact serFields_writes fs (fun f hf hn => hrec fs hb f hf hn _) (hcust fs hb) h
    | root s =>
      simp only [hb] at h
      split at h
      · injection h with h; subst h; exact .refl _
      · obtain ⟨rv, _, h1⟩ := bind_ok h
        exact hroot s hb _ _ _ _ _ h1
  | _ => cases h

/-- Writing a field uses the writer interface only, and sets texts and attributes only where the field has its place. -/
theorem ser_writes {env : Env} (hs : env.SerializersWrite) (n : Nat) (fl : Flags) (s : Ser) {el el' : Elem} {v enc : Val}
    (h : ser env n fl s el v enc = .ok el') : Writes s.Claims el el' := by
  induction n generalizing fl s el el' v enc with
  | zero => cases h
  | succ n ih =>
    change serStep env (ser env n) fl s el v enc = .ok el' at h
    cases s with
    | text c nl =>
      simp only [serStep] at h
      injection h with h; subst h
      exact serText_writes _ _ _ _ _ _ .text (fun h => by subst h; exact .nil)
    | attr k c =>
      simp only [serStep] at h
      split at h <;> (injection h with h; subst h)
      · exact .refl _
      · exact .setAttribute _ _ _ .attr
    | elem nm ns m c nl =>
      simp only [serStep] at h
      split at h <;> (injection h with h; subst h)
      · exact .refl _
      · exact appendUnlessEmpty_writes _ _ _
          ((serText_writes (P := anywhere) env nl fl _ v enc trivial (fun _ => trivial)).good (makeElement_good _ _ _))
    | attrs a => exact serAttrs_writes h .attrs
    | mapElem a nm m =>
      simp only [serStep] at h
      split at h
      · split at h
        · cases h
        · injection h with h; subst h; exact .refl _
        · obtain ⟨sub, h1, h2⟩ := bind_ok h
          injection h2 with h2; subst h2
          exact appendUnlessEmpty_writes _ _ _
            ((serAttrs_writes (P := anywhere) h1 trivial).good (makeElement_good _ _ _))
      · obtain ⟨sub, h1, h2⟩ := bind_ok h
        injection h2 with h2; subst h2
        exact .append _ _ ((serAttrs_writes (P := anywhere) h1 trivial).good (makeElement_good _ _ _))
    | raw nm m c =>
      simp only [serStep] at h
      split at h
      · injection h with h; subst h; exact .refl _
      · injection h with h; subst h
        exact appendUnlessEmpty_writes _ _ _ (fromNative_good _ _)
      · cases h
    | proxy p =>
      simp only [serStep] at h
      cases hm : env.model p.cls with
      | none => rw [hm] at h; cases h
      | some m =>
        simp only [hm] at h
        split at h
        · injection h with h; subst h; exact .refl _
        · split at h
          · injection h with h; subst h
            exact .append _ _ ((Writes.setAttribute (P := anywhere) _ _ _ trivial).good (makeElement_good _ _ _))
          · split at h
            · injection h with h; subst h; exact .refl _
            · obtain ⟨sub, h1, h2⟩ := bind_ok h
              injection h2 with h2; subst h2
              refine appendUnlessEmpty_writes _ _ _ ?_
              exact (serModel_writes (P := anywhere) (fun fs hb f hf _ fl el v enc el' h => (ih _ _ h).all)
                (fun fs hb f hf g hg self el v el' h => hs _ _ _ hm hb f hf g hg _ _ _ _ h)
                (fun s hb fl el v enc el' h => (ih _ _ h).all) h1).good (makeElement_good _ _ _)
    | primUnion c inner => exact (ih _ _ h).mono fun p k hp => .primUnion hp
    | modelUnion t c alts =>
      simp only [serStep] at h
      split at h
      · split at h
        · rename_i p hp
          refine (ih _ _ h).mono fun p' k hp' => ?_
          cases hp'
          exact .modelUnion (List.mem_of_find?_eq_some hp)
        · injection h with h; subst h; exact .refl _
      · injection h with h; subst h; exact .refl _
    | tagged c d a m alts =>
      simp only [serStep] at h
      split at h
      · split at h
        · split at h
          · injection h with h; subst h; exact .refl _
          · split at h
            · rename_i p hp
              refine (ih _ _ h).mono fun p' k hp' => ?_
              cases hp'
              exact .tagged (tp := (_, p)) (Dict.mem_of_get? hp)
            · cases h
        · injection h with h; subst h; exact .refl _
        · injection h with h; subst h; exact .refl _
        · cases h
      · cases h
    | wrap path ns m c inner =>
      simp only [serStep] at h
      split at h
      · injection h with h; subst h; exact .refl _
      · split at h
        · injection h with h; subst h; exact .refl _
        · exact ascend_writes path (fun x y hxy => (ih _ _ hxy).mono fun p k hp => .wrap hp) h
    | homog t c inner =>
      simp only [serStep] at h
      split at h
      · injection h with h; subst h; exact .refl _
      · split at h
        · exact serItems_writes (fun el v enc el' h => (ih _ _ h).mono fun p k hp => .homog hp) _ _ h
        · cases h
    | hetero t c inners =>
      simp only [serStep] at h
      split at h
      · injection h with h; subst h; exact .refl _
      · split at h
        · split at h
          · injection h with h; subst h; exact .refl _
          · split at h
            · cases h
            · exact serTuple_writes inners (fun s hs el v enc el' h => (ih _ _ h).mono fun p k hp => .hetero hs hp) _ _ h
        · cases h

end PXml
