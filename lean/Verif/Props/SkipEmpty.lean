import Verif.Props.Writing

/-!
# No empty elements with `skip_empty`: C19
-/

namespace PXml

open Elem

/-- All empty elements strictly below the element have a tag in `W`; no element has a tail. -/
inductive Elem.Solid (W : String → Prop) : Elem → Prop
  | mk {e : Elem} : e.tail = none → (∀ c ∈ e.elements, c.Solid W) → (∀ c ∈ e.elements, c.isEmpty = true → W c.tag) → e.Solid W

theorem solid_iff {W : String → Prop} {e : Elem} :
    e.Solid W ↔ e.tail = none ∧ (∀ c ∈ e.elements, c.Solid W) ∧ (∀ c ∈ e.elements, c.isEmpty = true → W c.tag) :=
  ⟨fun h => by cases h with | mk h1 h2 h3 => exact ⟨h1, h2, h3⟩, fun h => .mk h.1 h.2.1 h.2.2⟩

theorem solid_congr {W : String → Prop} {e e' : Elem} (h : e.Solid W) (h1 : e'.tail = e.tail) (h2 : ∀ c ∈ e'.elements, c ∈ e.elements) :
    e'.Solid W := by
  rw [solid_iff] at h ⊢
  exact ⟨h1 ▸ h.1, fun c hc => h.2.1 c (h2 c hc), fun c hc => h.2.2 c (h2 c hc)⟩

theorem swap_mem (l : List Elem) (i j : Nat) (c : Elem) (h : c ∈ swap l i j) : c ∈ l := by
  unfold swap at h
  split at h
  · rename_i x y hx hy
    rcases List.mem_or_eq_of_mem_set h with h | rfl
    · rcases List.mem_or_eq_of_mem_set h with h | rfl
      · exact h
      · exact List.mem_of_getElem? hy
    · exact List.mem_of_getElem? hx
  · exact h

theorem search_solid {W : String → Prop} {e : Elem} {t : String} {m : Mode} {b : Bool} (h : e.Solid W) :
    (e.search t m b).2.Solid W ∧ (e.search t m b).2.tag = e.tag := by
  cases m with
  | strict =>
    simp only [search, strictSearch]
    split
    · split
      · cases b
        · exact ⟨h, rfl⟩
        · exact ⟨solid_congr h rfl fun _ h => h, rfl⟩
      · exact ⟨h, rfl⟩
    · exact ⟨h, rfl⟩
  | ordered =>
    simp only [search, orderedSearch]
    split
    · cases b
      · exact ⟨h, rfl⟩
      · exact ⟨solid_congr h rfl fun _ h => h, rfl⟩
    · exact ⟨h, rfl⟩
  | unordered =>
    simp only [search, unorderedSearch]
    split
    · exact ⟨solid_congr h rfl fun _ h => swap_mem _ _ _ _ h, rfl⟩
    · exact ⟨h, rfl⟩

theorem findElement_solid {W : String → Prop} {e e' : Elem} {t : String} {m : Mode} {o : Option Nat} (h : e.Solid W)
    (hf : e.findElement t m = .ok (o, e')) : e'.Solid W ∧ e'.tag = e.tag := by
  unfold findElement at hf
  cases hl : e.lookBehind t with
  | error x => rw [hl] at hf; cases hf
  | ok b =>
    rw [hl] at hf
    simp only [bind, Except.bind] at hf
    split at hf
    · injection hf with hf; injection hf with _ hf; subst hf; exact ⟨h, rfl⟩
    · injection hf with hf
      have := search_solid (t := t) (m := m) (b := true) h
      rw [hf] at this
      exact this

theorem solid_append {W : String → Prop} {e c : Elem} (h : e.Solid W) (hc : c.Solid W) (he : c.isEmpty = true → W c.tag) :
    (e.append c).Solid W := by
  rw [solid_iff] at h ⊢
  refine ⟨h.1, ?_, ?_⟩
  · intro x hx
    simp only [Elem.append, List.mem_append, List.mem_singleton] at hx
    rcases hx with hx | rfl
    · exact h.2.1 x hx
    · exact hc
  · intro x hx
    simp only [Elem.append, List.mem_append, List.mem_singleton] at hx
    rcases hx with hx | rfl
    · exact h.2.2 x hx
    · exact he

theorem makeElement_solid (W : String → Prop) (b : Backend) (t : String) (ns : Option NsMap) : (makeElement b t ns).Solid W := by
  rw [solid_iff]; simp [makeElement]

/-- What is kept while writing. -/
def Keep (W : String → Prop) (e : Elem) (o : Out Elem) : Prop := ∀ e', o = .ok e' → e.Solid W → e'.Solid W ∧ e'.tag = e.tag

theorem Keep.id {W : String → Prop} {e : Elem} : Keep W e (.ok e) := by
  intro e' h hs; injection h with h; subst h; exact ⟨hs, rfl⟩

theorem Keep.bind {W : String → Prop} {e : Elem} {o : Out Elem} {f : Elem → Out Elem} (h : Keep W e o) (hf : ∀ a, Keep W a (f a)) :
    Keep W e (o.bind f) := by
  intro e' h1 hs
  obtain ⟨a, h2, h3⟩ := bind_ok h1
  obtain ⟨ha, ht⟩ := h a h2 hs
  obtain ⟨hb, ht'⟩ := hf a e' h3 ha
  exact ⟨hb, ht'.trans ht⟩

theorem Keep.pre {α : Type} {W : String → Prop} {e : Elem} {o : Out α} {f : α → Out Elem} (hf : ∀ a, Keep W e (f a)) :
    Keep W e (o.bind f) := by
  intro e' h1 hs
  obtain ⟨a, _, h3⟩ := bind_ok h1
  exact hf a e' h3 hs

theorem Keep.crash {W : String → Prop} {e : Elem} {x : PyErr} : Keep W e (.crash x) := by intro e' h; cases h

theorem Keep.here {W : String → Prop} {e e' : Elem} (h1 : e'.tail = e.tail) (h2 : e'.elements = e.elements) (h3 : e'.tag = e.tag) :
    Keep W e (.ok e') := by
  intro x h hs; injection h with h; subst h
  exact ⟨solid_congr hs h1 fun c hc => h2 ▸ hc, h3⟩

theorem Keep.unlessEmpty {W : String → Prop} {fl : Flags} (hfl : fl.skipEmpty = true) {e c : Elem} (hc : c.Solid W) :
    Keep W e (.ok (appendUnlessEmpty fl e c)) := by
  intro x h hs; injection h with h; subst h
  unfold appendUnlessEmpty
  rw [hfl]
  cases he : c.isEmpty with
  | true => exact ⟨hs, rfl⟩
  | false => exact ⟨solid_append hs hc (by rw [he]; intro h; cases h), rfl⟩

/-- A sub-element is built first, then appended unless empty. -/
theorem Keep.sub {W : String → Prop} {fl : Flags} (hfl : fl.skipEmpty = true) {e c : Elem} (hc : c.Solid W) {o : Out Elem}
    (ho : Keep W c o) : Keep W e (o.bind fun sub => .ok (appendUnlessEmpty fl e sub)) := by
  intro e' h1 hs
  obtain ⟨a, h2, h3⟩ := bind_ok h1
  exact Keep.unlessEmpty hfl (ho a h2 hc).1 e' h3 hs

theorem serText_keep (W : String → Prop) (env : Env) (nl : Bool) (fl : Flags) (e : Elem) (v enc : Val) :
    Keep W e (.ok (serText env nl fl e v enc)) := by
  unfold serText
  split
  · exact .id
  · split <;> exact .here rfl rfl rfl

theorem serAttrs_keep (W : String → Prop) (env : Env) (a : AttrsSer) (e : Elem) (v enc : Val) : Keep W e (serAttrs env a e v enc) := by
  unfold serAttrs
  split
  · exact .id
  · simp only
    split
    · exact .here rfl rfl rfl
    · exact .crash

theorem ascend_keep {W : String → Prop} (b : Backend) (mode : Mode) (ns : Option NsMap) {f : Elem → Out Elem} (hf : ∀ e, Keep W e (f e))
    (path : List String) (hp : ∀ t ∈ path, W t) (e : Elem) : Keep W e (ascend b mode ns f path e) := by
  induction path generalizing e with
  | nil => exact hf e
  | cons t ts ih =>
    have ih := ih fun x hx => hp x (by simp [hx])
    unfold ascend
    intro e' h hs
    cases hfe : e.findElement t mode with
    | error x => rw [hfe] at h; cases h
    | ok r =>
      obtain ⟨o, el⟩ := r
      obtain ⟨hel, htag⟩ := findElement_solid hs hfe
      rw [hfe] at h
      cases o with
      | none =>
        simp only at h
        obtain ⟨c, h2, h3⟩ := bind_ok h
        injection h3 with h3; subst h3
        obtain ⟨hc, hct⟩ := ih _ c h2 (makeElement_solid _ _ _ _)
        exact ⟨solid_append hel hc (fun _ => by rw [hct]; exact hp t (by simp)), htag⟩
      | some i =>
        simp only at h
        obtain ⟨_, c0, hc0, ht0⟩ := findElement_index hfe
        rw [hc0] at h
        simp only at h
        obtain ⟨c, h2, h3⟩ := bind_ok h
        injection h3 with h3; subst h3
        have hsol := solid_iff.1 hel
        obtain ⟨hc, hct⟩ := ih _ c h2 (hsol.2.1 c0 (List.mem_of_getElem? hc0))
        refine ⟨solid_iff.2 ⟨hsol.1, ?_, ?_⟩, htag⟩
        · intro x hx
          rcases List.mem_or_eq_of_mem_set hx with hx | rfl
          · exact hsol.2.1 x hx
          · exact hc
        · intro x hx
          rcases List.mem_or_eq_of_mem_set hx with hx | rfl
          · exact hsol.2.2 x hx
          · intro _; rw [hct, ht0]; exact hp t (by simp)

theorem serItems_keep {W : String → Prop} {f : Elem → Val → Val → Out Elem} (hf : ∀ e v enc, Keep W e (f e v enc)) (fl : Flags)
    (vs encs : List Val) (e : Elem) : Keep W e (serItems f fl vs encs e) := by
  induction vs generalizing encs e with
  | nil => exact .id
  | cons v vs ih =>
    cases encs with
    | nil => exact .id
    | cons enc encs =>
      unfold serItems
      split
      · exact ih _ _
      · exact (hf _ _ _).bind fun e => ih _ _

theorem serTuple_keep {W : String → Prop} {f : Ser → Elem → Val → Val → Out Elem} (ss : List Ser)
    (hf : ∀ s ∈ ss, ∀ e v enc, Keep W e (f s e v enc)) (vs encs : List Val) (e : Elem) : Keep W e (serTuple f ss vs encs e) := by
  induction ss generalizing vs encs e with
  | nil => exact .id
  | cons s ss ih =>
    cases vs with
    | nil => exact .id
    | cons v vs =>
      cases encs with
      | nil => exact .id
      | cons enc encs =>
        unfold serTuple
        exact (hf s (by simp) _ _ _).bind fun e => ih (fun s hs => hf s (by simp [hs])) _ _ _

theorem serFields_keep {W : String → Prop} {f : Ser → Elem → Val → Val → Out Elem} (fl : Flags) (self : Val) (fields : Dict String Val)
    (set : List String) (enc : Val) (fs : List Field) (hfs : ∀ x ∈ fs, x.serializer = none)
    (hf : ∀ x ∈ fs, ∀ e v enc, Keep W e (f x.ser e v enc)) (e : Elem) : Keep W e (serFields f fl self fields set enc fs e) := by
  induction fs generalizing e with
  | nil => exact .id
  | cons x fs ih =>
    have ih := fun e => ih (fun y hy => hfs y (by simp [hy])) (fun y hy => hf y (by simp [hy])) e
    unfold serFields
    rw [hfs x (by simp)]
    split
    · exact ih _
    · split
      · exact ih _
      · exact Keep.bind (Keep.pre fun v => Keep.pre fun y => hf x (by simp) _ _ _) ih

theorem serModel_keep {W : String → Prop} {f : Flags → Ser → Elem → Val → Val → Out Elem} {P : Ser → Prop}
    (hf : ∀ fl s e v enc, fl.skipEmpty = true → s.Everywhere P → Keep W e (f fl s e v enc))
    (m : ModelSer) (hm : ∀ fs, m.body = .fields fs → ∀ x ∈ fs, x.serializer = none) (he : m.Everywhere P) (hmf : m.skipEmpty ≠ some false)
    (fl : Flags) (hfl : fl.skipEmpty = true) (e : Elem) (v enc : Val) :
    Keep W e (serModel f m fl e v enc) := by
  have hfl' : m.skipEmpty.getD fl.skipEmpty = true := by
    cases h : m.skipEmpty with
    | none => simp [hfl]
    | some b => cases b <;> simp_all
  unfold serModel
  cases v with
  | none => exact .id
  | model cls fields set =>
    simp only
    cases hb : m.body with
    | fields fs =>
      simp only [ModelSer.Everywhere, hb] at he
      exact serFields_keep _ _ _ _ _ _ (hm fs hb) (fun x hx e v enc => hf _ _ _ _ _ hfl' (he x hx)) _
    | root s =>
      simp only [ModelSer.Everywhere, hb] at he
      simp only
      split
      · exact .id
      · exact .pre fun rv => hf _ _ _ _ _ hfl' he
  | _ => exact .crash

theorem ser_keep {W : String → Prop} (env : Env) (hns : env.NoSerializers)
    (hE : env.Everywhere fun s => s.NotRaw ∧ s.WrappersIn W)
    (hskip : ∀ cls m, env.model cls = some m → m.skipEmpty ≠ some false)
    (n : Nat) (fl : Flags) (s : Ser) (e : Elem) (v enc : Val) (hfl : fl.skipEmpty = true)
    (hs : s.Everywhere fun s => s.NotRaw ∧ s.WrappersIn W) :
    Keep W e (ser env n fl s e v enc) := by
  induction n generalizing fl s e v enc with
  | zero => intro e' h; cases h
  | succ n ih =>
    change Keep W e (serStep env (ser env n) fl s e v enc)
    cases s with
    | text c nl => exact serText_keep _ _ _ _ _ _ _
    | attr k c =>
      simp only [serStep]
      split
      · exact .id
      · exact .here rfl rfl rfl
    | elem nm ns m c nl =>
      simp only [serStep]
      split
      · exact .id
      · exact .unlessEmpty hfl ((serText_keep W env nl fl _ v enc) _ rfl (makeElement_solid _ _ _ _)).1
    | attrs a => exact serAttrs_keep _ _ _ _ _ _
    | mapElem a nm m =>
      simp only [serStep, hfl, if_true]
      split
      · exact .crash
      · exact .id
      · exact .sub hfl (makeElement_solid _ _ _ _) (serAttrs_keep _ _ _ _ _ _)
    | raw nm m c => simp [Ser.NotRaw] at hs
    | proxy p =>
      simp only [serStep]
      cases hm : env.model p.cls with
      | none => exact .crash
      | some m =>
        simp only
        split
        · exact .id
        · split
          · intro x h hel; injection h with h; subst h
            refine ⟨solid_append hel (solid_congr (makeElement_solid W env.backend p.name p.nsmap) rfl fun c h => h) ?_, rfl⟩
            intro h
            simp [isEmpty, makeNil, setAttribute, makeElement, truthyMap, Dict.set] at h
          · split
            · exact .id
            · exact .sub hfl (makeElement_solid _ _ _ _)
                (serModel_keep ih m (fun fs hb x hx => hns _ _ _ hm hb x hx) (hE _ _ hm) (hskip _ _ hm) fl hfl _ _ _)
    | primUnion c inner => exact ih _ _ _ _ _ hfl (by simp at hs; exact hs.2)
    | modelUnion t c alts =>
      simp only [Ser.everywhere_modelUnion] at hs
      cases v <;> simp only [serStep] <;> try exact .id
      split
      · rename_i p hp
        exact ih _ _ _ _ _ hfl (by simp; exact hs.2 p (List.mem_of_find?_eq_some hp))
      · exact .id
    | tagged c d a m alts =>
      simp only [Ser.everywhere_tagged] at hs
      simp only [serStep]
      split
      · split
        · split
          · exact .id
          · split
            · rename_i p hp
              exact ih _ _ _ _ _ hfl (by simp [Ser.NotRaw, Ser.WrappersIn])
            · exact .crash
        · exact .id
        · exact .id
        · exact .crash
      · exact .crash
    | wrap path ns m c inner =>
      simp only [Ser.everywhere_wrap] at hs
      simp only [serStep]
      split
      · exact .id
      · split
        · exact .id
        · exact ascend_keep _ _ _ (fun e => ih _ _ _ _ _ hfl hs.2) _ hs.1.2 _
    | homog t c inner =>
      simp only [Ser.everywhere_homog] at hs
      simp only [serStep]
      split
      · exact .id
      · split
        · exact serItems_keep (fun e v enc => ih _ _ _ _ _ hfl hs.2) _ _ _ _
        · exact .crash
    | hetero t c inners =>
      simp only [Ser.everywhere_hetero] at hs
      simp only [serStep]
      split
      · exact .id
      · split
        · split
          · exact .id
          · split
            · exact .crash
            · exact serTuple_keep _ (fun s hx e v enc => ih _ _ _ _ _ hfl (hs.2 s hx)) _ _ _
        · exact .crash

mutual
theorem solid_native {W : String → Prop} (b : Backend) (e : Elem) (h : e.Solid W) : (toNative b e).EmptyBelow W := by
  cases e with
  | mk tag nsmap text tail attrib elements next line =>
    rw [solid_iff] at h
    simp only [toNative, Node.EmptyBelow]
    exact solid_native_list b elements (fun c hc => ⟨h.2.1 c hc, h.2.2 c hc⟩)
theorem solid_native_list {W : String → Prop} (b : Backend) (l : List Elem) (h : ∀ c ∈ l, c.Solid W ∧ (c.isEmpty = true → W c.tag)) :
    Node.EmptyBelowList W (toNativeList b l) := by
  cases l with
  | nil => simp [toNativeList, Node.EmptyBelowList]
  | cons e l =>
    simp only [toNativeList, Node.EmptyBelowList]
    obtain ⟨hs, hw⟩ := h e (by simp)
    refine ⟨?_, solid_native b e hs, solid_native_list b l fun c hc => h c (by simp [hc])⟩
    intro t ht
    have htail := (solid_iff.1 hs).1
    cases e with
    | mk tag nsmap text tail attrib elements next line =>
      simp only [toNative, Node.Empty] at ht
      obtain ⟨rfl, h1, h2, h3⟩ := ht
      refine hw ?_
      simp only at htail
      subst htail
      have h3 : elements = [] := by cases elements with | nil => rfl | cons _ _ => cases h3
      have h4 : truthy text = false := by rcases h1 with rfl | rfl <;> rfl
      have h6 : truthy (none : Option String) = false := rfl
      have h5 : truthyMap attrib = false := by
        cases attrib with
        | none => rfl
        | some d => simp only [Option.getD_some] at h2; subst h2; rfl
      simp only [isEmpty, h3, h4, h5, h6]; rfl
end

/-- C19: with `skip_empty` the only empty elements of the output, the root aside, are elements around wrapped fields: `W` holds of
the names of these. Without wrapped fields `W` may be chosen as false, and there are no empty elements. -/
theorem C19_skip_empty_partial {W : String → Prop} (env : Env) (hns : env.NoSerializers)
    (hE : env.Everywhere fun s => s.NotRaw ∧ s.WrappersIn W)
    (hskip : ∀ cls m, env.model cls = some m → m.skipEmpty ≠ some false)
    (n : Nat) (fl : Flags) (hfl : fl.skipEmpty = true) (cls : String) (v : Val) (root : Node)
    (h : toXmlTree env n fl cls v = .ok root) : root.EmptyBelow W := by
  unfold toXmlTree at h
  cases hm : env.model cls with
  | none => rw [hm] at h; cases h
  | some m =>
    rw [hm] at h
    simp only at h
    obtain ⟨e, h1, h2⟩ := bind_ok h
    injection h2 with h2; subst h2
    refine solid_native _ _ (serModel_keep (ser_keep env hns hE hskip n) m (fun fs hb x hx => hns _ _ _ hm hb x hx) (hE _ _ hm)
      (hskip _ _ hm) fl hfl _ _ _ e h1 ?_).1
    rw [solid_iff]; simp

namespace Ex

/-- A person with an empty name, no mails and an empty phone number. -/
def blank : Val :=
  .model "Person"
    [("id", .str "7"), ("name", .str ""), ("nick", .none), ("mails", .list [.none, .str ""]), ("phone", .str ""),
     ("home", .model "Address" [("zip", .none), ("street", .none)] ["zip", "street"]), ("extra", .dict [])]
    ["id", "name", "mails", "phone", "home", "extra"]

/-- What is written: the identifier only. -/
theorem blank_written : toXmlTree env 9 { skipEmpty := true } "Person" blank = .ok (el "person" none [] [("id", "7")]) := rfl

/-- Non-vacuity of C19: the hypotheses hold of the example classes. -/
example : (el "person" none [] [("id", "7")]).EmptyBelow (fun t => t ∈ ["contact", "phones"]) :=
  C19_skip_empty_partial env noSerializers (by apply everywhere; simp [Ser.NotRaw, Ser.WrappersIn])
    (by apply model_cases <;> simp [address, person, tree, dog, cat, owner]) 9 _ rfl "Person" blank _ blank_written

/-- A class with a wrapped list, a class with a raw field, and a class that declares `skip_empty=False`. -/
def wrapClass : ModelSer where
  name := "W"
  elementName := "r"
  body := .fields [⟨"x", .wrap ["w"] none .strict false (.homog "W" false (.elem "x" none .strict false false)), none, false, none, none⟩]

def rawClass : ModelSer where
  name := "R"
  elementName := "r"
  body := .fields [⟨"x", .raw "x" .strict false, none, false, none, none⟩]

def keepClass : ModelSer where
  name := "K"
  elementName := "k"
  skipEmpty := some false
  body := .fields [⟨"x", .elem "x" none .strict false false, none, false, none, none⟩]

def skipEnv : Env where
  backend := .lxml
  model cls := if cls = "W" then some wrapClass else if cls = "R" then some rawClass else if cls = "K" then some keepClass else none
  validate := validate
  toJsonable := json
  reprOf _ := "..."

/-- C19 does not hold of wrapped fields: an element around a field that writes nothing stays. -/
theorem C19_counterexample_wrapped : ∃ root,
    toXmlTree skipEnv 9 { skipEmpty := true } "W" (.model "W" [("x", .list [.none])] ["x"]) = .ok root ∧
    ¬ root.EmptyBelow (fun _ => False) := by
  refine ⟨el "r" none [el "w"], rfl, ?_⟩
  simp [el, Node.EmptyBelow, Node.EmptyBelowList, Node.Empty]

/-- C19 does not hold of raw fields: elements inside a raw element are not looked at. -/
theorem C19_counterexample_raw : ∃ root,
    toXmlTree skipEnv 9 { skipEmpty := true } "R" (.model "R" [("x", .raw (el "x" none [el "y"]))] ["x"]) = .ok root ∧
    ¬ root.EmptyBelow (fun _ => False) := by
  refine ⟨el "r" none [el "x" none [el "y"]], rfl, ?_⟩
  simp [el, Node.EmptyBelow, Node.EmptyBelowList, Node.Empty]

/-- C19 does not hold of classes that declare `skip_empty=False`: the declaration takes precedence. -/
theorem C19_counterexample_declared : ∃ root,
    toXmlTree skipEnv 9 { skipEmpty := true } "K" (.model "K" [("x", .none)] ["x"]) = .ok root ∧
    ¬ root.EmptyBelow (fun _ => False) := by
  refine ⟨el "k" none [el "x" (some "")], rfl, ?_⟩
  simp [el, Node.EmptyBelow, Node.EmptyBelowList, Node.Empty]

end Ex

end PXml
