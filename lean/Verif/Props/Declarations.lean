import Verif.Props.Writing

/-!
# Namespace declarations of the output: C52
-/

namespace PXml

open Elem

/-- The tags and namespace maps of all elements strictly below the element are in `D`. -/
inductive Elem.Labelled (D : String → Option NsMap → Prop) : Elem → Prop
  | mk {e : Elem} : (∀ c ∈ e.elements, D c.tag c.nsmap) → (∀ c ∈ e.elements, c.Labelled D) → e.Labelled D

variable {D : String → Option NsMap → Prop}

theorem labelled_iff {e : Elem} : e.Labelled D ↔ (∀ c ∈ e.elements, D c.tag c.nsmap) ∧ (∀ c ∈ e.elements, c.Labelled D) :=
  ⟨fun h => by cases h with | mk h1 h2 => exact ⟨h1, h2⟩, fun h => .mk h.1 h.2⟩

theorem labelled_congr {e e' : Elem} (h : e.Labelled D) (h2 : ∀ c ∈ e'.elements, c ∈ e.elements) : e'.Labelled D := by
  rw [labelled_iff] at h ⊢
  exact ⟨fun c hc => h.1 c (h2 c hc), fun c hc => h.2 c (h2 c hc)⟩

theorem swap_mem' (l : List Elem) (i j : Nat) (c : Elem) (h : c ∈ swap l i j) : c ∈ l := by
  unfold swap at h
  split at h
  · rename_i x y hx hy
    rcases List.mem_or_eq_of_mem_set h with h | rfl
    · rcases List.mem_or_eq_of_mem_set h with h | rfl
      · exact h
      · exact List.mem_of_getElem? hy
    · exact List.mem_of_getElem? hx
  · exact h

/-- What a search leaves alone. -/
theorem search_same {e : Elem} {t : String} {m : Mode} {b : Bool} :
    (∀ c ∈ (e.search t m b).2.elements, c ∈ e.elements) ∧ (e.search t m b).2.tag = e.tag ∧ (e.search t m b).2.nsmap = e.nsmap := by
  cases m with
  | strict =>
    simp only [search, strictSearch]
    split
    · split
      · cases b <;> exact ⟨fun _ h => h, rfl, rfl⟩
      · exact ⟨fun _ h => h, rfl, rfl⟩
    · exact ⟨fun _ h => h, rfl, rfl⟩
  | ordered =>
    simp only [search, orderedSearch]
    split
    · cases b <;> exact ⟨fun _ h => h, rfl, rfl⟩
    · exact ⟨fun _ h => h, rfl, rfl⟩
  | unordered =>
    simp only [search, unorderedSearch]
    split
    · exact ⟨fun _ h => swap_mem' _ _ _ _ h, rfl, rfl⟩
    · exact ⟨fun _ h => h, rfl, rfl⟩

theorem findElement_same {e e' : Elem} {t : String} {m : Mode} {o : Option Nat} (hf : e.findElement t m = .ok (o, e')) :
    (∀ c ∈ e'.elements, c ∈ e.elements) ∧ e'.tag = e.tag ∧ e'.nsmap = e.nsmap := by
  unfold findElement at hf
  cases hl : e.lookBehind t with
  | error x => rw [hl] at hf; cases hf
  | ok b =>
    rw [hl] at hf
    simp only [bind, Except.bind] at hf
    split at hf
    · injection hf with hf; injection hf with _ hf; subst hf; exact ⟨fun _ h => h, rfl, rfl⟩
    · injection hf with hf
      have := search_same (e := e) (t := t) (m := m) (b := true)
      rw [hf] at this
      exact this

theorem labelled_append {e c : Elem} (h : e.Labelled D) (hd : D c.tag c.nsmap) (hc : c.Labelled D) : (e.append c).Labelled D := by
  rw [labelled_iff] at h ⊢
  constructor
  · intro x hx
    simp only [Elem.append, List.mem_append, List.mem_singleton] at hx
    rcases hx with hx | rfl
    · exact h.1 x hx
    · exact hd
  · intro x hx
    simp only [Elem.append, List.mem_append, List.mem_singleton] at hx
    rcases hx with hx | rfl
    · exact h.2 x hx
    · exact hc

theorem makeElement_labelled (b : Backend) (t : String) (ns : Option NsMap) : (makeElement b t ns).Labelled D := by
  rw [labelled_iff]; simp [makeElement]

/-- The namespace map a new element gets. -/
def given : Backend → Option NsMap → Option NsMap
  | .lxml, ns => ns
  | .std, _ => none

theorem makeElement_given (b : Backend) (t : String) (ns : Option NsMap) :
    (makeElement b t ns).tag = t ∧ (makeElement b t ns).nsmap = given b ns := by
  cases b <;> exact ⟨rfl, rfl⟩

/-- What is kept while writing. -/
def Label (D : String → Option NsMap → Prop) (e : Elem) (o : Out Elem) : Prop :=
  ∀ e', o = .ok e' → e.Labelled D → e'.Labelled D ∧ e'.tag = e.tag ∧ e'.nsmap = e.nsmap

theorem Label.id {e : Elem} : Label D e (.ok e) := by
  intro e' h hs; injection h with h; subst h; exact ⟨hs, rfl, rfl⟩

theorem Label.bind {e : Elem} {o : Out Elem} {f : Elem → Out Elem} (h : Label D e o) (hf : ∀ a, Label D a (f a)) :
    Label D e (o.bind f) := by
  intro e' h1 hs
  obtain ⟨a, h2, h3⟩ := bind_ok h1
  obtain ⟨ha, ht, hn⟩ := h a h2 hs
  obtain ⟨hb, ht', hn'⟩ := hf a e' h3 ha
  exact ⟨hb, ht'.trans ht, hn'.trans hn⟩

theorem Label.pre {α : Type} {e : Elem} {o : Out α} {f : α → Out Elem} (hf : ∀ a, Label D e (f a)) : Label D e (o.bind f) := by
  intro e' h1 hs
  obtain ⟨a, _, h3⟩ := bind_ok h1
  exact hf a e' h3 hs

theorem Label.crash {e : Elem} {x : PyErr} : Label D e (.crash x) := by intro e' h; cases h

theorem Label.here {e e' : Elem} (h2 : e'.elements = e.elements) (h3 : e'.tag = e.tag) (h4 : e'.nsmap = e.nsmap) :
    Label D e (.ok e') := by
  intro x h hs; injection h with h; subst h
  exact ⟨labelled_congr hs fun c hc => h2 ▸ hc, h3, h4⟩

theorem Label.append {e c : Elem} (hd : D c.tag c.nsmap) (hc : c.Labelled D) : Label D e (.ok (e.append c)) := by
  intro x h hs; injection h with h; subst h
  exact ⟨labelled_append hs hd hc, rfl, rfl⟩

theorem Label.unlessEmpty {fl : Flags} {e c : Elem} (hd : D c.tag c.nsmap) (hc : c.Labelled D) :
    Label D e (.ok (appendUnlessEmpty fl e c)) := by
  unfold appendUnlessEmpty
  split
  · exact .id
  · exact .append hd hc

/-- A sub-element is built first, then appended. -/
theorem Label.sub {e c : Elem} (hd : D c.tag c.nsmap) (hc : c.Labelled D) {o : Out Elem} (ho : Label D c o) {f : Elem → Out Elem}
    (hf : ∀ a : Elem, D a.tag a.nsmap → a.Labelled D → Label D e (f a)) : Label D e (o.bind f) := by
  intro e' h1 hs
  obtain ⟨a, h2, h3⟩ := bind_ok h1
  obtain ⟨h4, h5, h6⟩ := ho a h2 hc
  exact hf a (by rw [h5, h6]; exact hd) h4 e' h3 hs

theorem serText_label (env : Env) (nl : Bool) (fl : Flags) (e : Elem) (v enc : Val) :
    Label D e (.ok (serText env nl fl e v enc)) := by
  unfold serText
  split
  · exact .id
  · split <;> exact .here rfl rfl rfl

theorem serAttrs_label (env : Env) (a : AttrsSer) (e : Elem) (v enc : Val) : Label D e (serAttrs env a e v enc) := by
  unfold serAttrs
  split
  · exact .id
  · simp only
    split
    · exact .here rfl rfl rfl
    · exact .crash

theorem ascend_label (b : Backend) (mode : Mode) (ns : Option NsMap) {f : Elem → Out Elem} (hf : ∀ e, Label D e (f e))
    (path : List String) (hp : ∀ t ∈ path, D t (given b ns)) (e : Elem) : Label D e (ascend b mode ns f path e) := by
  induction path generalizing e with
  | nil => exact hf e
  | cons t ts ih =>
    have ih := ih fun x hx => hp x (by simp [hx])
    unfold ascend
    intro e' h hs
    cases hfe : e.findElement t mode with
    | error x => rw [hfe] at h; cases h
    | ok r =>
      obtain ⟨o, el⟩ := r
      obtain ⟨hel, htag, hns⟩ := findElement_same hfe
      have hel := labelled_congr hs hel
      rw [hfe] at h
      cases o with
      | none =>
        simp only at h
        obtain ⟨c, h2, h3⟩ := bind_ok h
        injection h3 with h3; subst h3
        obtain ⟨hc, hct, hcn⟩ := ih _ c h2 (makeElement_labelled _ _ _)
        obtain ⟨g1, g2⟩ := makeElement_given b t ns
        exact ⟨labelled_append hel (by rw [hct, hcn, g1, g2]; exact hp t (by simp)) hc, htag, hns⟩
      | some i =>
        simp only at h
        obtain ⟨_, c0, hc0, _⟩ := findElement_index hfe
        rw [hc0] at h
        simp only at h
        obtain ⟨c, h2, h3⟩ := bind_ok h
        injection h3 with h3; subst h3
        obtain ⟨s1, s2⟩ := labelled_iff.1 hel
        have hmem := List.mem_of_getElem? hc0
        obtain ⟨hc, hct, hcn⟩ := ih _ c h2 (s2 c0 hmem)
        refine ⟨labelled_iff.2 ⟨?_, ?_⟩, htag, hns⟩
        · intro x hx
          rcases List.mem_or_eq_of_mem_set hx with hx | rfl
          · exact s1 x hx
          · rw [hct, hcn]; exact s1 c0 hmem
        · intro x hx
          rcases List.mem_or_eq_of_mem_set hx with hx | rfl
          · exact s2 x hx
          · exact hc

theorem serItems_label {f : Elem → Val → Val → Out Elem} (hf : ∀ e v enc, Label D e (f e v enc)) (fl : Flags)
    (vs encs : List Val) (e : Elem) : Label D e (serItems f fl vs encs e) := by
  induction vs generalizing encs e with
  | nil => exact .id
  | cons v vs ih =>
    cases encs with
    | nil => exact .id
    | cons enc encs =>
      unfold serItems
      split
      · exact ih _ _
      · exact (hf _ _ _).bind fun e => ih _ _

theorem serTuple_label {f : Ser → Elem → Val → Val → Out Elem} (ss : List Ser)
    (hf : ∀ s ∈ ss, ∀ e v enc, Label D e (f s e v enc)) (vs encs : List Val) (e : Elem) : Label D e (serTuple f ss vs encs e) := by
  induction ss generalizing vs encs e with
  | nil => exact .id
  | cons s ss ih =>
    cases vs with
    | nil => exact .id
    | cons v vs =>
      cases encs with
      | nil => exact .id
      | cons enc encs =>
        unfold serTuple
        exact (hf s (by simp) _ _ _).bind fun e => ih (fun s hs => hf s (by simp [hs])) _ _ _

theorem serFields_label {f : Ser → Elem → Val → Val → Out Elem} (fl : Flags) (self : Val) (fields : Dict String Val)
    (set : List String) (enc : Val) (fs : List Field) (hfs : ∀ x ∈ fs, x.serializer = none)
    (hf : ∀ x ∈ fs, ∀ e v enc, Label D e (f x.ser e v enc)) (e : Elem) : Label D e (serFields f fl self fields set enc fs e) := by
  induction fs generalizing e with
  | nil => exact .id
  | cons x fs ih =>
    have ih := fun e => ih (fun y hy => hfs y (by simp [hy])) (fun y hy => hf y (by simp [hy])) e
    unfold serFields
    rw [hfs x (by simp)]
    split
    · exact ih _
    · split
      · exact ih _
      · exact Label.bind (Label.pre fun v => Label.pre fun y => hf x (by simp) _ _ _) ih

theorem serModel_label {f : Flags → Ser → Elem → Val → Val → Out Elem} {P : Ser → Prop}
    (hf : ∀ fl s e v enc, s.Everywhere P → Label D e (f fl s e v enc))
    (m : ModelSer) (hm : ∀ fs, m.body = .fields fs → ∀ x ∈ fs, x.serializer = none) (he : m.Everywhere P)
    (fl : Flags) (e : Elem) (v enc : Val) : Label D e (serModel f m fl e v enc) := by
  unfold serModel
  cases v with
  | none => exact .id
  | model cls fields set =>
    simp only
    cases hb : m.body with
    | fields fs =>
      simp only [ModelSer.Everywhere, hb] at he
      exact serFields_label _ _ _ _ _ _ (hm fs hb) (fun x hx e v enc => hf _ _ _ _ _ (he x hx)) _
    | root s =>
      simp only [ModelSer.Everywhere, hb] at he
      simp only
      split
      · exact .id
      · exact .pre fun rv => hf _ _ _ _ _ he
  | _ => exact .crash

mutual
theorem fromNative_labelled (hD : ∀ t, D t none) (b : Backend) (n : Node) :
    (fromNative b n).Labelled D ∧ (fromNative b n).nsmap = none := by
  cases n with
  | elem tag attrib nsmap text tail children line =>
    simp only [fromNative]
    refine ⟨?_, trivial⟩
    rw [labelled_iff]
    exact ⟨fun c hc => (fromNativeList_labelled hD b children c hc).2 ▸ hD _, fun c hc => (fromNativeList_labelled hD b children c hc).1⟩
  | comment text tail => simp only [fromNative]; rw [labelled_iff]; simp
  | pi text tail => simp only [fromNative]; rw [labelled_iff]; simp
theorem fromNativeList_labelled (hD : ∀ t, D t none) (b : Backend) (l : List Node) :
    ∀ c ∈ fromNativeList b l, c.Labelled D ∧ c.nsmap = none := by
  cases l with
  | nil => simp [fromNativeList]
  | cons n l =>
    intro c hc
    simp only [fromNativeList] at hc
    split at hc
    · exact fromNativeList_labelled hD b l c hc
    · rcases List.mem_cons.1 hc with rfl | hc
      · exact fromNative_labelled hD b n
      · exact fromNativeList_labelled hD b l c hc
end

theorem ser_label (env : Env) (hns : env.NoSerializers)
    (hE : env.Everywhere (Ser.Makes fun t ns => D t (given env.backend ns)))
    (n : Nat) (fl : Flags) (s : Ser) (e : Elem) (v enc : Val)
    (hs : s.Everywhere (Ser.Makes fun t ns => D t (given env.backend ns))) :
    Label D e (ser env n fl s e v enc) := by
  have hg : ∀ t ns, D t (given env.backend ns) → D (makeElement env.backend t ns).tag (makeElement env.backend t ns).nsmap := by
    intro t ns h
    rw [(makeElement_given env.backend t ns).1, (makeElement_given env.backend t ns).2]; exact h
  induction n generalizing fl s e v enc with
  | zero => intro e' h; cases h
  | succ n ih =>
    change Label D e (serStep env (ser env n) fl s e v enc)
    cases s with
    | text c nl => exact serText_label _ _ _ _ _ _
    | attr k c =>
      simp only [serStep]
      split
      · exact .id
      · exact .here rfl rfl rfl
    | elem nm ns m c nl =>
      simp only [Ser.everywhere_elem, Ser.Makes] at hs
      simp only [serStep]
      split
      · exact .id
      · obtain ⟨h1, h2, h3⟩ := (serText_label (D := D) env nl fl _ v enc) _ rfl (makeElement_labelled env.backend nm ns)
        exact .unlessEmpty (by rw [h2, h3]; exact hg _ _ hs) h1
    | attrs a => exact serAttrs_label _ _ _ _ _
    | mapElem a nm m =>
      simp only [Ser.everywhere_mapElem, Ser.Makes] at hs
      simp only [serStep]
      split
      · split
        · exact .crash
        · exact .id
        · exact .sub (hg _ _ hs) (makeElement_labelled _ _ _) (serAttrs_label _ _ _ _ _) fun a h1 h2 => .unlessEmpty h1 h2
      · exact .sub (hg _ _ hs) (makeElement_labelled _ _ _) (serAttrs_label _ _ _ _ _) fun a h1 h2 => .append h1 h2
    | raw nm m c =>
      simp only [Ser.everywhere_raw, Ser.Makes] at hs
      have hs : ∀ t, D t none := fun t => by
        have := hs t
        cases hb : env.backend <;> rw [hb] at this <;> exact this
      simp only [serStep]
      cases v with
      | none => exact .id
      | raw node =>
        obtain ⟨h1, h2⟩ := fromNative_labelled hs env.backend node
        exact .unlessEmpty (h2 ▸ hs _) h1
      | _ => exact .crash
    | proxy p =>
      simp only [Ser.everywhere_proxy, Ser.Makes] at hs
      simp only [serStep]
      cases hm : env.model p.cls with
      | none => exact .crash
      | some m =>
        simp only
        split
        · exact .id
        · split
          · refine .append (c := (makeElement env.backend p.name p.nsmap).makeNil) (hg _ _ hs) ?_
            exact labelled_congr (makeElement_labelled env.backend p.name p.nsmap) fun c h => h
          · split
            · exact .id
            · exact .sub (hg _ _ hs) (makeElement_labelled _ _ _)
                (serModel_label ih m (fun fs hb x hx => hns _ _ _ hm hb x hx) (hE _ _ hm) fl _ _ _) fun a h1 h2 => .unlessEmpty h1 h2
    | primUnion c inner => exact ih _ _ _ _ _ (by simp at hs; exact hs.2)
    | modelUnion t c alts =>
      simp only [Ser.everywhere_modelUnion] at hs
      cases v <;> simp only [serStep] <;> try exact .id
      split
      · rename_i p hp
        exact ih _ _ _ _ _ (by simp; exact hs.2 p (List.mem_of_find?_eq_some hp))
      · exact .id
    | tagged c d a m alts =>
      simp only [Ser.everywhere_tagged] at hs
      simp only [serStep]
      split
      · split
        · split
          · exact .id
          · split
            · rename_i p hp
              refine ih _ _ _ _ _ (by simp; exact hs.2 (_, p) (Dict.mem_of_get? hp))
            · exact .crash
        · exact .id
        · exact .id
        · exact .crash
      · exact .crash
    | wrap path ns m c inner =>
      simp only [Ser.everywhere_wrap] at hs
      simp only [serStep]
      split
      · exact .id
      · split
        · exact .id
        · exact ascend_label _ _ _ (fun e => ih _ _ _ _ _ hs.2) _ hs.1 _
    | homog t c inner =>
      simp only [Ser.everywhere_homog] at hs
      simp only [serStep]
      split
      · exact .id
      · split
        · exact serItems_label (fun e v enc => ih _ _ _ _ _ hs.2) _ _ _ _
        · exact .crash
    | hetero t c inners =>
      simp only [Ser.everywhere_hetero] at hs
      simp only [serStep]
      split
      · exact .id
      · split
        · split
          · exact .id
          · split
            · exact .crash
            · exact serTuple_label _ (fun s hx e v enc => ih _ _ _ _ _ (hs.2 s hx)) _ _ _
        · exact .crash

mutual
theorem labelled_native (b : Backend) (e : Elem) (h : e.Labelled D) :
    (toNative b e).DeclaresBelow fun t ns => ∃ o, D t o ∧ ns = nativeNsmap b o := by
  cases e with
  | mk tag nsmap text tail attrib elements next line =>
    rw [labelled_iff] at h
    simp only [toNative, Node.DeclaresBelow]
    exact labelled_native_list b elements (fun c hc => ⟨h.1 c hc, h.2 c hc⟩)
theorem labelled_native_list (b : Backend) (l : List Elem) (h : ∀ c ∈ l, D c.tag c.nsmap ∧ c.Labelled D) :
    Node.DeclaresBelowList (fun t ns => ∃ o, D t o ∧ ns = nativeNsmap b o) (toNativeList b l) := by
  cases l with
  | nil => simp [toNativeList, Node.DeclaresBelowList]
  | cons e l =>
    simp only [toNativeList, Node.DeclaresBelowList]
    obtain ⟨hd, hs⟩ := h e (by simp)
    refine ⟨⟨e.nsmap, ?_, ?_⟩, labelled_native b e hs, labelled_native_list b l fun c hc => h c (by simp [hc])⟩
    · cases e; exact hd
    · cases e; rfl
end

theorem toXmlTree_label (env : Env) (hns : env.NoSerializers)
    (hE : env.Everywhere (Ser.Makes fun t ns => D t (given env.backend ns)))
    (n : Nat) (fl : Flags) (cls : String) (v : Val) (m : ModelSer) (hm : env.model cls = some m) (root : Node)
    (h : toXmlTree env n fl cls v = .ok root) :
    root.declared = nativeNsmap env.backend m.nsmap ∧
      root.DeclaresBelow fun t ns => ∃ o, D t o ∧ ns = nativeNsmap env.backend o := by
  unfold toXmlTree at h
  rw [hm] at h
  simp only at h
  obtain ⟨e, h1, h2⟩ := bind_ok h
  injection h2 with h2; subst h2
  obtain ⟨h3, h4, h5⟩ := serModel_label (ser_label env hns hE n) m (fun fs hb x hx => hns _ _ _ hm hb x hx) (hE _ _ hm)
    fl { tag := m.elementName, nsmap := m.nsmap } v (env.toJsonable v) e h1 (by rw [labelled_iff]; simp)
  refine ⟨?_, labelled_native _ _ h3⟩
  cases e with
  | mk tag nsmap text tail attrib elements next line => simp only [toNative, Node.declared]; simp only at h5; rw [h5]

mutual
theorem declares_mono {P Q : String → NsMap → Prop} (h : ∀ t ns, P t ns → Q t ns) (n : Node) (hn : n.DeclaresBelow P) :
    n.DeclaresBelow Q := by
  cases n with
  | elem tag attrib nsmap text tail children line =>
    simp only [Node.DeclaresBelow] at hn ⊢; exact declares_mono_list h children hn
  | comment _ _ => trivial
  | pi _ _ => trivial
theorem declares_mono_list {P Q : String → NsMap → Prop} (h : ∀ t ns, P t ns → Q t ns) (l : List Node)
    (hn : Node.DeclaresBelowList P l) : Node.DeclaresBelowList Q l := by
  cases l with
  | nil => trivial
  | cons n l =>
    simp only [Node.DeclaresBelowList] at hn ⊢
    exact ⟨h _ _ hn.1, declares_mono h n hn.2.1, declares_mono_list h l hn.2.2⟩
end

/-- C52, with lxml: the root element of the output declares the namespaces of its class, and every element below declares
exactly the namespaces that a field of that name writes elements with. `D` holds of the names and namespace maps in the fields
of all classes. -/
theorem C52_declared_lxml (env : Env) (hb : env.backend = .lxml) (hns : env.NoSerializers) (hE : env.Everywhere (Ser.Makes D))
    (n : Nat) (fl : Flags) (cls : String) (v : Val) (m : ModelSer) (hm : env.model cls = some m) (root : Node)
    (h : toXmlTree env n fl cls v = .ok root) :
    root.declared = m.nsmap.getD [] ∧ root.DeclaresBelow fun t ns => ∃ o, D t o ∧ ns = o.getD [] := by
  obtain ⟨h1, h2⟩ := toXmlTree_label (D := D) env hns (by rw [hb]; exact hE) n fl cls v m hm root h
  rw [hb] at h1 h2
  refine ⟨?_, declares_mono ?_ root h2⟩
  · rw [h1]; cases m.nsmap <;> rfl
  · rintro t ns ⟨o, h3, rfl⟩
    exact ⟨o, h3, by cases o <;> rfl⟩

/-- C52, with the standard library: the output declares no namespaces, prefixes are chosen on printing. -/
theorem C52_declared_std (env : Env) (hb : env.backend = .std) (hns : env.NoSerializers)
    (n : Nat) (fl : Flags) (cls : String) (v : Val) (root : Node) (h : toXmlTree env n fl cls v = .ok root) :
    root.declared = [] ∧ root.DeclaresBelow fun _ ns => ns = [] := by
  cases hm : env.model cls with
  | none => unfold toXmlTree at h; rw [hm] at h; cases h
  | some m =>
    obtain ⟨h1, h2⟩ := toXmlTree_label (D := fun _ _ => True) env hns
      (fun cls m hm => by
        have hall : ∀ s : Ser, s.Everywhere (Ser.Makes fun _ _ => True) :=
          Ser.everywhere_of_all fun s => by cases s <;> simp [Ser.Makes]
        unfold ModelSer.Everywhere
        cases m.body with
        | fields fs => exact fun f _ => hall _
        | root s => exact hall _) n fl cls v m hm root h
    rw [hb] at h1 h2
    exact ⟨h1, declares_mono (by rintro t ns ⟨o, -, rfl⟩; rfl) root h2⟩

namespace Ex

/-- `class Doc(BaseXmlModel, ns='a', nsmap={'a': 'urn:a'})` with a field in another namespace, wrapped, with a map of its own. -/
def nsDoc : ModelSer where
  name := "Doc"
  elementName := "{urn:a}doc"
  nsmap := some [("a", "urn:a")]
  body := .fields [
    { name := "x", ser := .elem "{urn:a}x" (some [("a", "urn:a")]) .strict false false },
    { name := "y", ser := .wrap ["{urn:b}w"] (some [("b", "urn:b"), ("a", "urn:a")]) .strict false
        (.elem "{urn:b}y" (some [("b", "urn:b"), ("a", "urn:a")]) .strict false false) }]

def nsEnv (b : Backend) : Env where
  backend := b
  model cls := if cls = "Doc" then some nsDoc else none
  validate := validate
  toJsonable := json
  reprOf _ := "..."

/-- The pairs of names and namespace maps of its fields. -/
def nsPairs (t : String) (o : Option NsMap) : Prop :=
  (t = "{urn:a}x" ∧ o = some [("a", "urn:a")]) ∨
  ((t = "{urn:b}w" ∨ t = "{urn:b}y") ∧ o = some [("b", "urn:b"), ("a", "urn:a")])

def nsVal : Val := .model "Doc" [("x", .str "1"), ("y", .str "2")] ["x", "y"]

def nsTree : Node :=
  .elem "{urn:a}doc" [] [("a", "urn:a")] none none
    [.elem "{urn:a}x" [] [("a", "urn:a")] (some "1") none [] none,
     .elem "{urn:b}w" [] [("b", "urn:b"), ("a", "urn:a")] none none
       [.elem "{urn:b}y" [] [("b", "urn:b"), ("a", "urn:a")] (some "2") none [] none] none] none

theorem nsWritten : toXmlTree (nsEnv .lxml) 9 {} "Doc" nsVal = .ok nsTree := rfl

theorem nsNoSerializers (b : Backend) : (nsEnv b).NoSerializers := by
  intro cls m fs hm hb f hf
  simp only [nsEnv] at hm
  split at hm
  · injection hm with hm; subst hm
    simp only [nsDoc, Body.fields.injEq] at hb
    subst hb
    simp at hf
    rcases hf with rfl | rfl <;> rfl
  · cases hm

theorem nsMakes (b : Backend) : (nsEnv b).Everywhere (Ser.Makes nsPairs) := by
  intro cls m hm
  simp only [nsEnv] at hm
  split at hm
  · injection hm with hm; subst hm
    simp [ModelSer.Everywhere, nsDoc, Ser.Makes, nsPairs]
  · cases hm

/-- Non-vacuity of C52. -/
example : nsTree.declared = [("a", "urn:a")] ∧ nsTree.DeclaresBelow fun t ns => ∃ o, nsPairs t o ∧ ns = o.getD [] :=
  C52_declared_lxml (nsEnv .lxml) rfl (nsNoSerializers _) (nsMakes _) 9 {} "Doc" nsVal nsDoc rfl nsTree nsWritten

example : ∃ root, toXmlTree (nsEnv .std) 9 {} "Doc" nsVal = .ok root ∧ root.declared = [] ∧ root.DeclaresBelow fun _ ns => ns = [] :=
  ⟨_, rfl, C52_declared_std (nsEnv .std) rfl (nsNoSerializers _) 9 {} "Doc" nsVal _ rfl⟩

end Ex

end PXml
