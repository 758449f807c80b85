import Verif.Lemmas.HeapVal
import Verif.Lemmas.HeapDeser

/-! Writing with object identity does what writing with values does. -/

namespace PXml
namespace Heap

section
variable {h h' : Store} {e : Elem} {a la : Addr} {F : Addr → Prop} {da : Option Addr} {as : List Addr} {G : Addr → Addr → Prop}

/-! ## Operations -/

theorem setText_step (r : IsTree h e a F) (t : String) : Step h a F (h.setText a t) (e.setText t) := by
  obtain ⟨da, la, as, G, v⟩ := r.view
  simp only [Store.setText, v.modify]
  exact ⟨F, (v.assign (e' := e.setText t) rfl rfl).tree, ext_set r.root, fun _ => .inl⟩

/-- The object gets another dictionary. -/
theorem View.setAttrib (v : View h e a F da la as G) {x : Addr} {d : Dict String String} (hx : h[x]? = some (.dict d))
    (hn : ¬ F x) {e' : Elem} (h1 : e'.attrib = some d) (h2 : e'.elements = e.elements) :
    View (h.set a (.obj ⟨e'.tag, e'.nsmap, e'.text, e'.tail, some x, la, e'.next, e'.line⟩)) e' a
      (fun y => y = a ∨ y = la ∨ some x = some y ∨ ∃ b ∈ as, G b y) (some x) la as G := by
  have hxa : x ≠ a := by rintro rfl; exact hn v.tree.root
  refine ⟨List.getElem?_set_self (lt_of_some v.obj), ?_, ?_, ?_, ?_, fun _ => Iff.rfl⟩
  · rw [set_same v.ne_list]; exact v.list
  · rw [h1]; exact (set_same hxa).trans hx
  · rw [h2]; exact v.kids.frame fun b hb y hy => set_same (v.out b hb y hy).1
  · intro b hb y hy
    refine ⟨(v.out b hb y hy).1, (v.out b hb y hy).2.1, fun hxy => ?_⟩
    cases hxy
    exact hn ((v.foot x).2 (.inr (.inr (.inr ⟨b, hb, hy⟩))))

/-- The object gets a new dictionary. -/
theorem View.newAttrib (v : View h e a F da la as G) (d : Dict String String) {e' : Elem} (h1 : e'.attrib = some d)
    (h2 : e'.elements = e.elements) {f : Obj → Obj}
    (hf : f ⟨e.tag, e.nsmap, e.text, e.tail, da, la, e.next, e.line⟩ =
      ⟨e'.tag, e'.nsmap, e'.text, e'.tail, some h.length, la, e'.next, e'.line⟩) :
    Step h a F (Store.modify (h ++ [.dict d]) a f) e' := by
  have g : Grow h (h ++ [.dict d]) := grow_append _
  have v' := v.grow g
  rw [v'.modify, hf]
  refine ⟨_, (v'.setAttrib (get_new _) (fun hF => Nat.lt_irrefl _ (v.tree.lt hF)) h1 h2).tree,
    Ext.trans g.ext (fun _ => .inl) (ext_set v.tree.root), ?_⟩
  rintro x (rfl | rfl | hx | hx)
  · exact .inl v.tree.root
  · exact .inl ((v.foot _).2 (.inr (.inl rfl)))
  · cases hx; exact .inr (Nat.le_refl _)
  · exact .inl ((v.foot _).2 (.inr (.inr (.inr hx))))

theorem setAttributes_step (r : IsTree h e a F) (d : Dict String String) : Step h a F (h.setAttributes a d) (e.setAttributes d) := by
  obtain ⟨da, la, as, G, v⟩ := r.view
  exact v.newAttrib d (e' := e.setAttributes d) rfl rfl rfl

theorem setAttribute_step (r : IsTree h e a F) (k t : String) : Step h a F (h.setAttribute a k t) (e.setAttribute k t) := by
  obtain ⟨da, la, as, G, v⟩ := r.view
  have hd := v.dict
  simp only [Store.setAttribute, v.obj?, Option.bind_some]
  cases hda : da with
  | none =>
    cases he : e.attrib with
    | some d => rw [hda, he] at hd; exact absurd hd id
    | none =>
      subst hda
      exact v.newAttrib (Dict.set [] k t) (e' := e.setAttribute k t) (by simp [Elem.setAttribute, he]) rfl rfl
  | some x =>
    cases he : e.attrib with
    | none => rw [hda, he] at hd; exact absurd hd id
    | some d =>
      rw [hda, he] at hd
      change h[x]? = _ at hd
      simp only [Store.dict?, hd, Option.getD_some]
      have hx := v.ne_dict hda
      refine ⟨F, ?_, ext_set ((v.foot x).2 (.inr (.inr (.inl hda)))), fun _ => .inl⟩
      refine View.tree (da := some x) (la := la) (as := as) (G := G) ⟨?_, ?_, ?_, ?_, ?_, ?_⟩
      · rw [set_same hx.1.symm, ← hda]; exact v.obj
      · rw [set_same hx.2.symm]; exact v.list
      · simp only [Elem.setAttribute, he, Option.getD_some]
        exact List.getElem?_set_self (lt_of_some hd)
      · exact v.kids.frame fun b hb y hy => set_same fun h => (v.out b hb y hy).2.2 (h ▸ hda)
      · rw [← hda]; exact v.out
      · rw [← hda]; exact v.foot

theorem makeNil_step (r : IsTree h e a F) : Step h a F (h.makeNil a) e.makeNil := setAttribute_step r _ _

theorem makeElement_fresh (h : Store) (b : Backend) (tag : String) (nsmap : Option NsMap) :
    Fresh h (PXml.makeElement b tag nsmap) (h.makeElement b tag nsmap).1 (h.makeElement b tag nsmap).2 := by
  have := Fresh.init (h := h) .nil tag (match b with | .lxml => nsmap | .std => none) none none none 0 (-1)
  cases b <;> exact this

theorem IsTree.isEmpty (r : IsTree h e a F) : h.isEmpty a = e.isEmpty := by
  obtain ⟨da, la, as, G, v⟩ := r.view
  simp only [Store.isEmpty, v.obj?, v.kids_eq, v.attrib_map, Elem.isEmpty]
  have := v.kids.len
  cases as <;> cases h : e.elements <;> simp_all

/-- A child that is not yet part of the element is appended. -/
theorem View.append (v : View h e a F da la as G) {c : Elem} {b : Addr} {Fb : Addr → Prop} (r : IsTree h c b Fb)
    (hd : ∀ x, Fb x → ¬ F x) :
    View (h.append a b) (e.append c) a (fun x => F x ∨ Fb x) da la (as ++ [b]) (fun b' => if b' = b then Fb else G b') ∧
      Ext h (h.append a b) F := by
  have hFa : F a := v.tree.root
  have hFl : F la := (v.foot _).2 (.inr (.inl rfl))
  have hne : ∀ b' ∈ as, b' ≠ b := by
    rintro b' hb' rfl
    obtain ⟨i, c', hi, hc⟩ := v.kid_mem hb'
    exact hd _ r.root ((v.foot _).2 (.inr (.inr (.inr ⟨_, hb', (v.kids.kid i _ c' hi hc).root⟩))))
  have happ : h.append a b = (h.set la (.list (as ++ [b]))).set a
      (.obj ⟨e.tag, e.nsmap, e.text, e.tail, da, la, e.next + 1, e.line⟩) := by
    simp only [Store.append, v.obj?, v.kids_eq]
    unfold Store.modify
    have : Store.obj? (h.set la (.list (as ++ [b]))) a = some ⟨e.tag, e.nsmap, e.text, e.tail, da, la, e.next, e.line⟩ := by
      simp only [Store.obj?, set_same v.ne_list.symm, v.obj]
    rw [this]
  have hsame : ∀ x, x ≠ a → x ≠ la → (h.append a b)[x]? = h[x]? := fun x h1 h2 => by
    rw [happ, set_same h1, set_same h2]
  have ext : Ext h (h.append a b) F :=
    ⟨by rw [happ]; simp, fun x _ hn => hsame x (by rintro rfl; exact hn hFa) (by rintro rfl; exact hn hFl)⟩
  refine ⟨⟨?_, ?_, ?_, ⟨?_, ?_, ?_, ?_⟩, ?_, ?_⟩, ext⟩
  · rw [happ]
    exact List.getElem?_set_self (by simpa using lt_of_some v.obj)
  · rw [happ, set_same v.ne_list]
    exact List.getElem?_set_self (lt_of_some v.list)
  · exact v.dict.frame fun x hx => hsame x (v.ne_dict hx).1 (v.ne_dict hx).2
  · simp [Elem.append, v.kids.len]
  · intro i b' c' hb hc
    have hlen := v.kids.len
    simp only [Elem.append] at hc
    by_cases hi : i < as.length
    · rw [List.getElem?_append_left hi] at hb
      rw [List.getElem?_append_left (by omega)] at hc
      have hm := List.mem_of_getElem? hb
      rw [if_neg (hne b' hm)]
      exact (v.kids.kid i b' c' hb hc).frame fun x hx => hsame x (v.out b' hm x hx).1 (v.out b' hm x hx).2.1
    · rw [List.getElem?_append_right (by omega)] at hb
      rw [List.getElem?_append_right (by omega)] at hc
      have hb1 := List.mem_of_getElem? hb
      have hc1 := List.mem_of_getElem? hc
      rw [List.mem_singleton] at hb1 hc1
      subst hb1; subst hc1
      rw [if_pos rfl]
      refine r.frame fun x hx => hsame x ?_ ?_
      · rintro rfl; exact hd _ hx hFa
      · rintro rfl; exact hd _ hx hFl
  · intro i j b' hi hj
    by_cases h1 : i < as.length
    · rw [List.getElem?_append_left h1] at hi
      by_cases h2 : j < as.length
      · rw [List.getElem?_append_left h2] at hj
        exact v.kids.inj i j b' hi hj
      · rw [List.getElem?_append_right (by omega)] at hj
        have := List.mem_singleton.1 (List.mem_of_getElem? hj)
        exact absurd this (hne b' (List.mem_of_getElem? hi))
    · have hi' := (List.getElem?_eq_some_iff.1 hi).1
      by_cases h2 : j < as.length
      · rw [List.getElem?_append_left h2] at hj
        rw [List.getElem?_append_right (by omega)] at hi
        have := List.mem_singleton.1 (List.mem_of_getElem? hi)
        exact absurd this (hne b' (List.mem_of_getElem? hj))
      · have hj' := (List.getElem?_eq_some_iff.1 hj).1
        simp only [List.length_append, List.length_singleton] at hi' hj'
        omega
  · have hGF : ∀ b' ∈ as, ∀ x, G b' x → F x := fun b hb x hx => (v.foot x).2 (.inr (.inr (.inr ⟨b, hb, hx⟩)))
    intro b1 m1 b2 m2 hn x
    rcases List.mem_append.1 m1 with h1 | h1
    · rw [if_neg (hne b1 h1)]
      rcases List.mem_append.1 m2 with h2 | h2
      · rw [if_neg (hne b2 h2)]
        exact v.kids.disj b1 h1 b2 h2 hn x
      · rw [List.mem_singleton] at h2
        subst h2
        rw [if_pos rfl]
        exact fun hx hx' => hd x hx' (hGF b1 h1 x hx)
    · rw [List.mem_singleton] at h1
      subst h1
      rw [if_pos rfl]
      rcases List.mem_append.1 m2 with h2 | h2
      · rw [if_neg (hne b2 h2)]
        exact fun hx hx' => hd x hx (hGF b2 h2 x hx')
      · rw [List.mem_singleton] at h2
        exact absurd h2.symm hn
  · intro b' hb' x hx
    rcases List.mem_append.1 hb' with hb' | hb'
    · rw [if_neg (hne b' hb')] at hx
      exact v.out b' hb' x hx
    · rw [List.mem_singleton] at hb'
      subst hb'
      rw [if_pos rfl] at hx
      refine ⟨?_, ?_, ?_⟩
      · rintro rfl; exact hd _ hx hFa
      · rintro rfl; exact hd _ hx hFl
      · intro hda; exact hd x hx ((v.foot x).2 (.inr (.inr (.inl hda))))
  · intro x
    constructor
    · rintro (hx | hx)
      · rcases (v.foot x).1 hx with h | h | h | ⟨b', hb', hx⟩
        · exact .inl h
        · exact .inr (.inl h)
        · exact .inr (.inr (.inl h))
        · exact .inr (.inr (.inr ⟨b', List.mem_append_left _ hb', by rw [if_neg (hne b' hb')]; exact hx⟩))
      · exact .inr (.inr (.inr ⟨b, by simp, by rw [if_pos rfl]; exact hx⟩))
    · rintro (h | h | h | ⟨b', hb', hx⟩)
      · exact .inl ((v.foot x).2 (.inl h))
      · exact .inl ((v.foot x).2 (.inr (.inl h)))
      · exact .inl ((v.foot x).2 (.inr (.inr (.inl h))))
      · rcases List.mem_append.1 hb' with hb' | hb'
        · rw [if_neg (hne b' hb')] at hx
          exact .inl ((v.foot x).2 (.inr (.inr (.inr ⟨b', hb', hx⟩))))
        · rw [List.mem_singleton] at hb'
          rw [if_pos hb'] at hx
          exact .inr hx

/-- A new child is appended. -/
theorem append_step (r : IsTree h e a F) {c : Elem} {b : Addr} {h1 : Store} (f : Fresh h c b h1) :
    Step h a F (h1.append a b) (e.append c) := by
  obtain ⟨Fb, rb, hFb, g⟩ := f
  obtain ⟨da, la, as, G, v⟩ := (r.grow g).view
  obtain ⟨v', ext⟩ := v.append rb fun x hx hF => absurd (r.lt hF) (Nat.not_lt.2 (hFb x hx))
  refine ⟨_, v'.tree, Ext.trans g.ext (fun _ => .inl) ext, ?_⟩
  rintro x (hx | hx)
  · exact .inl hx
  · exact .inr (hFb x hx)

theorem appendUnlessEmpty_step (r : IsTree h e a F) {c : Elem} {b : Addr} {h1 : Store} (f : Fresh h c b h1) (fl : Flags) :
    Step h a F (appendUnlessEmpty fl a b h1) (PXml.appendUnlessEmpty fl e c) := by
  have he : h1.isEmpty b = c.isEmpty := by
    obtain ⟨Fb, rb, _, _⟩ := f
    exact rb.isEmpty
  simp only [appendUnlessEmpty, PXml.appendUnlessEmpty, he]
  split
  · obtain ⟨_, _, _, g⟩ := f
    exact ⟨F, r.grow g, g.ext, fun _ => .inl⟩
  · exact append_step r f

/-- Work on a new element. -/
theorem Fresh.step {c' : Elem} {b : Addr} {h1 h2 : Store} {F1 : Addr → Prop} (g : Grow h h1) (hF : ∀ x, F1 x → h.length ≤ x)
    (s : Step h1 b F1 h2 c') : Fresh h c' b h2 := by
  have g2 := Fresh.ext_old g hF s
  obtain ⟨F2, r2, _, hF2⟩ := s
  refine ⟨F2, r2, fun x hx => ?_, g2⟩
  rcases hF2 x hx with h | h
  · exact hF x h
  · exact Nat.le_trans g.le h

theorem serText_step (r : IsTree h e a F) (env : Env) (nillable : Bool) (fl : Flags) {v : HVal} {w : Val} (hv : v.isNone = w.isNone)
    (enc : Val) : Step h a F (serText env nillable fl a v enc h) (PXml.serText env nillable fl e w enc) := by
  simp only [serText, PXml.serText, hv]
  split
  · exact r.step
  · split
    · obtain ⟨F1, r1, ext1, hF1⟩ := makeNil_step r
      exact Step.trans ext1 hF1 (setText_step r1 _)
    · exact setText_step r _

/-! ## Refinement -/

/-- The two results agree; if there was no exception, the element at `a` is the one the other model returns. -/
structure WRefines (h : Store) (a : Addr) (F : Addr → Prop) (r : Out Elem) (q : Out Unit × Store) : Prop where
  ext : Ext h q.2 F
  step : match r with
    | .ok e' => q.1 = .ok () ∧ Step h a F q.2 e'
    | .verr x => q.1 = .verr x
    | .crash x => q.1 = .crash x
    | .diverge => q.1 = .diverge

theorem Step.refines {e' : Elem} (s : Step h a F h' e') : WRefines h a F (.ok e') (.ok (), h') := by
  refine ⟨?_, rfl, s⟩
  obtain ⟨_, _, ext, _⟩ := s
  exact ext

theorem IsTree.unchanged (r : IsTree h e a F) : WRefines h a F (.ok e) (.ok (), h) := r.step.refines

theorem WRefines.crash (x : PyErr) : WRefines h a F (.crash x) (.crash x, h) := ⟨.refl, rfl⟩

theorem WRefines.after {r : Out Elem} {q : Out Unit × Store} {F' : Addr → Prop} (ext : Ext h h' F)
    (hF : ∀ x, F' x → F x ∨ h.length ≤ x) (s : WRefines h' a F' r q) : WRefines h a F r q := by
  refine ⟨ext.trans hF s.ext, ?_⟩
  have := s.step
  cases r with
  | ok e' => exact ⟨this.1, this.2.trans ext hF⟩
  | verr x => exact this
  | crash x => exact this
  | diverge => exact this

theorem WRefines.bind {r : Out Elem} {q : Out Unit × Store} {k : Elem → Out Elem} {kh : Store → Out Unit × Store}
    (s : WRefines h a F r q)
    (hk : ∀ (h' : Store) (e' : Elem) (F' : Addr → Prop), IsTree h' e' a F' → Ext h h' F → (∀ x, F' x → F x ∨ h.length ≤ x) →
      WRefines h' a F' (k e') (kh h')) : WRefines h a F (r.bind k) (andThen q kh) := by
  obtain ⟨o, h1⟩ := q
  have hs := s.step
  have hext := s.ext
  cases r with
  | ok e' =>
    obtain ⟨rfl, F', r', ext, hF⟩ := hs
    exact .after ext hF (hk h1 e' F' r' ext hF)
  | verr x => cases hs; exact ⟨hext, rfl⟩
  | crash x => cases hs; exact ⟨hext, rfl⟩
  | diverge => cases hs; exact ⟨hext, rfl⟩

/-- Work on a new element, which is then made part of the element. -/
theorem WRefines.sub {r : Out Elem} {q : Out Unit × Store} {b : Addr} {h1 : Store} {F1 : Addr → Prop} (g : Grow h h1)
    (hF : ∀ x, F1 x → h.length ≤ x) (s : WRefines h1 b F1 r q) {k : Elem → Elem} {kh : Store → Store}
    (hk : ∀ (c : Elem) (h2 : Store), Fresh h c b h2 → Step h a F (kh h2) (k c)) :
    WRefines h a F (r.bind fun c => .ok (k c)) (andThen q fun h => (.ok (), kh h)) := by
  obtain ⟨o, h2⟩ := q
  have hs := s.step
  have hext : Ext h h2 F := Ext.trans (g.ext (F := F)) (F' := F1) (fun x hx => .inr (hF x hx)) s.ext
  cases r with
  | ok c =>
    obtain ⟨rfl, st⟩ := hs
    exact (hk c h2 (Fresh.step g hF st)).refines
  | verr x => cases hs; exact ⟨hext, rfl⟩
  | crash x => cases hs; exact ⟨hext, rfl⟩
  | diverge => cases hs; exact ⟨hext, rfl⟩

theorem serAttrs_refines (r : IsTree h e a F) (env : Env) (s : AttrsSer) {v : HVal} {w : Val} (hv : v.isNone = w.isNone) (enc : Val) :
    WRefines h a F (PXml.serAttrs env s e w enc) (serAttrs env s a v enc h) := by
  simp only [serAttrs, PXml.serAttrs, hv]
  split
  · exact r.unchanged
  · cases enc with
    | dict d => exact (setAttributes_step r _).refines
    | _ => exact .crash _

/-- The instance is stored in objects that existed at the beginning, which are not those of the element that is written. -/
structure Given (h0 h : Store) (F : Addr → Prop) : Prop where
  grow : Grow h0 h
  new : ∀ x, F x → h0.length ≤ x

theorem Given.next {h0 : Store} {F' : Addr → Prop} (g : Given h0 h F) (ext : Ext h h' F) (hF : ∀ x, F' x → F x ∨ h.length ≤ x) :
    Given h0 h' F' := by
  refine ⟨Ext.trans (F' := F) g.grow ?_ ?_, fun x hx => ?_⟩
  · exact fun x hx => .inr (g.new x hx)
  · exact ext
  · rcases hF x hx with h | h
    · exact g.new x h
    · exact Nat.le_trans g.grow.le h

theorem Given.fresh {h0 : Store} {F' : Addr → Prop} (g : Given h0 h F) (gr : Grow h h') (hF : ∀ x, F' x → h.length ≤ x) :
    Given h0 h' F' := ⟨g.grow.trans gr, fun x hx => Nat.le_trans g.grow.le (hF x hx)⟩

/-- What is assumed of the function for the serializers that work is delegated to. -/
def WRecOK (h0 : Store) (rec : Flags → Ser → Elem → Val → Val → Out Elem)
    (rech : Flags → Ser → Addr → HVal → Val → Store → Out Unit × Store) : Prop :=
  ∀ fl s (h : Store) (e : Elem) (a : Addr) (F : Addr → Prop) (v : HVal) (w enc : Val), IsTree h e a F → Given h0 h F → IsVal h0 v w →
    WRefines h a F (rec fl s e w enc) (rech fl s a v enc h)

theorem Elem.append_setChild (e c c' : Elem) : (e.append c).setChild e.elements.length c' = e.append c' := by
  simp [Elem.append, Elem.setChild]

/-- Work on a child. -/
theorem View.onChildW (v : View h e a F da la as G) {i : Nat} {b : Addr} {q : Out Unit × Store} {r : Out Elem} {k : Elem → Elem}
    (hb : as[i]? = some b) (hk : ∀ c', k c' = e.setChild i c') (s : WRefines h b (G b) r q) :
    WRefines h a F (r.bind fun c' => .ok (k c')) q := by
  have hm := List.mem_of_getElem? hb
  have hext : Ext h q.2 F := ⟨s.ext.le, fun x hx hn => s.ext.same x hx fun hG => hn ((v.foot x).2 (.inr (.inr (.inr ⟨b, hm, hG⟩))))⟩
  have hs := s.step
  refine ⟨hext, ?_⟩
  cases r with
  | ok c' =>
    refine ⟨hs.1, ?_⟩
    rw [hk c']
    exact v.child hb hs.2
  | verr x => exact hs
  | crash x => exact hs
  | diverge => exact hs

theorem ascend_refines {h0 : Store} {f : Elem → Out Elem} {fh : Addr → Store → Out Unit × Store} (b : Backend) (mode : Mode)
    (nsmap : Option NsMap)
    (hf : ∀ (h : Store) (e : Elem) (a : Addr) (F : Addr → Prop), IsTree h e a F → Given h0 h F → WRefines h a F (f e) (fh a h)) :
    ∀ (path : List String) (h : Store) (e : Elem) (a : Addr) (F : Addr → Prop), IsTree h e a F → Given h0 h F →
      WRefines h a F (PXml.ascend b mode nsmap f path e) (ascend b mode nsmap fh path a h)
  | [], h, e, a, F, r, g => hf h e a F r g
  | t :: ts, h, e, a, F, r, g => by
    obtain ⟨da, la, as, G, v⟩ := r.view
    simp only [PXml.ascend, ascend]
    rcases findElement_view v t mode with ⟨err, h1, h2⟩ | ⟨as', fi, e', fb, h', h1, h2, hfb, v', ext⟩
    · rw [h1, h2]
      exact .crash _
    · rw [h1, h2]
      have g' : Given h0 h' F := g.next ext fun _ => .inl
      cases fi with
      | none =>
        simp only [Option.bind_none] at hfb
        subst hfb
        simp only
        obtain ⟨Fb, rb, hFb, gr⟩ := makeElement_fresh h' b t nsmap
        obtain ⟨v2, ext2⟩ := (v'.grow gr).append rb fun x hx hF => absurd (v'.tree.lt hF) (Nat.not_lt.2 (hFb x hx))
        have hb : (as' ++ [(h'.makeElement b t nsmap).1])[e'.elements.length]? = some (h'.makeElement b t nsmap).1 := by
          rw [List.getElem?_append_right (by rw [v'.kids.len]; exact Nat.le_refl _), v'.kids.len]
          simp
        obtain ⟨c, hc⟩ : ∃ c, c = PXml.makeElement b t nsmap := ⟨_, rfl⟩
        have rc : IsTree ((h'.makeElement b t nsmap).2.append a (h'.makeElement b t nsmap).1) (PXml.makeElement b t nsmap)
            (h'.makeElement b t nsmap).1
            ((fun b' => if b' = (h'.makeElement b t nsmap).1 then Fb else G b') (h'.makeElement b t nsmap).1) :=
          v2.kids.kid _ _ _ hb (by simp [Elem.append])
        have ext3 : Ext h' ((h'.makeElement b t nsmap).2.append a (h'.makeElement b t nsmap).1) F :=
          Ext.trans gr.ext (fun _ => .inl) ext2
        have hF3 : ∀ x, (F x ∨ Fb x) → F x ∨ h'.length ≤ x := fun x hx => hx.imp id (hFb x)
        have g3 : Given h0 ((h'.makeElement b t nsmap).2.append a (h'.makeElement b t nsmap).1) (fun x => F x ∨ Fb x) :=
          g'.next ext3 hF3
        have ih := ascend_refines b mode nsmap hf ts _ _ _ _ rc ⟨g3.grow, fun x hx => g3.new x (.inr (by simpa using hx))⟩
        exact .after ext (fun _ => .inl) (.after ext3 hF3
          (v2.onChildW (k := fun c' => e'.append c') hb (fun c' => (Elem.append_setChild e' _ c').symm) ih))
      | some i =>
        obtain ⟨c, hc, _⟩ := PXml.Elem.findElement_index h1
        obtain ⟨b', hb, rc⟩ := v'.kid_of_index hc
        simp only [Option.bind_some, hb] at hfb
        subst hfb
        simp only [hc]
        have hm := List.mem_of_getElem? hb
        have ih := ascend_refines b mode nsmap hf ts h' c b' (G b') rc
          ⟨g'.grow, fun x hx => g'.new x ((v'.foot x).2 (.inr (.inr (.inr ⟨b', hm, hx⟩))))⟩
        exact .after ext (fun _ => .inl) (v'.onChildW hb (fun _ => rfl) ih)

theorem serItems_refines {h0 : Store} {rec : Elem → Val → Val → Out Elem} {rech : HVal → Val → Store → Out Unit × Store} {a : Addr}
    (fl : Flags)
    (hr : ∀ (h : Store) (e : Elem) (F : Addr → Prop) (v : HVal) (w enc : Val), IsTree h e a F → Given h0 h F → IsVal h0 v w →
      WRefines h a F (rec e w enc) (rech v enc h)) :
    ∀ (vs : List HVal) (ws encs : List Val) (h : Store) (e : Elem) (F : Addr → Prop), IsTree h e a F → Given h0 h F →
      vs.length = ws.length → (∀ (i : Nat) (v : HVal) (w : Val), vs[i]? = some v → ws[i]? = some w → IsVal h0 v w) →
      WRefines h a F (PXml.serItems rec fl ws encs e) (serItems rech fl vs encs h)
  | [], [], _, h, e, F, r, _, _, _ => r.unchanged
  | [], _ :: _, _, _, _, _, _, _, hl, _ => by cases hl
  | _ :: _, [], _, _, _, _, _, _, hl, _ => by cases hl
  | v :: vs, w :: ws, [], h, e, F, r, _, _, _ => r.unchanged
  | v :: vs, w :: ws, enc :: encs, h, e, F, r, g, hl, hv => by
    have h0v := hv 0 v w rfl rfl
    have hv' : ∀ (i : Nat) (v : HVal) (w : Val), vs[i]? = some v → ws[i]? = some w → IsVal h0 v w :=
      fun i v w h1 h2 => hv (i + 1) v w (by simpa using h1) (by simpa using h2)
    simp only [PXml.serItems, serItems, h0v.isNone]
    split
    · exact serItems_refines fl hr vs ws encs h e F r g (Nat.succ.inj hl) hv'
    · exact (hr h e F v w enc r g h0v).bind fun h' e' F' r' ext hF =>
        serItems_refines fl hr vs ws encs h' e' F' r' (g.next ext hF) (Nat.succ.inj hl) hv'

theorem serTuple_refines {h0 : Store} {rec : Ser → Elem → Val → Val → Out Elem} {rech : Ser → HVal → Val → Store → Out Unit × Store}
    {a : Addr}
    (hr : ∀ s (h : Store) (e : Elem) (F : Addr → Prop) (v : HVal) (w enc : Val), IsTree h e a F → Given h0 h F → IsVal h0 v w →
      WRefines h a F (rec s e w enc) (rech s v enc h)) :
    ∀ (ss : List Ser) (vs : List HVal) (ws encs : List Val) (h : Store) (e : Elem) (F : Addr → Prop), IsTree h e a F → Given h0 h F →
      vs.length = ws.length → (∀ (i : Nat) (v : HVal) (w : Val), vs[i]? = some v → ws[i]? = some w → IsVal h0 v w) →
      WRefines h a F (PXml.serTuple rec ss ws encs e) (serTuple rech ss vs encs h)
  | [], _, _, _, h, e, F, r, _, _, _ => by simp only [PXml.serTuple, serTuple]; exact r.unchanged
  | _ :: _, [], [], _, h, e, F, r, _, _, _ => r.unchanged
  | _ :: _, [], _ :: _, _, _, _, _, _, _, hl, _ => by cases hl
  | _ :: _, _ :: _, [], _, _, _, _, _, _, hl, _ => by cases hl
  | _ :: _, v :: vs, w :: ws, [], h, e, F, r, _, _, _ => r.unchanged
  | s :: ss, v :: vs, w :: ws, enc :: encs, h, e, F, r, g, hl, hv => by
    simp only [PXml.serTuple, serTuple]
    exact (hr s h e F v w enc r g (hv 0 v w rfl rfl)).bind fun h' e' F' r' ext hF =>
      serTuple_refines hr ss vs ws encs h' e' F' r' (g.next ext hF) (Nat.succ.inj hl)
        fun i v w h1 h2 => hv (i + 1) v w (by simpa using h1) (by simpa using h2)

theorem runSerializer_refines {h0 : Store} (r : IsTree h e a F) (g : Given h0 h F) (f : Val → Elem → Val → Out Elem)
    {self v : HVal} {wself w : Val} (hself : IsVal h0 self wself) (hv : IsVal h0 v w) :
    WRefines h a F (f wself e w) (runSerializer f self a v h) := by
  simp only [runSerializer, r.read, (hself.grow g.grow).read, (hv.grow g.grow).read]
  cases hf : f wself e w with
  | ok e' =>
    refine Step.refines ?_
    obtain ⟨F', rb, hF, gr⟩ := put_fresh h e'
    obtain ⟨da, la, as, G, vb⟩ := rb.view
    obtain ⟨_, _, _, _, va⟩ := (r.grow gr).view
    simp only [Store.assign, vb.obj?, va.modify, Option.getD_some]
    exact vb.takeover hF (r.lt r.root) r.root gr rfl rfl
  | verr x => exact ⟨.refl, rfl⟩
  | crash x => exact ⟨.refl, rfl⟩
  | diverge => exact ⟨.refl, rfl⟩

theorem serFields_refines {h0 : Store} {rec : Ser → Elem → Val → Val → Out Elem} {rech : Ser → HVal → Val → Store → Out Unit × Store}
    {a : Addr} (fl : Flags)
    (hr : ∀ s (h : Store) (e : Elem) (F : Addr → Prop) (v : HVal) (w enc : Val), IsTree h e a F → Given h0 h F → IsVal h0 v w →
      WRefines h a F (rec s e w enc) (rech s v enc h))
    {self : HVal} {wself : Val} (hself : IsVal h0 self wself) (d : List (String × HVal)) (d' : List (String × Val)) (set : List String)
    (hk : d.map Prod.fst = d'.map Prod.fst)
    (hv : ∀ (i : Nat) (v : HVal) (w : Val), (d.map Prod.snd)[i]? = some v → (d'.map Prod.snd)[i]? = some w → IsVal h0 v w) (enc : Val) :
    ∀ (fs : List Field) (h : Store) (e : Elem) (F : Addr → Prop), IsTree h e a F → Given h0 h F →
      WRefines h a F (PXml.serFields rec fl wself d' set enc fs e) (serFields rech fl self d set enc a fs h)
  | [], h, e, F, r, _ => r.unchanged
  | f :: fs, h, e, F, r, g => by
    simp only [PXml.serFields, serFields]
    have ih := serFields_refines fl hr hself d d' set hk hv enc fs
    split
    · exact ih h e F r g
    · split
      · exact ih h e F r g
      · refine WRefines.bind ?_ fun h' e' F' r' ext hF => ih h' e' F' r' (g.next ext hF)
        rcases get?_related (P := IsVal h0) f.name d d' hk hv with ⟨v, w, h1, h2, hvw⟩ | ⟨h1, h2⟩
        · cases hser : f.serializer with
          | some s =>
            simp only [getAttr, h1, h2, Out.bind]
            exact runSerializer_refines r g s hself hvw
          | none =>
            simp only [getAttr, h1, h2, Out.bind]
            cases getItem enc f.name with
            | ok x => exact hr f.ser h e F v w x r g hvw
            | verr x => exact ⟨.refl, rfl⟩
            | crash x => exact ⟨.refl, rfl⟩
            | diverge => exact ⟨.refl, rfl⟩
        · cases hser : f.serializer with
          | some s => simp only [getAttr, h1, h2, Out.bind]; exact .crash _
          | none => simp only [getAttr, h1, h2, Out.bind]; exact .crash _

theorem serModel_refines {h0 : Store} {rec : Flags → Ser → Elem → Val → Val → Out Elem}
    {rech : Flags → Ser → Addr → HVal → Val → Store → Out Unit × Store} (hr : WRecOK h0 rec rech) (m : ModelSer) (fl : Flags)
    {v : HVal} {w : Val} (enc : Val) (r : IsTree h e a F) (g : Given h0 h F) (hv : IsVal h0 v w) :
    WRefines h a F (PXml.serModel rec m fl e w enc) (serModel rech m fl a v enc h) := by
  have hi := hv.grow g.grow
  simp only [serModel, hv.isNone]
  by_cases hn : w.isNone = true
  · have : w = .none := by cases w <;> first | rfl | cases hn
    subst this
    exact r.unchanged
  · rw [if_neg hn]
    rcases hv.inst? with ⟨cls, d, d', set, h1, rfl, hk, hvals⟩ | ⟨h1, h2⟩
    · have h1' : h.inst? v = some (cls, d, set) := by
        rcases hi.inst? with ⟨cls', d2, d2', set2, h3, h4, _, _⟩ | ⟨_, h4⟩
        · simp only [Store.inst?, Store.cell?] at h1 ⊢
          cases v with
          | ref x => simp only [g.grow.get hv.lt]; exact h1
          | _ => cases h1
        · exact absurd rfl (h4 _ _ _)
      simp only [h1', PXml.serModel]
      cases m.body with
      | fields fs =>
        exact serFields_refines _ (fun s h e F v w enc r g hv => hr _ s h e a F v w enc r g hv) hv d d' set hk hvals enc fs h e F r g
      | root s =>
        simp only
        split
        · exact r.unchanged
        · rcases get?_related (P := IsVal h0) "root" d d' hk hvals with ⟨rv, rw', h2, h3, hvw⟩ | ⟨h2, h3⟩
          · simp only [getAttr, h2, h3, Out.bind]
            exact hr _ s h e a F rv rw' enc r g hvw
          · simp only [getAttr, h2, h3, Out.bind]
            exact .crash _
    · have h1' : h.inst? v = none := by
        rcases hi.inst? with ⟨cls', d2, d2', set2, h3, h4, _, _⟩ | ⟨h3, _⟩
        · exact absurd h4 (h2 _ _ _)
        · exact h3
      simp only [h1', PXml.serModel]
      cases w with
      | none => exact absurd rfl hn
      | model cls fs set => exact absurd rfl (h2 _ _ _)
      | _ => exact .crash _

theorem serStep_refines {h0 : Store} {rec : Flags → Ser → Elem → Val → Val → Out Elem}
    {rech : Flags → Ser → Addr → HVal → Val → Store → Out Unit × Store} (hr : WRecOK h0 rec rech) (env : Env) :
    WRecOK h0 (PXml.serStep env rec) (serStep env rech) := by
  intro fl s h e a F v w enc r g hv
  have hn := hv.isNone
  have hi := hv.grow g.grow
  cases s with
  | text computed nillable => exact (serText_step r env nillable fl hn enc).refines
  | attr name computed =>
    simp only [PXml.serStep, serStep, hn]
    split
    · exact r.unchanged
    · exact (setAttribute_step r _ _).refines
  | elem name nsmap mode computed nillable =>
    simp only [PXml.serStep, serStep, hn]
    split
    · exact r.unchanged
    · obtain ⟨Fb, rb, hFb, gr⟩ := makeElement_fresh h env.backend name nsmap
      exact (appendUnlessEmpty_step r (Fresh.step gr hFb
        (serText_step rb env nillable fl hn enc)) fl).refines
  | attrs s => exact serAttrs_refines r env s hn enc
  | mapElem s name mode =>
    simp only [PXml.serStep, serStep, hi.len?]
    obtain ⟨Fb, rb, hFb, gr⟩ := makeElement_fresh h env.backend name s.nsmap
    have hs := serAttrs_refines rb env s hn enc
    split
    · cases w.len? with
      | none => exact .crash _
      | some k =>
        cases k with
        | zero => exact r.unchanged
        | succ k => exact WRefines.sub gr hFb hs fun c h2 f => appendUnlessEmpty_step r f fl
    · exact WRefines.sub gr hFb hs fun c h2 f => append_step r f
  | raw name mode computed =>
    simp only [PXml.serStep, serStep]
    cases hv with
    | none => exact r.unchanged
    | raw ht =>
      obtain ⟨b, h1, hf, fr⟩ := (ht.grow g.grow).fromNative env.backend
      simp only [hf]
      exact (appendUnlessEmpty_step r fr fl).refines
    | @list x vs ws h1 =>
      have : h.fromNative env.backend h.length x = none := by
        have := (g.grow.get (lt_of_some h1)).trans h1
        cases h.length <;> simp [Store.fromNative, Store.node?, this]
      simp only [this]; exact .crash _
    | @dict x d d' h1 =>
      have : h.fromNative env.backend h.length x = none := by
        have := (g.grow.get (lt_of_some h1)).trans h1
        cases h.length <;> simp [Store.fromNative, Store.node?, this]
      simp only [this]; exact .crash _
    | @model x cls d d' set h1 =>
      have : h.fromNative env.backend h.length x = none := by
        have := (g.grow.get (lt_of_some h1)).trans h1
        cases h.length <;> simp [Store.fromNative, Store.node?, this]
      simp only [this]; exact .crash _
    | _ => exact .crash _
  | proxy p =>
    simp only [PXml.serStep, serStep, hn]
    cases env.model p.cls with
    | none => exact .crash _
    | some m =>
      simp only
      split
      · exact r.unchanged
      · obtain ⟨Fb, rb, hFb, gr⟩ := makeElement_fresh h env.backend p.name p.nsmap
        split
        · exact (append_step r (Fresh.step gr hFb (makeNil_step rb))).refines
        · split
          · exact r.unchanged
          · exact WRefines.sub gr hFb (serModel_refines hr m fl enc rb (g.fresh gr hFb) hv)
              fun c h2 f => appendUnlessEmpty_step r f fl
  | primUnion computed inner => exact hr fl inner h e a F v w enc r g hv
  | modelUnion title computed alts =>
    simp only [PXml.serStep, serStep]
    rcases hi.inst? with ⟨cls, d, d', set, h1, rfl, _, _⟩ | ⟨h1, h2⟩
    · simp only [h1]
      cases alts.find? fun p => decide (p.cls = cls) with
      | none => exact r.unchanged
      | some p => exact hr fl (.proxy p) h e a F v _ enc r g hv
    · simp only [h1]
      cases w with
      | model cls fs set => exact absurd rfl (h2 _ _ _)
      | _ => exact r.unchanged
  | tagged computed discr attrName mode alts =>
    simp only [PXml.serStep, serStep]
    cases enc with
    | dict d =>
      simp only
      cases hd : Dict.get? d discr with
      | none => exact r.unchanged
      | some x =>
        cases x with
        | str tag =>
          simp only
          split
          · exact r.unchanged
          · cases Dict.get? alts tag with
            | none => exact .crash _
            | some p => exact hr fl (.proxy p) h e a F v w _ r g hv
        | none => exact r.unchanged
        | _ => exact .crash _
    | _ => exact .crash _
  | wrap path nsmap mode computed inner =>
    simp only [PXml.serStep, serStep, hn, hi.len?]
    split
    · exact r.unchanged
    · split
      · exact r.unchanged
      · exact ascend_refines env.backend mode nsmap (fun h e a F r g => hr fl inner h e a F v w enc r g hv) path h e a F r g
  | homog title computed inner =>
    simp only [PXml.serStep, serStep, hn]
    split
    · exact r.unchanged
    · rcases hv.items? with ⟨vs, ws, h1, rfl, hl, hvs⟩ | ⟨h1, h2⟩
      · have h1' : h.items? v = some vs := by
          simp only [Store.items?, Store.cell?] at h1 ⊢
          cases v with
          | ref x => simp only [g.grow.get hv.lt]; exact h1
          | _ => cases h1
        rw [h1']
        cases enc with
        | list encs =>
          exact serItems_refines fl (fun h e F v w enc r g hv => hr fl inner h e a F v w enc r g hv) vs ws encs h e F r g hl hvs
        | _ => exact .crash _
      · have h1' : h.items? v = none := by
          rcases hi.items? with ⟨_, _, _, h4, _, _⟩ | ⟨h3, _⟩
          · exact absurd h4 (h2 _)
          · exact h3
        rw [h1']
        cases w with
        | list ws => exact absurd rfl (h2 _)
        | _ => exact .crash _
  | hetero title computed inners =>
    simp only [PXml.serStep, serStep, hn]
    split
    · exact r.unchanged
    · rcases hv.items? with ⟨vs, ws, h1, rfl, hl, hvs⟩ | ⟨h1, h2⟩
      · have h1' : h.items? v = some vs := by
          simp only [Store.items?, Store.cell?] at h1 ⊢
          cases v with
          | ref x => simp only [g.grow.get hv.lt]; exact h1
          | _ => cases h1
        rw [h1']
        cases enc with
        | list encs =>
          have he : vs.isEmpty = ws.isEmpty := by cases vs <;> cases ws <;> first | rfl | cases hl
          simp only [he, hl]
          split
          · exact r.unchanged
          · split
            · exact .crash _
            · exact serTuple_refines (fun s h e F v w enc r g hv => hr fl s h e a F v w enc r g hv) inners vs ws encs h e F r g hl hvs
        | _ => exact .crash _
      · have h1' : h.items? v = none := by
          rcases hi.items? with ⟨_, _, _, h4, _, _⟩ | ⟨h3, _⟩
          · exact absurd h4 (h2 _)
          · exact h3
        rw [h1']
        cases w with
        | list ws => exact absurd rfl (h2 _)
        | _ => exact .crash _

theorem ser_refines (h0 : Store) (env : Env) : ∀ n, WRecOK h0 (PXml.ser env n) (ser env n)
  | 0 => fun _ _ _ _ _ _ _ _ _ _ _ _ => ⟨.refl, rfl⟩
  | n + 1 => serStep_refines (ser_refines h0 env n) env

theorem toXmlTree_refines (env : Env) (n : Nat) (fl : Flags) (cls : String) {v : HVal} {w : Val} (hv : IsVal h v w) :
    Grow h (toXmlTree env n fl cls v h).2 ∧
    match PXml.toXmlTree env n fl cls w with
    | .ok t => ∃ root, (toXmlTree env n fl cls v h).1 = .ok root ∧ IsNode (toXmlTree env n fl cls v h).2 t root ∧
        ∀ x, Part (toXmlTree env n fl cls v h).2 root x → h.length ≤ x
    | .verr x => (toXmlTree env n fl cls v h).1 = .verr x
    | .crash x => (toXmlTree env n fl cls v h).1 = .crash x
    | .diverge => (toXmlTree env n fl cls v h).1 = .diverge := by
  simp only [toXmlTree, PXml.toXmlTree]
  cases env.model cls with
  | none => exact ⟨.refl, rfl⟩
  | some m =>
    obtain ⟨F, r, hF, g⟩ := Fresh.init (h := h) .nil m.elementName m.nsmap none none none 0 (-1)
    simp only [(hv.grow g).read]
    have hs := serModel_refines (ser_refines h env n) m fl (env.toJsonable w) r ⟨g, hF⟩ hv
    revert hs
    generalize serModel (ser env n) m fl _ v (env.toJsonable w) _ = q
    generalize PXml.serModel (PXml.ser env n) m fl _ w (env.toJsonable w) = o
    intro hs
    obtain ⟨oq, h2⟩ := q
    have g2 : Grow h h2 := Ext.trans (F' := F) g (fun x hx => .inr (hF x hx)) hs.ext
    have hst := hs.step
    cases o with
    | ok e' =>
      obtain ⟨rfl, F', r', _, _⟩ := hst
      simp only [r'.read, Out.bind]
      have nn := putNode_new h2 (toNative env.backend e')
      exact ⟨g2.trans nn.grow, _, rfl, nn.node, fun x hx => Nat.le_trans g2.le (nn.closed.parts nn.new hx)⟩
    | verr x => cases hst; exact ⟨g2, rfl⟩
    | crash x => cases hst; exact ⟨g2, rfl⟩
    | diverge => cases hst; exact ⟨g2, rfl⟩

end
end Heap
end PXml
