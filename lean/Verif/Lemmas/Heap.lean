import Verif.SpecHeap
import Verif.Lemmas.Elem

/-! Trees in the store: what operations on objects do to the elements they represent. -/

namespace PXml
namespace Heap

/-- The children of an element in the store. -/
structure Kids (h : Store) (es : List Elem) (as : List Addr) (G : Addr → Addr → Prop) : Prop where
  len : as.length = es.length
  kid : ∀ (i : Nat) (b : Addr) (c : Elem), as[i]? = some b → es[i]? = some c → IsTree h c b (G b)
  inj : ∀ (i j : Nat) (b : Addr), as[i]? = some b → as[j]? = some b → i = j
  disj : ∀ b ∈ as, ∀ b' ∈ as, b ≠ b' → ∀ x, G b x → ¬ G b' x

/-- An element in the store with the addresses of its parts. -/
structure View (h : Store) (e : Elem) (a : Addr) (F : Addr → Prop) (da : Option Addr) (la : Addr) (as : List Addr)
    (G : Addr → Addr → Prop) : Prop where
  obj : h[a]? = some (.obj ⟨e.tag, e.nsmap, e.text, e.tail, da, la, e.next, e.line⟩)
  list : h[la]? = some (.list as)
  dict : HoldsDict h da e.attrib
  kids : Kids h e.elements as G
  out : ∀ b ∈ as, ∀ x, G b x → x ≠ a ∧ x ≠ la ∧ da ≠ some x
  foot : ∀ x, F x ↔ x = a ∨ x = la ∨ da = some x ∨ ∃ b ∈ as, G b x

theorem IsTree.view {h : Store} {e : Elem} {a : Addr} {F : Addr → Prop} (r : IsTree h e a F) :
    ∃ da la as G, View h e a F da la as G := by
  cases r with
  | mk h1 h2 h3 h4 h5 h6 h7 h8 h9 => exact ⟨_, _, _, _, h1, h2, h3, ⟨h4, h5, h6, h7⟩, h8, h9⟩

section
variable {h h' : Store} {e : Elem} {a la : Addr} {F : Addr → Prop} {da : Option Addr} {as : List Addr} {G : Addr → Addr → Prop}

theorem View.tree (v : View h e a F da la as G) : IsTree h e a F :=
  .mk v.obj v.list v.dict v.kids.len v.kids.kid v.kids.inj v.kids.disj v.out v.foot

theorem HoldsDict.frame {d : Option (Dict String String)} (hd : HoldsDict h da d) (hs : ∀ x, da = some x → h'[x]? = h[x]?) :
    HoldsDict h' da d := by
  cases da <;> cases d <;> simp_all [HoldsDict]

/-- A tree depends on its own objects only. -/
theorem IsTree.frame (r : IsTree h e a F) (hs : ∀ x, F x → h'[x]? = h[x]?) : IsTree h' e a F := by
  induction r with
  | mk h1 h2 h3 h4 h5 h6 h7 h8 h9 ih =>
    refine .mk ((hs _ ((h9 _).2 (.inl rfl))).trans h1) ((hs _ ((h9 _).2 (.inr (.inl rfl)))).trans h2)
      (h3.frame fun x hx => hs _ ((h9 _).2 (.inr (.inr (.inl hx))))) h4 ?_ h6 h7 h8 h9
    intro i b c hb hc
    exact ih i b c hb hc fun x hx => hs x ((h9 x).2 (.inr (.inr (.inr ⟨b, List.mem_of_getElem? hb, hx⟩))))

theorem lt_of_some {c : Cell} {x : Addr} (hx : h[x]? = some c) : x < h.length := (List.getElem?_eq_some_iff.1 hx).1

theorem HoldsDict.lt {x : Addr} {d : Option (Dict String String)} (hd : HoldsDict h (some x) d) : x < h.length := by
  cases d with
  | none => exact absurd hd id
  | some d => exact lt_of_some hd

theorem IsTree.lt (r : IsTree h e a F) {x : Addr} (hx : F x) : x < h.length := by
  induction r with
  | mk h1 h2 h3 h4 h5 h6 h7 h8 h9 ih =>
    rcases (h9 x).1 hx with rfl | rfl | hd | ⟨b, hb, hx⟩
    · exact lt_of_some h1
    · exact lt_of_some h2
    · subst hd
      exact h3.lt
    · obtain ⟨i, hi⟩ := List.getElem?_of_mem hb
      have hlt : i < _ := (List.getElem?_eq_some_iff.1 hi).1
      rw [h4] at hlt
      exact ih i b _ hi (List.getElem?_eq_getElem hlt) hx

theorem IsTree.root (r : IsTree h e a F) : F a := by
  obtain ⟨da, la, as, G, v⟩ := r.view
  exact (v.foot a).2 (.inl rfl)

theorem View.ne_list (v : View h e a F da la as G) : la ≠ a := by
  intro h; have := v.list; rw [h, v.obj] at this; cases this

theorem View.ne_dict (v : View h e a F da la as G) {x : Addr} (hx : da = some x) : x ≠ a ∧ x ≠ la := by
  subst hx
  have hd := v.dict
  cases he : e.attrib with
  | none => rw [he] at hd; exact absurd hd id
  | some d =>
    rw [he] at hd
    change h[x]? = _ at hd
    constructor
    · intro h; rw [h, v.obj] at hd; cases hd
    · intro h; rw [h, v.list] at hd; cases hd

theorem View.kid_mem (v : View h e a F da la as G) {b : Addr} (hb : b ∈ as) : ∃ (i : Nat) (c : Elem), as[i]? = some b ∧ e.elements[i]? = some c := by
  obtain ⟨i, hi⟩ := List.getElem?_of_mem hb
  have hlt : i < _ := (List.getElem?_eq_some_iff.1 hi).1
  rw [v.kids.len] at hlt
  exact ⟨i, _, hi, List.getElem?_eq_getElem hlt⟩

theorem View.kid_lt (v : View h e a F da la as G) {b : Addr} (hb : b ∈ as) {x : Addr} (hx : G b x) : x < h.length := by
  obtain ⟨i, c, hi, hc⟩ := v.kid_mem hb
  exact (v.kids.kid i b c hi hc).lt hx

theorem Kids.frame {es : List Elem} (k : Kids h es as G) (hs : ∀ b ∈ as, ∀ x, G b x → h'[x]? = h[x]?) : Kids h' es as G :=
  ⟨k.len, fun i b c hb hc => (k.kid i b c hb hc).frame (hs b (List.mem_of_getElem? hb)), k.inj, k.disj⟩

/-! ## Steps -/

/-- Only objects in `F` have changed; there may be new ones. -/
structure Ext (h h' : Store) (F : Addr → Prop) : Prop where
  le : h.length ≤ h'.length
  same : ∀ x, x < h.length → ¬ F x → h'[x]? = h[x]?

/-- The element at `a`, made of the objects `F`, has become `e'`: made of objects in `F` and new ones, and no others have
changed. -/
def Step (h : Store) (a : Addr) (F : Addr → Prop) (h' : Store) (e' : Elem) : Prop :=
  ∃ F', IsTree h' e' a F' ∧ Ext h h' F ∧ ∀ x, F' x → F x ∨ h.length ≤ x

theorem Ext.refl : Ext h h F := ⟨Nat.le_refl _, fun _ _ _ => rfl⟩

theorem Ext.trans {h'' : Store} {F' : Addr → Prop} (e1 : Ext h h' F) (hF : ∀ x, F' x → F x ∨ h.length ≤ x) (e2 : Ext h' h'' F') :
    Ext h h'' F := by
  refine ⟨Nat.le_trans e1.le e2.le, fun x hx hn => ?_⟩
  rw [e2.same x (Nat.lt_of_lt_of_le hx e1.le) ?_, e1.same x hx hn]
  intro hF'
  rcases hF x hF' with h | h
  · exact hn h
  · omega

theorem Step.trans {h'' : Store} {F' : Addr → Prop} {e' : Elem} (e1 : Ext h h' F) (hF : ∀ x, F' x → F x ∨ h.length ≤ x)
    (s : Step h' a F' h'' e') : Step h a F h'' e' := by
  obtain ⟨F'', r, e2, hF'⟩ := s
  refine ⟨F'', r, e1.trans hF e2, fun x hx => ?_⟩
  rcases hF' x hx with h | h
  · exact hF x h
  · exact .inr (Nat.le_trans e1.le h)

theorem IsTree.step (r : IsTree h e a F) : Step h a F h e := ⟨F, r, .refl, fun _ => .inl⟩

/-- A change of a child is a change of the element. -/
theorem View.child (v : View h e a F da la as G) {i : Nat} {b : Addr} {c' : Elem} (hi : as[i]? = some b)
    (s : Step h b (G b) h' c') : Step h a F h' (e.setChild i c') := by
  obtain ⟨Fb, r, ext, hF⟩ := s
  have hb : b ∈ as := List.mem_of_getElem? hi
  have hout := v.out b hb
  have hGF : ∀ b ∈ as, ∀ x, G b x → F x := fun b hb x hx => (v.foot x).2 (.inr (.inr (.inr ⟨b, hb, hx⟩)))
  have hsame : ∀ x, F x → ¬ G b x → h'[x]? = h[x]? := fun x hx hn => ext.same x (v.tree.lt hx) hn
  have hother : ∀ b' ∈ as, b' ≠ b → ∀ x, G b' x → h'[x]? = h[x]? := fun b' hb' hne x hx =>
    hsame x (hGF b' hb' x hx) (v.kids.disj b' hb' b hb hne x hx)
  refine ⟨fun x => x = a ∨ x = la ∨ da = some x ∨ ∃ b' ∈ as, (if b' = b then Fb else G b') x, ?_, ⟨ext.le, ?_⟩, ?_⟩
  · refine .mk (la := la) (da := da) (as := as) (G := fun b' => if b' = b then Fb else G b') ?_ ?_ ?_ ?_ ?_ v.kids.inj ?_ ?_
      (fun x => Iff.rfl)
    · rw [hsame a ((v.foot a).2 (.inl rfl)) fun hx => (hout a hx).1 rfl]; exact v.obj
    · rw [hsame la ((v.foot la).2 (.inr (.inl rfl))) fun hx => (hout la hx).2.1 rfl]; exact v.list
    · exact v.dict.frame fun x hx => hsame x ((v.foot x).2 (.inr (.inr (.inl hx)))) fun hG => (hout x hG).2.2 hx
    · simp [Elem.setChild, v.kids.len]
    · intro j b' c hb' hc
      by_cases hbb : b' = b
      · subst hbb
        have := v.kids.inj _ _ _ hi hb'
        subst this
        simp only [Elem.setChild] at hc
        have hlt : i < e.elements.length := by
          rw [← v.kids.len]; exact (List.getElem?_eq_some_iff.1 hi).1
        rw [List.getElem?_set_self hlt] at hc
        cases hc
        rw [if_pos rfl]
        exact r
      · rw [if_neg hbb]
        have hji : j ≠ i := by
          intro h; subst h; rw [hi] at hb'; cases hb'; exact hbb rfl
        simp only [Elem.setChild] at hc
        rw [List.getElem?_set_ne hji.symm] at hc
        exact (v.kids.kid j b' c hb' hc).frame (hother b' (List.mem_of_getElem? hb') hbb)
    · intro b1 h1 b2 h2 hne x
      by_cases hb1 : b1 = b
      · subst hb1
        rw [if_pos rfl, if_neg hne.symm]
        intro hx hx2
        rcases hF x hx with hG | hl
        · exact v.kids.disj _ h1 _ h2 hne x hG hx2
        · have := v.kid_lt h2 hx2; exact absurd this (Nat.not_lt.2 hl)
      · by_cases hb2 : b2 = b
        · subst hb2
          rw [if_neg hb1, if_pos rfl]
          intro hx hx2
          rcases hF x hx2 with hG | hl
          · exact v.kids.disj _ h1 _ h2 hne x hx hG
          · have := v.kid_lt h1 hx; exact absurd this (Nat.not_lt.2 hl)
        · rw [if_neg hb1, if_neg hb2]
          exact v.kids.disj _ h1 _ h2 hne x
    · intro b' hb' x
      by_cases hbb : b' = b
      · subst hbb
        rw [if_pos rfl]
        intro hx
        rcases hF x hx with hG | hl
        · exact v.out _ hb' x hG
        · refine ⟨?_, ?_, ?_⟩
          · rintro rfl; have := v.tree.lt ((v.foot _).2 (.inl rfl)); exact absurd this (Nat.not_lt.2 hl)
          · rintro rfl; have := v.tree.lt ((v.foot x).2 (.inr (.inl rfl))); exact absurd this (Nat.not_lt.2 hl)
          · intro hd; have := v.tree.lt ((v.foot x).2 (.inr (.inr (.inl hd)))); exact absurd this (Nat.not_lt.2 hl)
      · rw [if_neg hbb]
        exact v.out _ hb' x
  · intro x hx hn
    exact ext.same x hx fun hG => hn (hGF b hb x hG)
  · intro x hx
    rcases hx with rfl | rfl | hd | ⟨b', hb', hx⟩
    · exact .inl ((v.foot _).2 (.inl rfl))
    · exact .inl ((v.foot _).2 (.inr (.inl rfl)))
    · exact .inl ((v.foot _).2 (.inr (.inr (.inl hd))))
    · by_cases hbb : b' = b
      · subst hbb
        rw [if_pos rfl] at hx
        rcases hF x hx with h | h
        · exact .inl (hGF _ hb' x h)
        · exact .inr h
      · rw [if_neg hbb] at hx
        exact .inl (hGF _ hb' x hx)

/-! ## Changing one object -/

theorem set_same {c : Cell} {x y : Addr} (hne : x ≠ y) : (h.set y c)[x]? = h[x]? := List.getElem?_set_ne hne.symm

theorem ext_set {c : Cell} {y : Addr} (hy : F y) : Ext h (h.set y c) F :=
  ⟨by simp, fun x _ hn => set_same (by rintro rfl; exact hn hy)⟩

theorem View.obj? (v : View h e a F da la as G) :
    Store.obj? h a = some ⟨e.tag, e.nsmap, e.text, e.tail, da, la, e.next, e.line⟩ := by
  simp [Store.obj?, v.obj]

theorem View.kids_eq (v : View h e a F da la as G) : h.kids ⟨e.tag, e.nsmap, e.text, e.tail, da, la, e.next, e.line⟩ = as := by
  simp [Store.kids, Store.list?, v.list]

/-- Assigning to attributes of the object other than the dictionary and the list. -/
theorem View.assign (v : View h e a F da la as G) {e' : Elem} (h1 : e'.attrib = e.attrib) (h2 : e'.elements = e.elements) :
    View (h.set a (.obj ⟨e'.tag, e'.nsmap, e'.text, e'.tail, da, la, e'.next, e'.line⟩)) e' a F da la as G := by
  refine ⟨List.getElem?_set_self (lt_of_some v.obj), ?_, ?_, ?_, v.out, v.foot⟩
  · rw [set_same v.ne_list]; exact v.list
  · rw [h1]; exact v.dict.frame fun x hx => set_same (v.ne_dict hx).1
  · rw [h2]; exact v.kids.frame fun b hb x hx => set_same (v.out b hb x hx).1

theorem View.modify (v : View h e a F da la as G) (f : Obj → Obj) :
    h.modify a f = h.set a (.obj (f ⟨e.tag, e.nsmap, e.text, e.tail, da, la, e.next, e.line⟩)) := by
  rw [Store.modify, v.obj?]

theorem View.attrib_map (v : View h e a F da la as G) : (da.map fun x => (h.dict? x).getD []) = e.attrib := by
  have hd := v.dict
  cases da with
  | none => cases he : e.attrib with
    | none => rfl
    | some d => rw [he] at hd; exact absurd hd id
  | some x => cases he : e.attrib with
    | none => rw [he] at hd; exact absurd hd id
    | some d =>
      rw [he] at hd
      change h[x]? = _ at hd
      simp [Store.dict?, hd]

theorem popText_step (r : IsTree h e a F) : (h.popText a).1 = e.popText.1 ∧ Step h a F (h.popText a).2 e.popText.2 := by
  obtain ⟨da, la, as, G, v⟩ := r.view
  refine ⟨by simp [Store.popText, v.obj?, Elem.popText], ?_⟩
  simp only [Store.popText, v.modify]
  exact ⟨F, (v.assign (e' := e.popText.2) rfl rfl).tree, ext_set r.root, fun _ => .inl⟩

theorem stepForward_step (r : IsTree h e a F) : Step h a F (h.stepForward a) e.stepForward := by
  obtain ⟨da, la, as, G, v⟩ := r.view
  simp only [Store.stepForward, v.modify]
  exact ⟨F, (v.assign (e' := e.stepForward) rfl rfl).tree, ext_set r.root, fun _ => .inl⟩

theorem popAttrib_step (r : IsTree h e a F) (k : String) :
    (h.popAttrib a k).1 = (e.popAttrib k).1 ∧ Step h a F (h.popAttrib a k).2 (e.popAttrib k).2 := by
  obtain ⟨da, la, as, G, v⟩ := r.view
  have hd := v.dict
  simp only [Store.popAttrib, v.obj?, Option.bind_some, Elem.popAttrib]
  cases hda : da with
  | none =>
    cases he : e.attrib with
    | some d => rw [hda, he] at hd; exact absurd hd id
    | none => simp [truthyMap, r.step]
  | some x =>
    cases he : e.attrib with
    | none => rw [hda, he] at hd; exact absurd hd id
    | some d =>
      rw [hda, he] at hd
      change h[x]? = _ at hd
      simp only [Store.dict?, hd]
      by_cases ht : truthyMap (some d) = true
      · simp only [ht, if_true, Option.getD_some, true_and]
        have hx := v.ne_dict hda
        refine ⟨F, ?_, ext_set ((v.foot x).2 (.inr (.inr (.inl hda)))), fun _ => .inl⟩
        refine View.tree (da := some x) (la := la) (as := as) (G := G) ⟨?_, ?_, ?_, ?_, ?_, ?_⟩
        · rw [set_same hx.1.symm, ← hda]; exact v.obj
        · rw [set_same hx.2.symm]; exact v.list
        · exact List.getElem?_set_self (lt_of_some hd)
        · exact v.kids.frame fun b hb y hy => set_same fun h => (v.out b hb y hy).2.2 (h ▸ hda)
        · rw [← hda]; exact v.out
        · rw [← hda]; exact v.foot
      · simp only [ht, Bool.false_eq_true, if_false, true_and]
        exact r.step

theorem isNil_step (r : IsTree h e a F) : (h.isNil a).1 = e.isNil.1 ∧ Step h a F (h.isNil a).2 e.isNil.2 := by
  obtain ⟨h1, h2⟩ := popAttrib_step r Elem.nilAttr
  simp only [Store.isNil, Elem.isNil]
  exact ⟨by rw [h1], h2⟩

/-- Giving the dictionary away. -/
theorem View.noAttrib (v : View h e a F da la as G) {e' : Elem} (h1 : e'.attrib = none) (h2 : e'.elements = e.elements) :
    View (h.set a (.obj ⟨e'.tag, e'.nsmap, e'.text, e'.tail, none, la, e'.next, e'.line⟩)) e' a
      (fun x => x = a ∨ x = la ∨ (none : Option Addr) = some x ∨ ∃ b ∈ as, G b x) none la as G := by
  refine ⟨List.getElem?_set_self (lt_of_some v.obj), ?_, ?_, ?_, ?_, fun _ => Iff.rfl⟩
  · rw [set_same v.ne_list]; exact v.list
  · rw [h1]; trivial
  · rw [h2]; exact v.kids.frame fun b hb x hx => set_same (v.out b hb x hx).1
  · intro b hb x hx
    exact ⟨(v.out b hb x hx).1, (v.out b hb x hx).2.1, fun h => nomatch h⟩

theorem popAttributes_step (r : IsTree h e a F) :
    ((h.popAttributes a).1.map fun da => ((h.popAttributes a).2.dict? da).getD []) = e.popAttributes.1 ∧
      Step h a F (h.popAttributes a).2 e.popAttributes.2 := by
  obtain ⟨da, la, as, G, v⟩ := r.view
  simp only [Store.popAttributes, v.modify, v.obj?, Option.bind_some]
  constructor
  · rw [Elem.popAttributes, ← v.attrib_map]
    cases hda : da with
    | none => rfl
    | some x => simp only [Option.map_some, Store.dict?, set_same (v.ne_dict hda).1]
  · refine ⟨_, (v.noAttrib (e' := e.popAttributes.2) rfl rfl).tree, ext_set r.root, ?_⟩
    intro x hx
    refine .inl ((v.foot x).2 ?_)
    rcases hx with h | h | h | h
    · exact .inl h
    · exact .inr (.inl h)
    · cases h
    · exact .inr (.inr (.inr h))

theorem View.tag? (v : View h e a F da la as G) : h.tag? a = some e.tag := by simp [Store.tag?, v.obj?]

theorem View.line (v : View h e a F da la as G) : h.line a = e.line := by simp [Store.line, v.obj?]

theorem IsTree.line (r : IsTree h e a F) : h.line a = e.line := by
  obtain ⟨da, la, as, G, v⟩ := r.view
  exact v.line

theorem IsTree.tag? (r : IsTree h e a F) : h.tag? a = some e.tag := by
  obtain ⟨da, la, as, G, v⟩ := r.view
  exact v.tag?

theorem IsTree.getAttrib (r : IsTree h e a F) (k : String) : h.getAttrib a k = e.getAttrib k := by
  obtain ⟨da, la, as, G, v⟩ := r.view
  simp only [Store.getAttrib, v.obj?, Option.bind_some, Elem.getAttrib, ← v.attrib_map]
  cases da with
  | none => rfl
  | some x => rfl

/-! ## Searching -/

theorem firstFrom_eq {tag : String} {as : List Addr} {es : List Elem} (hl : as.length = es.length)
    (ht : ∀ (i : Nat) (b : Addr) (c : Elem), as[i]? = some b → es[i]? = some c → h.tag? b = some c.tag) (k : Nat) :
    Store.firstFrom h tag as k = Elem.firstFrom tag es k := by
  induction as generalizing es k with
  | nil => cases es with
    | nil => rfl
    | cons c es => cases hl
  | cons b as ih => cases es with
    | nil => cases hl
    | cons c es =>
      have h0 := ht 0 b c rfl rfl
      simp only [Store.firstFrom, Elem.firstFrom, h0, Option.some.injEq]
      split
      · rfl
      · exact ih (Nat.succ.inj hl) (fun i b c hb hc => ht (i + 1) b c (by simpa using hb) (by simpa using hc)) _

theorem Kids.firstFrom {es : List Elem} (k : Kids h es as G) (tag : String) (n m : Nat) :
    Store.firstFrom h tag (as.drop n) m = Elem.firstFrom tag (es.drop n) m := by
  refine firstFrom_eq (by simp [k.len]) ?_ m
  intro i b c hb hc
  rw [List.getElem?_drop] at hb hc
  exact (k.kid _ b c hb hc).tag?

theorem swap_length (l : List Addr) (i j : Nat) : (Store.swap l i j).length = l.length := by
  unfold Store.swap; split <;> simp

theorem swap_getElem? {l : List Addr} {i j : Nat} (hi : i < l.length) (hj : j < l.length) (k : Nat) :
    (Store.swap l i j)[k]? = if k = i then l[j]? else if k = j then l[i]? else l[k]? := by
  have : Store.swap l i j = (l.set i l[j]).set j l[i] := by
    unfold Store.swap
    rw [List.getElem?_eq_getElem hi, List.getElem?_eq_getElem hj]
  rw [this]
  by_cases h1 : k = j
  · subst h1
    by_cases h2 : k = i
    · subst h2; simp [hi]
    · simp [h2, hj, hi]
  · by_cases h2 : k = i
    · subst h2; simp [hi, hj, Ne.symm h1]
    · simp [h1, h2, Ne.symm h1, Ne.symm h2]

theorem swap_mem {l : List Addr} {i j : Nat} (hi : i < l.length) (hj : j < l.length) (b : Addr) :
    b ∈ Store.swap l i j ↔ b ∈ l := by
  constructor
  · intro hb
    obtain ⟨k, hk⟩ := List.getElem?_of_mem hb
    rw [swap_getElem? hi hj] at hk
    split at hk
    · exact List.mem_of_getElem? hk
    · split at hk <;> exact List.mem_of_getElem? hk
  · intro hb
    obtain ⟨k, hk⟩ := List.getElem?_of_mem hb
    by_cases h1 : k = i
    · subst h1
      refine List.mem_of_getElem? (i := j) ?_
      rw [swap_getElem? hi hj]
      by_cases h2 : j = k
      · subst h2; simpa using hk
      · simp [h2, hk]
    · by_cases h2 : k = j
      · subst h2
        refine List.mem_of_getElem? (i := i) ?_
        rw [swap_getElem? hi hj]
        simp [hk]
      · refine List.mem_of_getElem? (i := k) ?_
        rw [swap_getElem? hi hj]
        simp [h1, h2, hk]

theorem Kids.swap {es : List Elem} (k : Kids h es as G) {i j : Nat} (hi : i < es.length) (hj : j < es.length) :
    Kids h (Elem.swap es i j) (Store.swap as i j) G := by
  have hi' : i < as.length := by rw [k.len]; exact hi
  have hj' : j < as.length := by rw [k.len]; exact hj
  refine ⟨by rw [swap_length, Elem.swap_length, k.len], ?_, ?_, ?_⟩
  · intro x b c hb hc
    rw [swap_getElem? hi' hj'] at hb
    rw [Elem.swap_getElem? hi hj] at hc
    by_cases h1 : x = i
    · rw [if_pos h1] at hb hc; exact k.kid _ b c hb hc
    · rw [if_neg h1] at hb hc
      by_cases h2 : x = j
      · rw [if_pos h2] at hb hc; exact k.kid _ b c hb hc
      · rw [if_neg h2] at hb hc; exact k.kid _ b c hb hc
  · intro x y b hx hy
    have hs : ∀ x, (Store.swap as i j)[x]? = as[if x = i then j else if x = j then i else x]? := by
      intro x
      rw [swap_getElem? hi' hj']
      split
      · rfl
      · split <;> rfl
    rw [hs] at hx hy
    have hh := k.inj _ _ _ hx hy
    split at hh <;> split at hh <;> (try split at hh) <;> (try split at hh) <;> omega
  · intro b hb b' hb'
    exact k.disj b ((swap_mem hi' hj' b).1 hb) b' ((swap_mem hi' hj' b').1 hb')

/-- Rearranging the list of children. -/
theorem View.rearrange (v : View h e a F da la as G) {as' : List Addr} {es' : List Elem} (k : Kids h es' as' G)
    (hm : ∀ b, b ∈ as' ↔ b ∈ as) : View (h.set la (.list as')) { e with elements := es' } a F da la as' G := by
  refine ⟨?_, List.getElem?_set_self (lt_of_some v.list), ?_, ?_, ?_, ?_⟩
  · rw [set_same v.ne_list.symm]; exact v.obj
  · exact v.dict.frame fun x hx => set_same (v.ne_dict hx).2
  · exact k.frame fun b hb x hx => set_same (v.out b ((hm b).1 hb) x hx).2.1
  · exact fun b hb => v.out b ((hm b).1 hb)
  · intro x
    rw [v.foot x]
    simp only [hm]

theorem search_view (v : View h e a F da la as G) (tag : String) (mode : Mode) (step : Bool) :
    ∃ as', (h.search a tag mode step).1 = (e.search tag mode step).1.bind (as'[·]?) ∧
      View (h.search a tag mode step).2 (e.search tag mode step).2 a F da la as' G ∧ Ext h (h.search a tag mode step).2 F := by
  have hobj := v.obj?
  have hk := v.kids_eq
  simp only [Store.search, hobj, hk]
  cases mode with
  | strict =>
    simp only [Elem.search, Elem.strictSearch]
    cases hb : as[e.next]? with
    | none =>
      have : e.elements[e.next]? = none := by
        rw [List.getElem?_eq_none_iff] at hb ⊢; rw [← v.kids.len]; exact hb
      rw [this]
      exact ⟨as, rfl, v, .refl⟩
    | some b =>
      obtain ⟨c, hc⟩ : ∃ c, e.elements[e.next]? = some c := by
        have := (List.getElem?_eq_some_iff.1 hb).1
        rw [v.kids.len] at this
        exact ⟨_, List.getElem?_eq_getElem this⟩
      rw [hc]
      have ht := (v.kids.kid _ b c hb hc).tag?
      simp only [ht, Option.some.injEq]
      by_cases hct : c.tag = tag
      · simp only [hct, if_true]
        cases step with
        | false => exact ⟨as, by simp [hb], v, .refl⟩
        | true =>
          simp only [if_true, v.modify]
          exact ⟨as, by simp [hb], v.assign (e' := { e with next := e.next + 1 }) rfl rfl, ext_set v.tree.root⟩
      · simp only [hct, if_false]
        exact ⟨as, rfl, v, .refl⟩
  | ordered =>
    simp only [Elem.search, Elem.orderedSearch, Elem.firstMatch, v.kids.firstFrom]
    cases hf : Elem.firstFrom tag (e.elements.drop e.next) e.next with
    | none => exact ⟨as, rfl, v, .refl⟩
    | some i =>
      cases step with
      | false => exact ⟨as, rfl, v, .refl⟩
      | true =>
        simp only [if_true, v.modify]
        exact ⟨as, rfl, v.assign (e' := { e with next := i + 1 }) rfl rfl, ext_set v.tree.root⟩
  | unordered =>
    simp only [Elem.search, Elem.unorderedSearch, Elem.firstMatch, v.kids.firstFrom]
    cases hf : Elem.firstFrom tag (e.elements.drop e.next) e.next with
    | none => exact ⟨as, rfl, v, .refl⟩
    | some i =>
      have hlt : i < e.elements.length := Elem.firstMatch_lt hf
      have hle : e.next ≤ i := (Elem.firstMatch_some hf).1
      have hlt' : e.next < e.elements.length := Nat.lt_of_le_of_lt hle hlt
      have v' := v.rearrange (v.kids.swap hlt' hlt)
        (swap_mem (by rw [v.kids.len]; exact hlt') (by rw [v.kids.len]; exact hlt))
      have hfound : as[i]? = (Store.swap as e.next i)[e.next]? := by
        rw [swap_getElem? (by rw [v.kids.len]; exact hlt') (by rw [v.kids.len]; exact hlt), if_pos rfl]
      have hF : F la := (v.foot la).2 (.inr (.inl rfl))
      cases step with
      | false => exact ⟨_, hfound, v', ext_set hF⟩
      | true =>
        simp only [if_true]
        have hm := v'.modify fun o => { o with next := o.next + 1 }
        rw [hm]
        exact ⟨_, hfound, v'.assign (e' := { e with elements := Elem.swap e.elements e.next i, next := e.next + 1 }) rfl rfl,
          (ext_set hF).trans (fun _ => .inl) (ext_set v.tree.root)⟩

theorem View.kid_of_index (v : View h e a F da la as G) {i : Nat} {c : Elem} (hc : e.elements[i]? = some c) :
    ∃ b, as[i]? = some b ∧ IsTree h c b (G b) := by
  have hlt := (List.getElem?_eq_some_iff.1 hc).1
  rw [← v.kids.len] at hlt
  exact ⟨_, List.getElem?_eq_getElem hlt, v.kids.kid i _ c (List.getElem?_eq_getElem hlt) hc⟩

theorem View.lookBehind (v : View h e a F da la as G) (tag : String) :
    h.lookBehind a tag = (e.lookBehind tag).map fun found => if found then as[e.next - 1]? else none := by
  simp only [Store.lookBehind, v.obj?, v.kids_eq, Elem.lookBehind]
  split
  · rfl
  · cases hc : e.elements[e.next - 1]? with
    | none =>
      have : as[e.next - 1]? = none := by
        rw [List.getElem?_eq_none_iff] at hc ⊢; rw [v.kids.len]; exact hc
      rw [this]
      rfl
    | some c =>
      obtain ⟨b, hb, r⟩ := v.kid_of_index hc
      rw [hb]
      simp only [r.tag?, Option.some.injEq, Except.map, decide_eq_true_eq]


theorem findElement_view (v : View h e a F da la as G) (tag : String) (mode : Mode) :
    (∃ err, e.findElement tag mode = .error err ∧ h.findElement a tag mode = .error err) ∨
    ∃ as' fi e' fb h', e.findElement tag mode = .ok (fi, e') ∧ h.findElement a tag mode = .ok (fb, h') ∧
      fb = fi.bind (as'[·]?) ∧ View h' e' a F da la as' G ∧ Ext h h' F := by
  have hl := v.lookBehind tag
  simp only [Store.findElement, Elem.findElement, hl]
  cases hb : e.lookBehind tag with
  | error err => exact .inl ⟨err, rfl, rfl⟩
  | ok found =>
    refine .inr ?_
    obtain ⟨as', h1, h2, h3⟩ := search_view v tag mode true
    cases found with
    | false => exact ⟨as', _, _, _, _, rfl, rfl, h1, h2, h3⟩
    | true =>
      have hlt : ∃ b, as[e.next - 1]? = some b := by
        unfold Elem.lookBehind at hb
        split at hb
        · cases hb
        · cases hc : e.elements[e.next - 1]? with
          | none => rw [hc] at hb; cases hb
          | some c =>
            obtain ⟨b, hb, _⟩ := v.kid_of_index hc
            exact ⟨b, hb⟩
      obtain ⟨b, hb'⟩ := hlt
      refine ⟨as, some (e.next - 1), e, some b, h, rfl, ?_, ?_, v, .refl⟩
      · simp [Except.map, hb']
      · simp [hb']

/-! ## New objects -/

theorem get_append {c : List Cell} {x : Addr} (hx : x < h.length) : (h ++ c)[x]? = h[x]? := List.getElem?_append_left hx

/-- Nothing has changed. -/
abbrev Grow (h h' : Store) : Prop := Ext h h' fun _ => False

theorem Grow.trans {h'' : Store} (g : Grow h h') (g' : Grow h' h'') : Grow h h'' := Ext.trans g (fun _ => False.elim) g'

theorem Grow.get (g : Grow h h') {x : Addr} (hx : x < h.length) : h'[x]? = h[x]? := g.same x hx id

theorem Grow.ext (g : Grow h h') : Ext h h' F := ⟨g.le, fun _ hx _ => g.get hx⟩

theorem IsTree.grow (r : IsTree h e a F) (g : Grow h h') : IsTree h' e a F := r.frame fun _ hx => g.get (r.lt hx)

theorem View.grow (v : View h e a F da la as G) (g : Grow h h') : View h' e a F da la as G := by
  have hs : ∀ x, F x → h'[x]? = h[x]? := fun x hx => g.get (v.tree.lt hx)
  refine ⟨(hs _ ((v.foot _).2 (.inl rfl))).trans v.obj, (hs _ ((v.foot _).2 (.inr (.inl rfl)))).trans v.list,
    v.dict.frame fun x hx => hs _ ((v.foot _).2 (.inr (.inr (.inl hx)))), v.kids.frame fun b hb x hx => ?_, v.out, v.foot⟩
  exact hs x ((v.foot x).2 (.inr (.inr (.inr ⟨b, hb, hx⟩))))

theorem grow_append (c : List Cell) : Grow h (h ++ c) := ⟨by simp, fun _ hx _ => get_append hx⟩

theorem get_new (c : Cell) : (h ++ [c])[h.length]? = some c := by simp

theorem Kids.lt {es : List Elem} (k : Kids h es as G) {b : Addr} (hb : b ∈ as) : ∃ c, IsTree h c b (G b) := by
  obtain ⟨i, hi⟩ := List.getElem?_of_mem hb
  have hlt : i < _ := (List.getElem?_eq_some_iff.1 hi).1
  rw [k.len] at hlt
  exact ⟨_, k.kid i b _ hi (List.getElem?_eq_getElem hlt)⟩

theorem Kids.grow {es : List Elem} (k : Kids h es as G) (g : Grow h h') : Kids h' es as G :=
  k.frame fun b hb _ hx => by
    obtain ⟨c, r⟩ := k.lt hb
    exact g.get (r.lt hx)

/-- Another child in front, made before the others. -/
theorem Kids.cons {h1 h2 : Store} {c : Elem} {b : Addr} {F1 : Addr → Prop} {es : List Elem} {bs : List Addr}
    (r : IsTree h1 c b F1) (k : Kids h2 es bs G) (g : Grow h1 h2) (hG : ∀ b' ∈ bs, ∀ x, G b' x → h1.length ≤ x) :
    Kids h2 (c :: es) (b :: bs) (fun b' => if b' = b then F1 else G b') := by
  have hroot : ∀ b' ∈ bs, h1.length ≤ b' := fun b' hb' => by
    obtain ⟨c', r'⟩ := k.lt hb'
    exact hG b' hb' b' r'.root
  have hb : b < h1.length := r.lt r.root
  have hne : ∀ b' ∈ bs, b' ≠ b := fun b' hb' h => by
    have := hroot b' hb'
    rw [h] at this
    exact absurd hb (Nat.not_lt.2 this)
  refine ⟨by simp [k.len], ?_, ?_, ?_⟩
  · intro i b' c' hi hc
    cases i with
    | zero =>
      cases hi; cases hc
      rw [if_pos rfl]
      exact r.grow g
    | succ i =>
      simp only [List.getElem?_cons_succ] at hi hc
      rw [if_neg (hne b' (List.mem_of_getElem? hi))]
      exact k.kid i b' c' hi hc
  · intro i j b' hi hj
    cases i with
    | zero =>
      cases j with
      | zero => rfl
      | succ j =>
        cases hi
        simp only [List.getElem?_cons_succ] at hj
        exact absurd rfl (hne _ (List.mem_of_getElem? hj))
    | succ i =>
      cases j with
      | zero =>
        cases hj
        simp only [List.getElem?_cons_succ] at hi
        exact absurd rfl (hne _ (List.mem_of_getElem? hi))
      | succ j =>
        simp only [List.getElem?_cons_succ] at hi hj
        rw [k.inj i j b' hi hj]
  · intro b1 h1' b2 h2' hn x
    rcases List.mem_cons.1 h1' with rfl | h1'
    · rcases List.mem_cons.1 h2' with rfl | h2'
      · exact absurd rfl hn
      · rw [if_pos rfl, if_neg hn.symm]
        intro hx hx2
        exact absurd (r.lt hx) (Nat.not_lt.2 (hG b2 h2' x hx2))
    · rcases List.mem_cons.1 h2' with rfl | h2'
      · rw [if_neg hn, if_pos rfl]
        intro hx hx2
        exact absurd (r.lt hx2) (Nat.not_lt.2 (hG b1 (by assumption) x hx))
      · rw [if_neg (hne b1 h1'), if_neg (hne b2 h2')]
        exact k.disj b1 h1' b2 h2' hn x

/-- A tree made of new objects only. -/
def Fresh (h : Store) (e : Elem) (b : Addr) (h' : Store) : Prop :=
  ∃ F', IsTree h' e b F' ∧ (∀ x, F' x → h.length ≤ x) ∧ Grow h h'

/-- Trees made of new objects only. -/
def FreshAll (h : Store) (es : List Elem) (bs : List Addr) (h' : Store) : Prop :=
  ∃ G, Kids h' es bs G ∧ (∀ b ∈ bs, ∀ x, G b x → h.length ≤ x) ∧ Grow h h'

theorem Fresh.grow {b : Addr} (f : Fresh h e b h') : Grow h h' := by
  obtain ⟨_, _, _, g⟩ := f
  exact g

theorem eta_elem (e : Elem) : (⟨e.tag, e.nsmap, e.text, e.tail, e.attrib, e.elements, e.next, e.line⟩ : Elem) = e := by
  cases e; rfl

theorem FreshAll.nil : FreshAll h [] [] h :=
  ⟨fun _ _ => False, ⟨rfl, by simp, by simp, by simp⟩, by simp, .refl⟩

theorem FreshAll.cons {h1 h2 : Store} {c : Elem} {b : Addr} {es : List Elem} {bs : List Addr} (f : Fresh h c b h1)
    (fs : FreshAll h1 es bs h2) : FreshAll h (c :: es) (b :: bs) h2 := by
  obtain ⟨F1, r, hF, g⟩ := f
  obtain ⟨G, k, hG, g'⟩ := fs
  refine ⟨_, k.cons r g' hG, ?_, g.trans g'⟩
  intro b' hb' x
  by_cases hbb : b' = b
  · rw [if_pos hbb]; exact hF x
  · rw [if_neg hbb]
    rcases List.mem_cons.1 hb' with h | hb'
    · exact absurd h hbb
    · exact fun hx => Nat.le_trans g.le (hG b' hb' x hx)

/-- `__init__` on trees that exist. -/
theorem init_kids {es : List Elem} {bs : List Addr} (k : Kids h es bs G) (tag : String) (nsmap : Option NsMap)
    (text tail : Option String) (attrib : Option (Dict String String)) (next : Nat) (line : Int) :
    ∃ F', IsTree (h.init tag nsmap text tail attrib bs next line).2 ⟨tag, nsmap, text, tail, attrib, es, next, line⟩
        (h.init tag nsmap text tail attrib bs next line).1 F' ∧
      (∀ x, F' x → h.length ≤ x ∨ ∃ b ∈ bs, G b x) ∧ Grow h (h.init tag nsmap text tail attrib bs next line).2 := by
  have hlt : ∀ b ∈ bs, ∀ x, G b x → x < h.length := fun b hb x hx => by
    obtain ⟨c, r⟩ := k.lt hb
    exact r.lt hx
  cases attrib with
  | none =>
    simp only [Store.init, Store.alloc]
    have g : Grow h (h ++ [.list bs] ++ [.obj ⟨tag, nsmap, text, tail, none, h.length, next, line⟩]) :=
      (grow_append _).trans (grow_append _)
    refine ⟨fun x => x = h.length + 1 ∨ x = h.length ∨ (none : Option Addr) = some x ∨ ∃ b ∈ bs, G b x,
      View.tree (da := none) (la := h.length) (as := bs) (G := G) ⟨?_, ?_, trivial, k.grow g, ?_, ?_⟩, ?_, g⟩
    · simp
    · simp
    · intro b hb x hx
      have := hlt b hb x hx
      exact ⟨Nat.ne_of_lt (by simpa using Nat.lt_succ_of_lt this), Nat.ne_of_lt this, by simp⟩
    · intro x; simp
    · rintro x (rfl | rfl | h | h)
      · exact .inl (Nat.le_succ _)
      · exact .inl (Nat.le_refl _)
      · cases h
      · exact .inr h
  | some d =>
    simp only [Store.init, Store.alloc]
    have g : Grow h (h ++ [.dict d] ++ [.list bs] ++ [.obj ⟨tag, nsmap, text, tail, some h.length, (h ++ [Cell.dict d]).length, next, line⟩]) :=
      ((grow_append _).trans (grow_append _)).trans (grow_append _)
    refine ⟨fun x => x = h.length + 1 + 1 ∨ x = h.length + 1 ∨ some h.length = some x ∨ ∃ b ∈ bs, G b x,
      View.tree (da := some h.length) (la := h.length + 1) (as := bs) (G := G) ⟨?_, ?_, ?_, k.grow g, ?_, ?_⟩, ?_, g⟩
    · simp
    · simp
    · simp [HoldsDict]
    · intro b hb x hx
      have := hlt b hb x hx
      refine ⟨Nat.ne_of_lt (by simpa using Nat.lt_succ_of_lt (Nat.lt_succ_of_lt this)), Nat.ne_of_lt (Nat.lt_succ_of_lt this), ?_⟩
      intro h; cases h; exact Nat.lt_irrefl _ this
    · intro x; simp
    · rintro x (rfl | rfl | h | h)
      · exact .inl (by omega)
      · exact .inl (by omega)
      · cases h; exact .inl (Nat.le_refl _)
      · exact .inr h

theorem Fresh.init {es : List Elem} {bs : List Addr} {h1 : Store} (f : FreshAll h es bs h1) (tag : String)
    (nsmap : Option NsMap) (text tail : Option String) (attrib : Option (Dict String String)) (next : Nat) (line : Int) :
    Fresh h ⟨tag, nsmap, text, tail, attrib, es, next, line⟩ (h1.init tag nsmap text tail attrib bs next line).1
      (h1.init tag nsmap text tail attrib bs next line).2 := by
  obtain ⟨G, k, hG, g⟩ := f
  obtain ⟨F', r, hF, g'⟩ := init_kids k tag nsmap text tail attrib next line
  refine ⟨F', r, ?_, g.trans g'⟩
  intro x hx
  rcases hF x hx with h | ⟨b, hb, hx⟩
  · exact Nat.le_trans g.le h
  · exact hG b hb x hx

mutual
theorem put_fresh (h : Store) : ∀ e : Elem, Fresh h e (h.put e).1 (h.put e).2
  | ⟨tag, nsmap, text, tail, attrib, elements, next, line⟩ => by
    simp only [Store.put]
    exact Fresh.init (putAll_fresh h elements) tag nsmap text tail attrib next line
theorem putAll_fresh (h : Store) : ∀ es : List Elem, FreshAll h es (h.putAll es).1 (h.putAll es).2
  | [] => by simp only [Store.putAll]; exact .nil
  | e :: es => by
    simp only [Store.putAll]
    exact .cons (put_fresh h e) (putAll_fresh _ es)
end

/-! ## Walking through a tree: the number of objects bounds the depth -/

theorem nodup_bound : ∀ (n : Nat) (L : List Nat), L.Nodup → (∀ x ∈ L, x < n) → L.length ≤ n
  | 0, L, _, h => by
    cases L with
    | nil => simp
    | cons x L => exact absurd (h x (List.mem_cons_self ..)) (Nat.not_lt_zero _)
  | n + 1, L, hn, h => by
    have h1 : (L.erase n).length ≤ n := by
      refine nodup_bound n _ (hn.erase n) fun x hx => ?_
      have := (List.Nodup.mem_erase_iff hn).1 hx
      have h2 := h x this.2
      have h3 := this.1
      omega
    by_cases hm : n ∈ L
    · rw [List.length_erase_of_mem hm] at h1; omega
    · rw [List.erase_of_not_mem hm] at h1; omega

/-- A bound for each item gives one for all of them. -/
theorem bound_all {β γ : Type} {P : Nat → Prop} {Q : Nat → β → γ → Prop} : ∀ (as : List β) (es : List γ), as.length = es.length →
    (∀ (i : Nat) (b : β) (c : γ), as[i]? = some b → es[i]? = some c →
      ∃ L : List Nat, L.Nodup ∧ (∀ x ∈ L, P x) ∧ ∀ n, L.length ≤ n → Q n b c) →
    ∃ L : List Nat, L.Nodup ∧ (∀ x ∈ L, P x) ∧ ∀ n, L.length ≤ n → ∀ (i : Nat) (b : β) (c : γ), as[i]? = some b →
      es[i]? = some c → Q n b c
  | [], _, _, _ => ⟨[], by simp, by simp, by simp⟩
  | b :: as, [], hl, _ => by cases hl
  | b :: as, c :: es, hl, hk => by
    obtain ⟨L, h1, h2, h3⟩ := bound_all as es (Nat.succ.inj hl) fun i b c hb hc => hk (i + 1) b c (by simpa using hb) (by simpa using hc)
    obtain ⟨L', h1', h2', h3'⟩ := hk 0 b c rfl rfl
    have hcase : ∀ n, L.length ≤ n → L'.length ≤ n → ∀ (i : Nat) (b' : _) (c' : _), (b :: as)[i]? = some b' →
        (c :: es)[i]? = some c' → Q n b' c' := by
      intro n hn hn' i b' c' hb hc
      cases i with
      | zero => cases hb; cases hc; exact h3' n hn'
      | succ i => exact h3 n hn i b' c' (by simpa using hb) (by simpa using hc)
    by_cases hle : L.length ≤ L'.length
    · exact ⟨L', h1', h2', fun n hn => hcase n (Nat.le_trans hle hn) hn⟩
    · exact ⟨L, h1, h2, fun n hn => hcase n hn (Nat.le_trans (Nat.le_of_lt (Nat.lt_of_not_le hle)) hn)⟩

theorem readAll_ok {n : Nat} : ∀ (as : List Addr) (es : List Elem), as.length = es.length →
    (∀ (i : Nat) (b : Addr) (c : Elem), as[i]? = some b → es[i]? = some c → Store.read n h b = some c) →
    Store.readAll (Store.read n h) as = some es
  | [], [], _, _ => by rw [Store.readAll]
  | [], _ :: _, hl, _ => by cases hl
  | _ :: _, [], hl, _ => by cases hl
  | b :: as, c :: es, hl, hk => by
    rw [Store.readAll, hk 0 b c rfl rfl]
    simp only
    rw [readAll_ok as es (Nat.succ.inj hl) fun i b c hb hc => hk (i + 1) b c (by simpa using hb) (by simpa using hc)]

theorem read_ok (r : IsTree h e a F) :
    ∃ L : List Nat, L.Nodup ∧ (∀ x ∈ L, F x) ∧ ∀ n, L.length ≤ n → Store.read n h a = some e := by
  induction r with
  | @mk e a la da as F G h1 h2 h3 h4 h5 h6 h7 h8 h9 ih =>
    have v : View h e a F da la as G := ⟨h1, h2, h3, ⟨h4, h5, h6, h7⟩, h8, h9⟩
    obtain ⟨L, hn, hm, hr⟩ := bound_all (P := fun x => ∃ b ∈ as, G b x) (Q := fun n b c => Store.read n h b = some c) as e.elements h4
      fun i b c hb hc => by
        obtain ⟨L, hn, hm, hr⟩ := ih i b c hb hc
        exact ⟨L, hn, fun x hx => ⟨b, List.mem_of_getElem? hb, hm x hx⟩, hr⟩
    refine ⟨a :: L, List.nodup_cons.2 ⟨?_, hn⟩, ?_, ?_⟩
    · intro ha
      obtain ⟨b, hb, hx⟩ := hm a ha
      exact (h8 b hb a hx).1 rfl
    · intro x hx
      rcases List.mem_cons.1 hx with rfl | hx
      · exact (h9 _).2 (.inl rfl)
      · exact (h9 _).2 (.inr (.inr (.inr (hm x hx))))
    · intro n hle
      cases n with
      | zero => simp at hle
      | succ n =>
        have hle' : L.length ≤ n := by simpa using hle
        simp only [Store.read, v.obj?, v.kids_eq]
        rw [readAll_ok as e.elements h4 (hr n hle')]
        simp only [v.attrib_map, eta_elem]

/-- The tree at an address is the element stored there. -/
theorem IsTree.read (r : IsTree h e a F) : h.tree? a = some e := by
  obtain ⟨L, h1, h2, h3⟩ := read_ok r
  exact h3 _ (nodup_bound _ L h1 fun x hx => r.lt (h2 x hx))

theorem copyAll_fresh {f : Store → Addr → Option (Addr × Store)} {I : Store → Prop} :
    ∀ (as : List Addr) (es : List Elem) (h : Store), as.length = es.length → I h →
    (∀ h1 h2, I h1 → Grow h1 h2 → I h2) →
    (∀ (i : Nat) (b : Addr) (c : Elem), as[i]? = some b → es[i]? = some c → ∀ h, I h →
      ∃ b' h', f h b = some (b', h') ∧ Fresh h c b' h') →
    ∃ bs h', Store.copyAll f as h = some (bs, h') ∧ FreshAll h es bs h'
  | [], [], h, _, _, _, _ => ⟨[], h, rfl, .nil⟩
  | [], _ :: _, _, hl, _, _, _ => by cases hl
  | _ :: _, [], _, hl, _, _, _ => by cases hl
  | b :: as, c :: es, h, hl, hI, hg, hk => by
    obtain ⟨b', h1, hf, hfr⟩ := hk 0 b c rfl rfl h hI
    have g : Grow h h1 := hfr.grow
    obtain ⟨bs, h2, hc, hfs⟩ := copyAll_fresh as es h1 (Nat.succ.inj hl) (hg _ _ hI g) hg
      fun i b c hb hc => hk (i + 1) b c (by simpa using hb) (by simpa using hc)
    refine ⟨b' :: bs, h2, ?_, .cons hfr hfs⟩
    simp only [Store.copyAll, hf, hc]

theorem copy_ok (r : IsTree h e a F) : ∃ L : List Nat, L.Nodup ∧ (∀ x ∈ L, F x) ∧ ∀ n, L.length ≤ n →
    ∀ h', (∀ x, F x → h'[x]? = h[x]?) → ∃ b h'', Store.copy n h' a = some (b, h'') ∧ Fresh h' e b h'' := by
  induction r with
  | @mk e a la da as F G h1 h2 h3 h4 h5 h6 h7 h8 h9 ih =>
    have v : View h e a F da la as G := ⟨h1, h2, h3, ⟨h4, h5, h6, h7⟩, h8, h9⟩
    obtain ⟨L, hn, hm, hr⟩ := bound_all (P := fun x => ∃ b ∈ as, G b x)
      (Q := fun n b c => ∀ h', (∀ x, F x → h'[x]? = h[x]?) → ∃ b' h'', Store.copy n h' b = some (b', h'') ∧ Fresh h' c b' h'')
      as e.elements h4
      fun i b c hb hc => by
        obtain ⟨L, hn, hm, hr⟩ := ih i b c hb hc
        refine ⟨L, hn, fun x hx => ⟨b, List.mem_of_getElem? hb, hm x hx⟩, fun n hle h' hs => hr n hle h' fun x hx => hs x ?_⟩
        exact (h9 _).2 (.inr (.inr (.inr ⟨b, List.mem_of_getElem? hb, hx⟩)))
    refine ⟨a :: L, List.nodup_cons.2 ⟨?_, hn⟩, ?_, ?_⟩
    · intro ha
      obtain ⟨b, hb, hx⟩ := hm a ha
      exact (h8 b hb a hx).1 rfl
    · intro x hx
      rcases List.mem_cons.1 hx with rfl | hx
      · exact (h9 _).2 (.inl rfl)
      · exact (h9 _).2 (.inr (.inr (.inr (hm x hx))))
    · intro n hle h' hs
      cases n with
      | zero => simp at hle
      | succ n =>
        have hle' : L.length ≤ n := by simpa using hle
        have r' : IsTree h' e a F := v.tree.frame hs
        have v' : View h' e a F da la as G := by
          refine ⟨(hs _ ((v.foot _).2 (.inl rfl))).trans v.obj, (hs _ ((v.foot _).2 (.inr (.inl rfl)))).trans v.list,
            v.dict.frame fun x hx => hs _ ((v.foot _).2 (.inr (.inr (.inl hx)))), v.kids.frame fun b hb x hx => ?_, v.out, v.foot⟩
          exact hs x ((v.foot x).2 (.inr (.inr (.inr ⟨b, hb, hx⟩))))
        obtain ⟨bs, h'', hc, hfs⟩ := copyAll_fresh (f := Store.copy n) (I := fun k => Grow h' k) as e.elements h' h4 .refl
          (fun _ _ g g' => g.trans g')
          (fun i b c hb hc k g => hr n hle' i b c hb hc k fun x hx => (g.get (r'.lt hx)).trans (hs x hx))
        simp only [Store.copy, v'.obj?, v'.kids_eq, hc, v'.attrib_map]
        have := Fresh.init hfs e.tag e.nsmap e.text e.tail e.attrib e.next e.line
        rw [eta_elem e] at this
        exact ⟨_, _, rfl, this⟩

/-- A snapshot is the same tree, made of new objects. -/
theorem IsTree.snapshot (r : IsTree h e a F) : ∃ s h', h.createSnapshot a = some (s, h') ∧ Fresh h e s h' := by
  obtain ⟨L, h1, h2, h3⟩ := copy_ok r
  exact h3 _ (nodup_bound _ L h1 fun x hx => r.lt (h2 x hx)) h fun _ _ => rfl

/-- An object takes over the dictionary and the list of another one. -/
theorem View.transplant (v : View h e a F da la as G) {b : Addr} (hb : b < h.length) (hF : ¬ F b) {e' : Elem}
    (h1 : e'.attrib = e.attrib) (h2 : e'.elements = e.elements) :
    View (h.set b (.obj ⟨e'.tag, e'.nsmap, e'.text, e'.tail, da, la, e'.next, e'.line⟩)) e' b
      (fun x => x = b ∨ x = la ∨ da = some x ∨ ∃ b ∈ as, G b x) da la as G := by
  have hne : ∀ x, F x → x ≠ b := fun x hx h => hF (h ▸ hx)
  have hla := hne la ((v.foot la).2 (.inr (.inl rfl)))
  have hda : ∀ x, da = some x → x ≠ b := fun x hx => hne x ((v.foot x).2 (.inr (.inr (.inl hx))))
  have hG : ∀ b' ∈ as, ∀ x, G b' x → x ≠ b := fun b' hb' x hx => hne x ((v.foot x).2 (.inr (.inr (.inr ⟨b', hb', hx⟩))))
  refine ⟨List.getElem?_set_self hb, ?_, ?_, ?_, ?_, fun _ => Iff.rfl⟩
  · rw [set_same hla]; exact v.list
  · rw [h1]; exact v.dict.frame fun x hx => set_same (hda x hx)
  · rw [h2]; exact v.kids.frame fun b' hb' x hx => set_same (hG b' hb' x hx)
  · intro b' hb' x hx
    exact ⟨hG b' hb' x hx, (v.out b' hb' x hx).2⟩

/-- The step of an object that takes over the dictionary and the list of a new one. -/
theorem View.takeover (v : View h' e a F da la as G) {b : Addr} {Fb : Addr → Prop} (hlen : ∀ x, F x → h.length ≤ x)
    (hb : b < h.length) (hFb : Fb b) (g : Grow h h') {e' : Elem} (h1 : e'.attrib = e.attrib) (h2 : e'.elements = e.elements) :
    Step h b Fb (h'.set b (.obj ⟨e'.tag, e'.nsmap, e'.text, e'.tail, da, la, e'.next, e'.line⟩)) e' := by
  have hn : ¬ F b := fun hF => absurd hb (Nat.not_lt.2 (hlen b hF))
  refine ⟨_, (v.transplant (Nat.lt_of_lt_of_le hb g.le) hn h1 h2).tree, ?_, ?_⟩
  · exact Ext.trans (g.ext (F := Fb)) (fun _ => .inl) (ext_set hFb)
  · rintro x (rfl | hx)
    · exact .inl hFb
    · exact .inr (hlen x ((v.foot x).2 (.inr hx)))

theorem modify_set {o : Obj} {b : Addr} (hb : b < h.length) (f : Obj → Obj) :
    Store.modify (h.set b (.obj o)) b f = h.set b (.obj (f o)) := by
  unfold Store.modify Store.obj?
  rw [List.getElem?_set_self hb]
  exact List.set_set ..

theorem modify_set_append {o : Obj} {b : Addr} {c : Cell} (hb : b < h.length) (f : Obj → Obj) :
    Store.modify (h.set b (.obj o) ++ [c]) b f = h.set b (.obj (f o)) ++ [c] := by
  unfold Store.modify Store.obj?
  rw [List.getElem?_append_left (by simpa using hb), List.getElem?_set_self hb]
  simp only [List.set_append, List.length_set, if_pos hb, List.set_set]

theorem obj?_set {o : Obj} {b : Addr} (hb : b < h.length) : Store.obj? (h.set b (.obj o)) b = some o := by
  unfold Store.obj?
  rw [List.getElem?_set_self hb]

theorem popElementRemove_step (r : IsTree h e a F) (tag : String) (mode : Mode) :
    ((e.popElementRemove tag mode).1 = none ∧ (h.popElementRemove a tag mode).1 = none ∨
      ∃ c d, (e.popElementRemove tag mode).1 = some c ∧ (h.popElementRemove a tag mode).1 = some d ∧
        ∃ Fd, IsTree (h.popElementRemove a tag mode).2 c d Fd) ∧
    Step h a F (h.popElementRemove a tag mode).2 (e.popElementRemove tag mode).2 := by
  obtain ⟨da, la, as, G, v⟩ := r.view
  obtain ⟨as', hs1, v1, ext1⟩ := search_view v tag mode true
  simp only [Store.popElementRemove, Elem.popElementRemove, Elem.popElement]
  rcases hse : e.search tag mode true with ⟨i?, e1⟩
  rcases hsh : h.search a tag mode true with ⟨b?, h1⟩
  rw [hse, hsh] at hs1 v1
  rw [hsh] at ext1
  simp only at hs1 v1 ext1
  have hstep1 : Step h a F h1 e1 := ⟨F, v1.tree, ext1, fun _ => .inl⟩
  cases i? with
  | none =>
    cases b? with
    | some b => cases hs1
    | none => exact ⟨.inl ⟨rfl, rfl⟩, hstep1⟩
  | some i =>
    simp only [Option.bind_some] at hs1
    cases hc : e1.elements[i]? with
    | none =>
      have : as'[i]? = none := by
        rw [List.getElem?_eq_none_iff] at hc ⊢; rw [v1.kids.len]; exact hc
      rw [this] at hs1
      subst hs1
      simp only [hc]
      exact ⟨.inl ⟨trivial, trivial⟩, hstep1⟩
    | some c =>
      obtain ⟨b, hb, rc⟩ := v1.kid_of_index hc
      rw [hb] at hs1
      subst hs1
      obtain ⟨dac, lac, asc, Gc, vc⟩ := rc.view
      have hblt : b < h1.length := rc.lt rc.root
      simp only [vc.obj?, hc]
      simp only [Store.popText, vc.modify, vc.obj?, Option.bind_some, Store.popTail, modify_set hblt, obj?_set hblt,
        Store.popAttributes, Store.popElements, Store.alloc, modify_set_append hblt]
      have hkids : Store.kids (h1.set b (.obj ⟨c.tag, c.nsmap, none, none, none, lac, c.next, c.line⟩))
          ⟨c.tag, c.nsmap, none, none, none, lac, c.next, c.line⟩ = asc := by
        simp only [Store.kids, Store.list?, set_same vc.ne_list, vc.list, Option.getD_some]
      rw [hkids]
      -- the store in which the new element is created
      have hlen : (h1.set b (.obj ⟨c.tag, c.nsmap, none, none, none, lac, c.next, c.line⟩)).length = h1.length := List.length_set
      rw [hlen]
      let H : Store := h1.set b (.obj ⟨c.tag, c.nsmap, none, none, none, h1.length, 0, c.line⟩) ++ [.list []]
      have hHlen : H.length = h1.length + 1 := by simp [H]
      have hHsame : ∀ x, x < h1.length → x ≠ b → H[x]? = h1[x]? := fun x hx hne => by
        simp only [H]
        rw [List.getElem?_append_left (by simpa using hx), set_same hne]
      have hHb : H[b]? = some (.obj ⟨c.tag, c.nsmap, none, none, none, h1.length, 0, c.line⟩) := by
        simp only [H]
        rw [List.getElem?_append_left (by simpa using hblt), List.getElem?_set_self hblt]
      have hHl : H[h1.length]? = some (.list []) := by simp [H]
      have hdict : (dac.map fun da => (Store.dict? H da).getD []) = c.attrib := by
        rw [← vc.attrib_map]
        cases hda : dac with
        | none => rfl
        | some x =>
          have hx : x < h1.length := rc.lt ((vc.foot x).2 (.inr (.inr (.inl hda))))
          simp only [Option.map_some, Store.dict?, hHsame x hx (vc.ne_dict hda).1]
      have kH : Kids H c.elements asc Gc :=
        vc.kids.frame fun b' hb' x hx => hHsame x (vc.kid_lt hb' hx) (vc.out b' hb' x hx).1
      obtain ⟨Fd, rd, hFd, gd⟩ := init_kids kH c.tag c.nsmap c.text c.tail c.attrib 0 c.line
      change (_ ∨ ∃ c' d, some (Elem.detached c) = some c' ∧
        some (Store.init H c.tag c.nsmap c.text c.tail (dac.map fun da => (Store.dict? H da).getD []) asc 0 c.line).1 = some d ∧
        ∃ Fd, IsTree (Store.init H c.tag c.nsmap c.text c.tail (dac.map fun da => (Store.dict? H da).getD []) asc 0 c.line).2 c' d Fd) ∧
        Step h a F (Store.init H c.tag c.nsmap c.text c.tail (dac.map fun da => (Store.dict? H da).getD []) asc 0 c.line).2
          (e1.setChild i c.hollow)
      rw [hdict]
      refine ⟨.inr ⟨_, _, rfl, rfl, Fd, rd⟩, ?_⟩
      refine Step.trans ext1 (fun _ => .inl) (v1.child hb ?_)
      have vh : View H c.hollow b (fun x => x = b ∨ x = h1.length ∨ (none : Option Addr) = some x ∨ ∃ b' ∈ ([] : List Addr), Gc b' x)
          none h1.length [] Gc :=
        ⟨hHb, hHl, trivial, ⟨rfl, by simp, by simp, by simp⟩, by simp, fun _ => Iff.rfl⟩
      refine ⟨_, vh.tree.grow gd, ?_, ?_⟩
      · refine Ext.trans (h' := H) (F' := fun _ => False) ⟨by omega, fun x hx hn => hHsame x hx ?_⟩ (fun _ => False.elim) gd
        rintro rfl
        exact hn rc.root
      · rintro x (rfl | rfl | h | ⟨_, h, _⟩)
        · exact .inl rc.root
        · exact .inr (Nat.le_refl _)
        · cases h
        · cases h

/-! ## Native trees -/

theorem IsNode.node? {t : Node} (r : IsNode h t a) : ∃ n, h[a]? = some (.node n) := by
  cases r with
  | elem h1 => exact ⟨_, h1⟩
  | comment h1 => exact ⟨_, h1⟩
  | pi h1 => exact ⟨_, h1⟩

theorem IsNode.lt {t : Node} (r : IsNode h t a) : a < h.length := by
  obtain ⟨n, hn⟩ := r.node?
  exact lt_of_some hn

theorem IsNode.isComment {t : Node} (r : IsNode h t a) : h.isComment a = t.isComment := by
  cases r with
  | elem h1 => simp [Store.isComment, Store.node?, h1, Node.isComment]
  | comment h1 => simp [Store.isComment, Store.node?, h1, Node.isComment]
  | pi h1 => simp [Store.isComment, Store.node?, h1, Node.isComment]

theorem IsNode.nodeTag {t : Node} (r : IsNode h t a) : h.nodeTag a = t.tag := by
  cases r with
  | elem h1 => simp [Store.nodeTag, Store.node?, h1, Node.tag]
  | comment h1 => simp [Store.nodeTag, Store.node?, h1, Node.tag]
  | pi h1 => simp [Store.nodeTag, Store.node?, h1, Node.tag]

theorem IsNode.grow {t : Node} (r : IsNode h t a) (g : Grow h h') : IsNode h' t a := by
  induction r with
  | elem h1 h2 h3 _ ih => exact .elem ((g.get (lt_of_some h1)).trans h1) ((g.get (lt_of_some h2)).trans h2) h3 ih
  | comment h1 => exact .comment ((g.get (lt_of_some h1)).trans h1)
  | pi h1 => exact .pi ((g.get (lt_of_some h1)).trans h1)

/-- There is only one tree at an address. -/
theorem IsNode.unique {t t' : Node} (r : IsNode h t a) (r' : IsNode h t' a) : t = t' := by
  induction r generalizing t' with
  | @elem tag d nsmap text tail children line a da as h1 h2 h3 _ ih =>
    cases r' with
    | @elem tag' d' nsmap' text' tail' children' line' _ da' as' h1' h2' h3' hk' =>
      rw [h1] at h1'
      cases h1'
      rw [h2] at h2'
      cases h2'
      have : children = children' := by
        apply List.ext_getElem?
        intro i
        cases hc : children[i]? with
        | none =>
          rw [List.getElem?_eq_none_iff] at hc
          rw [eq_comm, List.getElem?_eq_none_iff]; omega
        | some c =>
          have hlt := (List.getElem?_eq_some_iff.1 hc).1
          have hlt' : i < children'.length := by omega
          have hlt'' : i < as.length := by omega
          have hb := List.getElem?_eq_getElem hlt''
          have hc' := List.getElem?_eq_getElem hlt'
          rw [hc', ih i _ c hb hc (hk' i _ _ hb hc')]
      rw [this]
    | comment h1' => rw [h1] at h1'; cases h1'
    | pi h1' => rw [h1] at h1'; cases h1'
  | comment h1 =>
    cases r' with
    | elem h1' => rw [h1] at h1'; cases h1'
    | comment h1' => rw [h1] at h1'; cases h1'; rfl
    | pi h1' => rw [h1] at h1'; cases h1'
  | pi h1 =>
    cases r' with
    | elem h1' => rw [h1] at h1'; cases h1'
    | comment h1' => rw [h1] at h1'; cases h1'
    | pi h1' => rw [h1] at h1'; cases h1'; rfl

/-- The children that are not comments, with their addresses. -/
theorem filter_kids (bk : Backend) {h : Store} : ∀ (as : List Addr) (ts : List Node), as.length = ts.length →
    (∀ (i : Nat) (b : Addr) (c : Node), as[i]? = some b → ts[i]? = some c → IsNode h c b) →
    (as.filter fun c => !h.isComment c).length = (fromNativeList bk ts).length ∧
    ∀ (i : Nat) (b : Addr) (c : Elem), (as.filter fun c => !h.isComment c)[i]? = some b → (fromNativeList bk ts)[i]? = some c →
      ∃ (j : Nat) (t : Node), as[j]? = some b ∧ ts[j]? = some t ∧ c = fromNative bk t
  | [], [], _, _ => by simp [fromNativeList]
  | [], _ :: _, hl, _ => by cases hl
  | _ :: _, [], hl, _ => by cases hl
  | b :: as, t :: ts, hl, hk => by
    obtain ⟨h1, h2⟩ := filter_kids bk as ts (Nat.succ.inj hl) fun i b c hb hc => hk (i + 1) b c (by simpa using hb) (by simpa using hc)
    have h0 := (hk 0 b t rfl rfl).isComment
    have hshift : ∀ (b' : Addr) (c : Elem), (∃ (j : Nat) (t : Node), as[j]? = some b' ∧ ts[j]? = some t ∧ c = fromNative bk t) →
        ∃ (j : Nat) (t' : Node), (b :: as)[j]? = some b' ∧ (t :: ts)[j]? = some t' ∧ c = fromNative bk t' := by
      rintro b' c ⟨j, t', hj, ht, hc⟩
      exact ⟨j + 1, t', by simpa using hj, by simpa using ht, hc⟩
    simp only [List.filter_cons, fromNativeList, h0]
    cases hcm : t.isComment with
    | true =>
      simp only [Bool.not_true, Bool.false_eq_true, if_false, if_true]
      exact ⟨h1, fun i b' c hb hc => hshift b' c (h2 i b' c hb hc)⟩
    | false =>
      simp only [Bool.not_false, if_true, Bool.false_eq_true, if_false]
      refine ⟨by simp [h1], ?_⟩
      intro i b' c hb hc
      cases i with
      | zero => cases hb; cases hc; exact ⟨0, t, rfl, rfl, rfl⟩
      | succ i => exact hshift b' c (h2 i b' c (by simpa using hb) (by simpa using hc))

theorem fromNative_ok (bk : Backend) {t : Node} (r : IsNode h t a) :
    ∃ L : List Nat, L.Nodup ∧ (∀ x ∈ L, ∃ t', IsNode h t' x ∧ sizeOf t' ≤ sizeOf t) ∧ ∀ n, L.length ≤ n →
      ∀ h', Grow h h' → ∃ b h'', Store.fromNative bk n h' a = some (b, h'') ∧ Fresh h' (PXml.fromNative bk t) b h'' := by
  induction r with
  | @comment text tail a h1 =>
    refine ⟨[a], by simp, fun x hx => ?_, fun n hn h' g => ?_⟩
    · rw [List.mem_singleton.1 hx]; exact ⟨_, .comment h1, Nat.le_refl _⟩
    · cases n with
      | zero => simp at hn
      | succ n =>
        have := (g.get (lt_of_some h1)).trans h1
        simp only [Store.fromNative, Store.node?, this]
        exact ⟨_, _, rfl, Fresh.init .nil ..⟩
  | @pi text tail a h1 =>
    refine ⟨[a], by simp, fun x hx => ?_, fun n hn h' g => ?_⟩
    · rw [List.mem_singleton.1 hx]; exact ⟨_, .pi h1, Nat.le_refl _⟩
    · cases n with
      | zero => simp at hn
      | succ n =>
        have := (g.get (lt_of_some h1)).trans h1
        simp only [Store.fromNative, Store.node?, this]
        exact ⟨_, _, rfl, Fresh.init .nil ..⟩
  | @elem tag d nsmap text tail children line a da as h1 h2 h3 h4 ih =>
    have hsize : ∀ (i : Nat) (c : Node), children[i]? = some c → sizeOf c < sizeOf (Node.elem tag d nsmap text tail children line) := by
      intro i c hc
      have := List.sizeOf_lt_of_mem (List.mem_of_getElem? hc)
      simp only [Node.elem.sizeOf_spec]
      omega
    obtain ⟨L, hn, hm, hr⟩ := bound_all (P := fun x => ∃ t', IsNode h t' x ∧ sizeOf t' < sizeOf (Node.elem tag d nsmap text tail children line))
      (Q := fun n b c => ∀ h', Grow h h' → ∃ b' h'', Store.fromNative bk n h' b = some (b', h'') ∧ Fresh h' (PXml.fromNative bk c) b' h'')
      as children h3
      fun i b c hb hc => by
        obtain ⟨L, hn, hm, hr⟩ := ih i b c hb hc
        refine ⟨L, hn, fun x hx => ?_, hr⟩
        obtain ⟨t', ht, hs⟩ := hm x hx
        exact ⟨t', ht, Nat.lt_of_le_of_lt hs (hsize i c hc)⟩
    have hnode : IsNode h (Node.elem tag d nsmap text tail children line) a := .elem h1 h2 h3 h4
    refine ⟨a :: L, List.nodup_cons.2 ⟨?_, hn⟩, ?_, ?_⟩
    · intro ha
      obtain ⟨t', ht, hs⟩ := hm a ha
      rw [ht.unique hnode] at hs
      exact Nat.lt_irrefl _ hs
    · intro x hx
      rcases List.mem_cons.1 hx with rfl | hx
      · exact ⟨_, hnode, Nat.le_refl _⟩
      · obtain ⟨t', ht, hs⟩ := hm x hx
        exact ⟨t', ht, Nat.le_of_lt hs⟩
    · intro n hle h' g
      cases n with
      | zero => simp at hle
      | succ n =>
        have hle' : L.length ≤ n := by simpa using hle
        have h1' := (g.get (lt_of_some h1)).trans h1
        have h2' := (g.get (lt_of_some h2)).trans h2
        obtain ⟨hl, hf⟩ := filter_kids bk (h := h') as children h3 fun i b c hb hc => (h4 i b c hb hc).grow g
        obtain ⟨bs, h'', hc, hfs⟩ := copyAll_fresh (f := Store.fromNative bk n) (I := fun k => Grow h k)
          (as.filter fun c => !h'.isComment c) (fromNativeList bk children) h' hl g
          (fun _ _ g g' => g.trans g')
          (fun i b c hb hc k gk => by
            obtain ⟨j, t, hj, ht, hct⟩ := hf i b c hb hc
            rw [hct]
            exact hr n hle' j b t hj ht k gk)
        simp only [Store.fromNative, Store.node?, h1', hc, Store.dict?, h2', Option.getD_some]
        exact ⟨_, _, rfl, Fresh.init hfs ..⟩

/-- `from_native` makes the element out of new objects. -/
theorem IsNode.fromNative (bk : Backend) {t : Node} (r : IsNode h t a) :
    ∃ b h', h.fromNative bk h.length a = some (b, h') ∧ Fresh h (PXml.fromNative bk t) b h' := by
  obtain ⟨L, h1, h2, h3⟩ := fromNative_ok bk r
  refine h3 _ (nodup_bound _ L h1 fun x hx => ?_) h .refl
  obtain ⟨t', ht, _⟩ := h2 x hx
  exact ht.lt

end
end Heap
end PXml
