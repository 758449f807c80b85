import Verif.Lemmas.Sim
import Verif.Lemmas.NoCrash

/-! Simulation between trees that differ in tails, line numbers and empty texts only. -/

namespace PXml
namespace Elem

mutual
/-- The tree with `fx` applied to all tags and texts, `ft` to all tails and `fl` to all line numbers. -/
def mapMeta (fx : String → Option String → Option String) (ft : Option String → Option String) (fl : Int → Int) : Elem → Elem
  | ⟨tag, nsmap, text, tail, attrib, elements, next, line⟩ =>
    ⟨tag, nsmap, fx tag text, ft tail, attrib, mapMetaList fx ft fl elements, next, fl line⟩
def mapMetaList (fx : String → Option String → Option String) (ft : Option String → Option String) (fl : Int → Int) : List Elem → List Elem
  | [] => []
  | c :: cs => mapMeta fx ft fl c :: mapMetaList fx ft fl cs
end

mutual
/-- No element of the tree has a namespace map (true of everything that is read). -/
def noNs : Elem → Bool
  | ⟨_, nsmap, _, _, _, elements, _, _⟩ => nsmap.isNone && noNsList elements
def noNsList : List Elem → Bool
  | [] => true
  | c :: cs => noNs c && noNsList cs
end

theorem noNsList_eq (l : List Elem) : noNsList l = l.all noNs := by
  induction l with
  | nil => rfl
  | cons c l ih => simp [noNsList, ih]

theorem noNs_eq (e : Elem) : e.noNs = (e.nsmap.isNone && e.elements.all noNs) := by
  cases e; simp [noNs, noNsList_eq]

theorem noNs_iff (e : Elem) : e.noNs = true ↔ e.nsmap = none ∧ ∀ c ∈ e.elements, c.noNs = true := by
  rw [noNs_eq, Bool.and_eq_true, List.all_eq_true, Option.isNone_iff_eq_none]

variable (fx : String → Option String → Option String) (ft : Option String → Option String) (fl : Int → Int)

theorem mapMetaList_eq (l : List Elem) : mapMetaList fx ft fl l = l.map (mapMeta fx ft fl) := by
  induction l with
  | nil => rfl
  | cons c l ih => simp [mapMetaList, ih]

theorem mapMeta_eq (e : Elem) : e.mapMeta fx ft fl =
    { e with text := fx e.tag e.text, tail := ft e.tail, elements := e.elements.map (mapMeta fx ft fl), line := fl e.line } := by
  cases e; simp [mapMeta, mapMetaList_eq]

theorem mapMeta_tag (e : Elem) : (e.mapMeta fx ft fl).tag = e.tag := by rw [mapMeta_eq]

theorem firstFrom_mapMeta (t : String) (l : List Elem) (k : Nat) :
    firstFrom t (l.map (mapMeta fx ft fl)) k = firstFrom t l k := by
  induction l generalizing k with
  | nil => rfl
  | cons c l ih => simp only [List.map_cons, firstFrom, mapMeta_tag, ih]

theorem swap_mapMeta (l : List Elem) (i j : Nat) :
    swap (l.map (mapMeta fx ft fl)) i j = (swap l i j).map (mapMeta fx ft fl) := by
  unfold swap
  simp only [List.getElem?_map]
  cases l[i]? <;> cases l[j]? <;> simp [List.map_set]

theorem search_mapMeta (e : Elem) (t : String) (m : Mode) (step : Bool) :
    (e.mapMeta fx ft fl).search t m step = ((e.search t m step).1, (e.search t m step).2.mapMeta fx ft fl) := by
  have hf : (e.mapMeta fx ft fl).firstMatch t = e.firstMatch t := by
    simp only [firstMatch, mapMeta_eq, ← List.map_drop, firstFrom_mapMeta]
  cases m with
  | strict =>
    simp only [search, strictSearch]
    rw [mapMeta_eq]
    simp only [List.getElem?_map]
    cases e.elements[e.next]? with
    | none => simp [mapMeta_eq]
    | some c =>
      simp only [Option.map_some, mapMeta_tag]
      split
      · cases step <;> simp [mapMeta_eq]
      · simp [mapMeta_eq]
  | ordered =>
    simp only [search, orderedSearch, hf]
    cases e.firstMatch t with
    | none => simp
    | some i => cases step <;> simp [mapMeta_eq]
  | unordered =>
    simp only [search, unorderedSearch, hf]
    cases e.firstMatch t with
    | none => simp
    | some i => rw [mapMeta_eq]; simp only [swap_mapMeta]; simp [mapMeta_eq]

theorem findElement_mapMeta (e : Elem) (t : String) (m : Mode) :
    (e.mapMeta fx ft fl).findElement t m = (e.findElement t m).map fun r => (r.1, r.2.mapMeta fx ft fl) := by
  have hl : (e.mapMeta fx ft fl).lookBehind t = e.lookBehind t := by
    simp only [lookBehind, mapMeta_eq, List.getElem?_map]
    split
    · rfl
    · cases e.elements[e.next - 1]? with
      | none => rfl
      | some c => simp [mapMeta_eq]
  simp only [findElement, hl]
  cases e.lookBehind t with
  | error x => rfl
  | ok b =>
    cases b with
    | true => simp [Except.map, bind, Except.bind, mapMeta_eq]
    | false => simp only [bind, Except.bind, search_mapMeta, Except.map]; rfl

theorem popAttrib_mapMeta (e : Elem) (k : String) :
    (e.mapMeta fx ft fl).popAttrib k = ((e.popAttrib k).1, (e.popAttrib k).2.mapMeta fx ft fl) := by
  simp only [popAttrib, mapMeta_eq]
  split <;> simp

/-- Children at index `i`. -/
theorem mapMeta_getElem? (e : Elem) (i : Nat) :
    (e.mapMeta fx ft fl).elements[i]? = (e.elements[i]?).map (mapMeta fx ft fl) := by
  rw [mapMeta_eq]; simp

theorem mapMeta_setChild (e : Elem) (i : Nat) (c : Elem) :
    (e.setChild i c).mapMeta fx ft fl = (e.mapMeta fx ft fl).setChild i (c.mapMeta fx ft fl) := by
  simp [mapMeta_eq, setChild, List.map_set]

/-- The relation: equal after normalising, and no namespace maps. -/
def MetaRel (e1 e2 : Elem) : Prop := e1.mapMeta fx ft fl = e2.mapMeta fx ft fl ∧ e1.noNs = true ∧ e2.noNs = true

theorem noNs_congr {e e' : Elem} (h1 : e.nsmap = e'.nsmap) (h2 : e.elements = e'.elements) (h : e.noNs = true) :
    e'.noNs = true := by
  rw [noNs_iff] at h ⊢
  rw [← h1, ← h2]
  exact h

theorem noNs_child {e c : Elem} (h : e.noNs = true) (hc : c ∈ e.elements) : c.noNs = true :=
  ((noNs_iff e).1 h).2 c hc

theorem noNs_setChild {e c : Elem} (h : e.noNs = true) (hc : c.noNs = true) (i : Nat) : (e.setChild i c).noNs = true := by
  rw [noNs_iff] at h ⊢
  refine ⟨h.1, fun x hx => ?_⟩
  rcases List.mem_or_eq_of_mem_set hx with hx | rfl
  · exact h.2 x hx
  · exact hc

theorem noNs_hollow {e : Elem} (h : e.noNs = true) : e.hollow.noNs = true := by
  rw [noNs_iff] at h ⊢
  exact ⟨h.1, by simp [hollow]⟩

theorem noNs_rel : ElemRel (fun e e' => e.noNs = true → e'.noNs = true) where
  refl e := id
  trans h1 h2 := h2 ∘ h1
  popText e := noNs_congr rfl rfl
  popAttrib e k := by unfold popAttrib; split <;> exact noNs_congr rfl rfl
  popAttributes e := noNs_congr rfl rfl
  search e tag mode step := by
    obtain ⟨l, n, h3, h4, _⟩ := search_spec e tag mode step
    rw [h3, noNs_iff, noNs_iff]
    exact fun h => ⟨h.1, fun c hc => h.2 c (h4.mem_iff.1 hc)⟩
  child e i c c' hc h hh := noNs_setChild hh (h (noNs_child hh (List.mem_of_getElem? hc))) i
  stepForward e hlt := noNs_congr rfl rfl
  applySnapshot e s h hg := noNs_congr (e := s) rfl rfl (h hg)
  hollow e i c hc hh := noNs_setChild hh (noNs_hollow (noNs_child hh (List.mem_of_getElem? hc))) i

variable {fx ft fl}

theorem metaRel_hit {e1 e2 : Elem} (h : MetaRel fx ft fl e1 e2) {i : Nat} (hi : ∃ c, e1.elements[i]? = some c) :
    Hit (MetaRel fx ft fl) e1 i e2 i := by
  obtain ⟨c1, hc1⟩ := hi
  obtain ⟨h1, h2, h3⟩ := h
  have h4 := congrArg (fun e : Elem => e.elements[i]?) h1
  simp only [mapMeta_getElem?, hc1, Option.map_some] at h4
  cases hc2 : e2.elements[i]? with
  | none => rw [hc2] at h4; cases h4
  | some c2 =>
    rw [hc2] at h4
    simp only [Option.map_some, Option.some.injEq] at h4
    refine ⟨c1, c2, hc1, hc2, ⟨h4, noNs_child h2 (List.mem_of_getElem? hc1), noNs_child h3 (List.mem_of_getElem? hc2)⟩, ?_⟩
    rintro c1' c2' ⟨h5, h6, h7⟩ _ _
    refine ⟨?_, noNs_setChild h2 h6 i, noNs_setChild h3 h7 i⟩
    rw [mapMeta_setChild, mapMeta_setChild, h1, h5]

theorem metaRel_search {e1 e2 : Elem} (h : MetaRel fx ft fl e1 e2) (t : String) (m : Mode) (step : Bool) :
    SearchRel (MetaRel fx ft fl) (e1.search t m step) (e2.search t m step) := by
  obtain ⟨h1, h2, h3⟩ := h
  have h4 : ((e1.search t m step).1, (e1.search t m step).2.mapMeta fx ft fl) =
      ((e2.search t m step).1, (e2.search t m step).2.mapMeta fx ft fl) := by
    rw [← search_mapMeta, ← search_mapMeta, h1]
  have h5 := noNs_rel.search e1 t m step h2
  have h6 := noNs_rel.search e2 t m step h3
  cases hs1 : e1.search t m step with
  | mk o1 e1' =>
    cases hs2 : e2.search t m step with
    | mk o2 e2' =>
      rw [hs1, hs2] at h4
      rw [hs1] at h5
      rw [hs2] at h6
      simp only [Prod.mk.injEq] at h4
      obtain ⟨rfl, h4⟩ := h4
      cases o1 with
      | none => exact ⟨h4, h5, h6⟩
      | some i =>
        obtain ⟨c, hc, _⟩ := search_index hs1
        exact ⟨⟨h4, h5, h6⟩, metaRel_hit ⟨h4, h5, h6⟩ ⟨c, hc⟩⟩

theorem metaRel_find {e1 e2 : Elem} (h : MetaRel fx ft fl e1 e2) (t : String) (m : Mode) :
    (∃ x, e1.findElement t m = .error x ∧ e2.findElement t m = .error x) ∨
    (∃ r1 r2, e1.findElement t m = .ok r1 ∧ e2.findElement t m = .ok r2 ∧ SearchRel (MetaRel fx ft fl) r1 r2) := by
  obtain ⟨h1, h2, h3⟩ := h
  have h4 : (e1.findElement t m).map (fun r => (r.1, r.2.mapMeta fx ft fl)) =
      (e2.findElement t m).map (fun r => (r.1, r.2.mapMeta fx ft fl)) := by
    rw [← findElement_mapMeta, ← findElement_mapMeta, h1]
  cases hs1 : e1.findElement t m with
  | error x =>
    cases hs2 : e2.findElement t m with
    | error y => rw [hs1, hs2] at h4; simp [Except.map] at h4; subst h4; exact .inl ⟨x, rfl, rfl⟩
    | ok r => rw [hs1, hs2] at h4; simp [Except.map] at h4
  | ok r1 =>
    cases hs2 : e2.findElement t m with
    | error y => rw [hs1, hs2] at h4; simp [Except.map] at h4
    | ok r2 =>
      refine .inr ⟨r1, r2, rfl, rfl, ?_⟩
      have h5 := noNs_rel.findElement hs1 h2
      have h6 := noNs_rel.findElement hs2 h3
      rw [hs1, hs2] at h4
      simp only [Except.map, Except.ok.injEq, Prod.mk.injEq] at h4
      obtain ⟨o1, e1'⟩ := r1
      obtain ⟨o2, e2'⟩ := r2
      simp only at h4 h5 h6
      obtain ⟨rfl, h4⟩ := h4
      cases o1 with
      | none => exact ⟨h4, h5, h6⟩
      | some i =>
        obtain ⟨c, hc, _⟩ := findElement_index hs1
        exact ⟨⟨h4, h5, h6⟩, metaRel_hit ⟨h4, h5, h6⟩ ⟨c, hc⟩⟩

mutual
theorem toNative_mapMeta (b1 b2 : Backend) (e : Elem) (h : e.noNs = true) :
    toNative b1 e = toNative b2 (e.mapMeta (fun _ => id) id fl) := by
  cases e with
  | mk tag nsmap text tail attrib elements next line =>
    simp only [noNs, Bool.and_eq_true] at h
    obtain ⟨h1, h2⟩ := h
    cases nsmap with
    | some m => simp at h1
    | none =>
      have h3 := toNativeList_mapMeta b1 b2 elements h2
      cases b1 <;> cases b2 <;> simpa [toNative, mapMeta, nativeNsmap] using h3
theorem toNativeList_mapMeta (b1 b2 : Backend) (l : List Elem) (h : noNsList l = true) :
    toNativeList b1 l = toNativeList b2 (mapMetaList (fun _ => id) id fl l) := by
  cases l with
  | nil => rfl
  | cons c l =>
    simp only [noNsList, Bool.and_eq_true] at h
    simp [toNativeList, mapMetaList, toNative_mapMeta b1 b2 c h.1, toNativeList_mapMeta b1 b2 l h.2]
end

mutual
theorem fromNative_noNs (b : Backend) (n : Node) : (fromNative b n).noNs = true := by
  cases n with
  | elem => simp [fromNative, noNs, fromNativeList_noNs]
  | comment => simp [fromNative, noNs, noNsList]
  | pi => simp [fromNative, noNs, noNsList]
theorem fromNativeList_noNs (b : Backend) (l : List Node) : noNsList (fromNativeList b l) = true := by
  cases l with
  | nil => rfl
  | cons c l =>
    simp only [fromNativeList]
    split
    · exact fromNativeList_noNs b l
    · simp [noNsList, fromNative_noNs b c, fromNativeList_noNs b l]
end

/-- The path of an unbound entry with normalised lines. -/
def Unbound.mapLine (fl : Int → Int) (u : Unbound) : Unbound :=
  { u with path := u.path.map fun tl => (tl.1, fl tl.2) }

theorem unboundText_mapLine (path : List (String × Int)) (t : Option String) :
    (unboundText path t).map (Unbound.mapLine fl) = unboundText (path.map fun tl => (tl.1, fl tl.2)) t := by
  cases t with
  | none => rfl
  | some t => simp only [unboundText]; split <;> simp [Unbound.mapLine]

mutual
theorem getUnbound_mapMeta (hfx : ∀ tag p t, unboundText p (fx tag t) = unboundText p t) (hft : ∀ p t, unboundText p (ft t) = unboundText p t) (path : List (String × Int)) (e : Elem) :
    (e.getUnbound path).map (Unbound.mapLine fl) =
      (e.mapMeta fx ft fl).getUnbound (path.map fun tl => (tl.1, fl tl.2)) := by
  cases e with
  | mk tag nsmap text tail attrib elements next line =>
    simp only [getUnbound, mapMeta, List.map_append, unboundText_mapLine, hfx, hft, List.map_map]
    rw [getUnboundList_mapMeta hfx hft path elements]
    congr 1
theorem getUnboundList_mapMeta (hfx : ∀ tag p t, unboundText p (fx tag t) = unboundText p t) (hft : ∀ p t, unboundText p (ft t) = unboundText p t) (path : List (String × Int))
    (l : List Elem) : (getUnboundList path l).map (Unbound.mapLine fl) =
      getUnboundList (path.map fun tl => (tl.1, fl tl.2)) (mapMetaList fx ft fl l) := by
  cases l with
  | nil => rfl
  | cons c l =>
    simp only [getUnboundList, mapMetaList, List.map_append]
    rw [getUnbound_mapMeta hfx hft _ c, getUnboundList_mapMeta hfx hft path l]
    congr 1
    simp [mapMeta_eq]
end

theorem checkExtra_mapMeta (hfx : ∀ tag p t, unboundText p (fx tag t) = unboundText p t) (hft : ∀ p t, unboundText p (ft t) = unboundText p t) (hfl : ∀ i, fl (fl i) = fl i)
    (title : Title) (e : Elem) :
    (checkExtra title e).map (VErr.lines fl) = (checkExtra title (e.mapMeta fx ft fl)).map (VErr.lines fl) := by
  have h := getUnbound_mapMeta hfx hft [] e (fl := fl)
  have hx : ∀ u : Unbound, ({ extraErr e u with line := (extraErr e u).line.map fl } : LineErr) =
      { extraErr (e.mapMeta fx ft fl) (u.mapLine fl) with line := (extraErr (e.mapMeta fx ft fl) (u.mapLine fl)).line.map fl } := by
    intro u
    simp only [extraErr, Unbound.mapLine, List.map_map, List.getLast?_map, Option.map_some]
    congr 1
    cases u.path.getLast? with
    | none => simp [mapMeta_eq, hfl]
    | some tl => simp [hfl]
  have e1 : ∀ (x : Elem), (checkExtra title x).map (VErr.lines fl) =
      (if (x.getUnbound []).isEmpty then none else some ⟨title, (x.getUnbound []).map fun u =>
        { extraErr x u with line := (extraErr x u).line.map fl }⟩) := by
    intro x
    unfold checkExtra
    split
    · rename_i h; simp [h]
    · rename_i h
      have : (x.getUnbound []).isEmpty = false := by
        cases hh : x.getUnbound [] with
        | nil => exact absurd hh h
        | cons a l => rfl
      simp [this, VErr.lines]
  rw [e1, e1]
  simp only [List.map_nil] at h
  rw [← h]
  simp only [List.isEmpty_map, List.map_map]
  split
  · rfl
  · congr 2
    apply List.map_congr_left
    intro u _
    exact hx u

end Elem

open Elem

/-- Trees that differ in tails, lines and empty texts only are read alike. -/
theorem metaSim {env1 env2 : Env} (eas : Bool) {fx : String → Option String → Option String} {ft : Option String → Option String} {X own : String → Prop} {fl : Int → Int} {raw forbid : Prop}
    (hmodels : env1.model = env2.model) (hval : env1.validate = env2.validate)
    (hlines : ∀ sm1 sm2 : SMap, SmRel fl sm1 sm2 →
      ∀ loc, fl (lineFor sm1 loc) = fl (lineFor sm2 loc))
    (htext : ∀ tag, X tag → ∀ t, textVal eas (fx tag t) = textVal eas t) (hnone : ∀ tag, fx tag none = none)
    (hraw : raw → (fx = fun _ => id) ∧ ft = id)
    (hfx : forbid → ∀ tag p t, unboundText p (fx tag t) = unboundText p t)
    (hft : forbid → ∀ p t, unboundText p (ft t) = unboundText p t) (hfl : ∀ i, fl (fl i) = fl i)
    (hforbid : ∀ cls m, env1.model cls = some m → m.extraForbid = true → forbid)
    (hno : ∀ cls m fs, env1.model cls = some m → m.body = .fields fs → ∀ f ∈ fs, f.validator = none)
    (howns : ∀ cls m, env1.model cls = some m → m.OwnText → own cls) :
    Sim env1 env2 eas ⟨fun _ _ => True, fun _ => True, True, X, own⟩ raw True forbid (MetaRel fx ft fl) (fun _ => True) fl where
  models := hmodels
  line e1 e2 h := by
    have := congrArg Elem.line h.1
    simpa [mapMeta_eq] using this
  lines := hlines
  text e1 e2 hX h := by
    have h1 := congrArg Elem.text h.1
    have h0 := congrArg Elem.tag h.1
    simp only [mapMeta_eq] at h1 h0
    refine ⟨by rw [← htext _ hX, h1, htext _ (h0 ▸ hX)], trivial, ?_, noNs_rel.popText e1 h.2.1, noNs_rel.popText e2 h.2.2⟩
    have h2 := congrArg (fun e : Elem => e.popText.2) h.1
    simpa [popText, mapMeta_eq, hnone] using h2
  owns := howns
  nil := trivial
  attrib e1 e2 k _ h := by
    have h1 : ((e1.popAttrib k).1, (e1.popAttrib k).2.mapMeta fx ft fl) = ((e2.popAttrib k).1, (e2.popAttrib k).2.mapMeta fx ft fl) := by
      rw [← popAttrib_mapMeta, ← popAttrib_mapMeta, h.1]
    simp only [Prod.mk.injEq] at h1
    exact ⟨h1.1, fun _ _ => trivial, h1.2, noNs_rel.popAttrib e1 k h.2.1, noNs_rel.popAttrib e2 k h.2.2⟩
  attributes _ e1 e2 h := by
    have h1 := congrArg Elem.attrib h.1
    simp only [mapMeta_eq] at h1
    refine ⟨h1, fun _ _ _ => trivial, ?_, noNs_rel.popAttributes e1 h.2.1, noNs_rel.popAttributes e2 h.2.2⟩
    have h2 := congrArg (fun e : Elem => e.popAttributes.2) h.1
    simpa [popAttributes, mapMeta_eq] using h2
  search e1 e2 t m step _ h := metaRel_search h t m step
  find e1 e2 t m _ h := metaRel_find h t m
  step _ e1 e2 h _ := by
    refine ⟨?_, noNs_congr (e := e1) rfl rfl h.2.1, noNs_congr (e := e2) rfl rfl h.2.2⟩
    have h2 := congrArg Elem.stepForward h.1
    simpa [stepForward, mapMeta_eq] using h2
  snapshot e1 e2 s1 s2 h hs := by
    refine ⟨?_, noNs_congr (e := s1) rfl rfl hs.2.1, noNs_congr (e := s2) rfl rfl hs.2.2⟩
    have h1 := congrArg Elem.line h.1
    have h2 := congrArg (fun e : Elem => { e with line := fl e1.line }) hs.1
    simp only [mapMeta_eq] at h1
    simpa [applySnapshot, mapMeta_eq, h1] using h2
  rawElem hr e1 e2 i1 i2 c1 c2 h hh hc1 hc2 := by
    obtain ⟨x1, x2, hx1, hx2, hE, hset⟩ := hh
    rw [hc1] at hx1
    rw [hc2] at hx2
    injection hx1 with hx1
    injection hx2 with hx2
    subst hx1 hx2
    obtain ⟨hx, ht⟩ := hraw hr
    subst hx ht
    refine ⟨?_, trivial, ?_⟩
    · have n1 : ∀ c : Elem, c.noNs = true → c.detached.noNs = true := fun c h => noNs_congr (e := c) rfl rfl h
      rw [toNative_mapMeta (fl := fl) env1.backend .std _ (n1 _ hE.2.1),
        toNative_mapMeta (fl := fl) env2.backend .std _ (n1 _ hE.2.2)]
      have h2 := congrArg Elem.detached hE.1
      congr 1
      simpa [detached, mapMeta_eq] using h2
    · apply hset
      · refine ⟨?_, ?_, ?_⟩
        · have h2 := congrArg Elem.hollow hE.1
          simp only [hollow, mapMeta_eq] at h2 ⊢
          simp only [Elem.mk.injEq, List.map_nil, true_and] at h2 ⊢
          simp [h2]
        · exact noNs_hollow hE.2.1
        · exact noNs_hollow hE.2.2
      · rfl
      · rfl
  none := trivial
  list _ _ := trivial
  model _ _ _ := trivial
  validate cls m d _ _ := by rw [hval]
  extra hf title e1 e2 h := by
    rw [checkExtra_mapMeta (hfx hf) (hft hf) hfl title e1, checkExtra_mapMeta (hfx hf) (hft hf) hfl title e2, h.1]
  forbids := hforbid
  validators cls m fs hm hb f hf v hv := by rw [hno cls m fs hm hb f hf] at hv; cases hv
  keeps cls m fs hm hb f hf v hv := by rw [hno cls m fs hm hb f hf] at hv; cases hv

end PXml
