import Verif.Lemmas.Local
import Verif.Props.Errors
import Verif.Example

/-! # C84: what is inside the element of one field does not influence the other fields -/

namespace PXml

open Elem

/-- Equal but for line numbers. -/
abbrev LineRel : Elem → Elem → Prop := MetaRel (fun _ => id) id (fun _ => -1)

theorem lineRel_tag (a b : Elem) (h : LineRel a b) : a.tag = b.tag := by
  rw [← mapMeta_tag (fun _ => id) id (fun _ => -1) a, h.1, mapMeta_tag]

theorem lineRel_raw (env : Env) (c1 c2 : Elem) (h : LineRel c1 c2) :
    toNative env.backend c1.detached = toNative env.backend c2.detached ∧ LineRel c1.hollow c2.hollow := by
  refine ⟨?_, ?_, noNs_hollow h.2.1, noNs_hollow h.2.2⟩
  · have n1 : ∀ c : Elem, c.noNs = true → c.detached.noNs = true := fun c h => noNs_congr (e := c) rfl rfl h
    rw [toNative_mapMeta (fl := fun _ => -1) env.backend .std _ (n1 _ h.2.1),
      toNative_mapMeta (fl := fun _ => -1) env.backend .std _ (n1 _ h.2.2)]
    have h2 := congrArg Elem.detached h.1
    congr 1
    simpa [detached, mapMeta_eq] using h2
  · have h2 := congrArg Elem.hollow h.1
    simp only [hollow, mapMeta_eq] at h2 ⊢
    simp only [Elem.mk.injEq, List.map_nil, true_and] at h2 ⊢
    simp [h2]

theorem lineSim (env : Env) (hno : env.NoValidators) (eas : Bool) :
    Sim env env eas .any True True True LineRel (fun _ => True) (fun _ => -1) :=
  metaSim (env1 := env) (env2 := env) eas (fx := fun _ => id) (X := fun _ => True) (own := fun _ => True) (ft := id) (fl := fun _ => -1)
    (raw := True) (forbid := True) rfl rfl (fun _ _ _ _ => rfl) (fun _ _ _ => rfl) (fun _ => rfl) (fun _ => ⟨rfl, rfl⟩)
    (fun _ _ _ _ => rfl) (fun _ _ _ => rfl) (fun _ => rfl) (fun _ _ _ _ => trivial) hno (fun _ _ _ _ => trivial)

mutual
theorem fromNative_unlined (b : Backend) (n : Node) :
    fromNative b n.unlined = (fromNative b n).mapMeta (fun _ => id) id (fun _ => -1) := by
  cases n with
  | elem tag attrib nsmap text tail cs line =>
    have hl : sourceLine b none = -1 := by cases b <;> rfl
    simp [Node.unlined, fromNative, mapMeta, fromNativeList_unlined b cs, hl]
  | comment => rfl
  | pi => rfl
theorem fromNativeList_unlined (b : Backend) (l : List Node) :
    fromNativeList b (Node.unlinedList l) = mapMetaList (fun _ => id) id (fun _ => -1) (fromNativeList b l) := by
  cases l with
  | nil => rfl
  | cons n l =>
    have hd : n.unlined.isComment = n.isComment := by cases n <;> rfl
    simp only [Node.unlinedList, fromNativeList, hd]
    cases hc : n.isComment with
    | true => simpa using fromNativeList_unlined b l
    | false => simp [mapMetaList, fromNative_unlined b n, fromNativeList_unlined b l]
end

theorem unlined_rel (b : Backend) {n n' : Node} (h : n.unlined = n'.unlined) : LineRel (fromNative b n) (fromNative b n') :=
  ⟨by rw [← fromNative_unlined, h, fromNative_unlined], fromNative_noNs _ _, fromNative_noNs _ _⟩

theorem sameBeside_pairs {t : String} {cs cs' : List Node} (h : Node.SameBeside t cs cs') (b : Backend) :
    (fromNativeList b cs).length = (fromNativeList b cs').length ∧ ∀ (i : Nat) (c1 c2 : Elem), (fromNativeList b cs)[i]? = some c1 →
      (fromNativeList b cs')[i]? = some c2 → LineRel c1 c2 ∨ (c1.tag = t ∧ c2.tag = t) := by
  have step : ∀ (x y : Elem) (xs ys : List Elem), (LineRel x y ∨ (x.tag = t ∧ y.tag = t)) → (xs.length = ys.length ∧
      ∀ (i : Nat) (c1 c2 : Elem), xs[i]? = some c1 → ys[i]? = some c2 → LineRel c1 c2 ∨ (c1.tag = t ∧ c2.tag = t)) →
      ((x :: xs).length = (y :: ys).length ∧ ∀ (i : Nat) (c1 c2 : Elem), (x :: xs)[i]? = some c1 → (y :: ys)[i]? = some c2 →
        LineRel c1 c2 ∨ (c1.tag = t ∧ c2.tag = t)) := by
    intro x y xs ys hxy h
    refine ⟨by simp [h.1], ?_⟩
    intro i c1 c2 h1 h2
    cases i with
    | zero =>
      simp only [List.getElem?_cons_zero, Option.some.injEq] at h1 h2
      subst h1 h2
      exact hxy
    | succ i => exact h.2 i c1 c2 (by simpa using h1) (by simpa using h2)
  induction h with
  | nil => exact ⟨rfl, by intro i c1 c2 h; simp [fromNativeList] at h⟩
  | @same n n' ns ns' hn _ ih =>
    have hd : n.isComment = n'.isComment := by
      have key : ∀ n : Node, n.unlined.isComment = n.isComment := by intro n; cases n <;> rfl
      rw [← key n, hn, key]
    simp only [fromNativeList, hd]
    cases hc : n'.isComment with
    | true => simpa using ih
    | false =>
      simp only [Bool.false_eq_true, if_false]
      exact step _ _ _ _ (.inl (unlined_rel b hn)) ih
  | inside _ ih =>
    simp only [fromNativeList, Node.isComment, Bool.false_eq_true, if_false]
    exact step _ _ _ _ (.inr ⟨by simp [fromNative], by simp [fromNative]⟩) ih

theorem sameOutside_beside {t : String} {doc1 doc2 : Node} (h : doc1.SameOutside t doc2) (b : Backend) :
    Beside LineRel t (fromNative b doc1) (fromNative b doc2) := by
  cases h with
  | elem hc =>
    obtain ⟨h1, h2⟩ := sameBeside_pairs hc b
    simp only [fromNative]
    exact ⟨rfl, rfl, rfl, rfl, h1, h2⟩

section
variable (env : Env) (hno : env.NoValidators) (eas : Bool) (n : Nat) (t : String)
include hno

theorem readField_beside (f : Field) (hf : f.validator = none) {s1 s2 : St} (h : Beside LineRel t s1.el s2.el) :
    (f.ser.Avoids t → (readField (deser env eas n) f s1).1.noLines = (readField (deser env eas n) f s2).1.noLines) ∧
    (f.ser.Avoids t ∨ f.ser.Inside t →
      Beside LineRel t (readField (deser env eas n) f s1).2.el (readField (deser env eas n) f s2).2.el) := by
  simp only [readField, hf]
  have key : f.ser.Avoids t → _ := fun ha => deser_avoids (t := t) (lineSim env hno eas) lineRel_tag (lineRel_raw env) n f.ser ha [.name f.name]
      { s1 with sm := s1.sm.set [.name f.name] s1.el.line } { s2 with sm := s2.sm.set [.name f.name] s2.el.line } trivial (stRel h _ _)
  refine ⟨fun ha => (key ha).1.lines_eq, ?_⟩
  rintro (ha | hi)
  · exact (key ha).2.1
  · exact deser_inside (lineSim env hno eas) lineRel_tag n f.ser hi _ h

theorem runFields_beside (fs : List Field) (hv : ∀ f ∈ fs, f.validator = none) (hfs : ∀ f ∈ fs, f.ser.Avoids t ∨ f.ser.Inside t) {s1 s2 : St}
    (h : Beside LineRel t s1.el s2.el) (i : Nat) (f : Field) (hf : fs[i]? = some f) (ha : f.ser.Avoids t) :
    ((runFields (deser env eas n) fs s1).1[i]?).map Out.noLines = ((runFields (deser env eas n) fs s2).1[i]?).map Out.noLines := by
  induction fs generalizing i s1 s2 with
  | nil => simp at hf
  | cons g fs ih =>
    obtain ⟨h1, h2⟩ := readField_beside env hno eas n t g (hv g (by simp)) h
    simp only [runFields]
    cases i with
    | zero =>
      simp only [List.getElem?_cons_zero, Option.some.injEq] at hf
      subst hf
      simp [h1 ha]
    | succ i =>
      simp only [List.getElem?_cons_succ] at hf ⊢
      exact ih (fun f hf => hv f (by simp [hf])) (fun f hf => hfs f (by simp [hf])) (h2 (hfs g (by simp))) i hf
end

/-- C84: of two documents that differ only inside the children of the root with the tag `t` (and in line numbers), every field that
does not look for `t` is read alike: the same value, the same errors up to line numbers, or the same exception.  The condition: fields
that do look for `t` are read from one child each. -/
theorem C84_field_outcomes (env : Env) (hno : env.NoValidators) (eas : Bool) (n : Nat) (cls : String) (m : ModelSer) (fs : List Field)
    (hm : env.model cls = some m) (hb : m.body = .fields fs) (t : String) (hfs : ∀ f ∈ fs, f.ser.Avoids t ∨ f.ser.Inside t)
    (doc1 doc2 : Node) (h : doc1.SameOutside t doc2) (i : Nat) (f : Field) (hf : fs[i]? = some f) (ha : f.ser.Avoids t) :
    ((runFields (deser env eas n) fs ⟨fromNative env.backend doc1, []⟩).1[i]?).map Out.noLines =
      ((runFields (deser env eas n) fs ⟨fromNative env.backend doc2, []⟩).1[i]?).map Out.noLines :=
  runFields_beside env hno eas n t fs (hno cls m fs hm hb) hfs (sameOutside_beside h _) i f hf ha

/-- The data gathered by two runs over the fields. -/
theorem deserFields_beside (env : Env) (hno : env.NoValidators) (eas : Bool) (n : Nat) (t : String) (key : String) (fs : List Field)
    (hv : ∀ f ∈ fs, f.validator = none) (hfs : ∀ f ∈ fs, f.ser.Avoids t ∨ f.ser.Inside t)
    (hkey : ∀ f ∈ fs, f.alias.getD f.name = key → f.ser.Avoids t) {s1 s2 : St} (h : Beside LineRel t s1.el s2.el)
    (res1 res2 : Dict String Val) (hres : res1.get? key = res2.get? key) (errs1 errs2 : Dict ErrKey VErr) {r1 r2 : Dict String Val}
    {x1 x2 : Dict ErrKey VErr} {s1' s2' : St} (h1 : deserFields (deser env eas n) fs res1 errs1 s1 = (.ok (r1, x1), s1'))
    (h2 : deserFields (deser env eas n) fs res2 errs2 s2 = (.ok (r2, x2), s2')) : r1.get? key = r2.get? key := by
  induction fs generalizing res1 res2 errs1 errs2 s1 s2 with
  | nil =>
    simp only [deserFields, Prod.mk.injEq, Out.ok.injEq] at h1 h2
    rw [← h1.1.1, ← h2.1.1]
    exact hres
  | cons g fs ih =>
    obtain ⟨k1, k2⟩ := readField_beside env hno eas n t g (hv g (by simp)) h
    have ih := fun {s1 s2 : St} (h : Beside LineRel t s1.el s2.el) r1 r2 hr e1 e2 => ih (fun f hf => hv f (by simp [hf]))
      (fun f hf => hfs f (by simp [hf])) (fun f hf => hkey f (by simp [hf])) h r1 r2 hr e1 e2
    have k2 := k2 (hfs g (by simp))
    simp only [readField, hv g (by simp)] at k1 k2
    simp only [deserFields, hv g (by simp)] at h1 h2
    cases hq1 : deser env eas n g.ser [.name g.name] { s1 with sm := s1.sm.set [.name g.name] s1.el.line } with
    | mk o1 t1 =>
      cases hq2 : deser env eas n g.ser [.name g.name] { s2 with sm := s2.sm.set [.name g.name] s2.el.line } with
      | mk o2 t2 =>
        rw [hq1, hq2] at k1 k2
        rw [hq1] at h1
        rw [hq2] at h2
        simp only at k1 k2 h1 h2
        have hne : ∀ v (d : Dict String Val), g.alias.getD g.name ≠ key →
            Dict.get? (if v.isNone then d else d.set (g.alias.getD g.name) v) key = d.get? key := by
          intro v d hk
          split
          · rfl
          · rw [Dict.get?_set, if_neg hk]
        by_cases hk : g.alias.getD g.name = key
        · have k1 := k1 (hkey g (by simp) hk)
          cases o1 <;> cases o2 <;> simp only [Out.noLines, Out.lines, Out.ok.injEq, reduceCtorEq] at k1 h1 h2
          · subst k1
            refine ih k2 _ _ ?_ _ _ h1 h2
            split
            · exact hres
            · rw [Dict.get?_set, Dict.get?_set, if_pos hk, if_pos hk]
          · exact ih k2 _ _ hres _ _ h1 h2
          · simp at h1
          · simp at h1
        · cases o1 <;> cases o2 <;> simp only [Prod.mk.injEq, reduceCtorEq, false_and] at h1 h2
          · exact ih k2 _ _ (by rw [hne _ _ hk, hne _ _ hk, hres]) _ _ h1 h2
          · exact ih k2 _ _ (by rw [hne _ _ hk, hres]) _ _ h1 h2
          · exact ih k2 _ _ (by rw [hne _ _ hk, hres]) _ _ h1 h2
          · exact ih k2 _ _ hres _ _ h1 h2

theorem fromXmlTree_data {env : Env} {eas : Bool} {n : Nat} {cls : String} {m : ModelSer} {fs : List Field} (hm : env.model cls = some m)
    (hb : m.body = .fields fs) {doc : Node} {a : List (String × Val)} {set : List String} {cls' : String}
    (h : (fromXmlTree env eas n cls doc).1 = .ok (.model cls' a set)) :
    ∃ d st, deserFields (deser env eas n) fs [] [] ⟨fromNative env.backend doc, []⟩ = (.ok (d, []), st) ∧
      env.validate cls (.dict d) = .ok (a, set) := by
  unfold fromXmlTree at h
  rw [hm] at h
  simp only at h
  split at h
  · simp only [deserModel, hb] at h
    cases hd : deserFields (deser env eas n) fs [] [] ⟨fromNative env.backend doc, []⟩ with
    | mk o st =>
      rw [hd] at h
      cases o with
      | ok r =>
        obtain ⟨d, errs⟩ := r
        simp only at h
        split at h
        · rename_i he
          rw [List.isEmpty_iff] at he
          subst he
          refine ⟨d, st, rfl, ?_⟩
          unfold validateModel at h
          split at h
          · cases h
          · cases hv : env.validate cls (.dict d) with
            | error e => rw [hv] at h; cases h
            | ok r =>
              rw [hv] at h
              obtain ⟨a', set'⟩ := r
              simp only [Out.ok.injEq, Val.model.injEq] at h
              rw [h.2.1, h.2.2]
        · cases h
      | verr e => cases h
      | crash e => cases h
      | diverge => cases h
  · cases h

/-- C84: if both documents are read successfully, pydantic gets the same data for every field that does not look for `t`. -/
theorem C84_values (env : Env) (hno : env.NoValidators) (eas : Bool) (n : Nat) (cls : String) (m : ModelSer) (fs : List Field)
    (hm : env.model cls = some m) (hb : m.body = .fields fs) (t : String) (hfs : ∀ f ∈ fs, f.ser.Avoids t ∨ f.ser.Inside t)
    (doc1 doc2 : Node) (h : doc1.SameOutside t doc2) (a1 a2 : List (String × Val)) (set1 set2 : List String)
    (h1 : (fromXmlTree env eas n cls doc1).1 = .ok (.model cls a1 set1)) (h2 : (fromXmlTree env eas n cls doc2).1 = .ok (.model cls a2 set2)) :
    ∃ d1 d2 : Dict String Val, env.validate cls (.dict d1) = .ok (a1, set1) ∧ env.validate cls (.dict d2) = .ok (a2, set2) ∧
      ∀ key, (∀ f ∈ fs, f.alias.getD f.name = key → f.ser.Avoids t) → d1.get? key = d2.get? key := by
  obtain ⟨d1, st1, e1, v1⟩ := fromXmlTree_data hm hb h1
  obtain ⟨d2, st2, e2, v2⟩ := fromXmlTree_data hm hb h2
  exact ⟨d1, d2, v1, v2, fun key hkey =>
    deserFields_beside env hno eas n t key fs (hno cls m fs hm hb) hfs hkey (sameOutside_beside h _) [] [] rfl [] [] e1 e2⟩

/-- C84: an error about a field that does not look for `t` is neither hidden nor altered by what is inside the children with the tag `t`:
if it is raised for one document, it is raised for the other one, up to its line number. -/
theorem C84_errors (env : Env) (hno : env.NoValidators) (eas : Bool) (n : Nat) (cls : String) (m : ModelSer) (fs : List Field)
    (hm : env.model cls = some m) (hb : m.body = .fields fs) (hnd : (fs.map Field.name).Nodup) (t : String)
    (hfs : ∀ f ∈ fs, f.ser.Avoids t ∨ f.ser.Inside t) (doc1 doc2 : Node) (h : doc1.SameOutside t doc2) (htag : doc1.tag = m.elementName) :
    let run1 := runFields (deser env eas n) fs ⟨fromNative env.backend doc1, []⟩
    let run2 := runFields (deser env eas n) fs ⟨fromNative env.backend doc2, []⟩
    (∀ o ∈ run1.1, o.Returns) → (∀ o ∈ run2.1, o.Returns) →
    ∀ f ∈ fs, f.ser.Avoids t → ∀ l ∈ fieldErrors fs run1.1, l.loc.head? = some (.name f.name) →
      ∃ e2, (fromXmlTree env eas n cls doc2).1 = .verr e2 ∧ ∃ l' ∈ e2.errs, { l' with line := none } = { l with line := none } := by
  intro run1 run2 hr1 hr2 f hf ha l hl hh
  simp only [fieldErrors, List.mem_flatMap] at hl
  obtain ⟨⟨g, o⟩, hg, hl⟩ := hl
  cases o with
  | verr e =>
    simp only [VErr.under, List.mem_map] at hl
    obtain ⟨l0, hl0, rfl⟩ := hl
    simp only [List.head?_cons, Option.some.injEq, LocPart.name.injEq] at hh
    obtain ⟨i, hi⟩ := List.mem_iff_getElem?.1 hg
    rw [List.getElem?_zip_eq_some] at hi
    obtain ⟨hi1, hi2⟩ := hi
    have hgf : g = f := by
      obtain ⟨j, hj⟩ := List.mem_iff_getElem?.1 hf
      have hji : j = i := by
        have a1 : (fs.map Field.name)[i]? = some g.name := by simp [List.getElem?_map, hi1]
        have a2 : (fs.map Field.name)[j]? = some g.name := by simp [List.getElem?_map, hj, hh]
        exact (List.getElem?_inj (List.getElem?_eq_some_iff.1 a2).1 hnd).1 (a2.trans a1.symm)
      subst hji
      rw [hi1] at hj
      exact Option.some.inj hj
    subst hgf
    have hout := C84_field_outcomes env hno eas n cls m fs hm hb t hfs doc1 doc2 h i g hi1 ha
    rw [hi2] at hout
    cases ho : run2.1[i]? with
    | none => rw [ho] at hout; cases hout
    | some o2 =>
      rw [ho] at hout
      cases o2 with
      | verr e2 =>
        simp only [Option.map_some, Option.some.injEq, Out.noLines, Out.lines, Out.verr.injEq] at hout
        have hm0 : ({ l0 with line := l0.line.map fun _ => -1 } : LineErr) ∈ (e2.lines fun _ => -1).errs := by
          rw [← hout]
          exact List.mem_map.2 ⟨l0, hl0, rfl⟩
        obtain ⟨l2, hl2, he⟩ := List.mem_map.1 hm0
        have hfail : failures run2.1 ≠ [] := by
          intro hnil
          have : e2 ∈ failures run2.1 := List.mem_filterMap.2 ⟨.verr e2, List.mem_iff_getElem?.2 ⟨i, ho⟩, rfl⟩
          rw [hnil] at this
          cases this
        have htag2 : doc2.tag = m.elementName := by cases h; exact htag
        refine ⟨_, C14_from_xml env eas n cls m fs doc2 hm hb hnd htag2 hr2 hfail, { l2 with loc := .name g.name :: l2.loc }, ?_, ?_⟩
        · simp only [fieldErrors, List.mem_flatMap]
          refine ⟨(g, .verr e2), List.mem_iff_getElem?.2 ⟨i, List.getElem?_zip_eq_some.2 ⟨hi1, ho⟩⟩, ?_⟩
          exact List.mem_map.2 ⟨l2, hl2, rfl⟩
        · cases l2
          cases l0
          simp only [LineErr.mk.injEq] at he ⊢
          simp [he]
      | ok v => simp [Out.noLines, Out.lines] at hout
      | crash e => simp [Out.noLines, Out.lines] at hout
      | diverge => simp [Out.noLines, Out.lines] at hout
  | ok v => simp at hl
  | crash e => simp at hl
  | diverge => simp at hl

namespace Ex

/-- Two documents that differ inside the address only. -/
def moved1 : Node :=
  .elem "person" [("id", "7")] [] none none
    [.elem "name" [] [] (some "Ann") none [] (some 2),
     .elem "home" [("zip", "123")] [] (some "Main St") none [] (some 3),
     .elem "extra" [("k", "v")] [] none none [] (some 4)] (some 1)

def moved2 : Node :=
  .elem "person" [("id", "7")] [] none none
    [.elem "name" [] [] (some "Ann") none [] (some 2),
     .elem "home" [("zip", "9"), ("x", "y")] [] none (some "tail") [.elem "name" [] [] none none [] none] (some 3),
     .elem "extra" [("k", "v")] [] none none [] (some 7)] (some 1)

theorem moved_same : moved1.SameOutside "home" moved2 := .elem (.same rfl (.inside (.same rfl .nil)))

theorem person_home (mode : Mode) (f : Field) (fs : List Field) (hb : (person mode).body = .fields fs) (hf : f ∈ fs) :
    f.ser.Avoids "home" ∨ f.ser.Inside "home" := by
  simp only [person, Body.fields.injEq] at hb
  subst hb
  simp only [List.mem_cons, List.not_mem_nil, or_false] at hf
  rcases hf with rfl | rfl | rfl | rfl | rfl | rfl | rfl
  · exact .inl .attr
  · exact .inl (.elem (by simp))
  · exact .inl (.elem (by simp))
  · exact .inl (.homog (.elem (by simp)))
  · exact .inl (.wrap (by simp))
  · exact .inr (.proxy rfl)
  · exact .inl (.mapElem (by simp))

/-- Non-vacuity of C84: both documents are read, and the data of `extra`, which comes after the address, is the same. -/
example : ∃ (d1 d2 : Dict String Val) (r1 r2 : List (String × Val) × List String),
    (env .strict).validate "Person" (.dict d1) = .ok r1 ∧ (env .strict).validate "Person" (.dict d2) = .ok r2 ∧ d1.get? "extra" = d2.get? "extra" := by
  obtain ⟨d1, d2, h1, h2, h3⟩ := C84_values (env .strict) noValidators false 9 "Person" (person .strict) _ rfl rfl "home"
    (fun f hf => person_home .strict f _ rfl hf) moved1 moved2 moved_same _ _ _ _ rfl rfl
  refine ⟨d1, d2, _, _, h1, h2, h3 "extra" ?_⟩
  intro f hf hk
  simp only [List.mem_cons, List.not_mem_nil, or_false] at hf
  rcases hf with rfl | rfl | rfl | rfl | rfl | rfl | rfl <;> first | exact .mapElem (by simp) | simp at hk

/-- The condition on the fields that look for `t` is needed: an empty item ends a list, the items behind it are in the way of the next
field, which is read as missing. -/
def queue : ModelSer where
  name := "Queue"
  elementName := "queue"
  body := .fields [
    { name := "items", ser := .homog "Queue" false (.elem "item" none .strict false false) },
    { name := "note", ser := .elem "note" none .strict false false }]

def queueEnv : Env :=
  { backend := .lxml, model := fun c => if c = "Queue" then some queue else none, validate := fun c d =>
      match d with
      | .dict fs => .ok (fs, fs.map Prod.fst)
      | _ => .error ⟨c, []⟩
    toJsonable := id, reprOf := fun _ => "" }

theorem queue_lists_differ :
    let doc := fun x => el "queue" none [el "item" x, el "item" (some "b"), el "note" (some "n")]
    (doc (some "a")).SameOutside "item" (doc none) ∧
    (fromXmlTree queueEnv false 9 "Queue" (doc (some "a"))).1 =
      .ok (.model "Queue" [("items", .list [.str "a", .str "b"]), ("note", .str "n")] ["items", "note"]) ∧
    (fromXmlTree queueEnv false 9 "Queue" (doc none)).1 = .ok (.model "Queue" [] []) :=
  ⟨.elem (.inside (.same rfl (.same rfl .nil))), by kernel_rfl, by kernel_rfl⟩

end Ex

end PXml
