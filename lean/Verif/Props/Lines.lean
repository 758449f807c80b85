import Verif.Lemmas.Frame
import Verif.Lemmas.LinesIn
import Verif.Lemmas.Place
import Verif.Props.Errors
import Verif.Props.Collections
import Verif.Props.Unions

/-!
# Line numbers of errors (C16)
-/

namespace PXml

open Elem

theorem lineFor_leaf (sm : SMap) (k rest : Loc) (l : Int) (h : sm.get? k = some l)
    (hk : k ≠ []) (hd : ∀ r, r ≠ [] → sm.get? (k ++ r) = none) (hl : l ≠ -1 ∨ k.length = 1) : lineFor sm (k ++ rest) = l := by
  have key : ∀ r : List LocPart, lineForRev sm (r ++ k.reverse) = l := by
    intro r
    induction r with
    | nil =>
      rw [List.nil_append]
      cases hr : k.reverse with
      | nil => simp at hr; exact absurd hr hk
      | cons p ps =>
        have : (p :: ps).reverse = k := by rw [← hr]; simp
        simp only [lineForRev, this, h]
        split
        · rename_i hm
          rcases hl with hl | hl
          · exact absurd hm hl
          · have : ps = [] := by
              have h2 : (p :: ps).length = 1 := by rw [← hr]; simpa using hl
              simpa using h2
            subst this
            simp [lineForRev, hm]
        · rfl
    | cons p r ih =>
      have : (p :: (r ++ k.reverse)).reverse = k ++ (p :: r).reverse := by simp
      simp only [List.cons_append, lineForRev, this, hd (p :: r).reverse (by simp)]
      exact ih
  have := key rest.reverse
  simpa [lineFor] using this

theorem lineForRev_congr {sm sm' : SMap} {l : List LocPart} (h : ∀ r, r <:+ l → r ≠ [] → sm.get? r.reverse = sm'.get? r.reverse) :
    lineForRev sm l = lineForRev sm' l := by
  induction l with
  | nil => rfl
  | cons p ps ih =>
    simp only [lineForRev]
    rw [h (p :: ps) List.suffix_rfl (by simp), ih fun r hr => h r (hr.trans (List.suffix_cons p ps))]

theorem lineFor_congr {sm sm' : SMap} {loc : Loc} (h : ∀ r, r <+: loc → r ≠ [] → sm.get? r = sm'.get? r) :
    lineFor sm loc = lineFor sm' loc := by
  apply lineForRev_congr
  intro r hr hne
  exact h r.reverse (by rw [← List.reverse_suffix]; simpa using hr) (by simpa using hne)

theorem runFields_append (read : Ser → Loc → St → Out Val × St) (pre post : List Field) (st : St) :
    runFields read (pre ++ post) st =
      ((runFields read pre st).1 ++ (runFields read post (runFields read pre st).2).1,
        (runFields read post (runFields read pre st).2).2) := by
  induction pre generalizing st with
  | nil => rfl
  | cons f pre ih => simp [runFields, ih]

/-- The effect of a leaf on the source map. -/
theorem leaf_sm {env : Env} {eas : Bool} {n : Nat} {s : Ser} (hs : s.Leaf) (loc : Loc) (st : St) :
    (deser env eas (n + 1) s loc st).2.sm = st.sm ∧ s.source st.el = st.el ∨
    (deser env eas (n + 1) s loc st).2.sm = st.sm.set loc (s.source st.el).line := by
  cases hi : s.item? with
  | none =>
    left
    refine ⟨?_, by simp [Ser.source, hi]⟩
    change (deserStep env eas (deser env eas n) n s loc st).2.sm = _
    cases s with
    | text c nl => simp only [deserStep, deserText]; split; rfl; split <;> rfl
    | attr nm c => simp only [deserStep]; split; rfl; split <;> rfl
    | elem nm ns m c nl =>
      cases c with
      | true => simp [deserStep]
      | false => simp [Ser.item?] at hi
    | attrs a => simp only [deserStep, deserAttrs]; split; rfl; split <;> rfl
    | mapElem a nm m =>
      simp only [Ser.item?] at hi
      split at hi
      · rename_i h; simp [deserStep, h]
      · simp at hi
    | raw nm m c =>
      cases c with
      | true => simp [deserStep]
      | false => simp [Ser.item?] at hi
    | _ => exact absurd hs (by simp [Ser.Leaf])
  | some tm =>
    obtain ⟨name, mode⟩ := tm
    have hr : s.Resolved env := by cases s <;> first | trivial | exact absurd hs (by simp [Ser.Leaf])
    cases hc : st.el.candidate name mode with
    | none =>
      left
      rw [deser_item_none hi hr hc]
      simp [Ser.source, hi, hc]
    | some c =>
      right
      obtain ⟨i, el', h1, h2⟩ := candidate_some hc true
      rw [deser_item hi hr, h1]
      simp only [onChild, h2, Ser.source, hi, hc, Option.getD_some]
      cases s with
      | elem nm ns m c nl => simp only [Ser.onItem, deserText]; split; rfl; split <;> rfl
      | mapElem a nm m => simp only [Ser.onItem, deserAttrs]; split; rfl; split <;> rfl
      | raw nm m c => rfl
      | text c nl => simp [Ser.item?] at hi
      | attr nm c => simp [Ser.item?] at hi
      | attrs a => simp [Ser.item?] at hi
      | _ => exact absurd hs (by simp [Ser.Leaf])

section
variable {env : Env} {eas : Bool} {n : Nat} {cls : String} {m : ModelSer} {fs : List Field} {loc : Loc} {st : St}
  {D : String → Prop} {pre post : List Field} {f : Field} {rest : Loc} {err : VErr} {l : LineErr}

/-- The entries below the name of a field, once it was read, stay to the end. -/
theorem entries_stay (hD : ∀ cls m, D cls → env.model cls = some m → m.Everywhere (Ser.In D))
    (hfs : fs = pre ++ f :: post) (hnd : (fs.map Field.name).Nodup) (hin : ∀ g ∈ fs, g.ser.Everywhere (Ser.In D))
    (hfree : ¬ env.FieldOf D f.name) (k : Loc) (hk : [.name f.name] <+: k) :
    (runFields (deser env eas n) fs st).2.sm.get? k =
      (readField (deser env eas n) f (runFields (deser env eas n) pre st).2).2.sm.get? k := by
  subst hfs
  rw [runFields_append]
  simp only [runFields]
  apply runFields_keeps
  have hne : ∀ g : String, g ≠ f.name → ¬ [.name g] <+: k := by
    rintro g hg ⟨r, rfl⟩
    obtain ⟨r', hr'⟩ := hk
    simp at hr'
    exact hg hr'.1.symm
  intro g hg
  have h1 : g.name ≠ f.name := by
    simp only [List.map_append, List.map_cons, List.nodup_append, List.nodup_cons] at hnd
    intro he
    exact hnd.2.1.1 (he ▸ List.mem_map_of_mem hg)
  exact ⟨hne _ h1, deser_keeps env D hD k (fun name hn => hne name fun he => hfree (he ▸ hn)) eas n _ (hin g (by simp [hg])) _
    (hne _ h1)⟩

/-- The entries below the name of a field are untouched before the field is read. -/
theorem entries_before (hD : ∀ cls m, D cls → env.model cls = some m → m.Everywhere (Ser.In D))
    (hfs : fs = pre ++ f :: post) (hnd : (fs.map Field.name).Nodup) (hin : ∀ g ∈ fs, g.ser.Everywhere (Ser.In D))
    (hfree : ¬ env.FieldOf D f.name) (k : Loc) (hk : [.name f.name] <+: k) :
    (runFields (deser env eas n) pre st).2.sm.get? k = st.sm.get? k := by
  subst hfs
  apply runFields_keeps
  have hne : ∀ g : String, g ≠ f.name → ¬ [.name g] <+: k := by
    rintro g hg ⟨r, rfl⟩
    obtain ⟨r', hr'⟩ := hk
    simp at hr'
    exact hg hr'.1.symm
  intro g hg
  have h1 : g.name ≠ f.name := by
    simp only [List.map_append, List.map_cons, List.nodup_append] at hnd
    exact hnd.2.2 _ (List.mem_map_of_mem hg) _ (by simp)
  exact ⟨hne _ h1, deser_keeps env D hD k (fun name hn => hne name fun he => hfree (he ▸ hn)) eas n _ (hin g (by simp [hg])) _
    (hne _ h1)⟩

/-- The line reported for an error below the name of a field, when the data was read and pydantic's validation fails. -/
theorem reported (hb : m.body = .fields fs) (hD : ∀ cls m, D cls → env.model cls = some m → m.Everywhere (Ser.In D))
    (hfs : fs = pre ++ f :: post) (hnd : (fs.map Field.name).Nodup) (hin : ∀ g ∈ fs, g.ser.Everywhere (Ser.In D))
    (hfree : ¬ env.FieldOf D f.name)
    (h : ∀ o ∈ (runFields (deser env eas n) fs st).1, o.Returns) (hf : failures (runFields (deser env eas n) fs st).1 = [])
    (hleft : (runFields (deser env eas n) fs st).2.el.leftovers = [] ∨ m.extraForbid = false)
    (herr : env.validate cls (.dict (fieldData fs (runFields (deser env eas n) fs st).1)) = .error err)
    (hl : l ∈ err.errs) (hloc : l.loc = .name f.name :: rest) :
    ∃ err', (deserModel env (deser env eas n) cls m loc st).1 = .verr err' ∧
      { l with line := some (lineFor (readField (deser env eas n) f (runFields (deser env eas n) pre st).2).2.sm l.loc) }
        ∈ err'.errs := by
  rw [C13_nothing_else env (deser env eas n) cls m fs loc st hb hnd h hf hleft, herr]
  refine ⟨_, rfl, ?_⟩
  simp only [setSourceline, List.mem_map]
  refine ⟨l, hl, ?_⟩
  congr 2
  apply lineFor_congr
  intro r hr hne
  apply entries_stay hD hfs hnd hin hfree
  rw [hloc] at hr
  cases r with
  | nil => exact absurd rfl hne
  | cons p r =>
    obtain ⟨r', hr'⟩ := hr
    simp only [List.cons_append, List.cons.injEq] at hr'
    rw [hr'.1]
    exact ⟨r, rfl⟩

/-- The outcome of a field is among the outcomes of the fields. -/
theorem outcome_mem {F : Ser → Loc → St → Out Val × St} (hfs : fs = pre ++ f :: post) :
    (readField F f (runFields F pre st).2).1 ∈ (runFields F fs st).1 := by
  subst hfs
  rw [runFields_append]
  simp [runFields]

/-- A field without a custom validator: what it does to the source map is what the field inside the wrappers does. -/
theorem readField_place {k : Nat} (hvf : f.validator = none) {o : Option Ser} {w : Elem} (hp : f.ser.ReadAt st.el o w)
    (h : (readField (deser env eas k) f st).1.Returns) :
    ∃ sm' : SMap, sm'.get? [.name f.name] = some w.line ∧ (∀ k, k ≠ [.name f.name] → sm'.get? k = st.sm.get? k) ∧
      match o with
      | none => (readField (deser env eas k) f st).2.sm = sm'
      | some s => ∃ n, n < k ∧ (readField (deser env eas k) f st).1 = (deser env eas (n + 1) s [.name f.name] ⟨w, sm'⟩).1 ∧
          (readField (deser env eas k) f st).2.sm = (deser env eas (n + 1) s [.name f.name] ⟨w, sm'⟩).2.sm := by
  simp only [readField, hvf] at h ⊢
  obtain ⟨sm', h1, h2, h3⟩ := place_sm hp k [.name f.name] (st.sm.set [.name f.name] st.el.line) (by simp) h
  refine ⟨sm', h1, fun k hk => (h2 k hk).trans (Dict.get?_set_ne _ _ (Ne.symm hk)), ?_⟩
  cases o with
  | none => exact h3.2
  | some s =>
    obtain ⟨n', h4, h5, h6⟩ := h3
    cases n' with
    | zero =>
      rw [h5] at h
      rcases h with ⟨v, h⟩ | ⟨x, h⟩ <;> cases h
    | succ n' => exact ⟨n', by omega, h5, h6⟩

/-- C16, for fields that are text, attributes, elements with text, mappings or raw elements, possibly inside wrappers: when
the fields of a class were read and pydantic's validation rejects their values, the line reported for an error of the field is
the line of the element the field was read from (for text and attributes, and for missing elements, the line of the enclosing
element), as it was when the field's turn came.

Partial: the sub-models of the class must not have a field of the same name (see `C16_counterexample`); for lists, tuples
and sub-models see the next theorems. -/
theorem C16_field_line_partial (hb : m.body = .fields fs)
    (hD : ∀ cls m, D cls → env.model cls = some m → m.Everywhere (Ser.In D))
    (hfs : fs = pre ++ f :: post) (hnd : (fs.map Field.name).Nodup) (hin : ∀ g ∈ fs, g.ser.Everywhere (Ser.In D))
    (hfree : ¬ env.FieldOf D f.name)
    (hsm : ∀ k, [.name f.name] <+: k → st.sm.get? k = none) (hvf : f.validator = none) {o : Option Ser} {w : Elem}
    (hplace : f.ser.ReadAt (runFields (deser env eas n) pre st).2.el o w) (hleaf : ∀ s, o = some s → s.Leaf)
    (h : ∀ o ∈ (runFields (deser env eas n) fs st).1, o.Returns)
    (hf : failures (runFields (deser env eas n) fs st).1 = [])
    (hleft : (runFields (deser env eas n) fs st).2.el.leftovers = [] ∨ m.extraForbid = false)
    (herr : env.validate cls (.dict (fieldData fs (runFields (deser env eas n) fs st).1)) = .error err)
    (hl : l ∈ err.errs) (hloc : l.loc = .name f.name :: rest) :
    ∃ err', (deserModel env (deser env eas n) cls m loc st).1 = .verr err' ∧
      { l with line := some (w.sourceOf o).line } ∈ err'.errs := by
  obtain ⟨err', h1, h2⟩ := reported (env := env) (eas := eas) (n := n) (cls := cls) (loc := loc) hb hD hfs hnd hin hfree h hf
    hleft herr hl hloc
  refine ⟨err', h1, ?_⟩
  suffices hline : lineFor (readField (deser env eas n) f (runFields (deser env eas n) pre st).2).2.sm l.loc =
      (w.sourceOf o).line by rw [hline] at h2; exact h2
  have hbefore : ∀ k, [.name f.name] <+: k → (runFields (deser env eas n) pre st).2.sm.get? k = none := fun k hk =>
    (entries_before hD hfs hnd hin hfree k hk).trans (hsm k hk)
  have hret := h _ (outcome_mem (F := deser env eas n) hfs)
  generalize (runFields (deser env eas n) pre st).2 = st' at hbefore hplace hret ⊢
  obtain ⟨sm', h3, h4, h5⟩ := readField_place hvf hplace hret
  have hne : ∀ r : Loc, r ≠ [] → ([.name f.name] : Loc) ≠ [.name f.name] ++ r := by
    intro r hr he
    simp at he
    exact hr he
  rw [hloc]
  cases o with
  | none =>
    simp only at h5
    rw [h5]
    exact lineFor_leaf _ [.name f.name] rest _ h3 (by simp)
      (fun r hr => (h4 _ (Ne.symm (hne r hr))).trans (hbefore _ ⟨r, rfl⟩)) (.inr rfl)
  | some s =>
    obtain ⟨n', -, -, h6⟩ := h5
    rw [h6]
    refine lineFor_leaf _ [.name f.name] rest _ ?_ (by simp) ?_ (.inr rfl)
    · rcases leaf_sm (env := env) (eas := eas) (n := n') (hleaf s rfl) [.name f.name] ⟨w, sm'⟩ with ⟨h7, h8⟩ | h7
      · rw [h7, h3]
        simp only at h8
        rw [sourceOf, h8]
      · rw [h7]; simp [sourceOf]
    · intro r hr
      rcases leaf_sm (env := env) (eas := eas) (n := n') (hleaf s rfl) [.name f.name] ⟨w, sm'⟩ with ⟨h7, h8⟩ | h7
      · rw [h7]
        exact (h4 _ (Ne.symm (hne r hr))).trans (hbefore _ ⟨r, rfl⟩)
      · rw [h7, Dict.get?_set_ne _ _ (hne r hr)]
        exact (h4 _ (Ne.symm (hne r hr))).trans (hbefore _ ⟨r, rfl⟩)

/-- The line noted for an element, sub-model, mapping or raw element that was found. -/
theorem item_line (hD : ∀ cls m, D cls → env.model cls = some m → m.Everywhere (Ser.In D)) {s : Ser} {name : String} {mode : Mode}
    (hs : s.item? = some (name, mode)) (hr : s.Resolved env) (hin : s.Everywhere (Ser.In D))
    (hnr : ∀ p, s = .proxy p → ∀ m, env.model p.cls = some m → ∃ fs, m.body = .fields fs)
    (hk : ∀ name, env.FieldOf D name → ¬ [.name name] <+: loc) {c : Elem} (hc : st.el.candidate name mode = some c) :
    (deser env eas (n + 1) s loc st).2.sm.get? loc = some c.line := by
  obtain ⟨i, el', h1, h2⟩ := candidate_some hc true
  rw [deser_item hs hr, h1]
  simp only [onChild, h2]
  cases s with
  | elem nm ns m c nl => exact (deserText_keeps loc eas c nl _).trans (by simp)
  | mapElem a nm m => exact (deserAttrs_keeps loc a _).trans (by simp)
  | raw nm m c => exact Dict.get?_set_self _ _ _
  | proxy p =>
    simp only [Ser.Resolved, Option.isSome_iff_exists] at hr
    obtain ⟨m, hm⟩ := hr
    simp only [Ser.onItem, hm]
    cases c.isNil with
    | mk b el =>
      cases b with
      | true => exact Dict.get?_set_self _ _ _
      | false =>
        simp only
        obtain ⟨fs, hb⟩ := hnr p rfl m hm
        have hp : D p.cls := by obtain ⟨h, _⟩ := hin; exact h
        have he := hD p.cls m hp hm
        refine (deserModel_keeps env p.cls m loc ?_ ?_ ⟨el, _⟩).trans (Dict.get?_set_self _ _ _)
        · intro fs hb fd hfd
          have hn := hk fd.name ⟨p.cls, m, fs, fd, hp, hm, hb, hfd, rfl⟩
          simp only [ModelSer.Everywhere, hb] at he
          exact ⟨hn, deser_keeps env D hD loc hk eas n _ (he fd hfd) _ hn⟩
        · intro s hb'
          rw [hb] at hb'
          cases hb'
  | _ => simp [Ser.item?] at hs

/-- C16, for sub-models that are not root models, possibly inside wrappers: an error located at the field itself is reported
with the line of the sub-model's element, or of the enclosing element if it is missing.  Partial as `C16_field_line_partial`. -/
theorem C16_submodel_line_partial (hb : m.body = .fields fs)
    (hD : ∀ cls m, D cls → env.model cls = some m → m.Everywhere (Ser.In D))
    (hfs : fs = pre ++ f :: post) (hnd : (fs.map Field.name).Nodup) (hin : ∀ g ∈ fs, g.ser.Everywhere (Ser.In D))
    (hfree : ¬ env.FieldOf D f.name) (hvf : f.validator = none) {p : Proxy} {w : Elem}
    (hplace : f.ser.ReadAt (runFields (deser env eas n) pre st).2.el (some (.proxy p)) w) (hpc : p.computed = false)
    {m' : ModelSer} {fs' : List Field} (hm' : env.model p.cls = some m') (hb' : m'.body = .fields fs')
    (h : ∀ o ∈ (runFields (deser env eas n) fs st).1, o.Returns)
    (hf : failures (runFields (deser env eas n) fs st).1 = [])
    (hleft : (runFields (deser env eas n) fs st).2.el.leftovers = [] ∨ m.extraForbid = false)
    (herr : env.validate cls (.dict (fieldData fs (runFields (deser env eas n) fs st).1)) = .error err)
    (hl : l ∈ err.errs) (hloc : l.loc = [.name f.name]) :
    ∃ err', (deserModel env (deser env eas n) cls m loc st).1 = .verr err' ∧
      { l with line := some ((Ser.proxy p).source w).line } ∈ err'.errs := by
  obtain ⟨err', h1, h2⟩ := reported (env := env) (eas := eas) (n := n) (cls := cls) (loc := loc) hb hD hfs hnd hin hfree h hf
    hleft herr hl hloc
  refine ⟨err', h1, ?_⟩
  suffices hline : lineFor (readField (deser env eas n) f (runFields (deser env eas n) pre st).2).2.sm l.loc =
      ((Ser.proxy p).source w).line by rw [hline] at h2; exact h2
  have hret := h _ (outcome_mem (F := deser env eas n) hfs)
  generalize (runFields (deser env eas n) pre st).2 = st' at hplace hret ⊢
  obtain ⟨sm', h3, h4, n', -, -, h5⟩ := readField_place hvf hplace hret
  have hi : (Ser.proxy p).item? = some (p.name, p.mode) := by simp [Ser.item?, hpc]
  have hr : (Ser.proxy p).Resolved env := by simp [Ser.Resolved, hm']
  have hget : (readField (deser env eas n) f st').2.sm.get? [.name f.name] = some ((Ser.proxy p).source w).line := by
    rw [h5]
    simp only [Ser.source, hi]
    cases hc : w.candidate p.name p.mode with
    | none =>
      rw [deser_item_none hi hr (st := ⟨w, sm'⟩) hc]
      simpa using h3
    | some c =>
      refine item_line (st := ⟨w, sm'⟩) hD hi hr (hplace.everywhere (hin f (by rw [hfs]; simp)) _ rfl) ?_ ?_ hc
      · intro q hq m'' hm''
        cases hq
        rw [hm'] at hm''
        cases hm''
        exact ⟨fs', hb'⟩
      · rintro name hn ⟨r, hr⟩
        simp at hr
        exact hfree (hr.1 ▸ hn)
  simp only [hloc, lineFor, List.reverse_singleton, lineForRev, hget]
  split <;> simp_all

theorem homogLoop_errs {F : Loc → St → Out Val × St} (N k : Nat) (acc : List Val) (errs : Dict ErrKey VErr) (st : St)
    {vs : List Val} {errs' : Dict ErrKey VErr} (h : (homogLoop F loc N k acc errs st).1 = .ok (vs, errs')) (he : errs' = []) :
    errs = [] ∧ ∃ ws, vs = acc ++ ws := by
  induction N generalizing k acc errs st with
  | zero => simp [homogLoop] at h
  | succ N ih =>
    simp only [homogLoop] at h
    split at h
    · split at h
      · simp only [Out.ok.injEq, Prod.mk.injEq] at h
        exact ⟨h.2.trans he, [], by simp [h.1]⟩
      · obtain ⟨h1, ws, h2⟩ := ih _ _ _ _ h
        exact ⟨h1, _ :: ws, by rw [h2, List.append_assoc]; rfl⟩
    · obtain ⟨h1, -⟩ := ih _ _ _ _ h
      simp at h1
    · cases h
    · cases h

theorem homogLoop_lines (hv : env.ValidatorsRead)
    (hD : ∀ cls m, D cls → env.model cls = some m → m.Everywhere (Ser.In D)) {s : Ser} {name : String} {mode : Mode}
    (hs : s.item? = some (name, mode)) (hr : s.Resolved env) (hin : s.Everywhere (Ser.In D))
    (hnr : ∀ p, s = .proxy p → ∀ m, env.model p.cls = some m → ∃ fs, m.body = .fields fs)
    (hk : ∀ name i, env.FieldOf D name → ¬ [.name name] <+: loc ++ [.idx i]) (hm : mode ≠ .unordered)
    (N k : Nat) (acc : List Val) (errs : Dict ErrKey VErr) {vs : List Val}
    (hret : (homogLoop (fun loc st => deser env eas (n + 1) s loc st) loc N k acc errs st).1 = .ok (acc ++ vs, []))
    (i : Nat) (hi : i < vs.length) :
    ∃ c, (st.el.matching name mode)[i]? = some c ∧
      (homogLoop (fun loc st => deser env eas (n + 1) s loc st) loc N k acc errs st).2.sm.get? (loc ++ [.idx (k + i)]) =
        some c.line := by
  induction N generalizing k acc errs st vs i with
  | zero => simp [homogLoop] at hret
  | succ N ih =>
    have hother : ∀ i, k + 1 ≤ i → Keeps (loc ++ [.idx k]) (deser env eas (n + 1) s (loc ++ [.idx i])) := by
      intro i hi
      refine deser_keeps env D hD _ (fun nm hn => hk nm k hn) eas _ s hin _ ?_
      intro hp
      have := hp.eq_of_length (by simp)
      simp at this
      omega
    simp only [homogLoop] at hret ⊢
    cases hcand : st.el.candidate name mode with
    | none =>
      rw [deser_item_none hs hr hcand] at hret
      simp only [Val.isNone, if_true, Out.ok.injEq, Prod.mk.injEq] at hret
      have : vs = [] := by simpa using hret.1
      subst this
      simp at hi
    | some c =>
      obtain ⟨h1, j, el', c', h2, h3, h4, h5⟩ := deser_item_some hv (eas := eas) (n := n) (loc := loc ++ [.idx k]) hs hr hcand
      have hline := item_line (eas := eas) (n := n) (loc := loc ++ [.idx k]) hD hs hr hin hnr (fun nm hn => hk nm k hn) hcand
      have hmatch : st.el.matching name mode = c :: (el'.setChild j c').matching name mode := by
        rw [matching_step hm h2]
        have := (matching_head st.el name mode).symm
        rw [hcand] at this
        cases hl : st.el.matching name mode with
        | nil => rw [hl] at this; simp at this
        | cons d l => rw [hl] at this; simp at this; rw [this]; rfl
      cases hd : deser env eas (n + 1) s (loc ++ [.idx k]) st with
      | mk o st' =>
        rw [hd] at h5 hline hret
        simp only at h5 hline
        cases o with
        | ok v =>
          simp only at hret ⊢
          cases hnone : v.isNone with
          | true =>
            rw [hnone] at hret
            simp only [if_true, Out.ok.injEq, Prod.mk.injEq] at hret
            have : vs = [] := by simpa using hret.1
            subst this
            simp at hi
          | false =>
            rw [hnone] at hret
            simp only [Bool.false_eq_true, if_false] at hret ⊢
            obtain ⟨-, ws, hws⟩ := homogLoop_errs _ _ _ _ _ hret rfl
            rw [List.append_assoc] at hws
            have hws := List.append_cancel_left hws
            subst hws
            cases i with
            | zero =>
              refine ⟨c, by rw [hmatch]; rfl, ?_⟩
              rw [Nat.add_zero]
              exact (homogLoop_keeps loc N (k + 1) hother _ _ st').trans hline
            | succ i =>
              obtain ⟨d, h6, h7⟩ := ih (st := st') (k + 1) (acc ++ [v]) errs (vs := ws) (by rw [hret]; simp) i
                (by simpa using hi)
              rw [h5] at h6
              refine ⟨d, by rw [hmatch]; simpa using h6, ?_⟩
              rwa [show k + 1 + i = k + (i + 1) by omega] at h7
        | verr e =>
          simp only at hret
          obtain ⟨h6, -⟩ := homogLoop_errs _ _ _ _ _ hret rfl
          simp at h6
        | crash e => cases hret
        | diverge => cases hret

/-- C16, for lists of elements, mappings, raw elements and sub-models (not root models) in strict and ordered mode, possibly
inside wrappers: an error located at the item with index `i` of the list that was read is reported with the line of the `i`-th
matching element, if it is known.  Partial as `C16_field_line_partial`. -/
theorem C16_item_line_partial (hv : env.ValidatorsRead) (hb : m.body = .fields fs)
    (hD : ∀ cls m, D cls → env.model cls = some m → m.Everywhere (Ser.In D))
    (hfs : fs = pre ++ f :: post) (hnd : (fs.map Field.name).Nodup) (hin : ∀ g ∈ fs, g.ser.Everywhere (Ser.In D))
    (hfree : ¬ env.FieldOf D f.name) (hvf : f.validator = none)
    {title : Title} {s : Ser} {name : String} {mode : Mode} {w : Elem}
    (hplace : f.ser.ReadAt (runFields (deser env eas n) pre st).2.el (some (.homog title false s)) w)
    (hs : s.item? = some (name, mode)) (hr : s.Resolved env)
    (hnr : ∀ p, s = .proxy p → ∀ m, env.model p.cls = some m → ∃ fs, m.body = .fields fs) (hm : mode ≠ .unordered)
    {vs : List Val} (hread : (readField (deser env eas n) f (runFields (deser env eas n) pre st).2).1 = .ok (.list vs))
    (h : ∀ o ∈ (runFields (deser env eas n) fs st).1, o.Returns)
    (hf : failures (runFields (deser env eas n) fs st).1 = [])
    (hleft : (runFields (deser env eas n) fs st).2.el.leftovers = [] ∨ m.extraForbid = false)
    (herr : env.validate cls (.dict (fieldData fs (runFields (deser env eas n) fs st).1)) = .error err)
    {i : Nat} (hi : i < vs.length) (hl : l ∈ err.errs) (hloc : l.loc = [.name f.name, .idx i]) :
    ∃ c, (w.matching name mode)[i]? = some c ∧ (c.line ≠ -1 →
      ∃ err', (deserModel env (deser env eas n) cls m loc st).1 = .verr err' ∧
        { l with line := some c.line } ∈ err'.errs) := by
  obtain ⟨err', h1, h2⟩ := reported (env := env) (eas := eas) (n := n) (cls := cls) (loc := loc) hb hD hfs hnd hin hfree h hf
    hleft herr hl hloc
  have hret := h _ (outcome_mem (F := deser env eas n) hfs)
  generalize (runFields (deser env eas n) pre st).2 = st' at hplace hret hread h2
  obtain ⟨sm', h3, h4, n', -, h5, h6⟩ := readField_place hvf hplace hret
  rw [h5] at hread
  rw [h6] at h2
  have hin' : s.Everywhere (Ser.In D) := by
    have := hplace.everywhere (hin f (by rw [hfs]; simp)) _ rfl
    rw [Ser.everywhere_homog] at this
    exact this.2
  have hk : ∀ name i, env.FieldOf D name → ¬ [.name name] <+: ([.name f.name] : Loc) ++ [.idx i] := by
    rintro name i hn ⟨r, hr⟩
    simp at hr
    exact hfree (hr.1 ▸ hn)
  have e1 : deser env eas (n' + 1) (.homog title false s) [.name f.name] ⟨w, sm'⟩ =
      match homogLoop (fun loc st => deser env eas n' s loc st) [.name f.name] n' 0 [] [] ⟨w, sm'⟩ with
      | (.ok r, st') => (homogFinish title r, st')
      | (.verr e, st') => (.verr e, st')
      | (.crash e, st') => (.crash e, st')
      | (.diverge, st') => (.diverge, st') := rfl
  rw [e1] at hread h2
  cases n' with
  | zero => simp [homogLoop] at hread
  | succ n' =>
    cases hl : homogLoop (fun loc st => deser env eas (n' + 1) s loc st) [.name f.name] (n' + 1) 0 [] [] ⟨w, sm'⟩ with
    | mk o st'' =>
      rw [hl] at hread h2
      cases o with
      | ok r =>
        obtain ⟨ws, errs⟩ := r
        simp only [homogFinish] at hread h2
        split at hread
        · rename_i hemp
          split at hread
          · cases hread
          · cases hread
            have hemp : errs = [] := by simpa using hemp
            subst hemp
            obtain ⟨c, h7, h8⟩ := homogLoop_lines (eas := eas) (n := n') (loc := [.name f.name]) (st := ⟨w, sm'⟩) hv hD hs hr hin'
              hnr hk hm (n' + 1) 0 [] [] (vs := vs) (by rw [hl]; rfl) i hi
            refine ⟨c, h7, fun hcl => ⟨err', h1, ?_⟩⟩
            rw [hl] at h8
            simp only [List.cons_append, List.nil_append, Nat.zero_add] at h8
            have hline : lineFor st''.sm l.loc = c.line := by
              simp only [hloc, lineFor, List.reverse_cons, List.reverse_nil, List.nil_append, List.cons_append, lineForRev, h8,
                if_neg hcl]
            rw [hline] at h2
            exact h2
        · cases hread
      | verr e => cases hread
      | crash e => cases hread
      | diverge => cases hread

/-- A field without inner structure, or a sub-model that is not a root model. -/
def Ser.Simple (env : Env) (s : Ser) : Prop :=
  s.Leaf ∨ ∃ p m fs, s = .proxy p ∧ p.computed = false ∧ env.model p.cls = some m ∧ m.body = .fields fs

/-- The line such a field leaves for its location. -/
theorem simple_line (hD : ∀ cls m, D cls → env.model cls = some m → m.Everywhere (Ser.In D)) {s : Ser} (hs : s.Simple env)
    (hin : s.Everywhere (Ser.In D)) (hk : ∀ name, env.FieldOf D name → ¬ [.name name] <+: loc) :
    (deser env eas (n + 1) s loc st).2.sm.get? loc = st.sm.get? loc ∧ s.source st.el = st.el ∨
    (deser env eas (n + 1) s loc st).2.sm.get? loc = some (s.source st.el).line := by
  rcases hs with hs | ⟨p, m, fs, rfl, hc, hm, hb⟩
  · rcases leaf_sm (env := env) (eas := eas) (n := n) hs loc st with ⟨h1, h2⟩ | h1
    · exact .inl ⟨by rw [h1], h2⟩
    · exact .inr (by rw [h1]; simp)
  · have hi : (Ser.proxy p).item? = some (p.name, p.mode) := by simp [Ser.item?, hc]
    have hr : (Ser.proxy p).Resolved env := by simp [Ser.Resolved, hm]
    simp only [Ser.source, hi]
    cases hcand : st.el.candidate p.name p.mode with
    | none => left; rw [deser_item_none hi hr hcand]; exact ⟨rfl, rfl⟩
    | some c =>
      right
      refine item_line hD hi hr hin ?_ hk hcand
      intro q hq m' hm'
      cases hq
      rw [hm] at hm'
      cases hm'
      exact ⟨fs, hb⟩

theorem heteroLoop_errs {F : Ser → Loc → St → Out Val × St} (xs : List Ser) (k : Nat) (acc : List Val) (errs : Dict ErrKey VErr)
    (st : St) {vs : List Val} (h : (heteroLoop F loc xs k acc errs st).1 = .ok (vs, [])) : errs = [] := by
  induction xs generalizing k acc errs st with
  | nil => simp [heteroLoop] at h; exact h.2
  | cons x xs ih =>
    simp only [heteroLoop] at h
    split at h
    · exact ih _ _ _ _ h
    · have := ih _ _ _ _ h
      simp at this
    · cases h
    · cases h

theorem heteroLoop_lines (hv : env.ValidatorsRead)
    (hD : ∀ cls m, D cls → env.model cls = some m → m.Everywhere (Ser.In D)) {N : Nat} (hN : n ≤ N)
    (hk : ∀ name i, env.FieldOf D name → ¬ [.name name] <+: loc ++ [.idx i])
    (xs : List Ser) (hin : ∀ s ∈ xs, s.Everywhere (Ser.In D)) (k : Nat) (acc : List Val) (errs : Dict ErrKey VErr) {vs : List Val}
    (hret : (heteroLoop (deser env eas n) loc xs k acc errs st).1 = .ok (vs, []))
    (i : Nat) {x : Ser} (hx : xs[i]? = some x) (hsx : x.Simple env) :
    let e := afterItems (deser env eas N) loc k (xs.take i) st.el
    e.line = st.el.line ∧
    ((heteroLoop (deser env eas n) loc xs k acc errs st).2.sm.get? (loc ++ [.idx (k + i)]) = st.sm.get? (loc ++ [.idx (k + i)]) ∧
        x.source e = e ∨
      (heteroLoop (deser env eas n) loc xs k acc errs st).2.sm.get? (loc ++ [.idx (k + i)]) = some (x.source e).line) := by
  induction xs generalizing k acc errs st i with
  | nil => simp at hx
  | cons y xs ih =>
    have hother : ∀ (j i : Nat) (s : Ser), s ∈ y :: xs → i ≠ j → Keeps (loc ++ [.idx j]) (deser env eas n s (loc ++ [.idx i])) := by
      intro j i s hs hi
      refine deser_keeps env D hD _ (fun nm hn => hk nm j hn) eas _ s (hin s hs) _ ?_
      intro hp
      have := hp.eq_of_length (by simp)
      simp at this
      exact hi this
    have hlater : ∀ acc errs st', (heteroLoop (deser env eas n) loc xs (k + 1) acc errs st').2.sm.get? (loc ++ [.idx k]) =
        st'.sm.get? (loc ++ [.idx k]) :=
      fun acc errs st' => heteroLoop_keeps loc xs (k + 1) (fun s hs i hi => hother k i s (by simp [hs]) (by omega)) acc errs st'
    simp only [heteroLoop] at hret ⊢
    cases hd : deser env eas n y (loc ++ [.idx k]) st with
    | mk o st' =>
      rw [hd] at hret
      cases o with
      | ok v =>
        simp only at hret ⊢
        cases i with
        | zero =>
          simp only [List.getElem?_cons_zero, Option.some.injEq] at hx
          subst hx
          refine ⟨rfl, ?_⟩
          rw [show k + 0 = k from rfl, hlater]
          cases n with
          | zero => cases hd
          | succ n =>
            have := simple_line (eas := eas) (n := n) (st := st) (loc := loc ++ [.idx k]) hD hsx (hin y (by simp))
              (fun nm hn => hk nm k hn)
            rw [hd] at this
            exact this
        | succ i =>
          have hel : (deser env eas N y (loc ++ [.idx k]) ⟨st.el, []⟩).2.el = st'.el := by
            have h1 := deser_mono env eas hN y (loc ++ [.idx k]) st (by rw [hd]; rfl)
            have h2 := (deser_sm hv eas N y (loc ++ [.idx k]) st.el st.sm []).2
            rw [← h2]
            change (deser env eas N y (loc ++ [.idx k]) st).2.el = _
            rw [h1, hd]
          have hline : st'.el.line = st.el.line := by
            have := deser_rel line_rel env (hv.respect line_rel) eas n y (loc ++ [.idx k]) st
            rwa [hd] at this
          have := ih (st := st') (fun s hs => hin s (by simp [hs])) (k + 1) (acc ++ [v]) errs hret i (by simpa using hx)
          simp only [List.take_succ_cons, afterItems, hel]
          rw [show k + 1 + i = k + (i + 1) by omega] at this
          refine ⟨this.1.trans hline, ?_⟩
          have hkeep := hother (k + (i + 1)) k y (by simp) (by omega) st
          rw [hd] at hkeep
          simp only at hkeep
          rw [← hkeep]
          exact this.2
      | verr e =>
        have := heteroLoop_errs _ _ _ _ _ hret
        simp at this
      | crash e => cases hret
      | diverge => cases hret

/-- C16, for tuples, possibly inside wrappers: an error located at the item with index `i` is reported with the line of the
element this item was read from (the element that holds the items, if the item is text or was missing), if it is known.
Partial as `C16_field_line_partial`. -/
theorem C16_tuple_line_partial (hv : env.ValidatorsRead) (hb : m.body = .fields fs)
    (hD : ∀ cls m, D cls → env.model cls = some m → m.Everywhere (Ser.In D))
    (hfs : fs = pre ++ f :: post) (hnd : (fs.map Field.name).Nodup) (hin : ∀ g ∈ fs, g.ser.Everywhere (Ser.In D))
    (hfree : ¬ env.FieldOf D f.name) (hsm : ∀ k, [.name f.name] <+: k → st.sm.get? k = none) (hvf : f.validator = none)
    {title : Title} {xs : List Ser} {w : Elem}
    (hplace : f.ser.ReadAt (runFields (deser env eas n) pre st).2.el (some (.hetero title false xs)) w)
    (h : ∀ o ∈ (runFields (deser env eas n) fs st).1, o.Returns)
    (hf : failures (runFields (deser env eas n) fs st).1 = [])
    (hleft : (runFields (deser env eas n) fs st).2.el.leftovers = [] ∨ m.extraForbid = false)
    (herr : env.validate cls (.dict (fieldData fs (runFields (deser env eas n) fs st).1)) = .error err)
    {i : Nat} {x : Ser} (hx : xs[i]? = some x) (hsx : x.Simple env)
    (hline : (x.source (afterItems (deser env eas n) [.name f.name] 0 (xs.take i) w)).line ≠ -1)
    (hl : l ∈ err.errs) (hloc : l.loc = [.name f.name, .idx i]) :
    ∃ err', (deserModel env (deser env eas n) cls m loc st).1 = .verr err' ∧
      { l with line := some (x.source (afterItems (deser env eas n) [.name f.name] 0 (xs.take i) w)).line } ∈ err'.errs := by
  obtain ⟨err', h1, h2⟩ := reported (env := env) (eas := eas) (n := n) (cls := cls) (loc := loc) hb hD hfs hnd hin hfree h hf
    hleft herr hl hloc
  refine ⟨err', h1, ?_⟩
  have hbefore : ∀ k, [.name f.name] <+: k → (runFields (deser env eas n) pre st).2.sm.get? k = none := fun k hk =>
    (entries_before hD hfs hnd hin hfree k hk).trans (hsm k hk)
  have hmem := outcome_mem (F := deser env eas n) (st := st) hfs
  have hret := h _ hmem
  have hok : ∀ e, (readField (deser env eas n) f (runFields (deser env eas n) pre st).2).1 ≠ .verr e := by
    intro e he
    rw [he] at hmem
    have : e ∈ failures (runFields (deser env eas n) fs st).1 := by
      simp only [failures, List.mem_filterMap]
      exact ⟨_, hmem, rfl⟩
    rw [hf] at this
    simp at this
  generalize (runFields (deser env eas n) pre st).2 = st' at hplace hret hok h2 hbefore
  obtain ⟨sm', h3, h4, n', hn', h5, h6⟩ := readField_place hvf hplace hret
  rw [h5] at hret hok
  rw [h6] at h2
  suffices hgoal : lineFor (deser env eas (n' + 1) (.hetero title false xs) [.name f.name] ⟨w, sm'⟩).2.sm l.loc =
      (x.source (afterItems (deser env eas n) [.name f.name] 0 (xs.take i) w)).line by rw [hgoal] at h2; exact h2
  have hin' : ∀ s ∈ xs, s.Everywhere (Ser.In D) := by
    have := hplace.everywhere (hin f (by rw [hfs]; simp)) _ rfl
    rw [Ser.everywhere_hetero] at this
    exact this.2
  have hk : ∀ name i, env.FieldOf D name → ¬ [.name name] <+: ([.name f.name] : Loc) ++ [.idx i] := by
    rintro name i hn ⟨r, hr⟩
    simp at hr
    exact hfree (hr.1 ▸ hn)
  have e1 : deser env eas (n' + 1) (.hetero title false xs) [.name f.name] ⟨w, sm'⟩ =
      match heteroLoop (deser env eas n') [.name f.name] xs 0 [] [] ⟨w, sm'⟩ with
      | (.ok r, st') => (heteroFinish title r, st')
      | (.verr e, st') => (.verr e, st')
      | (.crash e, st') => (.crash e, st')
      | (.diverge, st') => (.diverge, st') := rfl
  rw [e1] at hret hok ⊢
  have hkeep : (heteroLoop (deser env eas n') [.name f.name] xs 0 [] [] ⟨w, sm'⟩).2.sm.get? [.name f.name] = some w.line := by
    refine (heteroLoop_keeps [.name f.name] xs 0 (fun s hs i _ => ?_) [] [] ⟨w, sm'⟩).trans h3
    refine deser_keeps env D hD _ ?_ eas _ s (hin' s hs) _ ?_
    · rintro name hn ⟨r, hr⟩
      simp at hr
      exact hfree (hr.1 ▸ hn)
    · intro hp
      have := hp.length_le
      simp at this
  cases hl : heteroLoop (deser env eas n') [.name f.name] xs 0 [] [] ⟨w, sm'⟩ with
  | mk o st'' =>
    rw [hl] at hret hok hkeep
    simp only at hkeep
    cases o with
    | ok r =>
      obtain ⟨vs, errs⟩ := r
      have hemp : errs = [] := by
        cases errs with
        | nil => rfl
        | cons a b => exact absurd rfl (hok (intoValidationError title (a :: b)))
      subst hemp
      have := heteroLoop_lines (eas := eas) (n := n') (N := n) (st := ⟨w, sm'⟩) hv hD (by omega) hk xs hin' 0 [] [] (by rw [hl]) i hx
        hsx
      rw [hl, Nat.zero_add] at this
      obtain ⟨h7, h8⟩ := this
      simp only [hloc, lineFor, List.reverse_cons, List.reverse_nil, List.nil_append, List.cons_append, lineForRev, hkeep]
      simp only [List.cons_append, List.nil_append] at h8
      rcases h8 with ⟨h8, h9⟩ | h8
      · have hne : sm'.get? [.name f.name, .idx i] = none :=
          (h4 _ (by simp)).trans (hbefore _ ⟨[.idx i], rfl⟩)
        rw [h8, hne, h9, h7]
        simp only
        split
        · rename_i hw; exact hw.symm
        · rfl
      · rw [h8]
        simp only [if_neg hline]
    | verr e => exact absurd rfl (hok e)
    | crash e => rcases hret with ⟨v, h⟩ | ⟨x, h⟩ <;> cases h
    | diverge => rcases hret with ⟨v, h⟩ | ⟨x, h⟩ <;> cases h

theorem unionLoop_line (hv : env.ValidatorsRead)
    (hD : ∀ cls m, D cls → env.model cls = some m → m.Everywhere (Ser.In D)) {N : Nat} (hN : n + 1 ≤ N)
    (hk : ∀ name, env.FieldOf D name → ¬ [.name name] <+: loc) (title : Title) (alts : List Proxy)
    (hin : ∀ p ∈ alts, (Ser.proxy p).Everywhere (Ser.In D)) (halts : ∀ p ∈ alts, (Ser.proxy p).Simple env)
    (errs : Dict ErrKey VErr) {v : Val} (hne : v.isNone = false)
    (hret : (unionLoop (fun p st => deser env eas (n + 1) (.proxy p) loc st) title alts errs st).1 = .ok v) :
    ∃ a p b, alts = a ++ p :: b ∧
      (∀ q ∈ a, ∀ u, (deser env eas N (.proxy q) loc ⟨st.el, []⟩).1 = .ok u → u.isNone = true) ∧
      (deser env eas N (.proxy p) loc ⟨st.el, []⟩).1 = .ok v ∧
      (unionLoop (fun p st => deser env eas (n + 1) (.proxy p) loc st) title alts errs st).2.sm.get? loc =
        some ((Ser.proxy p).source st.el).line := by
  induction alts generalizing errs st with
  | nil =>
    simp only [unionLoop] at hret
    split at hret
    · cases hret; simp [Val.isNone] at hne
    · cases hret
  | cons q qs ih =>
    simp only [unionLoop, createSnapshot] at hret ⊢
    cases hd : deser env eas (n + 1) (.proxy q) loc ⟨st.el, st.sm⟩ with
    | mk o st' =>
      rw [hd] at hret
      have hsame : o.isDiv = false → (deser env eas N (.proxy q) loc ⟨st.el, []⟩).1.noLines = o.noLines := by
        intro hdiv
        have h1 := deser_mono env eas hN (.proxy q) loc ⟨st.el, st.sm⟩ (by rw [hd]; exact hdiv)
        have h2 := (deser_sm hv eas N (.proxy q) loc st.el st.sm []).1
        rw [← h2, h1, hd]
      have next : ∀ errs, (unionLoop (fun p st => deser env eas (n + 1) (.proxy p) loc st) title qs errs
            { st with sm := st'.sm }).1 = .ok v →
          (∀ u, (deser env eas N (.proxy q) loc ⟨st.el, []⟩).1 = .ok u → u.isNone = true) →
          ∃ a p b, q :: qs = a ++ p :: b ∧
            (∀ q ∈ a, ∀ u, (deser env eas N (.proxy q) loc ⟨st.el, []⟩).1 = .ok u → u.isNone = true) ∧
            (deser env eas N (.proxy p) loc ⟨st.el, []⟩).1 = .ok v ∧
            (unionLoop (fun p st => deser env eas (n + 1) (.proxy p) loc st) title qs errs { st with sm := st'.sm }).2.sm.get? loc =
              some ((Ser.proxy p).source st.el).line := by
        intro errs h1 h2
        obtain ⟨a, p, b, rfl, h3, h4, h5⟩ := ih (st := { st with sm := st'.sm }) (fun p hp => hin p (by simp [hp]))
          (fun p hp => halts p (by simp [hp])) errs h1
        refine ⟨q :: a, p, b, rfl, ?_, h4, h5⟩
        intro r hr
        rcases List.mem_cons.1 hr with rfl | hr
        · exact h2
        · exact h3 r hr
      cases o with
      | ok u =>
        have hs := hsame rfl
        have hok : (deser env eas N (.proxy q) loc ⟨st.el, []⟩).1 = .ok u := by
          generalize (deser env eas N (.proxy q) loc ⟨st.el, []⟩).1 = r at hs
          cases r <;> simp [Out.noLines, Out.lines] at hs
          rw [hs]
        simp only at hret ⊢
        cases hn : u.isNone with
        | true =>
          simp only [hn, if_true] at hret ⊢
          refine next errs hret ?_
          intro u' hu'
          rw [hok] at hu'
          cases hu'
          exact hn
        | false =>
          simp only [hn, Bool.false_eq_true, if_false] at hret ⊢
          cases hret
          refine ⟨[], q, qs, rfl, by simp, hok, ?_⟩
          rcases halts q (by simp) with hl | ⟨p, m, fs, hp, hc, hm, hb⟩
          · simp [Ser.Leaf] at hl
          · cases hp
            have hi : (Ser.proxy q).item? = some (q.name, q.mode) := by simp [Ser.item?, hc]
            have hr : (Ser.proxy q).Resolved env := by simp [Ser.Resolved, hm]
            simp only [Ser.source, hi]
            cases hcand : st.el.candidate q.name q.mode with
            | none =>
              rw [deser_item_none hi hr (st := ⟨st.el, st.sm⟩) hcand] at hd
              cases hd
              simp [Val.isNone] at hn
            | some c =>
              have := item_line (eas := eas) (n := n) (st := ⟨st.el, st.sm⟩) (loc := loc) hD hi hr (hin q (by simp)) (by
                intro q' hq m' hm'
                cases hq
                rw [hm] at hm'
                cases hm'
                exact ⟨fs, hb⟩) hk hcand
              rw [hd] at this
              exact this
      | verr e =>
        have hs := hsame rfl
        refine next _ hret ?_
        intro u hu
        rw [hu] at hs
        simp [Out.noLines, Out.lines] at hs
      | crash e => cases hret
      | diverge => cases hret

/-- The line of an error located at the field, from the entry for the field. -/
theorem reported_at (hb : m.body = .fields fs)
    (hD : ∀ cls m, D cls → env.model cls = some m → m.Everywhere (Ser.In D))
    (hfs : fs = pre ++ f :: post) (hnd : (fs.map Field.name).Nodup) (hin : ∀ g ∈ fs, g.ser.Everywhere (Ser.In D))
    (hfree : ¬ env.FieldOf D f.name) (h : ∀ o ∈ (runFields (deser env eas n) fs st).1, o.Returns)
    (hf : failures (runFields (deser env eas n) fs st).1 = [])
    (hleft : (runFields (deser env eas n) fs st).2.el.leftovers = [] ∨ m.extraForbid = false)
    (herr : env.validate cls (.dict (fieldData fs (runFields (deser env eas n) fs st).1)) = .error err)
    (hl : l ∈ err.errs) (hloc : l.loc = [.name f.name]) {x : Int}
    (hget : (readField (deser env eas n) f (runFields (deser env eas n) pre st).2).2.sm.get? [.name f.name] = some x) :
    ∃ err', (deserModel env (deser env eas n) cls m loc st).1 = .verr err' ∧ { l with line := some x } ∈ err'.errs := by
  obtain ⟨err', h1, h2⟩ := reported (env := env) (eas := eas) (n := n) (cls := cls) (loc := loc) hb hD hfs hnd hin hfree h hf
    hleft herr hl hloc
  refine ⟨err', h1, ?_⟩
  suffices hline : lineFor (readField (deser env eas n) f (runFields (deser env eas n) pre st).2).2.sm l.loc = x by
    rw [hline] at h2; exact h2
  simp only [hloc, lineFor, List.reverse_singleton, lineForRev, hget]
  split <;> simp_all

/-- C16, for unions of models, possibly inside wrappers: if the field got a value, this is the value of the first alternative
that gives one, and an error located at the field is reported with the line of the element this alternative was read from.
Partial as `C16_field_line_partial`. -/
theorem C16_union_line_partial (hv : env.ValidatorsRead) (hb : m.body = .fields fs)
    (hD : ∀ cls m, D cls → env.model cls = some m → m.Everywhere (Ser.In D))
    (hfs : fs = pre ++ f :: post) (hnd : (fs.map Field.name).Nodup) (hin : ∀ g ∈ fs, g.ser.Everywhere (Ser.In D))
    (hfree : ¬ env.FieldOf D f.name) (hvf : f.validator = none) {title : Title} {alts : List Proxy} {w : Elem}
    (hplace : f.ser.ReadAt (runFields (deser env eas n) pre st).2.el (some (.modelUnion title false alts)) w)
    (halts : ∀ p ∈ alts, p.computed = false ∧ ∃ m fs, env.model p.cls = some m ∧ m.body = .fields fs)
    {v : Val} (hread : (readField (deser env eas n) f (runFields (deser env eas n) pre st).2).1 = .ok v) (hne : v.isNone = false)
    (h : ∀ o ∈ (runFields (deser env eas n) fs st).1, o.Returns)
    (hf : failures (runFields (deser env eas n) fs st).1 = [])
    (hleft : (runFields (deser env eas n) fs st).2.el.leftovers = [] ∨ m.extraForbid = false)
    (herr : env.validate cls (.dict (fieldData fs (runFields (deser env eas n) fs st).1)) = .error err)
    (hl : l ∈ err.errs) (hloc : l.loc = [.name f.name]) :
    ∃ a p b, alts = a ++ p :: b ∧
      (∀ q ∈ a, ∀ u, (deser env eas n (.proxy q) [.name f.name] ⟨w, []⟩).1 = .ok u → u.isNone = true) ∧
      (deser env eas n (.proxy p) [.name f.name] ⟨w, []⟩).1 = .ok v ∧
      ∃ err', (deserModel env (deser env eas n) cls m loc st).1 = .verr err' ∧
        { l with line := some ((Ser.proxy p).source w).line } ∈ err'.errs := by
  have hret := h _ (outcome_mem (F := deser env eas n) hfs)
  have main : ∃ a p b, alts = a ++ p :: b ∧
      (∀ q ∈ a, ∀ u, (deser env eas n (.proxy q) [.name f.name] ⟨w, []⟩).1 = .ok u → u.isNone = true) ∧
      (deser env eas n (.proxy p) [.name f.name] ⟨w, []⟩).1 = .ok v ∧
      (readField (deser env eas n) f (runFields (deser env eas n) pre st).2).2.sm.get? [.name f.name] =
        some ((Ser.proxy p).source w).line := by
    generalize (runFields (deser env eas n) pre st).2 = st' at hplace hret hread ⊢
    obtain ⟨sm', h3, h4, n', hn', h5, h6⟩ := readField_place hvf hplace hret
    rw [h6]
    rw [h5] at hread
    have hin' : ∀ p ∈ alts, (Ser.proxy p).Everywhere (Ser.In D) := by
      have := hplace.everywhere (hin f (by rw [hfs]; simp)) _ rfl
      simp [Ser.In] at this ⊢
      exact this
    cases n' with
    | zero =>
      exfalso
      change (unionLoop (fun p st => deser env eas 0 (.proxy p) [.name f.name] st) title alts [] ⟨w, sm'⟩).1 = .ok v at hread
      cases alts with
      | nil => simp [unionLoop] at hread; rw [← hread] at hne; simp [Val.isNone] at hne
      | cons q qs => simp [unionLoop, deser] at hread
    | succ n' =>
      refine unionLoop_line (n := n') (N := n) (st := ⟨w, sm'⟩) hv hD (by omega) ?_ title alts hin' ?_ [] hne hread
      · rintro name hn ⟨r, hr⟩
        simp at hr
        exact hfree (hr.1 ▸ hn)
      · intro p hp
        obtain ⟨hc, m, fs, h1, h2⟩ := halts p hp
        exact .inr ⟨p, m, fs, rfl, hc, h1, h2⟩
  obtain ⟨a, p, b, h1, h2, h3, h4⟩ := main
  exact ⟨a, p, b, h1, h2, h3, reported_at hb hD hfs hnd hin hfree h hf hleft herr hl hloc h4⟩

/-- C16, for discriminated unions over one element name, possibly inside wrappers: an error located at the field is reported
with the line of the element whose discriminator selected the alternative.  Partial as `C16_field_line_partial`. -/
theorem C16_tagged_line_partial (hb : m.body = .fields fs)
    (hD : ∀ cls m, D cls → env.model cls = some m → m.Everywhere (Ser.In D))
    (hfs : fs = pre ++ f :: post) (hnd : (fs.map Field.name).Nodup) (hin : ∀ g ∈ fs, g.ser.Everywhere (Ser.In D))
    (hfree : ¬ env.FieldOf D f.name) (hvf : f.validator = none) {discr attrName name tag : String} {mode : Mode}
    {alts : List (String × Proxy)} {p : Proxy} {w c : Elem}
    (hplace : f.ser.ReadAt (runFields (deser env eas n) pre st).2.el (some (.tagged false discr attrName mode alts)) w)
    (hp : (tag, p) ∈ alts) (htags : (alts.map Prod.fst).Nodup) (hname : ∀ a ∈ alts, a.2.name = name) (hmode : p.mode = mode)
    (hpc : p.computed = false) {m' : ModelSer} {fs' : List Field} (hm' : env.model p.cls = some m') (hb' : m'.body = .fields fs')
    (hc : w.candidate name mode = some c) (hattr : c.getAttrib attrName = some tag)
    (h : ∀ o ∈ (runFields (deser env eas n) fs st).1, o.Returns)
    (hf : failures (runFields (deser env eas n) fs st).1 = [])
    (hleft : (runFields (deser env eas n) fs st).2.el.leftovers = [] ∨ m.extraForbid = false)
    (herr : env.validate cls (.dict (fieldData fs (runFields (deser env eas n) fs st).1)) = .error err)
    (hl : l ∈ err.errs) (hloc : l.loc = [.name f.name]) :
    ∃ err', (deserModel env (deser env eas n) cls m loc st).1 = .verr err' ∧ { l with line := some c.line } ∈ err'.errs := by
  have hret := h _ (outcome_mem (F := deser env eas n) hfs)
  refine reported_at hb hD hfs hnd hin hfree h hf hleft herr hl hloc ?_
  generalize (runFields (deser env eas n) pre st).2 = st' at hplace hret ⊢
  obtain ⟨sm', h3, h4, n', hn', h5, h6⟩ := readField_place hvf hplace hret
  rw [h5] at hret
  have hdiv : (deser env eas (n' + 1) (.tagged false discr attrName mode alts) [.name f.name] ⟨w, sm'⟩).1.isDiv = false := by
    rcases hret with ⟨v, h⟩ | ⟨x, h⟩ <;> rw [h] <;> rfl
  have hpn : p.name = name := hname _ hp
  have hi : (Ser.proxy p).item? = some (name, mode) := by simp [Ser.item?, hpc, hpn, hmode]
  have hr : (Ser.proxy p).Resolved env := by simp [Ser.Resolved, hm']
  rw [h6, ← deser_mono env eas (Nat.le_succ (n' + 1)) _ _ _ hdiv,
    C33_selects env eas n' [.name f.name] ⟨w, sm'⟩ discr attrName name tag mode alts p c hp htags hname hmode hpc
      (by rw [hm']; rfl) hc hattr]
  have hin' : (Ser.proxy p).Everywhere (Ser.In D) := by
    have := hplace.everywhere (hin f (by rw [hfs]; simp)) _ rfl
    simp [Ser.In] at this ⊢
    exact this _ _ hp
  refine item_line (st := ⟨w, sm'⟩) hD hi hr hin' ?_ ?_ hc
  · intro q hq m'' hm''
    cases hq
    rw [hm'] at hm''
    cases hm''
    exact ⟨fs', hb'⟩
  · rintro name hn ⟨r, hr⟩
    simp at hr
    exact hfree (hr.1 ▸ hn)

end

/-! ## Every error has a line -/

mutual
theorem fromNative_linesIn (b : Backend) (n : Node) (L : Int → Prop) (h0 : L (-1)) (h : ∀ l ∈ n.lines, L l) :
    (fromNative b n).LinesIn L := by
  cases n with
  | elem tag attrib nsmap text tail cs line =>
    simp only [Node.lines, List.mem_append, Option.mem_toList] at h
    simp only [fromNative, LinesIn]
    refine ⟨?_, fromNativeList_linesIn b cs L h0 fun l hl => h l (.inr hl)⟩
    cases b with
    | std => exact h0
    | lxml =>
      cases line with
      | none => exact h0
      | some l => exact h l (.inl rfl)
  | comment => exact ⟨h0, trivial⟩
  | pi => exact ⟨h0, trivial⟩
theorem fromNativeList_linesIn (b : Backend) (l : List Node) (L : Int → Prop) (h0 : L (-1)) (h : ∀ i ∈ Node.linesList l, L i) :
    LinesInList L (fromNativeList b l) := by
  cases l with
  | nil => trivial
  | cons n l =>
    simp only [Node.linesList, List.mem_append] at h
    have h2 := fromNativeList_linesIn b l L h0 fun i hi => h i (.inr hi)
    simp only [fromNativeList]
    split
    · exact h2
    · exact ⟨fromNative_linesIn b n L h0 fun i hi => h i (.inl hi), h2⟩
end

mutual
theorem fromNative_allLines (n : Node) (L : Int → Prop) (ha : n.AllLines) (hc : n.isComment = false) (h : ∀ l ∈ n.lines, L l) :
    (fromNative .lxml n).LinesIn L := by
  cases n with
  | elem tag attrib nsmap text tail cs line =>
    simp only [Node.lines, List.mem_append, Option.mem_toList] at h
    simp only [Node.AllLines] at ha
    simp only [fromNative, LinesIn]
    refine ⟨?_, fromNativeList_allLines cs L ha.2 fun l hl => h l (.inr hl)⟩
    obtain ⟨l, rfl⟩ := ha.1
    exact h l (.inl rfl)
  | comment => cases hc
  | pi => cases ha
theorem fromNativeList_allLines (l : List Node) (L : Int → Prop) (ha : Node.AllLinesList l) (h : ∀ i ∈ Node.linesList l, L i) :
    LinesInList L (fromNativeList .lxml l) := by
  cases l with
  | nil => trivial
  | cons n l =>
    simp only [Node.linesList, List.mem_append] at h
    simp only [Node.AllLinesList] at ha
    have h2 := fromNativeList_allLines l L ha.2 fun i hi => h i (.inr hi)
    simp only [fromNativeList]
    split
    · exact h2
    · rename_i hc
      exact ⟨fromNative_allLines n L ha.1 (by simpa using hc) fun i hi => h i (.inl hi), h2⟩
end

/-- The line found in a source map is one of its lines, or unknown. -/
theorem lineFor_in {L : Int → Prop} {sm : SMap} (h : sm.LinesIn L) (h0 : L (-1)) (loc : Loc) : L (lineFor sm loc) := by
  have key : ∀ l, L (lineForRev sm l) := by
    intro l
    induction l with
    | nil => exact h0
    | cons p ps ih =>
      simp only [lineForRev]
      split
      · rename_i l hl
        split
        · exact ih
        · exact h _ _ hl
      · exact ih
  exact key _

/-- It is known if the line of the first step is. -/
theorem lineFor_known {L : Int → Prop} {sm : SMap} (h : sm.LinesIn L) (h0 : ¬ L (-1)) (p : LocPart) (rest : Loc)
    (hp : sm.get? [p] ≠ none) : L (lineFor sm (p :: rest)) := by
  have key : ∀ r : List LocPart, L (lineForRev sm (r ++ [p])) := by
    intro r
    induction r with
    | nil =>
      simp only [List.nil_append, lineForRev, List.reverse_cons, List.reverse_nil]
      cases hg : sm.get? [p] with
      | none => exact absurd hg hp
      | some l =>
        have hl := h _ _ hg
        simp only
        split
        · rename_i he; subst he; exact absurd hl h0
        · exact hl
    | cons q r ih =>
      simp only [List.cons_append, lineForRev]
      split
      · rename_i l hl
        split
        · exact ih
        · exact h _ _ hl
      · exact ih
  have := key rest.reverse
  simpa [lineFor] using this

/-- C16: every error that is reported for a document, by a field, an item, a sub-model or an alternative of a union at any
depth, or for left-over data, carries a line: -1, or the line of an element of the document. -/
theorem C16_every_error_has_a_line_partial (env : Env) (hno : env.NoValidators) (eas : Bool) (n : Nat) (cls : String) (root : Node)
    (e : VErr) (h : (fromXmlTree env eas n cls root).1 = .verr e) :
    ∀ x ∈ e.errs, ∃ l, x.line = some l ∧ (l = -1 ∨ l ∈ root.lines) := by
  have h1 := fromXmlTree_inLines (L := fun l => l = -1 ∨ l ∈ root.lines) (env := env)
    (fun cls m d e sm _ _ hs _ l _ => lineFor_in hs (.inl rfl) l.loc) hno eas n cls root
    (fromNative_linesIn _ _ _ (.inl rfl) fun l hl => .inr hl)
  rw [h] at h1
  exact h1

/-- C16: with lxml, the line is known, if pydantic locates its errors at fields.  Partial: for the condition see
`C16_alias_counterexample`; which element the line belongs to is the matter of the theorems above. -/
theorem C16_line_known_partial (env : Env) (hno : env.NoValidators) (hloc : env.ErrorsAtFields) (hb : env.backend = .lxml)
    (eas : Bool) (n : Nat) (cls : String) (root : Node) (hc : root.isComment = false) (hl : root.AllLines)
    (hpos : ∀ l ∈ root.lines, 0 ≤ l) (e : VErr) (h : (fromXmlTree env eas n cls root).1 = .verr e) :
    ∀ x ∈ e.errs, ∃ l ∈ root.lines, x.line = some l := by
  have h0 : ¬ (-1 : Int) ∈ root.lines := fun hm => absurd (hpos _ hm) (by decide)
  have h1 := fromXmlTree_inLines (L := fun l => l ∈ root.lines) (env := env) ?_ hno eas n cls root (by
    rw [hb]; exact fromNative_allLines _ _ hl hc fun l hl => hl)
  · rw [h] at h1
    intro x hx
    obtain ⟨l, h2, h3⟩ := h1 x hx
    exact ⟨l, h3, h2⟩
  · intro cls m d e sm hm he hs hg l hl
    have h2 := hloc cls m e hm
    cases hb : m.body with
    | root s => rw [hb] at h2; exact absurd he (h2 d)
    | fields fs =>
      rw [hb] at h2
      obtain ⟨⟨r, rfl⟩, hg'⟩ := hg fs hb
      obtain ⟨f, hf, rest, hr⟩ := h2 r he l hl
      rw [hr]
      exact lineFor_known hs h0 _ rest (hg' f hf)

namespace Ex

/-- A class with a field that has an alias, which pydantic uses in the locations of errors. -/
def aliasEnv : Env :=
  { env with
    model := fun cls => if cls = "Box" then some {
        name := "Box", elementName := "box", body := .fields [
          { name := "size", alias := some "sz", ser := .elem "sz" none .strict false false }] } else none
    validate := fun cls d => match d with
      | .dict d => match (Dict.get? d "sz" : Option Val) with
        | some v => .error ⟨cls, [⟨"int_parsing", "not an integer", [.name "sz"], v, none⟩]⟩
        | none => .ok ([("size", .none)], [])
      | _ => .ok ([], []) }

end Ex

/-- Errors of fields with an alias have no line: the source map is keyed by the names of the fields, pydantic locates the
error at the alias. -/
theorem C16_alias_counterexample :
    (fromXmlTree Ex.aliasEnv false 9 "Box" (Ex.el "box" none [Ex.el "sz" (some "x") [] [] (some 2)] [] (some 1))).1 =
    .verr ⟨"Box", [⟨"int_parsing", "not an integer", [.name "sz"], .str "x", some (-1)⟩]⟩ := by kernel_rfl

namespace Ex

/-- The classes `Dog` and `Cat` of the example, whose errors are located at fields. -/
def petEnv : Env := { env with model := fun
  | "Dog" => some dog
  | "Cat" => some cat
  | _ => none }

/-- The hypotheses are met, and an error is reported: the element `name` is missing from the dog on line 3. -/
example : petEnv.ErrorsAtFields ∧ petEnv.NoValidators := by
  have cases' : ∀ {P : String → ModelSer → Prop}, P "Dog" dog → P "Cat" cat → ∀ cls m, petEnv.model cls = some m → P cls m := by
    intro P h1 h2 cls m h
    simp only [petEnv] at h
    split at h <;> first | (injection h with h; subst h; assumption) | exact absurd h (by simp)
  constructor
  · have key : ∀ (cls : String) (decl' : List (String × Bool)) (fs : List Field), (∀ f ∈ decl', ∃ g ∈ fs, g.name = f.1) →
        ∀ d e, check cls decl' d = .error e → ∀ l ∈ e.errs, ∃ f ∈ fs, ∃ rest, l.loc = .name f.name :: rest := by
      intro cls decl' fs hd d e he l hl
      unfold check at he
      simp only at he
      split at he
      · cases he
      · cases he
        simp only [List.mem_map, List.mem_filter] at hl
        obtain ⟨f, ⟨hf, _⟩, rfl⟩ := hl
        obtain ⟨g, hg, hn⟩ := hd f hf
        exact ⟨g, hg, [], by rw [hn]⟩
    intro cls m e hm
    revert cls m
    apply cases'
    · intro d
      exact key "Dog" (decl "Dog") _ (by simp [decl]) d e
    · intro d
      exact key "Cat" (decl "Cat") _ (by simp [decl]) d e
  · intro cls m fs hm hb f hf
    have := cases' (P := fun _ m => ∀ fs, m.body = .fields fs → ∀ f ∈ fs, f.validator = none) ?_ ?_ cls m hm
    · exact this fs hb f hf
    all_goals
      intro fs hb
      simp only [dog, cat, Body.fields.injEq] at hb
      subst hb
      simp

example : let doc := el "pet" none [] [("kind", "dog")] (some 3)
    doc.AllLines ∧ doc.lines = [3] ∧
      ((fromXmlTree petEnv false 9 "Dog" doc).1 matches .verr ⟨_, [{ line := some 3, .. }]⟩) := by
  refine ⟨⟨⟨3, rfl⟩, trivial⟩, rfl, rfl⟩

end Ex

namespace Ex

/-- A class with a required element `name` and a sub-model that has a field `name` too. -/
def collideEnv : Env :=
  { env with
    model := fun cls => if cls = "Outer" then some {
        name := "Outer", elementName := "outer", body := .fields [
          { name := "name", ser := .elem "title" none .ordered false false },
          { name := "pet", ser := .proxy { cls := "Dog", name := "pet", mode := .ordered } }] } else model .strict cls
    validate := fun cls d => match cls, d with
      | "Outer", .dict d => check "Outer" [("name", true), ("pet", false)] d
      | _, d => validate cls d }

end Ex

/-- Locations are not unique: a sub-model's field of the same name overwrites the line of a field of the outer class.  Here
the element of the field `name` is missing from the element on line 1; the error says line 3, which is the line of an
unrelated element inside the sub-model. -/
theorem C16_counterexample :
    (fromXmlTree Ex.collideEnv false 9 "Outer" (Ex.el "outer" none [
      Ex.el "pet" none [Ex.el "name" (some "Rex") [] [] (some 3)] [("kind", "dog")] (some 2)] [] (some 1))).1 =
    .verr ⟨"Outer", [⟨"missing", "Field required", [.name "name"],
      .dict [("pet", .model "Dog" [("kind", .str "dog"), ("name", .str "Rex")] ["kind", "name"])], some 3⟩]⟩ := by
  kernel_rfl

namespace Ex

/-- A validation that rejects every mail of a person, and missing names. -/
def pickyEnv : Env :=
  { env .ordered with validate := fun cls d => match cls, d with
      | "Person", .dict d => .error ⟨"Person", [⟨"missing", "Field required", [.name "name"], .dict d, none⟩,
          ⟨"value_error", "no mail", [.name "mails", .idx 1], .none, none⟩,
          ⟨"value_error", "no home", [.name "home"], .none, none⟩]⟩
      | _, d => validate cls d }

/-- Errors of a missing field, of the second item of a list, and of a sub-model that was found on line 8. -/
example : (fromXmlTree pickyEnv false 9 "Person" (el "person" none [
      el "mail" (some "a@x") [] [] (some 4), el "mail" (some "b@x") [] [] (some 5), el "home" none [] [("zip", "1")] (some 8)]
      [("id", "7")] (some 2))).1 =
    .verr ⟨"Person", [
      ⟨"missing", "Field required", [.name "name"],
        .dict [("id", .str "7"), ("mails", .list [.str "a@x", .str "b@x"]),
          ("home", .model "Address" [("zip", .str "1"), ("street", .none)] ["zip"])], some 2⟩,
      ⟨"value_error", "no mail", [.name "mails", .idx 1], .none, some 5⟩,
      ⟨"value_error", "no home", [.name "home"], .none, some 8⟩]⟩ := by kernel_rfl

/-- The side conditions of the theorems hold of the person class: its only sub-model is `Address`, which has no sub-models
and no field called `name`, `mails` or `home`. -/
example : (∀ cls m, cls = "Address" → pickyEnv.model cls = some m → m.Everywhere (Ser.In (· = "Address"))) ∧
    (∀ g ∈ personFields, g.ser.Everywhere (Ser.In (· = "Address"))) ∧ (personFields.map Field.name).Nodup ∧
    ¬ pickyEnv.FieldOf (· = "Address") "name" ∧ ¬ pickyEnv.FieldOf (· = "Address") "mails" ∧
    ¬ pickyEnv.FieldOf (· = "Address") "home" := by
  have hf : ∀ name, pickyEnv.FieldOf (· = "Address") name → name = "zip" ∨ name = "street" := by
    rintro name ⟨cls, m, fs, f, rfl, hm, hb, hf, rfl⟩
    cases hm
    cases hb
    simp at hf
    rcases hf with rfl | rfl <;> simp
  refine ⟨?_, ?_, by decide, fun h => ?_, fun h => ?_, fun h => ?_⟩
  · rintro cls m rfl hm
    cases hm
    simp [ModelSer.Everywhere, address, Ser.In]
  · simp [personFields, person, Ser.In]
  · have := hf _ h; simp at this
  · have := hf _ h; simp at this
  · have := hf _ h; simp at this

/-- A class with a wrapped field, a wrapped tuple and a wrapped union of numbers and strings, read in order. -/
def route : ModelSer where
  name := "Route"
  elementName := "route"
  body := .fields [
    { name := "label", ser := .wrap ["info", "meta"] none .ordered false (.elem "label" none .ordered false false) },
    { name := "toll", ser := .wrap ["info"] none .ordered false (.primUnion false (.attr "toll" false)) },
    { name := "ends", ser := .wrap ["ends"] none .ordered false
        (.hetero "ends" false [.elem "from" none .ordered false false, .elem "to" none .ordered false false]) }]

/-- A validation that rejects the label, the toll and both ends of a route. -/
def routeEnv : Env :=
  { env .ordered with
    model := fun cls => if cls = "Route" then some route else none
    validate := fun _ _ => .error ⟨"Route", [⟨"e", "m", [.name "label"], .none, none⟩, ⟨"e", "m", [.name "ends", .idx 0], .none, none⟩,
      ⟨"e", "m", [.name "ends", .idx 1], .none, none⟩, ⟨"e", "m", [.name "toll", .name "int"], .none, none⟩]⟩ }

/-- The label was found on line 4, the first end on line 7; the second end is missing, the element that should enclose it is
on line 6; the toll is an attribute of the element on line 2. -/
example : (fromXmlTree routeEnv false 9 "Route" (el "route" none [
      el "info" none [el "meta" none [el "label" (some "L") [] [] (some 4)] [] (some 3)] [("toll", "x")] (some 2),
      el "ends" none [el "from" (some "A") [] [] (some 7)] [] (some 6)] [] (some 1))).1 =
    .verr ⟨"Route", [⟨"e", "m", [.name "label"], .none, some 4⟩, ⟨"e", "m", [.name "ends", .idx 0], .none, some 7⟩,
      ⟨"e", "m", [.name "ends", .idx 1], .none, some 6⟩, ⟨"e", "m", [.name "toll", .name "int"], .none, some 2⟩]⟩ := by kernel_rfl

/-- A validation that rejects both pets of an owner. -/
def strayEnv : Env :=
  { env with validate := fun cls d => match cls with
      | "Owner" => .error ⟨"Owner", [⟨"e", "m", [.name "pet"], .none, none⟩, ⟨"e", "m", [.name "any"], .none, none⟩]⟩
      | _ => validate cls d }

/-- A discriminated union and a plain one: the pets are on lines 2 and 4. -/
example : (fromXmlTree strayEnv false 9 "Owner" (el "owner" none [
      el "pet" none [el "lives" (some "9") [] [] (some 3)] [("kind", "cat")] (some 2),
      el "pet" none [el "lives" (some "7") [] [] (some 5)] [("kind", "cat")] (some 4)] [] (some 1))).1 =
    .verr ⟨"Owner", [⟨"e", "m", [.name "pet"], .none, some 2⟩, ⟨"e", "m", [.name "any"], .none, some 4⟩]⟩ := by kernel_rfl

/-- The side conditions hold of the owner: the alternatives `Dog` and `Cat` have no sub-models and no field called `pet` or
`any`. -/
example : (∀ cls m, cls = "Dog" ∨ cls = "Cat" → strayEnv.model cls = some m → m.Everywhere (Ser.In fun c => c = "Dog" ∨ c = "Cat")) ∧
    ¬ strayEnv.FieldOf (fun c => c = "Dog" ∨ c = "Cat") "pet" ∧ ¬ strayEnv.FieldOf (fun c => c = "Dog" ∨ c = "Cat") "any" := by
  have hf : ∀ name, strayEnv.FieldOf (fun c => c = "Dog" ∨ c = "Cat") name → name = "kind" ∨ name = "name" ∨ name = "lives" := by
    rintro name ⟨cls, m, fs, f, rfl | rfl, hm, hb, hf, rfl⟩ <;> cases hm <;> cases hb <;> simp at hf <;>
      rcases hf with rfl | rfl <;> simp
  refine ⟨?_, fun h => ?_, fun h => ?_⟩
  · rintro cls m (rfl | rfl) hm <;> cases hm <;> simp [ModelSer.Everywhere, dog, cat, Ser.In]
  · have := hf _ h; simp at this
  · have := hf _ h; simp at this

end Ex
end PXml
