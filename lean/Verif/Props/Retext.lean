import Verif.Lemmas.Retext
import Verif.Lemmas.RetextCompile
import Verif.Props.RootField

/-!
# C103: texts have no meaning of their own

Specification: `SpecRetext.lean`.
-/

namespace PXml

open Elem

namespace Retext

variable {φ : String → String}

/-- The second value is the first with the texts replaced. -/
abbrev Ren (φ : String → String) (a b : Val) : Prop := b = a.retexted φ

theorem isNone_retexted (v : Val) : (v.retexted φ).isNone = v.isNone := by cases v <;> simp [Val.retexted, Val.isNone]

theorem items_length : ∀ d : List (String × Val), (Val.retextedItems φ d).length = d.length
  | [] => rfl
  | (k, v) :: d => by simp [Val.retextedItems, items_length d]

theorem str_len (hφ : Retexting φ) (s : String) : ((φ s).length = 0) ↔ s.length = 0 := by
  have h : ∀ t : String, t.length = 0 ↔ t = "" := fun t => by rw [String.length_eq_zero_iff]
  rw [h, h, empty_iff hφ]

/-- The values have lengths alike, or differ in lengths that are not zero. -/
theorem len_retexted (hφ : Retexting φ) (v : Val) : (v.retexted φ).len? = v.len? ∨ ∃ i j, (v.retexted φ).len? = some (i + 1) ∧ v.len? = some (j + 1) := by
  cases v with
  | str s =>
    simp only [Val.retexted, Val.len?]
    cases h : s.length with
    | zero => exact .inl (by rw [(str_len hφ s).2 h])
    | succ j =>
      cases h' : (φ s).length with
      | zero => rw [(str_len hφ s).1 h'] at h; cases h
      | succ i => exact .inr ⟨i, j, rfl, rfl⟩
  | raw node => left; cases node <;> simp [Val.retexted, Node.retexted, Val.len?, nodes_eq]
  | _ => left; simp [Val.retexted, Val.len?, all_eq, items_length]

theorem get_retexted (k : String) : ∀ d : List (String × Val),
    Dict.get? (Val.retextedItems φ d) k = (Dict.get? d k).map (Val.retexted φ)
  | [] => rfl
  | (k', v) :: d => by
    simp only [Val.retextedItems, Dict.get?]
    split
    · rfl
    · exact get_retexted k d

theorem set_retexted (k : String) (v : Val) : ∀ d : List (String × Val),
    Val.retextedItems φ (Dict.set d k v) = Dict.set (Val.retextedItems φ d) k (v.retexted φ)
  | [] => by simp [Dict.set, Val.retextedItems]
  | (k', v') :: d => by
    simp only [Val.retextedItems, Dict.set]
    split
    · rfl
    · simp only [Val.retextedItems, set_retexted k v d]

theorem update_retexted : ∀ (kvs d : List (String × Val)), Val.retextedItems φ (Dict.update d kvs) = Dict.update (Val.retextedItems φ d) (Val.retextedItems φ kvs)
  | [], d => rfl
  | (k, v) :: kvs, d => by
    simp only [Dict.update, List.foldl_cons, Val.retextedItems]
    have := update_retexted kvs (Dict.set d k v)
    simp only [Dict.update] at this
    rw [this, set_retexted]

theorem items_eq : ∀ d : List (String × Val), Val.retextedItems φ d = d.map fun kv => (kv.1, kv.2.retexted φ)
  | [] => rfl
  | (k, v) :: d => by simp only [Val.retextedItems, items_eq d, List.map_cons]

theorem attrs_retexted (a : AttrsSer) (d : Dict String String) :
    Val.retextedItems φ (Dict.ofItems (d.map fun kv => (if a.namespaced then (QName.fromUri kv.1).tag else kv.1, Val.str kv.2))) =
      Dict.ofItems ((Dict.retexted φ d).map fun kv => (if a.namespaced then (QName.fromUri kv.1).tag else kv.1, Val.str kv.2)) := by
  have := update_retexted (φ := φ) (d.map fun kv => (if a.namespaced then (QName.fromUri kv.1).tag else kv.1, Val.str kv.2)) []
  rw [items_eq (List.map _ _), List.map_map] at this
  simp only [Dict.ofItems, Dict.retexted, List.map_map]
  exact this

/-! ## Reading -/

/-- The values found so far are the same up to the replacement, and there are errors in both or in none. -/
def Found (φ : String → String) (a b : List Val × Dict ErrKey VErr) : Prop := b.1 = a.1.map (Val.retexted φ) ∧ a.2.isEmpty = b.2.isEmpty

/-- The same for the fields. -/
def FoundFields (φ : String → String) (a b : Dict String Val × Dict ErrKey VErr) : Prop :=
  b.1 = Val.retextedItems φ a.1 ∧ a.2.isEmpty = b.2.isEmpty

theorem renamed_none : Val.retexted φ .none = .none := rfl

/-- The runs give the same up to the replacement, and differ at most in what is reported. -/
def SameAs {α : Type} (φ : String → String) (R : α → α → Prop) (r r' : Out α × St) : Prop := r.1.SameKind R r'.1 ∧ r'.2.el = r.2.el.retexted φ

/-- The second function reads from the element with the texts replaced what the first reads from the element. -/
def ReadAs {α : Type} (φ : String → String) (R : α → α → Prop) (f g : St → Out α × St) : Prop :=
  ∀ st st', st'.el = st.el.retexted φ → SameAs φ R (f st) (g st')

theorem onChild_retext {α : Type} {R : α → α → Prop} {f g : St → Out α × St} (h : ReadAs φ R f g) {st st' : St} (he : st'.el = st.el.retexted φ) (i : Nat) :
    SameAs φ R (onChild st i f) (onChild st' i g) := by
  unfold onChild
  rw [he, r_elements, List.getElem?_map]
  cases st.el.elements[i]? with
  | none => exact ⟨rfl, he⟩
  | some c =>
    obtain ⟨h1, h2⟩ := h ⟨c, st.sm⟩ ⟨c.retexted φ, st'.sm⟩ rfl
    simp only [Option.map_some]
    exact ⟨h1, by simp only [h2, setChild_r]⟩

theorem popChild_retext (hφ : Retexting φ) {f g : St → Out Val × St} (h : ReadAs φ (Ren φ) f g) (u : String) (m : Mode) : ReadAs φ (Ren φ) (fun st =>
    match st.el.popElement u m with
    | (none, el) => (.ok .none, { st with el := el })
    | (some i, el) => onChild { st with el := el } i f) (fun st =>
    match st.el.popElement u m with
    | (none, el) => (.ok .none, { st with el := el })
    | (some i, el) => onChild { st with el := el } i g) := by
  intro st st' he
  simp only [Elem.popElement]
  rw [he, search_r hφ]
  cases st.el.search u m true with
  | mk o e' =>
    cases o with
    | none => exact ⟨rfl, rfl⟩
    | some i => exact onChild_retext (st := ⟨e', st.sm⟩) (st' := ⟨e'.retexted φ, st'.sm⟩) h rfl i

theorem deserText_retext (hφ : Retexting φ) (eas c nl : Bool) : ReadAs φ (Ren φ) (deserText eas c nl) (deserText eas c nl) := by
  intro st st' he
  obtain ⟨e, sm⟩ := st
  obtain ⟨e', sm'⟩ := st'
  simp only at he
  subst he
  have ht : ∀ t : Option String, Ren φ (textVal eas t) (textVal eas (t.map φ)) := by
    intro t
    cases t with
    | none => cases eas <;> simp [textVal, Ren, Val.retexted, hφ.empty]
    | some t =>
      simp only [Ren, Option.map_some, textVal, empty_iff hφ]
      split
      · cases eas <;> simp [Val.retexted, hφ.empty]
      · rfl
  unfold deserText
  split
  · exact ⟨rfl, rfl⟩
  · cases nl with
    | false => 
      simp only [Bool.false_eq_true, if_false, popText_r]
      exact ⟨ht _, rfl⟩
    | true =>
      simp only [if_true, isNil_r hφ]
      cases e.isNil with
      | mk b e1 =>
        cases b with
        | true => exact ⟨rfl, rfl⟩
        | false => exact ⟨by simp only [popText_r]; exact ht _, by simp only [popText_r]⟩

theorem deserAttrs_retext (a : AttrsSer) : ReadAs φ (Ren φ) (deserAttrs a) (deserAttrs a) := by
  intro st st' he
  obtain ⟨e, sm⟩ := st
  obtain ⟨e', sm'⟩ := st'
  simp only at he
  subst he
  unfold deserAttrs
  split
  · exact ⟨rfl, rfl⟩
  · simp only [popAttributes_r]
    cases e.popAttributes with
    | mk o e1 =>
      cases o with
      | none => exact ⟨rfl, rfl⟩
      | some d =>
        refine ⟨?_, rfl⟩
        simp only [Option.map_some, Out.SameKind, Ren, Val.retexted, attrs_retexted]

theorem descend_retext (hφ : Retexting φ) {f g : St → Out Val × St} (h : ReadAs φ (Ren φ) f g) (m : Mode) (path : List String) :
    ReadAs φ (Ren φ) (descend m f path) (descend m g path) := by
  induction path with
  | nil => exact h
  | cons u us ih =>
    intro st st' he
    simp only [List.map_cons, descend, he, findElement_r hφ]
    cases st.el.findElement u m with
    | error x => exact ⟨rfl, he⟩
    | ok r =>
      obtain ⟨o, e1⟩ := r
      cases o with
      | none => exact ⟨rfl, rfl⟩
      | some i => exact onChild_retext (st := ⟨e1, st.sm⟩) (st' := ⟨e1.retexted φ, st'.sm⟩) ih rfl i

theorem homogLoop_retext {f g : Loc → St → Out Val × St} (h : ∀ l l', ReadAs φ (Ren φ) (f l) (g l')) (loc loc' : Loc) (n idx : Nat)
    (acc : List Val) (errs errs' : Dict ErrKey VErr) (hE : errs.isEmpty = errs'.isEmpty) :
    ReadAs φ (Found φ) (homogLoop f loc n idx acc errs) (homogLoop g loc' n idx (acc.map (Val.retexted φ)) errs') := by
  induction n generalizing idx acc errs errs' with
  | zero => exact fun st st' he => ⟨trivial, he⟩
  | succ n ih =>
    intro st st' he
    unfold homogLoop
    obtain ⟨h1, h2⟩ := h (loc ++ [.idx idx]) (loc' ++ [.idx idx]) st st' he
    cases hf : f (loc ++ [.idx idx]) st with
    | mk o s1 =>
      cases hg : g (loc' ++ [.idx idx]) st' with
      | mk o' s2 =>
        rw [hf, hg] at h1 h2
        cases o <;> cases o' <;> simp only [Out.SameKind] at h1
        · subst h1
          simp only [isNone_retexted]
          split
          · exact ⟨⟨rfl, hE⟩, h2⟩
          · rename_i v _
            have := ih (idx + 1) (acc ++ [v]) _ _ hE _ _ h2
            simpa only [List.map_append, List.map_cons, List.map_nil] using this
        · exact ih _ _ _ _ (by cases errs <;> cases errs' <;> rfl) _ _ h2
        · exact ⟨h1, h2⟩
        · exact ⟨trivial, h2⟩

theorem heteroLoop_retext {f g : Ser → Loc → St → Out Val × St} (h : ∀ s l l', ReadAs φ (Ren φ) (f s l) (g (s.retexted φ) l')) (loc loc' : Loc)
    (ss : List Ser) (idx : Nat) (acc : List Val) (errs errs' : Dict ErrKey VErr) (hE : errs.isEmpty = errs'.isEmpty) :
    ReadAs φ (Found φ) (heteroLoop f loc ss idx acc errs) (heteroLoop g loc' (ss.map (Ser.retexted φ)) idx (acc.map (Val.retexted φ)) errs') := by
  induction ss generalizing idx acc errs errs' with
  | nil => exact fun st st' he => ⟨⟨rfl, hE⟩, he⟩
  | cons s ss ih =>
    intro st st' he
    simp only [List.map_cons]
    unfold heteroLoop
    obtain ⟨h1, h2⟩ := h s (loc ++ [.idx idx]) (loc' ++ [.idx idx]) st st' he
    cases hf : f s (loc ++ [.idx idx]) st with
    | mk o s1 =>
      cases hg : g (s.retexted φ) (loc' ++ [.idx idx]) st' with
      | mk o' s2 =>
        rw [hf, hg] at h1 h2
        cases o <;> cases o' <;> simp only [Out.SameKind] at h1
        · subst h1
          rename_i v
          have := ih (idx + 1) (acc ++ [v]) _ _ hE _ _ h2
          simpa only [List.map_append, List.map_cons, List.map_nil] using this
        · exact ih _ _ _ _ (by cases errs <;> cases errs' <;> rfl) _ _ h2
        · exact ⟨h1, h2⟩
        · exact ⟨trivial, h2⟩

theorem unionLoop_retext {f g : Proxy → St → Out Val × St} (h : ∀ p, ReadAs φ (Ren φ) (f p) (g p)) (title title' : Title)
    (ps : List Proxy) (errs errs' : Dict ErrKey VErr) (hE : errs.isEmpty = errs'.isEmpty) :
    ReadAs φ (Ren φ) (unionLoop f title ps errs) (unionLoop g title' ps errs') := by
  induction ps generalizing errs errs' with
  | nil =>
    intro st st' he
    unfold unionLoop
    rw [hE, he]
    split
    · exact ⟨rfl, he⟩
    · exact ⟨trivial, stepForward_r _⟩
  | cons p ps ih =>
    intro st st' he
    unfold unionLoop
    obtain ⟨h1, h2⟩ := h p ⟨st.el.createSnapshot, st.sm⟩ ⟨st'.el.createSnapshot, st'.sm⟩ he
    cases hf : f p ⟨st.el.createSnapshot, st.sm⟩ with
    | mk o s1 =>
      cases hg : g p ⟨st'.el.createSnapshot, st'.sm⟩ with
      | mk o' s2 =>
        rw [hf, hg] at h1 h2
        cases o <;> cases o' <;> simp only [Out.SameKind] at h1
        · subst h1
          simp only [isNone_retexted]
          split
          · exact ih _ _ hE _ _ he
          · exact ⟨rfl, by simp only at h2; simp only [h2, he, applySnapshot_r]⟩
        · exact ih _ _ (by rw [isEmpty_set, isEmpty_set]) _ _ he
        · exact ⟨h1, he⟩
        · exact ⟨trivial, he⟩

theorem taggedLoop_retext (hφ : Retexting φ) {f g : Proxy → St → Out Val × St} (h : ∀ p, ReadAs φ (Ren φ) (f p) (g p)) (loc loc' : Loc)
    (a : String) (m : Mode) (alts : List (String × Proxy)) :
    ReadAs φ (Ren φ) (taggedLoop f loc a m alts) (taggedLoop g loc' a m (alts.map fun kp => (φ kp.1, kp.2))) := by
  induction alts with
  | nil => exact fun st st' he => ⟨rfl, he⟩
  | cons p alts ih =>
    obtain ⟨tag, p⟩ := p
    intro st st' he
    simp only [List.map_cons]
    unfold taggedLoop
    have hn : p.name = p.name := rfl
    rw [hn, he, search_r hφ]
    cases st.el.search p.name m false with
    | mk o e' =>
      cases o with
      | none => exact ih _ _ rfl
      | some i =>
        simp only [r_elements, List.getElem?_map]
        cases e'.elements[i]? with
        | none => exact ⟨rfl, rfl⟩
        | some c =>
          have ha : ((c.retexted φ).getAttrib a = some (φ tag)) ↔ c.getAttrib a = some tag := by
            simp only [Elem.getAttrib, r_attrib, getD_d, get_d]
            cases Dict.get? (c.attrib.getD []) a with
            | none => simp
            | some x => simp only [Option.map_some, Option.some.injEq, tag_iff hφ]
          simp only [Option.map_some, ha]
          by_cases hc : c.getAttrib a = some tag
          · rw [if_pos hc, if_pos hc]
            exact h p ⟨e', _⟩ ⟨e'.retexted φ, _⟩ rfl
          · rw [if_neg hc, if_neg hc]
            exact ih ⟨e', _⟩ ⟨e'.retexted φ, _⟩ rfl

theorem deserFields_retext {f g : Ser → Loc → St → Out Val × St} (h : ∀ s l l', ReadAs φ (Ren φ) (f s l) (g (s.retexted φ) l')) {fs fs' : List Field}
    (hfs : Fields.Retexts φ fs fs') (res : Dict String Val) (errs errs' : Dict ErrKey VErr) (hE : errs.isEmpty = errs'.isEmpty) :
    ReadAs φ (FoundFields φ) (deserFields f fs res errs) (deserFields g fs' (Val.retextedItems φ res) errs') := by
  induction hfs generalizing res errs errs' with
  | nil => exact fun st st' he => ⟨⟨rfl, hE⟩, he⟩
  | @cons fd fd' fs fs' hfd _ ih =>
    intro st st' he
    unfold deserFields
    have key : ∀ (r r' : Out Val × St), SameAs φ (Ren φ) r r' → SameAs φ (FoundFields φ)
        (match r with
          | (.ok v, st') => deserFields f fs (if v.isNone then res else res.set (fd.alias.getD fd.name) v) errs st'
          | (.verr e, st') => deserFields f fs res (errs.set (some (.name fd.name)) e) st'
          | (.crash e, st') => (.crash e, st')
          | (.diverge, st') => (.diverge, st'))
        (match r' with
          | (.ok v, st') =>
            deserFields g fs' (if v.isNone then Val.retextedItems φ res else Dict.set (Val.retextedItems φ res) (fd'.alias.getD fd'.name) v) errs' st'
          | (.verr e, st') => deserFields g fs' (Val.retextedItems φ res) (errs'.set (some (.name fd'.name)) e) st'
          | (.crash e, st') => (.crash e, st')
          | (.diverge, st') => (.diverge, st')) := by
      rintro ⟨o, s1⟩ ⟨o', s2⟩ ⟨h1, h2⟩
      cases o <;> cases o' <;> simp only [Out.SameKind] at h1
      · subst h1
        rename_i v
        have := ih (if v.isNone then res else res.set (fd.alias.getD fd.name) v) _ _ hE _ _ h2
        simp only [isNone_retexted, hfd.alias, hfd.name]
        split <;> rename_i hv
        · simpa only [hv, if_true] using this
        · simpa only [hv, if_false, Bool.false_eq_true, set_retexted] using this
      · exact ih _ _ _ (by rw [isEmpty_set, isEmpty_set]) _ _ h2
      · exact ⟨h1, h2⟩
      · exact ⟨trivial, h2⟩
    refine key _ _ ?_
    rcases hfd.validator with ⟨h1, h2⟩ | ⟨v, v', h1, h2, hv⟩
    · simp only [h1, h2, hfd.ser]
      exact h _ _ _ _ _ he
    · simp only [h1, h2, he]
      obtain ⟨h3, h4⟩ := hv st.el
      refine ⟨?_, h4⟩
      revert h3
      generalize (v st.el).1 = o
      generalize (v' (st.el.retexted φ)).1 = o'
      intro h3
      cases o <;> cases o' <;> simp_all [SameRetexted, Out.SameKind]

theorem validate_retext (hφ : Retexting φ) {env env' : Env} {cls : String} {m m' : ModelSer} {d d' : Val} (hx : m'.extraForbid = m.extraForbid)
    (hv : RetextedValidation φ (env.validate cls d) (env'.validate cls d')) (st st' : St) (he : st'.el = st.el.retexted φ) :
    (validateModel env cls m d st).SameKind (Ren φ) (validateModel env' cls m' d' st') := by
  unfold validateModel
  rw [he, hx]
  have key : ∀ x y : Option VErr, x.isSome = y.isSome → Out.SameKind (α := Val) (Ren φ)
      (match x with
        | some e => .verr e
        | none => match env.validate cls d with
          | .ok (fs, set) => .ok (.model cls fs set)
          | .error e => .verr (setSourceline m.hideInput st.sm e))
      (match y with
        | some e => .verr e
        | none => match env'.validate cls d' with
          | .ok (fs, set) => .ok (.model cls fs set)
          | .error e => .verr (setSourceline m'.hideInput st'.sm e)) := by
    intro x y hxy
    cases x with
    | some e => cases y with
      | some e' => trivial
      | none => cases hxy
    | none => cases y with
      | some e' => cases hxy
      | none =>
        simp only
        generalize env.validate cls d = a at hv
        generalize env'.validate cls d' = b at hv
        cases hv with
        | valid fs set => simp only [Out.SameKind, Ren, Val.retexted]
        | invalid e e' => trivial
  refine key _ _ ?_
  split
  · exact (checkExtra_isSome hφ _ _ _).symm
  · rfl

theorem model_retext {env env' : Env} (hr : env.Retexts φ env') {cls : String} {m m' : ModelSer} (hm : m.Retexts φ m')
    {f g : Ser → Loc → St → Out Val × St} (h : ∀ s l l', ReadAs φ (Ren φ) (f s l) (g (s.retexted φ) l')) (loc loc' : Loc) :
    ReadAs φ (Ren φ) (deserModel env f cls m loc) (deserModel env' g cls m' loc') := by
  intro st st' he
  have hb := hm.body
  unfold deserModel
  generalize m.body = b at hb
  generalize m'.body = b' at hb
  cases hb with
  | @fields fs fs' hfs =>
    simp only
    obtain ⟨h1, h2⟩ := deserFields_retext h hfs [] [] [] rfl st st' he
    simp only [Val.retextedItems] at h1 h2
    cases hf : deserFields f fs [] [] st with
    | mk o s1 =>
      cases hg : deserFields g fs' [] [] st' with
      | mk o' s2 =>
        rw [hf, hg] at h1 h2
        cases o <;> cases o' <;> simp only [Out.SameKind, FoundFields] at h1
        · obtain ⟨h3, h4⟩ := h1
          rename_i a b
          obtain ⟨res, errs⟩ := a
          obtain ⟨res', errs'⟩ := b
          simp only at h3 h4
          subst h3
          simp only [h4]
          split
          · exact ⟨validate_retext hr.texts hm.extraForbid (hr.validate cls (.dict res)) _ _ h2, h2⟩
          · exact ⟨trivial, h2⟩
        · exact ⟨trivial, h2⟩
        · exact ⟨h1, h2⟩
        · exact ⟨trivial, h2⟩
  | root s =>
    simp only
    obtain ⟨h1, h2⟩ := h s loc loc' st st' he
    cases hf : f s loc st with
    | mk o s1 =>
      cases hg : g (s.retexted φ) loc' st' with
      | mk o' s2 =>
        rw [hf, hg] at h1 h2
        cases o <;> cases o' <;> simp only [Out.SameKind] at h1
        · subst h1
          rename_i v
          refine ⟨validate_retext hr.texts hm.extraForbid ?_ _ _ h2, h2⟩
          rw [isNone_retexted]
          split
          · exact hr.validate cls .undef
          · exact hr.validate cls v
        · exact ⟨trivial, h2⟩
        · exact ⟨h1, h2⟩
        · exact ⟨trivial, h2⟩

theorem deser_retext {env env' : Env} (hr : env.Retexts φ env') (eas : Bool) (n : Nat) (s : Ser) (loc loc' : Loc) :
    ReadAs φ (Ren φ) (deser env eas n s loc) (deser env' eas n (s.retexted φ) loc') := by
  induction n generalizing s loc loc' with
  | zero => exact fun st st' he => ⟨trivial, he⟩
  | succ n ih =>
    intro st st' he
    change SameAs φ (Ren φ) (deserStep env eas (deser env eas n) n s loc st) (deserStep env' eas (deser env' eas n) n (s.retexted φ) loc' st')
    cases s with
    | text c nl => simp only [Ser.retexted]; exact deserText_retext hr.texts eas c nl st st' he
    | attr nm c =>
      simp only [Ser.retexted, deserStep]
      split
      · exact ⟨rfl, he⟩
      · rw [he, popAttrib_r]
        cases st.el.popAttrib nm with
        | mk o e1 => cases o <;> exact ⟨rfl, rfl⟩
    | elem nm ns m c nl =>
      simp only [Ser.retexted, deserStep]
      split
      · exact ⟨rfl, he⟩
      · exact popChild_retext hr.texts (f := fun k => deserText eas c nl { k with sm := k.sm.set loc k.el.line })
          (g := fun k => deserText eas c nl { k with sm := k.sm.set loc' k.el.line }) (fun s1 s2 h => deserText_retext hr.texts eas c nl _ _ h) nm m st st' he
    | attrs a => simp only [Ser.retexted]; exact deserAttrs_retext a st st' he
    | mapElem a nm m =>
      simp only [Ser.retexted, deserStep]
      split
      · exact ⟨rfl, he⟩
      · exact popChild_retext hr.texts (f := fun k => deserAttrs a { k with sm := k.sm.set loc k.el.line })
          (g := fun k => deserAttrs a { k with sm := k.sm.set loc' k.el.line }) (fun s1 s2 h => deserAttrs_retext a _ _ h) nm m st st' he
    | raw nm m c =>
      simp only [Ser.retexted, deserStep]
      split
      · exact ⟨rfl, he⟩
      · rw [he, hr.backend, popElementRemove_r hr.texts]
        cases st.el.popElementRemove nm m with
        | mk o e1 =>
          cases o with
          | none => exact ⟨rfl, rfl⟩
          | some c1 => exact ⟨by simp only [Option.map_some, Out.SameKind, Ren, Val.retexted, toNative_r], rfl⟩
    | proxy p =>
      simp only [Ser.retexted, deserStep]
      rcases hr.classes p.cls with ⟨h1, h2⟩ | ⟨m, m', h1, h2, hm⟩
      · rw [h1, h2]
        exact ⟨rfl, he⟩
      · rw [h1, h2]
        simp only
        split
        · exact ⟨rfl, he⟩
        · refine popChild_retext hr.texts (f := _) (g := _) ?_ p.name p.mode st st' he
          intro s1 s2 h
          simp only [h, isNil_r hr.texts]
          cases s1.el.isNil with
          | mk b e1 =>
            cases b with
            | true => exact ⟨rfl, rfl⟩
            | false => exact model_retext hr hm (fun s l l' => ih s l l') loc loc' _ _ rfl
    | primUnion c s =>
      simp only [Ser.retexted, deserStep]
      split
      · exact ⟨rfl, he⟩
      · exact ih s loc loc' st st' he
    | modelUnion title c alts =>
      simp only [Ser.retexted, deserStep]
      split
      · exact ⟨rfl, he⟩
      · exact unionLoop_retext (fun p => by simpa only [Ser.retexted] using ih (.proxy p) loc loc') title _ alts [] [] rfl st st' he
    | tagged c d a m alts =>
      simp only [Ser.retexted, deserStep]
      split
      · exact ⟨rfl, he⟩
      · exact taggedLoop_retext hr.texts (fun p => by simpa only [Ser.retexted] using ih (.proxy p) loc loc') loc loc' a m alts st st' he
    | wrap path ns m c s =>
      simp only [Ser.retexted, deserStep]
      split
      · exact ⟨rfl, he⟩
      · exact descend_retext hr.texts (f := fun k => deser env eas n s loc { k with sm := k.sm.set loc k.el.line })
          (g := fun k => deser env' eas n (s.retexted φ) loc' { k with sm := k.sm.set loc' k.el.line }) (fun s1 s2 h => ih s loc loc' _ _ h) m path st st' he
    | homog title c s =>
      simp only [Ser.retexted, deserStep]
      split
      · exact ⟨rfl, he⟩
      · obtain ⟨h1, h2⟩ := homogLoop_retext (f := fun l st => deser env eas n s l st) (g := fun l st => deser env' eas n (s.retexted φ) l st)
          (fun l l' => ih s l l') loc loc' n 0 [] [] [] rfl st st' he
        simp only [List.map_nil] at h1 h2
        cases hf : homogLoop (fun l st => deser env eas n s l st) loc n 0 [] [] st with
        | mk o s1 =>
          cases hg : homogLoop (fun l st => deser env' eas n (s.retexted φ) l st) loc' n 0 [] [] st' with
          | mk o' s2 =>
            rw [hf, hg] at h1 h2
            cases o <;> cases o' <;> simp only [Out.SameKind, Found] at h1
            · obtain ⟨h3, h4⟩ := h1
              refine ⟨?_, h2⟩
              simp only [homogFinish, h3, h4, List.isEmpty_map]
              (repeat' split) <;> first | rfl | trivial | simp only [Out.SameKind, Ren, Val.retexted, all_eq]
            · exact ⟨trivial, h2⟩
            · exact ⟨h1, h2⟩
            · exact ⟨trivial, h2⟩
    | hetero title c ss =>
      simp only [Ser.retexted, deserStep, serAll_eq]
      split
      · exact ⟨rfl, he⟩
      · obtain ⟨h1, h2⟩ := heteroLoop_retext (f := deser env eas n) (g := deser env' eas n) (fun s l l' => ih s l l') loc loc' ss 0 [] [] [] rfl
          st st' he
        simp only [List.map_nil] at h1 h2
        cases hf : heteroLoop (deser env eas n) loc ss 0 [] [] st with
        | mk o s1 =>
          cases hg : heteroLoop (deser env' eas n) loc' (ss.map (Ser.retexted φ)) 0 [] [] st' with
          | mk o' s2 =>
            rw [hf, hg] at h1 h2
            cases o <;> cases o' <;> simp only [Out.SameKind, Found] at h1
            · obtain ⟨h3, h4⟩ := h1
              refine ⟨?_, h2⟩
              simp only [heteroFinish, h3, h4, List.all_map, Function.comp_def, isNone_retexted]
              (repeat' split) <;> first | rfl | trivial | simp only [Out.SameKind, Ren, Val.retexted, all_eq]
            · exact ⟨trivial, h2⟩
            · exact ⟨h1, h2⟩
            · exact ⟨trivial, h2⟩

/-! ## Writing -/

theorem bind_retext {x y : Out Elem} {k l : Elem → Out Elem} (h : y = x.retexted φ) (hk : ∀ e, l (e.retexted φ) = (k e).retexted φ) :
    y.bind l = (x.bind k).retexted φ := by
  subst h
  cases x with
  | ok e => exact hk e
  | _ => rfl

theorem items_retext {f g : Elem → Val → Val → Out Elem} (h : ∀ e v x, g (e.retexted φ) (v.retexted φ) (x.retexted φ) = (f e v x).retexted φ) (fl : Flags) :
    ∀ (vs encs : List Val) (el : Elem), serItems g fl (vs.map (Val.retexted φ)) (encs.map (Val.retexted φ)) (el.retexted φ) = (serItems f fl vs encs el).retexted φ
  | [], _, _ => by simp only [List.map_nil, serItems, Out.retexted]
  | v :: vs, [], _ => by simp only [List.map_cons, List.map_nil, serItems, Out.retexted]
  | v :: vs, x :: encs, el => by
    simp only [List.map_cons, serItems, isNone_retexted]
    split
    · exact items_retext h fl vs encs el
    · exact bind_retext (h el v x) fun e => items_retext h fl vs encs e

theorem tuple_retext {f g : Ser → Elem → Val → Val → Out Elem}
    (h : ∀ s e v x, g (s.retexted φ) (e.retexted φ) (v.retexted φ) (x.retexted φ) = (f s e v x).retexted φ) :
    ∀ (ss : List Ser) (vs encs : List Val) (el : Elem),
      serTuple g (ss.map (Ser.retexted φ)) (vs.map (Val.retexted φ)) (encs.map (Val.retexted φ)) (el.retexted φ) = (serTuple f ss vs encs el).retexted φ
  | [], _, _, _ => by simp only [List.map_nil, serTuple, Out.retexted]
  | s :: ss, [], _, _ => by simp only [List.map_cons, List.map_nil, serTuple, Out.retexted]
  | s :: ss, v :: vs, [], _ => by simp only [List.map_cons, List.map_nil, serTuple, Out.retexted]
  | s :: ss, v :: vs, x :: encs, el => by
    simp only [List.map_cons, serTuple]
    exact bind_retext (h s el v x) fun e => tuple_retext h ss vs encs e

theorem getAttr_retext (fields : List (String × Val)) (name : String) {k l : Val → Out Elem} (h : ∀ v, l (v.retexted φ) = (k v).retexted φ) :
    (getAttr (Val.retextedItems φ fields) name).bind l = ((getAttr fields name).bind k).retexted φ := by
  unfold getAttr
  rw [get_retexted]
  cases Dict.get? fields name with
  | none => rfl
  | some v => exact h v

theorem getItem_retext (enc : Val) (name : String) {k l : Val → Out Elem} (h : ∀ v, l (v.retexted φ) = (k v).retexted φ) :
    (getItem (enc.retexted φ) name).bind l = ((getItem enc name).bind k).retexted φ := by
  cases enc with
  | dict d =>
    simp only [Val.retexted, getItem, get_retexted]
    cases Dict.get? d name with
    | none => rfl
    | some v => exact h v
  | _ => rfl

theorem outFields_retext {f g : Ser → Elem → Val → Val → Out Elem}
    (h : ∀ s e v x, g (s.retexted φ) (e.retexted φ) (v.retexted φ) (x.retexted φ) = (f s e v x).retexted φ) (fl : Flags)
    (self : Val) (fields : List (String × Val)) (set : List String) (enc : Val) {fs fs' : List Field} (hfs : Fields.Retexts φ fs fs') (el : Elem) :
    serFields g fl (self.retexted φ) (Val.retextedItems φ fields) set (enc.retexted φ) fs' (el.retexted φ) =
      (serFields f fl self fields set enc fs el).retexted φ := by
  induction hfs generalizing el with
  | nil => rfl
  | @cons fd fd' fs fs' hfd _ ih =>
    simp only [serFields, hfd.exclude, hfd.name]
    split
    · exact ih el
    · split
      · exact ih el
      · refine bind_retext ?_ fun e => ih e
        rcases hfd.serializer with ⟨h1, h2⟩ | ⟨k, k', h1, h2, hk⟩
        · simp only [h1, h2, hfd.ser]
          exact getAttr_retext _ _ fun v => getItem_retext _ _ fun x => h _ _ _ _
        · simp only [h1, h2]
          exact getAttr_retext _ _ fun v => hk _ _ _

theorem outModel_retext {f g : Flags → Ser → Elem → Val → Val → Out Elem}
    (h : ∀ fl s e v x, g fl (s.retexted φ) (e.retexted φ) (v.retexted φ) (x.retexted φ) = (f fl s e v x).retexted φ)
    {m m' : ModelSer} (hm : m.Retexts φ m') (fl : Flags) (el : Elem) (v enc : Val) :
    serModel g m' fl (el.retexted φ) (v.retexted φ) (enc.retexted φ) = (serModel f m fl el v enc).retexted φ := by
  have hb := hm.body
  cases v with
  | model cls fields set =>
    simp only [Val.retexted, serModel, hm.skipEmpty]
    generalize m.body = b at hb
    generalize m'.body = b' at hb
    cases hb with
    | fields hfs => exact outFields_retext (fun s e v x => h _ s e v x) _ (.model cls fields set) fields set enc hfs el
    | root s =>
      simp only
      split
      · rfl
      · exact getAttr_retext _ _ fun v => h _ _ _ _ _
  | _ => rfl

theorem get_alts (hφ : Retexting φ) (tag : String) : ∀ alts : List (String × Proxy), Dict.get? (alts.map fun kp => (φ kp.1, kp.2)) (φ tag) = Dict.get? alts tag
  | [] => rfl
  | (k, p) :: alts => by
    simp only [List.map_cons, Dict.get?, tag_iff hφ]
    split
    · rfl
    · exact get_alts hφ tag alts

section
variable {env env' : Env} (hr : env.Retexts φ env') (hk : KeepsForms φ)
include hr hk

theorem pyStr_retext (v : Val) : pyStr env' (v.retexted φ) = φ (pyStr env v) := by
  cases v with
  | none => simp only [Val.retexted, pyStr, hk.pyNone]
  | str s => simp only [Val.retexted, pyStr]
  | bool b => cases b <;> simp only [Val.retexted, pyStr, hk.pyTrue, hk.pyFalse]
  | int i => simp only [Val.retexted, pyStr, hk.int]
  | «opaque» r l => simp only [Val.retexted, pyStr]
  | list xs =>
    have := hr.reprOf (.list xs)
    simpa only [Val.retexted, pyStr] using this
  | dict d =>
    have := hr.reprOf (.dict d)
    simpa only [Val.retexted, pyStr] using this
  | model c f st =>
    have := hr.reprOf (.model c f st)
    simpa only [Val.retexted, pyStr] using this
  | raw n =>
    have := hr.reprOf (.raw n)
    simpa only [Val.retexted, pyStr] using this
  | undef =>
    have := hr.reprOf .undef
    simpa only [Val.retexted, pyStr] using this

theorem encode_retext (v : Val) : encodePrimitive env' (v.retexted φ) = φ (encodePrimitive env v) := by
  have h := pyStr_retext hr hk v
  cases v with
  | none => simp only [Val.retexted, encodePrimitive, hr.texts.empty]
  | bool b => cases b <;> simp only [Val.retexted, encodePrimitive, hr.texts.nil, hk.no]
  | _ =>
    simp only [Val.retexted] at h
    simpa only [Val.retexted, encodePrimitive] using h

omit hr hk in
theorem update_d : ∀ (kvs d : Dict String String), Dict.retexted φ (Dict.update d kvs) = Dict.update (Dict.retexted φ d) (Dict.retexted φ kvs)
  | [], _ => rfl
  | (k, v) :: kvs, d => by
    have := update_d kvs (Dict.set d k v)
    simp only [Dict.update] at this
    simp only [Dict.update, List.foldl_cons, this, set_d]
    rfl

theorem serAttrs_retext (a : AttrsSer) (el : Elem) (v enc : Val) :
    serAttrs env' a (el.retexted φ) (v.retexted φ) (enc.retexted φ) = (serAttrs env a el v enc).retexted φ := by
  unfold serAttrs
  simp only [isNone_retexted]
  split
  · rfl
  · cases enc with
    | dict d =>
      simp only [Val.retexted, Out.retexted]
      generalize (if (a.namespaced && truthy a.ns && truthyMap a.nsmap) = true then (a.nsmap.getD []).get? (a.ns.getD "") else none) = ns
      have h : (Val.retextedItems φ d).map (fun kv => (QName.uri ⟨kv.1, ns⟩, pyStr env' kv.2)) =
          Dict.retexted φ (d.map fun kv => (QName.uri ⟨kv.1, ns⟩, pyStr env kv.2)) := by
        rw [items_eq, Dict.retexted, List.map_map, List.map_map]
        exact List.map_congr_left fun kv _ => by simp only [Function.comp, pyStr_retext hr hk]
      rw [h]
      have h2 := update_d (φ := φ) (d.map fun kv => (QName.uri ⟨kv.1, ns⟩, pyStr env kv.2)) []
      have h3 : Dict.retexted φ (Dict.ofItems (d.map fun kv => (QName.uri ⟨kv.1, ns⟩, pyStr env kv.2))) =
          Dict.ofItems (Dict.retexted φ (d.map fun kv => (QName.uri ⟨kv.1, ns⟩, pyStr env kv.2))) := h2
      rw [← h3, setAttributes_r]
    | _ => rfl

theorem serText_retext (nl : Bool) (fl : Flags) (el : Elem) (v enc : Val) :
    serText env' nl fl (el.retexted φ) (v.retexted φ) (enc.retexted φ) = (serText env nl fl el v enc).retexted φ := by
  unfold serText
  simp only [isNone_retexted, encode_retext hr hk, makeNil_r hr.texts]
  split
  · rfl
  · split <;> exact setText_r _ _

omit hk in
theorem appendUnlessEmpty_retext (fl : Flags) (el sub : Elem) :
    appendUnlessEmpty fl (el.retexted φ) (sub.retexted φ) = (appendUnlessEmpty fl el sub).retexted φ := by
  unfold appendUnlessEmpty
  rw [isEmpty_r hr.texts]
  split
  · rfl
  · exact append_r _ _

omit hr hk in
theorem ascend_retext (hφ : Retexting φ) (b : Backend) (m : Mode) (nsmap : Option NsMap) {f g : Elem → Out Elem}
    (h : ∀ e, g (e.retexted φ) = (f e).retexted φ) : ∀ (path : List String) (el : Elem),
      ascend b m nsmap g path (el.retexted φ) = (ascend b m nsmap f path el).retexted φ
  | [], el => h el
  | t :: ts, el => by
    simp only [ascend, findElement_r hφ]
    cases el.findElement t m with
    | error x => rfl
    | ok r =>
      obtain ⟨o, e1⟩ := r
      cases o with
      | none =>
        simp only [Except.map]
        refine bind_retext ?_ fun e => congrArg Out.ok (append_r _ _)
        have := ascend_retext hφ b m nsmap h ts (makeElement b t nsmap)
        rwa [← makeElement_r] at this
      | some i =>
        simp only [Except.map, r_elements, List.getElem?_map]
        cases e1.elements[i]? with
        | none => rfl
        | some c => exact bind_retext (ascend_retext hφ b m nsmap h ts c) fun e => congrArg Out.ok (setChild_r _ _ _)

theorem ser_retext (n : Nat) (fl : Flags) (s : Ser) (el : Elem) (v enc : Val) :
    ser env' n fl (s.retexted φ) (el.retexted φ) (v.retexted φ) (enc.retexted φ) = (ser env n fl s el v enc).retexted φ := by
  induction n generalizing fl s el v enc with
  | zero => rfl
  | succ n ih =>
    change serStep env' (ser env' n) fl (s.retexted φ) (el.retexted φ) (v.retexted φ) (enc.retexted φ) = (serStep env (ser env n) fl s el v enc).retexted φ
    have hp : ∀ fl p el v enc, ser env' n fl (.proxy p) (el.retexted φ) (v.retexted φ) (enc.retexted φ) = (ser env n fl (.proxy p) el v enc).retexted φ := by
      intro fl p el v enc
      simpa only [Ser.retexted] using ih fl (.proxy p) el v enc
    cases s with
    | text c nl => exact congrArg Out.ok (serText_retext hr hk _ _ _ _ _)
    | attr k c =>
      simp only [Ser.retexted, serStep, isNone_retexted, encode_retext hr hk, setAttribute_r]
      split <;> rfl
    | elem nm ns mode c nl =>
      simp only [Ser.retexted, serStep, isNone_retexted, hr.backend]
      split
      · rfl
      · have h := serText_retext hr hk nl fl (makeElement env.backend nm ns) v enc
        rw [← makeElement_r] at h
        rw [h, appendUnlessEmpty_retext hr]
        rfl
    | attrs a => exact serAttrs_retext hr hk _ _ _ _
    | mapElem a nm mode =>
      have h := serAttrs_retext hr hk a (makeElement env.backend nm a.nsmap) v enc
      rw [← makeElement_r] at h
      simp only [Ser.retexted, serStep, hr.backend]
      split
      · rcases len_retexted hr.texts v with h1 | ⟨i, j, h1, h2⟩
        · rw [h1]
          split
          · rfl
          · rfl
          · exact bind_retext h fun e => congrArg Out.ok (appendUnlessEmpty_retext hr _ _ _)
        · rw [h1, h2]
          exact bind_retext h fun e => congrArg Out.ok (appendUnlessEmpty_retext hr _ _ _)
      · exact bind_retext h fun e => congrArg Out.ok (append_r _ _)
    | raw nm mode c =>
      simp only [Ser.retexted, serStep, hr.backend]
      cases v <;> first | rfl | skip
      simp only [Val.retexted, fromNative_r, appendUnlessEmpty_retext hr]
      rfl
    | primUnion c inner => exact ih fl inner el v enc
    | modelUnion t c alts =>
      cases v with
      | model cls fields set =>
        simp only [Ser.retexted, serStep, Val.retexted]
        cases hf : alts.find? (fun p => decide (p.cls = cls)) with
        | none => rfl
        | some p => exact hp fl p el (.model cls fields set) enc
      | _ => rfl
    | tagged c d a mode alts =>
      simp only [Ser.retexted, serStep]
      cases enc with
      | dict e =>
        simp only [Val.retexted, get_retexted]
        cases Dict.get? e d with
        | none => rfl
        | some x =>
          cases x with
          | str tag =>
            simp only [Option.map_some, Val.retexted, empty_iff hr.texts, get_alts hr.texts]
            split
            · rfl
            · cases Dict.get? alts tag with
              | none => rfl
              | some p => exact hp fl p el v (.dict e)
          | _ => rfl
      | _ => rfl
    | wrap path ns mode c inner =>
      have hl : ((v.retexted φ).len? = some 0) ↔ v.len? = some 0 := by
        rcases len_retexted hr.texts v with h1 | ⟨i, j, h1, h2⟩
        · rw [h1]
        · rw [h1, h2]
          simp
      simp only [Ser.retexted, serStep, isNone_retexted, hl, hr.backend]
      split
      · rfl
      · split
        · rfl
        · exact ascend_retext hr.texts _ _ _ (fun e => ih fl inner e v enc) path el
    | homog title c inner =>
      cases v with
      | list vs =>
        simp only [Ser.retexted, serStep, Val.retexted, Val.isNone, all_eq]
        cases enc with
        | list encs =>
          simp only [Val.retexted, all_eq]
          exact items_retext (f := ser env n fl inner) (g := ser env' n fl (inner.retexted φ)) (fun e v x => ih fl inner e v x) fl vs encs el
        | _ => rfl
      | _ => rfl
    | hetero title c inners =>
      cases v with
      | list vs =>
        simp only [Ser.retexted, serStep, Val.retexted, Val.isNone, all_eq, serAll_eq]
        cases enc with
        | list encs =>
          simp only [Val.retexted, all_eq, List.isEmpty_map, List.length_map, Bool.false_eq_true, if_false]
          split
          · rfl
          · split
            · rfl
            · exact tuple_retext (f := ser env n fl) (g := ser env' n fl) (fun s e v x => ih fl s e v x) inners vs encs el
        | _ => rfl
      | _ => rfl
    | proxy p =>
      simp only [Ser.retexted, serStep]
      rcases hr.classes p.cls with ⟨h1, h2⟩ | ⟨m, m', h1, h2, hm⟩
      · rw [h1, h2]
        rfl
      · rw [h1, h2]
        have h3 := outModel_retext (fun fl s e v x => ih fl s e v x) hm fl (makeElement env.backend p.name p.nsmap) v enc
        have h4 := append_r (φ := φ) el (makeElement env.backend p.name p.nsmap).makeNil
        rw [← makeNil_r hr.texts, ← makeElement_r] at h4
        rw [← makeElement_r] at h3
        simp only [isNone_retexted, hr.backend]
        split
        · rfl
        · split
          · exact congrArg Out.ok h4
          · split
            · rfl
            · exact bind_retext h3 fun e => congrArg Out.ok (appendUnlessEmpty_retext hr _ _ _)

end

end Retext

/-- C103: if texts are replaced by others in a document, and discriminator values in the declarations alike, it is read to the same instance with the texts
replaced, or is a validation error in both cases, or raises the same other exception. -/
theorem C103_reading (φ : String → String) (env env' : Env) (hr : env.Retexts φ env') (eas : Bool) (n : Nat) (cls : String) (doc : Node) :
    SameRetexted φ (fromXmlTree env eas n cls doc).1 (fromXmlTree env' eas n cls (doc.retexted φ)).1 := by
  have key : (fromXmlTree env eas n cls doc).1.SameKind (Retext.Ren φ) (fromXmlTree env' eas n cls (doc.retexted φ)).1 := by
    unfold fromXmlTree
    rw [hr.backend, Retext.fromNative_r, Retext.rootTag]
    rcases hr.classes cls with ⟨h1, h2⟩ | ⟨m, m', h1, h2, hm⟩
    · rw [h1, h2]
      exact rfl
    · rw [h1, h2]
      simp only [hm.elementName]
      split
      · exact (Retext.model_retext hr hm (fun s l l' => Retext.deser_retext hr eas n s l l') [] [] _ _ rfl).1
      · exact rfl
  revert key
  generalize (fromXmlTree env eas n cls doc).1 = o
  generalize (fromXmlTree env' eas n cls (doc.retexted φ)).1 = o'
  intro key
  cases o <;> cases o' <;> simp_all [Out.SameKind, SameRetexted]

/-- C103: if strings are replaced by others in an instance it is written to the document with the texts replaced, or with the same exception. -/
theorem C103_writing (φ : String → String) (env env' : Env) (hr : env.Retexts φ env') (hk : KeepsForms φ) (n : Nat) (fl : Flags) (cls : String) (v : Val) :
    toXmlTree env' n fl cls (v.retexted φ) = (toXmlTree env n fl cls v).retextedDoc φ := by
  unfold toXmlTree
  rcases hr.classes cls with ⟨h1, h2⟩ | ⟨m, m', h1, h2, hm⟩
  · rw [h1, h2]
    rfl
  · rw [h1, h2]
    simp only [hm.elementName, hm.nsmap, hr.toJsonable, hr.backend]
    have h := Retext.outModel_retext (fun fl s e v x => Retext.ser_retext hr hk n fl s e v x) hm fl { tag := m.elementName, nsmap := m.nsmap } v (env.toJsonable v)
    rw [Retext.elem_eq] at h
    simp only [List.map_nil, Option.map_none] at h
    rw [h]
    generalize serModel (ser env n) m fl _ v _ = o
    cases o with
    | ok e => exact congrArg Out.ok (Retext.toNative_r _ e)
    | _ => rfl

/-- C103: a program with other discriminator values defines the same classes, whatever the order of the class statements and of the calls of
`model_rebuild`: the same ones are complete, and they have the same serializers but for those values. -/
theorem C103_definitions (φ : String → String) (hinj : ∀ a b, φ a = φ b → a = b) (classes classes' : Classes) (hc : classes.Retexts φ classes')
    (k : Nat) (es : List Event) (cls : String) :
    (history classes k es .empty cls = none ∧ history classes' k es .empty cls = none) ∨
    ∃ m m', history classes k es .empty cls = some m ∧ history classes' k es .empty cls = some m' ∧ m.Retexts φ m' :=
  RetextCompile.history_rt hc hinj k es (fun _ => .inl ⟨rfl, rfl⟩) cls

/-- C103: a class statement, or a `model_rebuild`, that fails in the one program fails with the same exception in the other. -/
theorem C103_rejected (φ : String → String) (hinj : ∀ a b, φ a = φ b → a = b) (classes classes' : Classes) (hc : classes.Retexts φ classes')
    (k : Nat) (es : List Event) (e : Event) (err : DefErr) : e.run classes k (history classes k es .empty) = .error err ↔
      e.run classes' k (history classes' k es .empty) = .error err := by
  have h := RetextCompile.run_rt hc hinj (RetextCompile.history_rt hc hinj k es (built := .empty) (built' := .empty) fun _ => .inl ⟨rfl, rfl⟩) k e
  revert h
  generalize e.run classes k (history classes k es .empty) = x
  generalize e.run classes' k _ = y
  intro h
  cases x <;> cases y <;> simp only [RetextCompile.Both] at h
  · rw [h]
  · exact ⟨nofun, nofun⟩

/-- C103: after two such programs every document is read alike and every instance is written alike up to the replacement, if instances are validated and
encoded alike. -/
theorem C103_program (φ : String → String) (hφ : Retexting φ) (hk : KeepsForms φ) (classes classes' : Classes) (hc : classes.Retexts φ classes')
    (k : Nat) (es : List Event) (env env' : Env) (h1 : env.model = history classes k es .empty)
    (h2 : env'.model = history classes' k es .empty) (hb : env'.backend = env.backend)
    (hv : ∀ cls d, RetextedValidation φ (env.validate cls d) (env'.validate cls (d.retexted φ)))
    (hj : ∀ v, env'.toJsonable (v.retexted φ) = (env.toJsonable v).retexted φ) (ho : ∀ v, env'.reprOf (v.retexted φ) = φ (env.reprOf v))
    (n : Nat) (cls : String) :
    (∀ eas doc, SameRetexted φ (fromXmlTree env eas n cls doc).1 (fromXmlTree env' eas n cls (doc.retexted φ)).1) ∧
    (∀ fl v, toXmlTree env' n fl cls (v.retexted φ) = (toXmlTree env n fl cls v).retextedDoc φ) := by
  have hr : env.Retexts φ env' :=
    { texts := hφ
      backend := hb
      classes := fun c => by rw [h1, h2]; exact C103_definitions φ hφ.injective classes classes' hc k es c
      validate := hv
      toJsonable := hj
      reprOf := ho }
  exact ⟨fun eas doc => C103_reading φ env env' hr eas n cls doc, fun fl v => C103_writing φ env env' hr hk n fl cls v⟩

namespace Ex

/-- What was `bit` is `null`, and the other way round. -/
def nulled (t : String) : String := if t = "bit" then "null" else if t = "null" then "bit" else t

theorem nulled_retexting : Retexting nulled where
  injective a b := by
    unfold nulled
    repeat' split
    all_goals intros; simp_all
  empty := by decide
  nil := by decide
  blank s := by
    have h1 : strip "bit" ≠ "" := by decide
    have h2 : strip "null" ≠ "" := by decide
    unfold nulled
    repeat' split
    all_goals simp_all

theorem number_plain (i : Int) : 'b' ∉ i.repr.toList ∧ 'u' ∉ i.repr.toList := by
  have hn : ∀ (n : Nat) (c : Char), c.isDigit = false → c ∉ n.repr.toList := by
    intro n c hc h
    rw [Nat.repr, String.toList_ofList] at h
    have := Nat.isDigit_of_mem_toDigits (by decide) (by decide) h
    simp_all
  rw [Int.repr_eq_if]
  split
  · exact ⟨hn _ _ (by decide), hn _ _ (by decide)⟩
  · rw [String.toList_append, List.mem_append, List.mem_append, not_or, not_or]
    exact ⟨⟨by decide, hn _ _ (by decide)⟩, ⟨by decide, hn _ _ (by decide)⟩⟩

theorem nulled_keeps : KeepsForms nulled where
  no := by decide
  pyTrue := by decide
  pyFalse := by decide
  pyNone := by decide
  int i := by
    have h := number_plain i
    have h1 : toString i ≠ "bit" := fun e => absurd (show 'b' ∈ (toString i).toList by rw [e]; decide) h.1
    have h2 : toString i ≠ "null" := fun e => absurd (show 'u' ∈ (toString i).toList by rw [e]; decide) h.2
    simp only [nulled, h1, h2, if_false]

mutual
theorem json_retexted (φ : String → String) : ∀ v, json (v.retexted φ) = (json v).retexted φ
  | .model c [] s => by simp [Val.retexted, Val.retextedItems, json, jsonItems]
  | .model c [(k, v)] s => by
    have h := json_retexted φ v
    by_cases hk : k = "root"
    · subst hk
      simpa [Val.retexted, Val.retextedItems, json] using h
    · simp [Val.retexted, Val.retextedItems, json, jsonItems, hk, h]
  | .model c ((k, v) :: (l, w) :: r) s => by
    have h := json_retexted φ v
    have h' := json_retexted φ w
    have h'' := jsonItems_retexted φ r
    simp [Val.retexted, Val.retextedItems, json, jsonItems, h, h', h'']
  | .list vs => by simp [Val.retexted, json, jsonList_retexted φ vs]
  | .dict d => by simp [Val.retexted, json, jsonItems_retexted φ d]
  | .none | .str _ | .bool _ | .int _ | .opaque _ _ | .raw _ | .undef => by simp [Val.retexted, json]
theorem jsonList_retexted (φ : String → String) : ∀ vs, jsonList (Val.retextedAll φ vs) = Val.retextedAll φ (jsonList vs)
  | [] => rfl
  | v :: vs => by simp [Val.retextedAll, jsonList, json_retexted φ v, jsonList_retexted φ vs]
theorem jsonItems_retexted (φ : String → String) : ∀ d, jsonItems (Val.retextedItems φ d) = Val.retextedItems φ (jsonItems d)
  | [] => rfl
  | (k, v) :: d => by simp [Val.retextedItems, jsonItems, json_retexted φ v, jsonItems_retexted φ d]
end

/-- `class Bit(BaseXmlModel, tag='part'): kind: Literal['bit'] = attr(); text: str`, and `Girth` likewise. -/
def bridlePart (cls : String) : ModelSer where
  name := cls
  elementName := "part"
  body := .fields [{ name := "kind", ser := .attr "kind" false }, { name := "text", ser := .text false false }]

/-- `class Bridle(BaseXmlModel, tag='bridle'): part: Bit | Girth = element(tag='part', discriminator='kind')`, where `Bit` has the given kind. -/
def bridle (bit : String) : ModelSer where
  name := "Bridle"
  elementName := "bridle"
  body := .fields [{ name := "part", ser := (.tagged false "kind" "kind" .strict
    [(bit, { cls := "Bit", name := "part", nsmap := some [], mode := .strict, computed := false, nillable := false }),
     ("girth", { cls := "Girth", name := "part", nsmap := some [], mode := .strict, computed := false, nillable := false })]) }]

/-- Both fields are required. -/
def needsBoth : Val → Except VErr (List (String × Val) × List String)
  | .dict d => match Dict.get? d "kind", Dict.get? d "text" with
    | some k, some t => .ok ([("kind", k), ("text", t)], ["kind", "text"])
    | _, _ => .error ⟨"Part", []⟩
  | _ => .error ⟨"Part", []⟩

/-- The program before and after. -/
def bridleEnv (bit : String) : Env where
  backend := .lxml
  model := fun c => if c = "Bridle" then some (bridle bit) else if c = "Bit" ∨ c = "Girth" then some (bridlePart c) else none
  validate := fun c d => if c = "Bridle" then needs "part" d else needsBoth d
  toJsonable := json
  reprOf := fun _ => ""

theorem bridle_retexts : (bridleEnv "bit").Retexts nulled (bridleEnv "null") where
  texts := nulled_retexting
  backend := rfl
  classes cls := by
    by_cases h1 : cls = "Bridle"
    · subst h1
      exact .inr ⟨_, _, rfl, rfl, ⟨rfl, rfl, .fields (.cons ⟨rfl, rfl, rfl, rfl, .inl ⟨rfl, rfl⟩, .inl ⟨rfl, rfl⟩⟩ .nil), rfl, rfl⟩⟩
    · by_cases h2 : cls = "Bit" ∨ cls = "Girth"
      · exact .inr ⟨bridlePart cls, bridlePart cls, by simp [bridleEnv, h1, h2], by simp [bridleEnv, h1, h2], ⟨rfl, rfl,
          .fields (.cons ⟨rfl, rfl, rfl, rfl, .inl ⟨rfl, rfl⟩, .inl ⟨rfl, rfl⟩⟩
            (.cons ⟨rfl, rfl, rfl, rfl, .inl ⟨rfl, rfl⟩, .inl ⟨rfl, rfl⟩⟩ .nil)), rfl, rfl⟩⟩
      · exact .inl ⟨by simp [bridleEnv, h1, h2], by simp [bridleEnv, h1, h2]⟩
  validate cls d := by
    by_cases h1 : cls = "Bridle"
    · subst h1
      show RetextedValidation nulled (needs "part" d) (needs "part" (d.retexted nulled))
      cases d <;> try exact .invalid _ _
      rename_i d
      simp only [Val.retexted, needs, Retext.get_retexted]
      cases Dict.get? d "part" with
      | none => exact .invalid _ _
      | some v => cases v <;> first | exact .valid [("part", _)] _ | exact .invalid _ _
    · simp only [bridleEnv, h1, if_false]
      cases d <;> try exact .invalid _ _
      rename_i d
      simp only [Val.retexted, needsBoth, Retext.get_retexted]
      cases Dict.get? d "kind" with
      | none => exact .invalid _ _
      | some k =>
        cases Dict.get? d "text" with
        | none => exact .invalid _ _
        | some t => exact .valid [("kind", _), ("text", _)] _
  toJsonable := json_retexted nulled
  reprOf _ := nulled_retexting.empty.symm

/-- `<bridle><part kind="…">…</part></bridle>`. -/
def bridleDoc (kind text : String) : Node := el "bridle" none [el "part" (some text) [] [("kind", kind)]] []

example : (bridleDoc "bit" "null").retexted nulled = bridleDoc "null" "bit" := by kernel_rfl

def bridleVal (kind text : String) : Val :=
  .model "Bridle" [("part", .model "Bit" [("kind", .str kind), ("text", .str text)] ["kind", "text"])] ["part"]

example : (bridleVal "bit" "null").retexted nulled = bridleVal "null" "bit" := by kernel_rfl

/-- Each document is read with its program to its instance, which is written to it. -/
example : (fromXmlTree (bridleEnv "bit") false 9 "Bridle" (bridleDoc "bit" "null")).1 = .ok (bridleVal "bit" "null") := by kernel_rfl

example : (fromXmlTree (bridleEnv "null") false 9 "Bridle" (bridleDoc "null" "bit")).1 = .ok (bridleVal "null" "bit") := by kernel_rfl

example : SameRetexted nulled (fromXmlTree (bridleEnv "bit") false 9 "Bridle" (bridleDoc "bit" "null")).1
    (fromXmlTree (bridleEnv "null") false 9 "Bridle" ((bridleDoc "bit" "null").retexted nulled)).1 :=
  C103_reading nulled _ _ bridle_retexts false 9 "Bridle" _

example : toXmlTree (bridleEnv "bit") 9 {} "Bridle" (bridleVal "bit" "null") = .ok (bridleDoc "bit" "null") := by kernel_rfl

example : toXmlTree (bridleEnv "null") 9 {} "Bridle" ((bridleVal "bit" "null").retexted nulled) =
    (toXmlTree (bridleEnv "bit") 9 {} "Bridle" (bridleVal "bit" "null")).retextedDoc nulled :=
  C103_writing nulled _ _ bridle_retexts nulled_keeps 9 {} "Bridle" _

/-- The definitions of these classes. -/
def bridlePartDef (cls : String) : ClassDef where
  name := cls
  params := { tag := some "part" }
  schema := .model cls false
  body := .fields [{ name := "kind", schema := .prim "literal", infos := [.mk (some .attribute) none none none none none] }, { name := "text", schema := .prim "str" }] []

def bridleDef (bit : String) : ClassDef where
  name := "Bridle"
  params := { tag := some "bridle" }
  schema := .model "Bridle" false
  body := .fields [{ name := "part",
                     schema := .tagged (some "kind") [(some bit, .model "Bit" false), (some "girth", .model "Girth" false)],
                     infos := [.mk (some .element) (some "part") none none none none] }] []

def bridleDefs (bit : String) : Classes := fun c =>
  if c = "Bridle" then some (bridleDef bit) else if c = "Bit" ∨ c = "Girth" then some (bridlePartDef c) else none

theorem bridle_defs : (bridleDefs "bit").Retexts nulled (bridleDefs "null") := by
  intro cls
  by_cases h1 : cls = "Bridle"
  · subst h1
    exact .inr ⟨_, _, rfl, rfl, rfl, rfl, rfl, rfl, rfl, rfl, rfl, fun _ => .inl ⟨rfl, rfl⟩, fun _ => .inl ⟨rfl, rfl⟩⟩
  · by_cases h2 : cls = "Bit" ∨ cls = "Girth"
    · exact .inr ⟨bridlePartDef cls, bridlePartDef cls, by simp [bridleDefs, h1, h2], by simp [bridleDefs, h1, h2],
        rfl, rfl, rfl, rfl, rfl, rfl, rfl, fun _ => .inl ⟨rfl, rfl⟩, fun _ => .inl ⟨rfl, rfl⟩⟩
    · exact .inl ⟨by simp [bridleDefs, h1, h2], by simp [bridleDefs, h1, h2]⟩

/-- They give the serializers above, in both programs. -/
example : (history (bridleDefs "bit") 9 [.statement "Bit" true, .statement "Girth" true, .statement "Bridle" true] .empty "Bridle").map ModelSer.body =
    some (bridle "bit").body := by
  kernel_rfl

example : (history (bridleDefs "null") 9 [.statement "Bit" true, .statement "Girth" true, .statement "Bridle" true] .empty "Bridle").map ModelSer.body =
    some (bridle "null").body := by
  kernel_rfl

/-- Values that become equal make a difference: of two choices with the same value only one remains. -/
example : (history (bridleDefs "girth") 9 [.statement "Bit" true, .statement "Girth" true, .statement "Bridle" true] .empty "Bridle").map ModelSer.body ≠
    some (bridle "girth").body := by
  have h : (history (bridleDefs "girth") 9 [.statement "Bit" true, .statement "Girth" true, .statement "Bridle" true] .empty "Bridle").map ModelSer.body =
    some (.fields [{ name := "part", ser := (.tagged false "kind" "kind" .strict
      [("girth", { cls := "Girth", name := "part", nsmap := some [], mode := .strict, computed := false, nillable := false })]) }]) := by
    kernel_rfl
  rw [h]
  intro h2
  simp [bridle] at h2

end Ex

end PXml
