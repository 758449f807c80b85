import Verif.Lemmas.Retag
import Verif.Props.RootField

/-!
# C101: the names of elements have no meaning of their own

Specification: `SpecRetag.lean`.
-/

namespace PXml

open Elem

namespace Retag

variable {σ : String → String}

/-- The second value is the first with native elements renamed. -/
abbrev Ren (σ : String → String) (a b : Val) : Prop := b = a.retagged σ

theorem isNone_retagged (v : Val) : (v.retagged σ).isNone = v.isNone := by cases v <;> simp [Val.retagged, Val.isNone]

theorem items_length : ∀ d : List (String × Val), (Val.retaggedItems σ d).length = d.length
  | [] => rfl
  | (k, v) :: d => by simp [Val.retaggedItems, items_length d]

theorem len_retagged (v : Val) : (v.retagged σ).len? = v.len? := by
  cases v with
  | raw node => cases node <;> simp [Val.retagged, Node.retagged, Val.len?, nodes_eq]
  | _ => simp [Val.retagged, Val.len?, all_eq, items_length]

theorem get_retagged (k : String) : ∀ d : List (String × Val),
    Dict.get? (Val.retaggedItems σ d) k = (Dict.get? d k).map (Val.retagged σ)
  | [] => rfl
  | (k', v) :: d => by
    simp only [Val.retaggedItems, Dict.get?]
    split
    · rfl
    · exact get_retagged k d

theorem set_retagged (k : String) (v : Val) : ∀ d : List (String × Val),
    Val.retaggedItems σ (Dict.set d k v) = Dict.set (Val.retaggedItems σ d) k (v.retagged σ)
  | [] => by simp [Dict.set, Val.retaggedItems]
  | (k', v') :: d => by
    simp only [Val.retaggedItems, Dict.set]
    split
    · rfl
    · simp only [Val.retaggedItems, set_retagged k v d]

/-- All values are strings. -/
def Strs (d : List (String × Val)) : Prop := ∀ kv ∈ d, ∃ s, kv.2 = .str s

theorem strs_retagged : ∀ d : List (String × Val), Strs d → Val.retaggedItems σ d = d
  | [], _ => rfl
  | (k, v) :: d, h => by
    obtain ⟨s, hs⟩ := h (k, v) List.mem_cons_self
    simp only at hs
    subst hs
    simp only [Val.retaggedItems, Val.retagged, strs_retagged d fun kv hk => h kv (List.mem_cons_of_mem _ hk)]

theorem strs_set {d : List (String × Val)} (h : Strs d) (k : String) (s : String) : Strs (Dict.set d k (.str s)) := by
  induction d with
  | nil =>
    intro kv hk
    simp only [Dict.set, List.mem_singleton] at hk
    subst hk
    exact ⟨s, rfl⟩
  | cons x d ih =>
    obtain ⟨k', v'⟩ := x
    have h' : Strs d := fun kv hk => h kv (List.mem_cons_of_mem _ hk)
    simp only [Dict.set]
    split
    · intro kv hk
      rcases List.mem_cons.1 hk with rfl | hk
      · exact ⟨s, rfl⟩
      · exact h' kv hk
    · intro kv hk
      rcases List.mem_cons.1 hk with rfl | hk
      · exact h _ List.mem_cons_self
      · exact ih h' kv hk

theorem strs_update : ∀ (kvs d : List (String × Val)), Strs d → Strs kvs → Strs (Dict.update d kvs)
  | [], d, h, _ => h
  | (k, v) :: kvs, d, h, hk => by
    obtain ⟨s, hs⟩ := hk (k, v) List.mem_cons_self
    simp only at hs
    subst hs
    exact strs_update kvs _ (strs_set h k s) fun kv h' => hk kv (List.mem_cons_of_mem _ h')

theorem strs_attrs (a : AttrsSer) (d : Dict String String) :
    Strs (Dict.ofItems (d.map fun kv => (if a.namespaced then (QName.fromUri kv.1).tag else kv.1, Val.str kv.2))) := by
  refine strs_update _ [] (fun _ h => nomatch h) ?_
  intro kv hk
  obtain ⟨x, _, rfl⟩ := List.mem_map.1 hk
  exact ⟨_, rfl⟩

/-! ## Reading -/

/-- The values found so far are the same up to the renaming, and there are errors in both or in none. -/
def Found (σ : String → String) (a b : List Val × Dict ErrKey VErr) : Prop := b.1 = a.1.map (Val.retagged σ) ∧ a.2.isEmpty = b.2.isEmpty

/-- The same for the fields. -/
def FoundFields (σ : String → String) (a b : Dict String Val × Dict ErrKey VErr) : Prop :=
  b.1 = Val.retaggedItems σ a.1 ∧ a.2.isEmpty = b.2.isEmpty

theorem renamed_none : Val.retagged σ .none = .none := rfl

/-- The runs give the same up to the renaming, and differ at most in what is reported. -/
def SameAs {α : Type} (σ : String → String) (R : α → α → Prop) (r r' : Out α × St) : Prop := r.1.SameKind R r'.1 ∧ r'.2.el = r.2.el.retagged σ

/-- The second function reads from the renamed element what the first reads from the element. -/
def ReadAs {α : Type} (σ : String → String) (R : α → α → Prop) (f g : St → Out α × St) : Prop :=
  ∀ st st', st'.el = st.el.retagged σ → SameAs σ R (f st) (g st')

theorem onChild_retag {α : Type} {R : α → α → Prop} {f g : St → Out α × St} (h : ReadAs σ R f g) {st st' : St} (he : st'.el = st.el.retagged σ) (i : Nat) :
    SameAs σ R (onChild st i f) (onChild st' i g) := by
  unfold onChild
  rw [he, r_elements, List.getElem?_map]
  cases st.el.elements[i]? with
  | none => exact ⟨rfl, he⟩
  | some c =>
    obtain ⟨h1, h2⟩ := h ⟨c, st.sm⟩ ⟨c.retagged σ, st'.sm⟩ rfl
    simp only [Option.map_some]
    exact ⟨h1, by simp only [h2, setChild_r]⟩

theorem popChild_retag (hσ : Retagging σ) {f g : St → Out Val × St} (h : ReadAs σ (Ren σ) f g) (u : String) (m : Mode) : ReadAs σ (Ren σ) (fun st =>
    match st.el.popElement u m with
    | (none, el) => (.ok .none, { st with el := el })
    | (some i, el) => onChild { st with el := el } i f) (fun st =>
    match st.el.popElement (σ u) m with
    | (none, el) => (.ok .none, { st with el := el })
    | (some i, el) => onChild { st with el := el } i g) := by
  intro st st' he
  simp only [Elem.popElement]
  rw [he, search_r hσ]
  cases st.el.search u m true with
  | mk o e' =>
    cases o with
    | none => exact ⟨rfl, rfl⟩
    | some i => exact onChild_retag (st := ⟨e', st.sm⟩) (st' := ⟨e'.retagged σ, st'.sm⟩) h rfl i

theorem deserText_retag (eas c nl : Bool) : ReadAs σ (Ren σ) (deserText eas c nl) (deserText eas c nl) := by
  intro st st' he
  obtain ⟨e, sm⟩ := st
  obtain ⟨e', sm'⟩ := st'
  simp only at he
  subst he
  have ht : ∀ t, Ren σ (textVal eas t) (textVal eas t) := by
    intro t
    unfold textVal
    repeat' split
    all_goals rfl
  unfold deserText
  split
  · exact ⟨rfl, rfl⟩
  · cases nl with
    | false => 
      simp only [Bool.false_eq_true, if_false, popText_r]
      exact ⟨ht _, rfl⟩
    | true =>
      simp only [if_true, isNil_r]
      cases e.isNil with
      | mk b e1 =>
        cases b with
        | true => exact ⟨rfl, rfl⟩
        | false => exact ⟨by simp only [popText_r]; exact ht _, by simp only [popText_r]⟩

theorem deserAttrs_retag (a : AttrsSer) : ReadAs σ (Ren σ) (deserAttrs a) (deserAttrs a) := by
  intro st st' he
  obtain ⟨e, sm⟩ := st
  obtain ⟨e', sm'⟩ := st'
  simp only at he
  subst he
  unfold deserAttrs
  split
  · exact ⟨rfl, rfl⟩
  · simp only [popAttributes_r]
    cases e.popAttributes with
    | mk o e1 =>
      cases o with
      | none => exact ⟨rfl, rfl⟩
      | some d =>
        refine ⟨?_, rfl⟩
        simp only [Out.SameKind, Ren, Val.retagged, strs_retagged _ (strs_attrs a _)]

theorem descend_retag (hσ : Retagging σ) {f g : St → Out Val × St} (h : ReadAs σ (Ren σ) f g) (m : Mode) (path : List String) :
    ReadAs σ (Ren σ) (descend m f path) (descend m g (path.map σ)) := by
  induction path with
  | nil => exact h
  | cons u us ih =>
    intro st st' he
    simp only [List.map_cons, descend, he, findElement_r hσ]
    cases st.el.findElement u m with
    | error x => exact ⟨rfl, he⟩
    | ok r =>
      obtain ⟨o, e1⟩ := r
      cases o with
      | none => exact ⟨rfl, rfl⟩
      | some i => exact onChild_retag (st := ⟨e1, st.sm⟩) (st' := ⟨e1.retagged σ, st'.sm⟩) ih rfl i

theorem homogLoop_retag {f g : Loc → St → Out Val × St} (h : ∀ l l', ReadAs σ (Ren σ) (f l) (g l')) (loc loc' : Loc) (n idx : Nat)
    (acc : List Val) (errs errs' : Dict ErrKey VErr) (hE : errs.isEmpty = errs'.isEmpty) :
    ReadAs σ (Found σ) (homogLoop f loc n idx acc errs) (homogLoop g loc' n idx (acc.map (Val.retagged σ)) errs') := by
  induction n generalizing idx acc errs errs' with
  | zero => exact fun st st' he => ⟨trivial, he⟩
  | succ n ih =>
    intro st st' he
    unfold homogLoop
    obtain ⟨h1, h2⟩ := h (loc ++ [.idx idx]) (loc' ++ [.idx idx]) st st' he
    cases hf : f (loc ++ [.idx idx]) st with
    | mk o s1 =>
      cases hg : g (loc' ++ [.idx idx]) st' with
      | mk o' s2 =>
        rw [hf, hg] at h1 h2
        cases o <;> cases o' <;> simp only [Out.SameKind] at h1
        · subst h1
          simp only [isNone_retagged]
          split
          · exact ⟨⟨rfl, hE⟩, h2⟩
          · rename_i v _
            have := ih (idx + 1) (acc ++ [v]) _ _ hE _ _ h2
            simpa only [List.map_append, List.map_cons, List.map_nil] using this
        · exact ih _ _ _ _ (by cases errs <;> cases errs' <;> rfl) _ _ h2
        · exact ⟨h1, h2⟩
        · exact ⟨trivial, h2⟩

theorem heteroLoop_retag {f g : Ser → Loc → St → Out Val × St} (h : ∀ s l l', ReadAs σ (Ren σ) (f s l) (g (s.retagged σ) l')) (loc loc' : Loc)
    (ss : List Ser) (idx : Nat) (acc : List Val) (errs errs' : Dict ErrKey VErr) (hE : errs.isEmpty = errs'.isEmpty) :
    ReadAs σ (Found σ) (heteroLoop f loc ss idx acc errs) (heteroLoop g loc' (ss.map (Ser.retagged σ)) idx (acc.map (Val.retagged σ)) errs') := by
  induction ss generalizing idx acc errs errs' with
  | nil => exact fun st st' he => ⟨⟨rfl, hE⟩, he⟩
  | cons s ss ih =>
    intro st st' he
    simp only [List.map_cons]
    unfold heteroLoop
    obtain ⟨h1, h2⟩ := h s (loc ++ [.idx idx]) (loc' ++ [.idx idx]) st st' he
    cases hf : f s (loc ++ [.idx idx]) st with
    | mk o s1 =>
      cases hg : g (s.retagged σ) (loc' ++ [.idx idx]) st' with
      | mk o' s2 =>
        rw [hf, hg] at h1 h2
        cases o <;> cases o' <;> simp only [Out.SameKind] at h1
        · subst h1
          rename_i v
          have := ih (idx + 1) (acc ++ [v]) _ _ hE _ _ h2
          simpa only [List.map_append, List.map_cons, List.map_nil] using this
        · exact ih _ _ _ _ (by cases errs <;> cases errs' <;> rfl) _ _ h2
        · exact ⟨h1, h2⟩
        · exact ⟨trivial, h2⟩

theorem unionLoop_retag {f g : Proxy → St → Out Val × St} (h : ∀ p, ReadAs σ (Ren σ) (f p) (g (p.retagged σ))) (title title' : Title)
    (ps : List Proxy) (errs errs' : Dict ErrKey VErr) (hE : errs.isEmpty = errs'.isEmpty) :
    ReadAs σ (Ren σ) (unionLoop f title ps errs) (unionLoop g title' (ps.map (Proxy.retagged σ)) errs') := by
  induction ps generalizing errs errs' with
  | nil =>
    intro st st' he
    simp only [List.map_nil]
    unfold unionLoop
    rw [hE, he]
    split
    · exact ⟨rfl, he⟩
    · exact ⟨trivial, stepForward_r _⟩
  | cons p ps ih =>
    intro st st' he
    simp only [List.map_cons]
    unfold unionLoop
    obtain ⟨h1, h2⟩ := h p ⟨st.el.createSnapshot, st.sm⟩ ⟨st'.el.createSnapshot, st'.sm⟩ he
    cases hf : f p ⟨st.el.createSnapshot, st.sm⟩ with
    | mk o s1 =>
      cases hg : g (p.retagged σ) ⟨st'.el.createSnapshot, st'.sm⟩ with
      | mk o' s2 =>
        rw [hf, hg] at h1 h2
        cases o <;> cases o' <;> simp only [Out.SameKind] at h1
        · subst h1
          simp only [isNone_retagged]
          split
          · exact ih _ _ hE _ _ he
          · exact ⟨rfl, by simp only at h2; simp only [h2, he, applySnapshot_r]⟩
        · exact ih _ _ (by rw [isEmpty_set, isEmpty_set]) _ _ he
        · exact ⟨h1, he⟩
        · exact ⟨trivial, he⟩

theorem taggedLoop_retag (hσ : Retagging σ) {f g : Proxy → St → Out Val × St} (h : ∀ p, ReadAs σ (Ren σ) (f p) (g (p.retagged σ))) (loc loc' : Loc)
    (a : String) (m : Mode) (alts : List (String × Proxy)) :
    ReadAs σ (Ren σ) (taggedLoop f loc a m alts) (taggedLoop g loc' a m (alts.map fun kp => (kp.1, kp.2.retagged σ))) := by
  induction alts with
  | nil => exact fun st st' he => ⟨rfl, he⟩
  | cons p alts ih =>
    obtain ⟨tag, p⟩ := p
    intro st st' he
    simp only [List.map_cons]
    unfold taggedLoop
    have hn : (p.retagged σ).name = σ p.name := rfl
    rw [hn, he, search_r hσ]
    cases st.el.search p.name m false with
    | mk o e' =>
      cases o with
      | none => exact ih _ _ rfl
      | some i =>
        simp only [r_elements, List.getElem?_map]
        cases e'.elements[i]? with
        | none => exact ⟨rfl, rfl⟩
        | some c =>
          have ha : (c.retagged σ).getAttrib a = c.getAttrib a := by simp only [Elem.getAttrib, r_attrib]
          simp only [Option.map_some, ha]
          by_cases hc : c.getAttrib a = some tag
          · rw [if_pos hc, if_pos hc]
            exact h p ⟨e', _⟩ ⟨e'.retagged σ, _⟩ rfl
          · rw [if_neg hc, if_neg hc]
            exact ih ⟨e', _⟩ ⟨e'.retagged σ, _⟩ rfl

theorem deserFields_retag {f g : Ser → Loc → St → Out Val × St} (h : ∀ s l l', ReadAs σ (Ren σ) (f s l) (g (s.retagged σ) l')) {fs fs' : List Field}
    (hfs : Fields.Retags σ fs fs') (res : Dict String Val) (errs errs' : Dict ErrKey VErr) (hE : errs.isEmpty = errs'.isEmpty) :
    ReadAs σ (FoundFields σ) (deserFields f fs res errs) (deserFields g fs' (Val.retaggedItems σ res) errs') := by
  induction hfs generalizing res errs errs' with
  | nil => exact fun st st' he => ⟨⟨rfl, hE⟩, he⟩
  | @cons fd fd' fs fs' hfd _ ih =>
    intro st st' he
    unfold deserFields
    have key : ∀ (r r' : Out Val × St), SameAs σ (Ren σ) r r' → SameAs σ (FoundFields σ)
        (match r with
          | (.ok v, st') => deserFields f fs (if v.isNone then res else res.set (fd.alias.getD fd.name) v) errs st'
          | (.verr e, st') => deserFields f fs res (errs.set (some (.name fd.name)) e) st'
          | (.crash e, st') => (.crash e, st')
          | (.diverge, st') => (.diverge, st'))
        (match r' with
          | (.ok v, st') =>
            deserFields g fs' (if v.isNone then Val.retaggedItems σ res else Dict.set (Val.retaggedItems σ res) (fd'.alias.getD fd'.name) v) errs' st'
          | (.verr e, st') => deserFields g fs' (Val.retaggedItems σ res) (errs'.set (some (.name fd'.name)) e) st'
          | (.crash e, st') => (.crash e, st')
          | (.diverge, st') => (.diverge, st')) := by
      rintro ⟨o, s1⟩ ⟨o', s2⟩ ⟨h1, h2⟩
      cases o <;> cases o' <;> simp only [Out.SameKind] at h1
      · subst h1
        rename_i v
        have := ih (if v.isNone then res else res.set (fd.alias.getD fd.name) v) _ _ hE _ _ h2
        simp only [isNone_retagged, hfd.alias, hfd.name]
        split <;> rename_i hv
        · simpa only [hv, if_true] using this
        · simpa only [hv, if_false, Bool.false_eq_true, set_retagged] using this
      · exact ih _ _ _ (by rw [isEmpty_set, isEmpty_set]) _ _ h2
      · exact ⟨h1, h2⟩
      · exact ⟨trivial, h2⟩
    refine key _ _ ?_
    rcases hfd.validator with ⟨h1, h2⟩ | ⟨v, v', h1, h2, hv⟩
    · simp only [h1, h2, hfd.ser]
      exact h _ _ _ _ _ he
    · simp only [h1, h2, he]
      obtain ⟨h3, h4⟩ := hv st.el
      refine ⟨?_, h4⟩
      revert h3
      generalize (v st.el).1 = o
      generalize (v' (st.el.retagged σ)).1 = o'
      intro h3
      cases o <;> cases o' <;> simp_all [SameRetagged, Out.SameKind]

theorem validate_retag {env env' : Env} {cls : String} {m m' : ModelSer} {d d' : Val} (hx : m'.extraForbid = m.extraForbid)
    (hv : RetaggedValidation σ (env.validate cls d) (env'.validate cls d')) (st st' : St) (he : st'.el = st.el.retagged σ) :
    (validateModel env cls m d st).SameKind (Ren σ) (validateModel env' cls m' d' st') := by
  unfold validateModel
  rw [he, hx]
  have key : ∀ x y : Option VErr, x.isSome = y.isSome → Out.SameKind (α := Val) (Ren σ)
      (match x with
        | some e => .verr e
        | none => match env.validate cls d with
          | .ok (fs, set) => .ok (.model cls fs set)
          | .error e => .verr (setSourceline m.hideInput st.sm e))
      (match y with
        | some e => .verr e
        | none => match env'.validate cls d' with
          | .ok (fs, set) => .ok (.model cls fs set)
          | .error e => .verr (setSourceline m'.hideInput st'.sm e)) := by
    intro x y hxy
    cases x with
    | some e => cases y with
      | some e' => trivial
      | none => cases hxy
    | none => cases y with
      | some e' => cases hxy
      | none =>
        simp only
        generalize env.validate cls d = a at hv
        generalize env'.validate cls d' = b at hv
        cases hv with
        | valid fs set => simp only [Out.SameKind, Ren, Val.retagged]
        | invalid e e' => trivial
  refine key _ _ ?_
  split
  · exact (checkExtra_isSome _ _ _).symm
  · rfl

theorem model_retag {env env' : Env} (hr : env.Retags σ env') {cls : String} {m m' : ModelSer} (hm : m.Retags σ m')
    {f g : Ser → Loc → St → Out Val × St} (h : ∀ s l l', ReadAs σ (Ren σ) (f s l) (g (s.retagged σ) l')) (loc loc' : Loc) :
    ReadAs σ (Ren σ) (deserModel env f cls m loc) (deserModel env' g cls m' loc') := by
  intro st st' he
  have hb := hm.body
  unfold deserModel
  generalize m.body = b at hb
  generalize m'.body = b' at hb
  cases hb with
  | @fields fs fs' hfs =>
    simp only
    obtain ⟨h1, h2⟩ := deserFields_retag h hfs [] [] [] rfl st st' he
    simp only [Val.retaggedItems] at h1 h2
    cases hf : deserFields f fs [] [] st with
    | mk o s1 =>
      cases hg : deserFields g fs' [] [] st' with
      | mk o' s2 =>
        rw [hf, hg] at h1 h2
        cases o <;> cases o' <;> simp only [Out.SameKind, FoundFields] at h1
        · obtain ⟨h3, h4⟩ := h1
          rename_i a b
          obtain ⟨res, errs⟩ := a
          obtain ⟨res', errs'⟩ := b
          simp only at h3 h4
          subst h3
          simp only [h4]
          split
          · exact ⟨validate_retag hm.extraForbid (hr.validate cls (.dict res)) _ _ h2, h2⟩
          · exact ⟨trivial, h2⟩
        · exact ⟨trivial, h2⟩
        · exact ⟨h1, h2⟩
        · exact ⟨trivial, h2⟩
  | root s =>
    simp only
    obtain ⟨h1, h2⟩ := h s loc loc' st st' he
    cases hf : f s loc st with
    | mk o s1 =>
      cases hg : g (s.retagged σ) loc' st' with
      | mk o' s2 =>
        rw [hf, hg] at h1 h2
        cases o <;> cases o' <;> simp only [Out.SameKind] at h1
        · subst h1
          rename_i v
          refine ⟨validate_retag hm.extraForbid ?_ _ _ h2, h2⟩
          rw [isNone_retagged]
          split
          · exact hr.validate cls .undef
          · exact hr.validate cls v
        · exact ⟨trivial, h2⟩
        · exact ⟨h1, h2⟩
        · exact ⟨trivial, h2⟩

theorem deser_retag {env env' : Env} (hr : env.Retags σ env') (eas : Bool) (n : Nat) (s : Ser) (loc loc' : Loc) :
    ReadAs σ (Ren σ) (deser env eas n s loc) (deser env' eas n (s.retagged σ) loc') := by
  induction n generalizing s loc loc' with
  | zero => exact fun st st' he => ⟨trivial, he⟩
  | succ n ih =>
    intro st st' he
    change SameAs σ (Ren σ) (deserStep env eas (deser env eas n) n s loc st) (deserStep env' eas (deser env' eas n) n (s.retagged σ) loc' st')
    cases s with
    | text c nl => simp only [Ser.retagged]; exact deserText_retag eas c nl st st' he
    | attr nm c =>
      simp only [Ser.retagged, deserStep]
      split
      · exact ⟨rfl, he⟩
      · rw [he, popAttrib_r]
        cases st.el.popAttrib nm with
        | mk o e1 => cases o <;> exact ⟨rfl, rfl⟩
    | elem nm ns m c nl =>
      simp only [Ser.retagged, deserStep]
      split
      · exact ⟨rfl, he⟩
      · exact popChild_retag hr.names (f := fun k => deserText eas c nl { k with sm := k.sm.set loc k.el.line })
          (g := fun k => deserText eas c nl { k with sm := k.sm.set loc' k.el.line }) (fun s1 s2 h => deserText_retag eas c nl _ _ h) nm m st st' he
    | attrs a => simp only [Ser.retagged]; exact deserAttrs_retag a st st' he
    | mapElem a nm m =>
      simp only [Ser.retagged, deserStep]
      split
      · exact ⟨rfl, he⟩
      · exact popChild_retag hr.names (f := fun k => deserAttrs a { k with sm := k.sm.set loc k.el.line })
          (g := fun k => deserAttrs a { k with sm := k.sm.set loc' k.el.line }) (fun s1 s2 h => deserAttrs_retag a _ _ h) nm m st st' he
    | raw nm m c =>
      simp only [Ser.retagged, deserStep]
      split
      · exact ⟨rfl, he⟩
      · rw [he, hr.backend, popElementRemove_r hr.names]
        cases st.el.popElementRemove nm m with
        | mk o e1 =>
          cases o with
          | none => exact ⟨rfl, rfl⟩
          | some c1 => exact ⟨by simp only [Option.map_some, Out.SameKind, Ren, Val.retagged, toNative_r], rfl⟩
    | proxy p =>
      simp only [Ser.retagged, deserStep]
      have h3 : (p.retagged σ).cls = p.cls := rfl
      have h4 : (p.retagged σ).computed = p.computed := rfl
      have h5 : (p.retagged σ).name = σ p.name := rfl
      have h6 : (p.retagged σ).mode = p.mode := rfl
      rw [h3, h4, h5, h6]
      rcases hr.classes p.cls with ⟨h1, h2⟩ | ⟨m, m', h1, h2, hm⟩
      · rw [h1, h2]
        exact ⟨rfl, he⟩
      · rw [h1, h2]
        simp only
        split
        · exact ⟨rfl, he⟩
        · refine popChild_retag hr.names (f := _) (g := _) ?_ p.name p.mode st st' he
          intro s1 s2 h
          simp only [h, isNil_r]
          cases s1.el.isNil with
          | mk b e1 =>
            cases b with
            | true => exact ⟨rfl, rfl⟩
            | false => exact model_retag hr hm (fun s l l' => ih s l l') loc loc' _ _ rfl
    | primUnion c s =>
      simp only [Ser.retagged, deserStep]
      split
      · exact ⟨rfl, he⟩
      · exact ih s loc loc' st st' he
    | modelUnion title c alts =>
      simp only [Ser.retagged, deserStep]
      split
      · exact ⟨rfl, he⟩
      · exact unionLoop_retag (fun p => by simpa only [Ser.retagged] using ih (.proxy p) loc loc') title _ alts [] [] rfl st st' he
    | tagged c d a m alts =>
      simp only [Ser.retagged, deserStep]
      split
      · exact ⟨rfl, he⟩
      · exact taggedLoop_retag hr.names (fun p => by simpa only [Ser.retagged] using ih (.proxy p) loc loc') loc loc' a m alts st st' he
    | wrap path ns m c s =>
      simp only [Ser.retagged, deserStep]
      split
      · exact ⟨rfl, he⟩
      · exact descend_retag hr.names (f := fun k => deser env eas n s loc { k with sm := k.sm.set loc k.el.line })
          (g := fun k => deser env' eas n (s.retagged σ) loc' { k with sm := k.sm.set loc' k.el.line }) (fun s1 s2 h => ih s loc loc' _ _ h) m path st st' he
    | homog title c s =>
      simp only [Ser.retagged, deserStep]
      split
      · exact ⟨rfl, he⟩
      · obtain ⟨h1, h2⟩ := homogLoop_retag (f := fun l st => deser env eas n s l st) (g := fun l st => deser env' eas n (s.retagged σ) l st)
          (fun l l' => ih s l l') loc loc' n 0 [] [] [] rfl st st' he
        simp only [List.map_nil] at h1 h2
        cases hf : homogLoop (fun l st => deser env eas n s l st) loc n 0 [] [] st with
        | mk o s1 =>
          cases hg : homogLoop (fun l st => deser env' eas n (s.retagged σ) l st) loc' n 0 [] [] st' with
          | mk o' s2 =>
            rw [hf, hg] at h1 h2
            cases o <;> cases o' <;> simp only [Out.SameKind, Found] at h1
            · obtain ⟨h3, h4⟩ := h1
              refine ⟨?_, h2⟩
              simp only [homogFinish, h3, h4, List.isEmpty_map]
              (repeat' split) <;> first | rfl | trivial | simp only [Out.SameKind, Ren, Val.retagged, all_eq]
            · exact ⟨trivial, h2⟩
            · exact ⟨h1, h2⟩
            · exact ⟨trivial, h2⟩
    | hetero title c ss =>
      simp only [Ser.retagged, deserStep, serAll_eq]
      split
      · exact ⟨rfl, he⟩
      · obtain ⟨h1, h2⟩ := heteroLoop_retag (f := deser env eas n) (g := deser env' eas n) (fun s l l' => ih s l l') loc loc' ss 0 [] [] [] rfl
          st st' he
        simp only [List.map_nil] at h1 h2
        cases hf : heteroLoop (deser env eas n) loc ss 0 [] [] st with
        | mk o s1 =>
          cases hg : heteroLoop (deser env' eas n) loc' (ss.map (Ser.retagged σ)) 0 [] [] st' with
          | mk o' s2 =>
            rw [hf, hg] at h1 h2
            cases o <;> cases o' <;> simp only [Out.SameKind, Found] at h1
            · obtain ⟨h3, h4⟩ := h1
              refine ⟨?_, h2⟩
              simp only [heteroFinish, h3, h4, List.all_map, Function.comp_def, isNone_retagged]
              (repeat' split) <;> first | rfl | trivial | simp only [Out.SameKind, Ren, Val.retagged, all_eq]
            · exact ⟨trivial, h2⟩
            · exact ⟨h1, h2⟩
            · exact ⟨trivial, h2⟩

/-! ## Writing -/

theorem bind_retag {x y : Out Elem} {k l : Elem → Out Elem} (h : y = x.retagged σ) (hk : ∀ e, l (e.retagged σ) = (k e).retagged σ) :
    y.bind l = (x.bind k).retagged σ := by
  subst h
  cases x with
  | ok e => exact hk e
  | _ => rfl

theorem items_retag {f g : Elem → Val → Val → Out Elem} (h : ∀ e v x, g (e.retagged σ) (v.retagged σ) x = (f e v x).retagged σ) (fl : Flags) :
    ∀ (vs encs : List Val) (el : Elem), serItems g fl (vs.map (Val.retagged σ)) encs (el.retagged σ) = (serItems f fl vs encs el).retagged σ
  | [], _, _ => by simp only [List.map_nil, serItems, Out.retagged]
  | v :: vs, [], _ => by simp only [List.map_cons, serItems, Out.retagged]
  | v :: vs, x :: encs, el => by
    simp only [List.map_cons, serItems, isNone_retagged]
    split
    · exact items_retag h fl vs encs el
    · exact bind_retag (h el v x) fun e => items_retag h fl vs encs e

theorem tuple_retag {f g : Ser → Elem → Val → Val → Out Elem}
    (h : ∀ s e v x, g (s.retagged σ) (e.retagged σ) (v.retagged σ) x = (f s e v x).retagged σ) :
    ∀ (ss : List Ser) (vs encs : List Val) (el : Elem),
      serTuple g (ss.map (Ser.retagged σ)) (vs.map (Val.retagged σ)) encs (el.retagged σ) = (serTuple f ss vs encs el).retagged σ
  | [], _, _, _ => by simp only [List.map_nil, serTuple, Out.retagged]
  | s :: ss, [], _, _ => by simp only [List.map_cons, List.map_nil, serTuple, Out.retagged]
  | s :: ss, v :: vs, [], _ => by simp only [List.map_cons, serTuple, Out.retagged]
  | s :: ss, v :: vs, x :: encs, el => by
    simp only [List.map_cons, serTuple]
    exact bind_retag (h s el v x) fun e => tuple_retag h ss vs encs e

theorem getAttr_retag (fields : List (String × Val)) (name : String) {k l : Val → Out Elem} (h : ∀ v, l (v.retagged σ) = (k v).retagged σ) :
    (getAttr (Val.retaggedItems σ fields) name).bind l = ((getAttr fields name).bind k).retagged σ := by
  unfold getAttr
  rw [get_retagged]
  cases Dict.get? fields name with
  | none => rfl
  | some v => exact h v

theorem getItem_retag (enc : Val) (name : String) {k l : Val → Out Elem} (h : ∀ v, l v = (k v).retagged σ) :
    (getItem enc name).bind l = ((getItem enc name).bind k).retagged σ := by
  generalize getItem enc name = o
  cases o with
  | ok v => exact h v
  | _ => rfl

theorem outFields_retag {f g : Ser → Elem → Val → Val → Out Elem}
    (h : ∀ s e v x, g (s.retagged σ) (e.retagged σ) (v.retagged σ) x = (f s e v x).retagged σ) (fl : Flags)
    (self : Val) (fields : List (String × Val)) (set : List String) (enc : Val) {fs fs' : List Field} (hfs : Fields.Retags σ fs fs') (el : Elem) :
    serFields g fl (self.retagged σ) (Val.retaggedItems σ fields) set enc fs' (el.retagged σ) =
      (serFields f fl self fields set enc fs el).retagged σ := by
  induction hfs generalizing el with
  | nil => rfl
  | @cons fd fd' fs fs' hfd _ ih =>
    simp only [serFields, hfd.exclude, hfd.name]
    split
    · exact ih el
    · split
      · exact ih el
      · refine bind_retag ?_ fun e => ih e
        rcases hfd.serializer with ⟨h1, h2⟩ | ⟨k, k', h1, h2, hk⟩
        · simp only [h1, h2, hfd.ser]
          exact getAttr_retag _ _ fun v => getItem_retag _ _ fun x => h _ _ _ _
        · simp only [h1, h2]
          exact getAttr_retag _ _ fun v => hk _ _ _

theorem outModel_retag {f g : Flags → Ser → Elem → Val → Val → Out Elem}
    (h : ∀ fl s e v x, g fl (s.retagged σ) (e.retagged σ) (v.retagged σ) x = (f fl s e v x).retagged σ)
    {m m' : ModelSer} (hm : m.Retags σ m') (fl : Flags) (el : Elem) (v enc : Val) :
    serModel g m' fl (el.retagged σ) (v.retagged σ) enc = (serModel f m fl el v enc).retagged σ := by
  have hb := hm.body
  cases v with
  | model cls fields set =>
    simp only [Val.retagged, serModel, hm.skipEmpty]
    generalize m.body = b at hb
    generalize m'.body = b' at hb
    cases hb with
    | fields hfs => exact outFields_retag (fun s e v x => h _ s e v x) _ (.model cls fields set) fields set enc hfs el
    | root s =>
      simp only
      split
      · rfl
      · exact getAttr_retag _ _ fun v => h _ _ _ _ _
  | _ => rfl

theorem find_retag (cls : String) : ∀ alts : List Proxy,
    (alts.map (Proxy.retagged σ)).find? (fun p => p.cls = cls) = (alts.find? fun p => p.cls = cls).map (Proxy.retagged σ)
  | [] => rfl
  | p :: alts => by
    have : (p.retagged σ).cls = p.cls := rfl
    simp only [List.map_cons, List.find?_cons, find_retag cls alts, this]
    cases decide (p.cls = cls) <;> rfl

theorem get_alts (tag : String) : ∀ alts : List (String × Proxy),
    Dict.get? (alts.map fun kp => (kp.1, kp.2.retagged σ)) tag = (Dict.get? alts tag).map (Proxy.retagged σ)
  | [] => rfl
  | (k, p) :: alts => by
    simp only [List.map_cons, Dict.get?]
    split
    · rfl
    · exact get_alts tag alts

theorem pyStr_retag {env env' : Env} (h : env'.reprOf = env.reprOf) (v : Val) : pyStr env' v = pyStr env v := by
  unfold pyStr
  split <;> first | rfl | rw [h]

theorem encode_retag {env env' : Env} (h : env'.reprOf = env.reprOf) (v : Val) : encodePrimitive env' v = encodePrimitive env v := by
  unfold encodePrimitive
  split <;> first | rfl | exact pyStr_retag h _

theorem serAttrs_retag {env env' : Env} (h : env'.reprOf = env.reprOf) (a : AttrsSer) (el : Elem) (v enc : Val) :
    serAttrs env' a (el.retagged σ) (v.retagged σ) enc = (serAttrs env a el v enc).retagged σ := by
  unfold serAttrs
  simp only [isNone_retagged, pyStr_retag h]
  split
  · rfl
  · cases enc <;> first | rfl | exact congrArg Out.ok (setAttributes_r _ _)

theorem serText_retag {env env' : Env} (h : env'.reprOf = env.reprOf) (nl : Bool) (fl : Flags) (el : Elem) (v enc : Val) :
    serText env' nl fl (el.retagged σ) (v.retagged σ) enc = (serText env nl fl el v enc).retagged σ := by
  unfold serText
  simp only [isNone_retagged, encode_retag h, makeNil_r]
  split
  · rfl
  · split <;> exact setText_r _ _

theorem appendUnlessEmpty_retag (fl : Flags) (el sub : Elem) :
    appendUnlessEmpty fl (el.retagged σ) (sub.retagged σ) = (appendUnlessEmpty fl el sub).retagged σ := by
  unfold appendUnlessEmpty
  rw [isEmpty_r]
  split
  · rfl
  · exact append_r _ _

theorem ascend_retag (hσ : Retagging σ) (b : Backend) (m : Mode) (nsmap : Option NsMap) {f g : Elem → Out Elem}
    (h : ∀ e, g (e.retagged σ) = (f e).retagged σ) : ∀ (path : List String) (el : Elem),
      ascend b m nsmap g (path.map σ) (el.retagged σ) = (ascend b m nsmap f path el).retagged σ
  | [], el => h el
  | t :: ts, el => by
    simp only [List.map_cons, ascend, findElement_r hσ]
    cases el.findElement t m with
    | error x => rfl
    | ok r =>
      obtain ⟨o, e1⟩ := r
      cases o with
      | none =>
        simp only [Except.map]
        rw [makeElement_r]
        exact bind_retag (ascend_retag hσ b m nsmap h ts _) fun e => congrArg Out.ok (append_r _ _)
      | some i =>
        simp only [Except.map, r_elements, List.getElem?_map]
        cases e1.elements[i]? with
        | none => rfl
        | some c => exact bind_retag (ascend_retag hσ b m nsmap h ts c) fun e => congrArg Out.ok (setChild_r _ _ _)

theorem ser_retag {env env' : Env} (hr : env.Retags σ env') (n : Nat) (fl : Flags) (s : Ser) (el : Elem) (v enc : Val) :
    ser env' n fl (s.retagged σ) (el.retagged σ) (v.retagged σ) enc = (ser env n fl s el v enc).retagged σ := by
  induction n generalizing fl s el v enc with
  | zero => rfl
  | succ n ih =>
    change serStep env' (ser env' n) fl (s.retagged σ) (el.retagged σ) (v.retagged σ) enc = (serStep env (ser env n) fl s el v enc).retagged σ
    have hp : ∀ fl p el v enc, ser env' n fl (.proxy (p.retagged σ)) (el.retagged σ) (v.retagged σ) enc = (ser env n fl (.proxy p) el v enc).retagged σ := by
      intro fl p el v enc
      simpa only [Ser.retagged] using ih fl (.proxy p) el v enc
    cases s with
    | text c nl => exact congrArg Out.ok (serText_retag hr.reprOf _ _ _ _ _)
    | attr k c =>
      simp only [Ser.retagged, serStep, isNone_retagged, encode_retag hr.reprOf, setAttribute_r]
      split <;> rfl
    | elem nm ns mode c nl =>
      simp only [Ser.retagged, serStep, isNone_retagged, hr.backend, makeElement_r, serText_retag hr.reprOf, appendUnlessEmpty_retag]
      split <;> rfl
    | attrs a => exact serAttrs_retag hr.reprOf _ _ _ _
    | mapElem a nm mode =>
      simp only [Ser.retagged, serStep, len_retagged, hr.backend, makeElement_r]
      split
      · split
        · rfl
        · rfl
        · exact bind_retag (serAttrs_retag hr.reprOf _ _ _ _) fun e => congrArg Out.ok (appendUnlessEmpty_retag _ _ _)
      · exact bind_retag (serAttrs_retag hr.reprOf _ _ _ _) fun e => congrArg Out.ok (append_r _ _)
    | raw nm mode c =>
      simp only [Ser.retagged, serStep, hr.backend]
      cases v <;> first | rfl | skip
      simp only [Val.retagged, fromNative_r hr.names, appendUnlessEmpty_retag]
      rfl
    | primUnion c inner => exact ih fl inner el v enc
    | modelUnion t c alts =>
      cases v with
      | model cls fields set =>
        simp only [Ser.retagged, serStep, Val.retagged, find_retag]
        cases hf : alts.find? (fun p => decide (p.cls = cls)) with
        | none => rfl
        | some p => exact hp fl p el (.model cls fields set) enc
      | _ => rfl
    | tagged c d a mode alts =>
      simp only [Ser.retagged, serStep, get_alts]
      split
      · split
        · split
          · rfl
          · rename_i tag _ _
            cases Dict.get? alts tag with
            | none => rfl
            | some p => exact hp fl p el v _
        all_goals rfl
      · rfl
    | wrap path ns mode c inner =>
      simp only [Ser.retagged, serStep, isNone_retagged, len_retagged, hr.backend]
      split
      · rfl
      · split
        · rfl
        · exact ascend_retag hr.names _ _ _ (fun e => ih fl inner e v enc) path el
    | homog title c inner =>
      cases v with
      | list vs =>
        simp only [Ser.retagged, serStep, Val.retagged, Val.isNone, all_eq]
        cases enc with
        | list encs => exact items_retag (f := ser env n fl inner) (g := ser env' n fl (inner.retagged σ)) (fun e v x => ih fl inner e v x) fl vs encs el
        | _ => rfl
      | _ => rfl
    | hetero title c inners =>
      cases v with
      | list vs =>
        simp only [Ser.retagged, serStep, Val.retagged, Val.isNone, all_eq, serAll_eq]
        cases enc with
        | list encs =>
          simp only [List.isEmpty_map, List.length_map, Bool.false_eq_true, if_false]
          split
          · rfl
          · split
            · rfl
            · exact tuple_retag (f := ser env n fl) (g := ser env' n fl) (fun s e v x => ih fl s e v x) inners vs encs el
        | _ => rfl
      | _ => rfl
    | proxy p =>
      simp only [Ser.retagged, serStep]
      have h3 : (p.retagged σ).cls = p.cls := rfl
      have h4 : (p.retagged σ).nillable = p.nillable := rfl
      have h5 : (p.retagged σ).name = σ p.name := rfl
      have h6 : (p.retagged σ).nsmap = p.nsmap := rfl
      rw [h3, h4, h5, h6]
      rcases hr.classes p.cls with ⟨h1, h2⟩ | ⟨m, m', h1, h2, hm⟩
      · rw [h1, h2]
        rfl
      · rw [h1, h2]
        simp only [isNone_retagged, hr.backend, makeElement_r, makeNil_r]
        split
        · rfl
        · split
          · exact congrArg Out.ok (append_r _ _)
          · split
            · rfl
            · exact bind_retag (outModel_retag (fun fl s e v x => ih fl s e v x) hm _ _ _ _) fun e => congrArg Out.ok (appendUnlessEmpty_retag _ _ _)

end Retag

/-- C101: if elements get other names, in the declarations and in the documents alike, every document is read alike: it gives the same instance, with the native
elements in it renamed, or a validation error in both cases, or the same other exception. -/
theorem C101_reading (σ : String → String) (env env' : Env) (hr : env.Retags σ env') (eas : Bool) (n : Nat) (cls : String) (doc : Node) :
    SameRetagged σ (fromXmlTree env eas n cls doc).1 (fromXmlTree env' eas n cls (doc.retagged σ)).1 := by
  have key : (fromXmlTree env eas n cls doc).1.SameKind (Retag.Ren σ) (fromXmlTree env' eas n cls (doc.retagged σ)).1 := by
    unfold fromXmlTree
    rw [hr.backend, Retag.fromNative_r hr.names, Retag.rootTag hr.names]
    rcases hr.classes cls with ⟨h1, h2⟩ | ⟨m, m', h1, h2, hm⟩
    · rw [h1, h2]
      exact rfl
    · rw [h1, h2]
      simp only [hm.elementName, Retag.tag_iff hr.names]
      split
      · exact (Retag.model_retag hr hm (fun s l l' => Retag.deser_retag hr eas n s l l') [] [] _ _ rfl).1
      · exact rfl
  revert key
  generalize (fromXmlTree env eas n cls doc).1 = o
  generalize (fromXmlTree env' eas n cls (doc.retagged σ)).1 = o'
  intro key
  cases o <;> cases o' <;> simp_all [Out.SameKind, SameRetagged]

/-- C101: if elements get other names, every instance is written to the document with the elements renamed, or with the same exception. -/
theorem C101_writing (σ : String → String) (env env' : Env) (hr : env.Retags σ env') (n : Nat) (fl : Flags) (cls : String) (v : Val) :
    toXmlTree env' n fl cls (v.retagged σ) = (toXmlTree env n fl cls v).retaggedDoc σ := by
  unfold toXmlTree
  rcases hr.classes cls with ⟨h1, h2⟩ | ⟨m, m', h1, h2, hm⟩
  · rw [h1, h2]
    rfl
  · rw [h1, h2]
    simp only [hm.elementName, hm.nsmap, hr.toJsonable, hr.backend]
    have h := Retag.outModel_retag (fun fl s e v x => Retag.ser_retag hr n fl s e v x) hm fl { tag := m.elementName, nsmap := m.nsmap } v (env.toJsonable v)
    rw [Retag.elem_eq] at h
    simp only [List.map_nil] at h
    rw [h]
    generalize serModel (ser env n) m fl _ v _ = o
    cases o with
    | ok e => exact congrArg Out.ok (Retag.toNative_r _ e)
    | _ => rfl

namespace Ex

/-- What was called `rein` is called `strap`, and the other way round. -/
def strapped (t : String) : String := if t = "rein" then "strap" else if t = "strap" then "rein" else t

theorem strapped_retagging : Retagging strapped where
  injective a b := by
    unfold strapped
    repeat' split
    all_goals intros; simp_all
  comment := rfl
  pi := rfl

/-- `class Rein(BaseXmlModel, tag=tag): text: str`. -/
def tackItem (cls tag : String) : ModelSer where
  name := cls
  elementName := tag
  body := .fields [{ name := "text", ser := .text false false }]

/-- `class Tack(BaseXmlModel, tag='tack'): text: list[Rein | Strap]`, where `Rein` and `Strap` are at the given elements. -/
def tackModel (rein strap : String) : ModelSer where
  name := "Tack"
  elementName := "tack"
  body := .fields [{ name := "text", ser := .homog ⟨"Tack", false⟩ false (.modelUnion ⟨"Tack", false⟩ false
    [{ cls := "Rein", name := rein, nsmap := none, mode := .strict, computed := false, nillable := false },
     { cls := "Strap", name := strap, nsmap := none, mode := .strict, computed := false, nillable := false }]) }]

/-- The program before and after. -/
def tackEnv (rein strap : String) : Env where
  backend := .lxml
  model := fun c =>
    if c = "Tack" then some (tackModel rein strap)
    else if c = "Rein" then some (tackItem "Rein" rein) else if c = "Strap" then some (tackItem "Strap" strap) else none
  validate := fun _ d => needs "text" d
  toJsonable := fun _ => .dict [("text", .list [.dict [("text", .str "red")], .dict [("text", .str "blue")]])]
  reprOf := fun _ => ""

theorem tack_retags : (tackEnv "rein" "strap").Retags strapped (tackEnv "strap" "rein") where
  names := strapped_retagging
  backend := rfl
  classes cls := by
    by_cases h1 : cls = "Tack"
    · subst h1
      exact .inr ⟨_, _, rfl, rfl, ⟨rfl, rfl, .fields (.cons ⟨rfl, rfl, rfl, rfl, .inl ⟨rfl, rfl⟩, .inl ⟨rfl, rfl⟩⟩ .nil), rfl, rfl⟩⟩
    · by_cases h2 : cls = "Rein"
      · subst h2
        exact .inr ⟨_, _, rfl, rfl, ⟨rfl, rfl, .fields (.cons ⟨rfl, rfl, rfl, rfl, .inl ⟨rfl, rfl⟩, .inl ⟨rfl, rfl⟩⟩ .nil), rfl, rfl⟩⟩
      · by_cases h3 : cls = "Strap"
        · subst h3
          exact .inr ⟨_, _, rfl, rfl, ⟨rfl, rfl, .fields (.cons ⟨rfl, rfl, rfl, rfl, .inl ⟨rfl, rfl⟩, .inl ⟨rfl, rfl⟩⟩ .nil), rfl, rfl⟩⟩
        · exact .inl ⟨by simp [tackEnv, h1, h2, h3], by simp [tackEnv, h1, h2, h3]⟩
  validate cls d := by
    show RetaggedValidation strapped (needs "text" d) (needs "text" (d.retagged strapped))
    cases d <;> try exact .invalid _ _
    rename_i d
    simp only [Val.retagged, needs, Retag.get_retagged]
    cases Dict.get? d "text" with
    | none => exact .invalid _ _
    | some v => cases v <;> first | exact .valid [("text", _)] _ | exact .invalid _ _
  toJsonable _ := rfl
  reprOf := rfl

/-- A document, and the document with the names exchanged. -/
def tackDoc (rein strap : String) : Node := el "tack" none [el rein (some "red") [] [], el strap (some "blue") [] []] []

example : (tackDoc "rein" "strap").retagged strapped = tackDoc "strap" "rein" := rfl

def tackVal : Val :=
  .model "Tack" [("text", .list [.model "Rein" [("text", .str "red")] ["text"], .model "Strap" [("text", .str "blue")] ["text"]])] ["text"]

/-- Both documents give the same instance, each read with its program, and it is written to them. -/
example : (fromXmlTree (tackEnv "rein" "strap") false 9 "Tack" (tackDoc "rein" "strap")).1 = .ok tackVal := by kernel_rfl

example : (fromXmlTree (tackEnv "strap" "rein") false 9 "Tack" (tackDoc "strap" "rein")).1 = .ok tackVal := by kernel_rfl

example : toXmlTree (tackEnv "rein" "strap") 9 {} "Tack" tackVal = .ok (tackDoc "rein" "strap") := by kernel_rfl

example : toXmlTree (tackEnv "strap" "rein") 9 {} "Tack" tackVal = .ok (tackDoc "strap" "rein") :=
  C101_writing strapped _ _ tack_retags 9 {} "Tack" tackVal

/-- Read with the other program the document gives another instance. -/
example : (fromXmlTree (tackEnv "strap" "rein") false 9 "Tack" (tackDoc "rein" "strap")).1 =
    .ok (.model "Tack" [("text", .list [.model "Strap" [("text", .str "red")] ["text"], .model "Rein" [("text", .str "blue")] ["text"]])] ["text"]) := by
  kernel_rfl

end Ex

end PXml
