import Verif.Lemmas.LocFree
import Verif.SpecRename
import Verif.Props.RootField
import Verif.Lemmas.RenameCompile

/-!
# C100: the names of the classes do not matter

Specification: `SpecRename.lean`.
-/

namespace PXml

open Elem

namespace Rename

variable {ρ τ : String → String}

/-- The second value is the first with classes renamed. -/
abbrev Ren (ρ : String → String) (a b : Val) : Prop := b = a.renamed ρ

theorem all_eq : ∀ vs : List Val, Val.renamedAll ρ vs = vs.map (Val.renamed ρ)
  | [] => rfl
  | v :: vs => by simp [Val.renamedAll, all_eq vs]

theorem serAll_eq : ∀ ss : List Ser, Ser.renamedAll ρ τ ss = ss.map (Ser.renamed ρ τ)
  | [] => rfl
  | s :: ss => by simp [Ser.renamedAll, serAll_eq ss]

theorem isNone_renamed (v : Val) : (v.renamed ρ).isNone = v.isNone := by cases v <;> simp [Val.renamed, Val.isNone]

theorem items_length : ∀ d : List (String × Val), (Val.renamedItems ρ d).length = d.length
  | [] => rfl
  | (k, v) :: d => by simp [Val.renamedItems, items_length d]

theorem len_renamed (v : Val) : (v.renamed ρ).len? = v.len? := by
  cases v <;> simp [Val.renamed, Val.len?, all_eq, items_length]

theorem get_renamed (k : String) : ∀ d : List (String × Val),
    Dict.get? (Val.renamedItems ρ d) k = (Dict.get? d k).map (Val.renamed ρ)
  | [] => rfl
  | (k', v) :: d => by
    simp only [Val.renamedItems, Dict.get?]
    split
    · rfl
    · exact get_renamed k d

theorem set_renamed (k : String) (v : Val) : ∀ d : List (String × Val),
    Val.renamedItems ρ (Dict.set d k v) = Dict.set (Val.renamedItems ρ d) k (v.renamed ρ)
  | [] => by simp [Dict.set, Val.renamedItems]
  | (k', v') :: d => by
    simp only [Val.renamedItems, Dict.set]
    split
    · rfl
    · simp only [Val.renamedItems, set_renamed k v d]

/-- All values are strings. -/
def Strs (d : List (String × Val)) : Prop := ∀ kv ∈ d, ∃ s, kv.2 = .str s

theorem strs_renamed : ∀ d : List (String × Val), Strs d → Val.renamedItems ρ d = d
  | [], _ => rfl
  | (k, v) :: d, h => by
    obtain ⟨s, hs⟩ := h (k, v) List.mem_cons_self
    simp only at hs
    subst hs
    simp only [Val.renamedItems, Val.renamed, strs_renamed d fun kv hk => h kv (List.mem_cons_of_mem _ hk)]

theorem strs_set {d : List (String × Val)} (h : Strs d) (k : String) (s : String) : Strs (Dict.set d k (.str s)) := by
  induction d with
  | nil =>
    intro kv hk
    simp only [Dict.set, List.mem_singleton] at hk
    subst hk
    exact ⟨s, rfl⟩
  | cons x d ih =>
    obtain ⟨k', v'⟩ := x
    have h' : Strs d := fun kv hk => h kv (List.mem_cons_of_mem _ hk)
    simp only [Dict.set]
    split
    · intro kv hk
      rcases List.mem_cons.1 hk with rfl | hk
      · exact ⟨s, rfl⟩
      · exact h' kv hk
    · intro kv hk
      rcases List.mem_cons.1 hk with rfl | hk
      · exact h _ List.mem_cons_self
      · exact ih h' kv hk

theorem strs_update : ∀ (kvs d : List (String × Val)), Strs d → Strs kvs → Strs (Dict.update d kvs)
  | [], d, h, _ => h
  | (k, v) :: kvs, d, h, hk => by
    obtain ⟨s, hs⟩ := hk (k, v) List.mem_cons_self
    simp only at hs
    subst hs
    exact strs_update kvs _ (strs_set h k s) fun kv h' => hk kv (List.mem_cons_of_mem _ h')

theorem strs_attrs (a : AttrsSer) (d : Dict String String) :
    Strs (Dict.ofItems (d.map fun kv => (if a.namespaced then (QName.fromUri kv.1).tag else kv.1, Val.str kv.2))) := by
  refine strs_update _ [] (fun _ h => nomatch h) ?_
  intro kv hk
  obtain ⟨x, _, rfl⟩ := List.mem_map.1 hk
  exact ⟨_, rfl⟩

/-! ## Reading -/

/-- The values found so far are the same up to the renaming, and there are errors in both or in none. -/
def Found (ρ : String → String) (a b : List Val × Dict ErrKey VErr) : Prop := b.1 = a.1.map (Val.renamed ρ) ∧ a.2.isEmpty = b.2.isEmpty

/-- The same for the fields. -/
def FoundFields (ρ : String → String) (a b : Dict String Val × Dict ErrKey VErr) : Prop :=
  b.1 = Val.renamedItems ρ a.1 ∧ a.2.isEmpty = b.2.isEmpty

theorem renamed_none : Val.renamed ρ .none = .none := rfl

theorem popChild_ren {f g : St → Out Val × St} (h : ReadAlike (Ren ρ) f g) (u : String) (m : Mode) : ReadAlike (Ren ρ) (fun st =>
    match st.el.popElement u m with
    | (none, el) => (.ok .none, { st with el := el })
    | (some i, el) => onChild { st with el := el } i f) (fun st =>
    match st.el.popElement u m with
    | (none, el) => (.ok .none, { st with el := el })
    | (some i, el) => onChild { st with el := el } i g) := by
  intro st st' he
  simp only
  rw [he]
  cases st'.el.popElement u m with
  | mk o e' =>
    cases o with
    | none => exact ⟨rfl, rfl⟩
    | some i => exact onChild_alike (st := ⟨e', st.sm⟩) (st' := ⟨e', st'.sm⟩) h rfl i

theorem deserText_ren (eas c nl : Bool) : ReadAlike (Ren ρ) (deserText eas c nl) (deserText eas c nl) := by
  intro st st' he
  obtain ⟨e, sm⟩ := st
  obtain ⟨e', sm'⟩ := st'
  cases he
  unfold deserText
  split
  · exact ⟨rfl, rfl⟩
  · simp only
    split
    · exact ⟨rfl, rfl⟩
    · refine ⟨?_, rfl⟩
      simp only [Out.SameKind, textVal]
      repeat' split
      all_goals rfl

theorem deserAttrs_ren (a : AttrsSer) : ReadAlike (Ren ρ) (deserAttrs a) (deserAttrs a) := by
  intro st st' he
  obtain ⟨e, sm⟩ := st
  obtain ⟨e', sm'⟩ := st'
  cases he
  unfold deserAttrs
  split
  · exact ⟨rfl, rfl⟩
  · simp only
    split
    · exact ⟨rfl, rfl⟩
    · refine ⟨?_, rfl⟩
      simp only [Out.SameKind, Ren, Val.renamed, strs_renamed _ (strs_attrs a _)]

theorem descend_ren {f g : St → Out Val × St} (h : ReadAlike (Ren ρ) f g) (m : Mode) (path : List String) :
    ReadAlike (Ren ρ) (descend m f path) (descend m g path) := by
  induction path with
  | nil => exact h
  | cons u us ih =>
    intro st st' he
    simp only [descend, he]
    split
    · exact ⟨rfl, he⟩
    · exact ⟨rfl, rfl⟩
    · refine onChild_alike ih ?_ _
      rfl

theorem homogLoop_ren {f g : Loc → St → Out Val × St} (h : ∀ l l', ReadAlike (Ren ρ) (f l) (g l')) (loc loc' : Loc) (n idx : Nat)
    (acc : List Val) (errs errs' : Dict ErrKey VErr) (hE : errs.isEmpty = errs'.isEmpty) :
    ReadAlike (Found ρ) (homogLoop f loc n idx acc errs) (homogLoop g loc' n idx (acc.map (Val.renamed ρ)) errs') := by
  induction n generalizing idx acc errs errs' with
  | zero => exact fun st st' he => ⟨trivial, he⟩
  | succ n ih =>
    intro st st' he
    unfold homogLoop
    obtain ⟨h1, h2⟩ := h (loc ++ [.idx idx]) (loc' ++ [.idx idx]) st st' he
    cases hf : f (loc ++ [.idx idx]) st with
    | mk o s1 =>
      cases hg : g (loc' ++ [.idx idx]) st' with
      | mk o' s2 =>
        rw [hf, hg] at h1 h2
        cases o <;> cases o' <;> simp only [Out.SameKind] at h1
        · subst h1
          simp only [isNone_renamed]
          split
          · exact ⟨⟨rfl, hE⟩, h2⟩
          · rename_i v _
            have := ih (idx + 1) (acc ++ [v]) _ _ hE _ _ h2
            simpa only [List.map_append, List.map_cons, List.map_nil] using this
        · exact ih _ _ _ _ (by cases errs <;> cases errs' <;> rfl) _ _ h2
        · exact ⟨h1, h2⟩
        · exact ⟨trivial, h2⟩

theorem heteroLoop_ren {f g : Ser → Loc → St → Out Val × St} (h : ∀ s l l', ReadAlike (Ren ρ) (f s l) (g (s.renamed ρ τ) l')) (loc loc' : Loc)
    (ss : List Ser) (idx : Nat) (acc : List Val) (errs errs' : Dict ErrKey VErr) (hE : errs.isEmpty = errs'.isEmpty) :
    ReadAlike (Found ρ) (heteroLoop f loc ss idx acc errs) (heteroLoop g loc' (ss.map (Ser.renamed ρ τ)) idx (acc.map (Val.renamed ρ)) errs') := by
  induction ss generalizing idx acc errs errs' with
  | nil => exact fun st st' he => ⟨⟨rfl, hE⟩, he⟩
  | cons s ss ih =>
    intro st st' he
    simp only [List.map_cons]
    unfold heteroLoop
    obtain ⟨h1, h2⟩ := h s (loc ++ [.idx idx]) (loc' ++ [.idx idx]) st st' he
    cases hf : f s (loc ++ [.idx idx]) st with
    | mk o s1 =>
      cases hg : g (s.renamed ρ τ) (loc' ++ [.idx idx]) st' with
      | mk o' s2 =>
        rw [hf, hg] at h1 h2
        cases o <;> cases o' <;> simp only [Out.SameKind] at h1
        · subst h1
          rename_i v
          have := ih (idx + 1) (acc ++ [v]) _ _ hE _ _ h2
          simpa only [List.map_append, List.map_cons, List.map_nil] using this
        · exact ih _ _ _ _ (by cases errs <;> cases errs' <;> rfl) _ _ h2
        · exact ⟨h1, h2⟩
        · exact ⟨trivial, h2⟩

theorem unionLoop_ren {f g : Proxy → St → Out Val × St} (h : ∀ p, ReadAlike (Ren ρ) (f p) (g (p.renamed ρ))) (title title' : Title) (ps : List Proxy)
    (errs errs' : Dict ErrKey VErr) (hE : errs.isEmpty = errs'.isEmpty) :
    ReadAlike (Ren ρ) (unionLoop f title ps errs) (unionLoop g title' (ps.map (Proxy.renamed ρ)) errs') := by
  induction ps generalizing errs errs' with
  | nil =>
    intro st st' he
    simp only [List.map_nil]
    unfold unionLoop
    rw [hE, he]
    split
    · exact ⟨rfl, he⟩
    · exact ⟨trivial, rfl⟩
  | cons p ps ih =>
    intro st st' he
    simp only [List.map_cons]
    unfold unionLoop
    obtain ⟨h1, h2⟩ := h p ⟨st.el.createSnapshot, st.sm⟩ ⟨st'.el.createSnapshot, st'.sm⟩ (by rw [he])
    cases hf : f p ⟨st.el.createSnapshot, st.sm⟩ with
    | mk o s1 =>
      cases hg : g (p.renamed ρ) ⟨st'.el.createSnapshot, st'.sm⟩ with
      | mk o' s2 =>
        rw [hf, hg] at h1 h2
        cases o <;> cases o' <;> simp only [Out.SameKind] at h1
        · subst h1
          simp only [isNone_renamed]
          split
          · exact ih _ _ hE _ _ he
          · exact ⟨rfl, by simp only at h2; simp only [h2, he]⟩
        · exact ih _ _ (by rw [isEmpty_set, isEmpty_set]) _ _ he
        · exact ⟨h1, he⟩
        · exact ⟨trivial, he⟩

theorem taggedLoop_ren {f g : Proxy → St → Out Val × St} (h : ∀ p, ReadAlike (Ren ρ) (f p) (g (p.renamed ρ))) (loc loc' : Loc) (a : String) (m : Mode)
    (alts : List (String × Proxy)) :
    ReadAlike (Ren ρ) (taggedLoop f loc a m alts) (taggedLoop g loc' a m (alts.map fun kp => (kp.1, kp.2.renamed ρ))) := by
  induction alts with
  | nil => exact fun st st' he => ⟨rfl, he⟩
  | cons p alts ih =>
    obtain ⟨tag, p⟩ := p
    intro st st' he
    simp only [List.map_cons]
    unfold taggedLoop
    rw [he]
    have hn : (p.renamed ρ).name = p.name := rfl
    rw [hn]
    cases st'.el.search p.name m false with
    | mk o e' =>
      cases o with
      | none => exact ih _ _ rfl
      | some i =>
        simp only
        cases e'.elements[i]? with
        | none => exact ⟨rfl, rfl⟩
        | some c =>
          simp only
          split
          · exact h p _ _ rfl
          · exact ih _ _ rfl

theorem deserFields_ren {f g : Ser → Loc → St → Out Val × St} (h : ∀ s l l', ReadAlike (Ren ρ) (f s l) (g (s.renamed ρ τ) l')) {fs fs' : List Field}
    (hfs : Fields.Renames ρ τ fs fs') (res : Dict String Val) (errs errs' : Dict ErrKey VErr) (hE : errs.isEmpty = errs'.isEmpty) :
    ReadAlike (FoundFields ρ) (deserFields f fs res errs) (deserFields g fs' (Val.renamedItems ρ res) errs') := by
  induction hfs generalizing res errs errs' with
  | nil => exact fun st st' he => ⟨⟨rfl, hE⟩, he⟩
  | @cons fd fd' fs fs' hfd _ ih =>
    intro st st' he
    unfold deserFields
    have key : ∀ (r r' : Out Val × St), SameRead (Ren ρ) r r' → SameRead (FoundFields ρ)
        (match r with
          | (.ok v, st') => deserFields f fs (if v.isNone then res else res.set (fd.alias.getD fd.name) v) errs st'
          | (.verr e, st') => deserFields f fs res (errs.set (some (.name fd.name)) e) st'
          | (.crash e, st') => (.crash e, st')
          | (.diverge, st') => (.diverge, st'))
        (match r' with
          | (.ok v, st') =>
            deserFields g fs' (if v.isNone then Val.renamedItems ρ res else Dict.set (Val.renamedItems ρ res) (fd'.alias.getD fd'.name) v) errs' st'
          | (.verr e, st') => deserFields g fs' (Val.renamedItems ρ res) (errs'.set (some (.name fd'.name)) e) st'
          | (.crash e, st') => (.crash e, st')
          | (.diverge, st') => (.diverge, st')) := by
      rintro ⟨o, s1⟩ ⟨o', s2⟩ ⟨h1, h2⟩
      cases o <;> cases o' <;> simp only [Out.SameKind] at h1
      · subst h1
        rename_i v
        have := ih (if v.isNone then res else res.set (fd.alias.getD fd.name) v) _ _ hE _ _ h2
        simp only [isNone_renamed, hfd.alias, hfd.name]
        split <;> rename_i hv
        · simpa only [hv, if_true] using this
        · simpa only [hv, if_false, Bool.false_eq_true, set_renamed] using this
      · exact ih _ _ _ (by rw [isEmpty_set, isEmpty_set]) _ _ h2
      · exact ⟨h1, h2⟩
      · exact ⟨trivial, h2⟩
    refine key _ _ ?_
    rcases hfd.validator with ⟨h1, h2⟩ | ⟨v, v', h1, h2, hv⟩
    · simp only [h1, h2, hfd.ser]
      exact h _ _ _ _ _ he
    · simp only [h1, h2, he]
      obtain ⟨h3, h4⟩ := hv st'.el
      refine ⟨?_, h4⟩
      revert h3
      generalize (v st'.el).1 = o
      generalize (v' st'.el).1 = o'
      intro h3
      cases o <;> cases o' <;> simp_all [SameRenamed, Out.SameKind]

theorem validate_ren {env env' : Env} {cls : String} {m m' : ModelSer} {d d' : Val} (hx : m'.extraForbid = m.extraForbid)
    (hv : RenamedValidation ρ (env.validate cls d) (env'.validate (ρ cls) d')) (st st' : St) (he : st.el = st'.el) :
    (validateModel env cls m d st).SameKind (Ren ρ) (validateModel env' (ρ cls) m' d' st') := by
  have hc : ∀ t t' e, (checkExtra t e).isSome = (checkExtra t' e).isSome := by
    intro t t' e
    unfold checkExtra
    split <;> rfl
  unfold validateModel
  rw [he, hx]
  have key : ∀ x y : Option VErr, x.isSome = y.isSome → Out.SameKind (α := Val) (Ren ρ)
      (match x with
        | some e => .verr e
        | none => match env.validate cls d with
          | .ok (fs, set) => .ok (.model cls fs set)
          | .error e => .verr (setSourceline m.hideInput st.sm e))
      (match y with
        | some e => .verr e
        | none => match env'.validate (ρ cls) d' with
          | .ok (fs, set) => .ok (.model (ρ cls) fs set)
          | .error e => .verr (setSourceline m'.hideInput st'.sm e)) := by
    intro x y hxy
    cases x with
    | some e => cases y with
      | some e' => trivial
      | none => cases hxy
    | none => cases y with
      | some e' => cases hxy
      | none =>
        simp only
        generalize env.validate cls d = a at hv
        generalize env'.validate (ρ cls) d' = b at hv
        cases hv with
        | valid fs set => simp only [Out.SameKind, Ren, Val.renamed]
        | invalid e e' => trivial
  refine key _ _ ?_
  split
  · exact hc _ _ _
  · rfl

theorem model_ren {env env' : Env} (hr : env.Renames ρ τ env') {cls : String} {m m' : ModelSer} (hm : m.Renames ρ τ m')
    {f g : Ser → Loc → St → Out Val × St} (h : ∀ s l l', ReadAlike (Ren ρ) (f s l) (g (s.renamed ρ τ) l')) (loc loc' : Loc) :
    ReadAlike (Ren ρ) (deserModel env f cls m loc) (deserModel env' g (ρ cls) m' loc') := by
  intro st st' he
  have hb := hm.body
  unfold deserModel
  generalize m.body = b at hb
  generalize m'.body = b' at hb
  cases hb with
  | @fields fs fs' hfs =>
    simp only
    obtain ⟨h1, h2⟩ := deserFields_ren h hfs [] [] [] rfl st st' he
    simp only [Val.renamedItems] at h1 h2
    cases hf : deserFields f fs [] [] st with
    | mk o s1 =>
      cases hg : deserFields g fs' [] [] st' with
      | mk o' s2 =>
        rw [hf, hg] at h1 h2
        cases o <;> cases o' <;> simp only [Out.SameKind, FoundFields] at h1
        · obtain ⟨h3, h4⟩ := h1
          rename_i a b
          obtain ⟨res, errs⟩ := a
          obtain ⟨res', errs'⟩ := b
          simp only at h3 h4
          subst h3
          simp only [h4]
          split
          · exact ⟨validate_ren hm.extraForbid (hr.validate cls (.dict res)) _ _ h2, h2⟩
          · exact ⟨trivial, h2⟩
        · exact ⟨trivial, h2⟩
        · exact ⟨h1, h2⟩
        · exact ⟨trivial, h2⟩
  | root s =>
    simp only
    obtain ⟨h1, h2⟩ := h s loc loc' st st' he
    cases hf : f s loc st with
    | mk o s1 =>
      cases hg : g (s.renamed ρ τ) loc' st' with
      | mk o' s2 =>
        rw [hf, hg] at h1 h2
        cases o <;> cases o' <;> simp only [Out.SameKind] at h1
        · subst h1
          rename_i v
          refine ⟨validate_ren hm.extraForbid ?_ _ _ h2, h2⟩
          rw [isNone_renamed]
          split
          · exact hr.validate cls .undef
          · exact hr.validate cls v
        · exact ⟨trivial, h2⟩
        · exact ⟨h1, h2⟩
        · exact ⟨trivial, h2⟩

theorem deser_ren {env env' : Env} (hr : env.Renames ρ τ env') (eas : Bool) (n : Nat) (s : Ser) (loc loc' : Loc) :
    ReadAlike (Ren ρ) (deser env eas n s loc) (deser env' eas n (s.renamed ρ τ) loc') := by
  induction n generalizing s loc loc' with
  | zero => exact fun st st' he => ⟨trivial, he⟩
  | succ n ih =>
    intro st st' he
    change SameRead (Ren ρ) (deserStep env eas (deser env eas n) n s loc st) (deserStep env' eas (deser env' eas n) n (s.renamed ρ τ) loc' st')
    cases s with
    | text c nl => simp only [Ser.renamed]; exact deserText_ren eas c nl st st' he
    | attr nm c =>
      simp only [Ser.renamed, deserStep]
      split
      · exact ⟨rfl, he⟩
      · rw [he]
        split <;> exact ⟨rfl, rfl⟩
    | elem nm ns m c nl =>
      simp only [Ser.renamed, deserStep]
      split
      · exact ⟨rfl, he⟩
      · exact popChild_ren (f := fun k => deserText eas c nl { k with sm := k.sm.set loc k.el.line })
          (g := fun k => deserText eas c nl { k with sm := k.sm.set loc' k.el.line }) (fun s1 s2 h => deserText_ren eas c nl _ _ h) nm m st st' he
    | attrs a => simp only [Ser.renamed]; exact deserAttrs_ren a st st' he
    | mapElem a nm m =>
      simp only [Ser.renamed, deserStep]
      split
      · exact ⟨rfl, he⟩
      · exact popChild_ren (f := fun k => deserAttrs a { k with sm := k.sm.set loc k.el.line })
          (g := fun k => deserAttrs a { k with sm := k.sm.set loc' k.el.line }) (fun s1 s2 h => deserAttrs_ren a _ _ h) nm m st st' he
    | raw nm m c =>
      simp only [Ser.renamed, deserStep]
      split
      · exact ⟨rfl, he⟩
      · rw [he, hr.backend]
        split <;> exact ⟨rfl, rfl⟩
    | proxy p =>
      simp only [Ser.renamed, deserStep]
      have h3 : (p.renamed ρ).cls = ρ p.cls := rfl
      have h4 : (p.renamed ρ).computed = p.computed := rfl
      have h5 : (p.renamed ρ).name = p.name := rfl
      have h6 : (p.renamed ρ).mode = p.mode := rfl
      rw [h3, h4, h5, h6]
      rcases hr.classes p.cls with ⟨h1, h2⟩ | ⟨m, m', h1, h2, hm⟩
      · rw [h1, h2]
        exact ⟨rfl, he⟩
      · rw [h1, h2]
        simp only
        split
        · exact ⟨rfl, he⟩
        · refine popChild_ren (f := _) (g := _) ?_ p.name p.mode st st' he
          intro s1 s2 h
          simp only [h]
          split
          · exact ⟨rfl, rfl⟩
          · exact model_ren hr hm (fun s l l' => ih s l l') loc loc' _ _ rfl
    | primUnion c s =>
      simp only [Ser.renamed, deserStep]
      split
      · exact ⟨rfl, he⟩
      · exact ih s loc loc' st st' he
    | modelUnion title c alts =>
      simp only [Ser.renamed, deserStep]
      split
      · exact ⟨rfl, he⟩
      · exact unionLoop_ren (fun p => by simpa only [Ser.renamed] using ih (.proxy p) loc loc') title _ alts [] [] rfl st st' he
    | tagged c d a m alts =>
      simp only [Ser.renamed, deserStep]
      split
      · exact ⟨rfl, he⟩
      · exact taggedLoop_ren (fun p => by simpa only [Ser.renamed] using ih (.proxy p) loc loc') loc loc' a m alts st st' he
    | wrap path ns m c s =>
      simp only [Ser.renamed, deserStep]
      split
      · exact ⟨rfl, he⟩
      · exact descend_ren (f := fun k => deser env eas n s loc { k with sm := k.sm.set loc k.el.line })
          (g := fun k => deser env' eas n (s.renamed ρ τ) loc' { k with sm := k.sm.set loc' k.el.line }) (fun s1 s2 h => ih s loc loc' _ _ h) m path st st' he
    | homog title c s =>
      simp only [Ser.renamed, deserStep]
      split
      · exact ⟨rfl, he⟩
      · obtain ⟨h1, h2⟩ := homogLoop_ren (f := fun l st => deser env eas n s l st) (g := fun l st => deser env' eas n (s.renamed ρ τ) l st)
          (fun l l' => ih s l l') loc loc' n 0 [] [] [] rfl st st' he
        simp only [List.map_nil] at h1 h2
        cases hf : homogLoop (fun l st => deser env eas n s l st) loc n 0 [] [] st with
        | mk o s1 =>
          cases hg : homogLoop (fun l st => deser env' eas n (s.renamed ρ τ) l st) loc' n 0 [] [] st' with
          | mk o' s2 =>
            rw [hf, hg] at h1 h2
            cases o <;> cases o' <;> simp only [Out.SameKind, Found] at h1
            · obtain ⟨h3, h4⟩ := h1
              refine ⟨?_, h2⟩
              simp only [homogFinish, h3, h4, List.isEmpty_map]
              (repeat' split) <;> first | rfl | trivial | simp only [Out.SameKind, Ren, Val.renamed, all_eq]
            · exact ⟨trivial, h2⟩
            · exact ⟨h1, h2⟩
            · exact ⟨trivial, h2⟩
    | hetero title c ss =>
      simp only [Ser.renamed, deserStep, serAll_eq]
      split
      · exact ⟨rfl, he⟩
      · obtain ⟨h1, h2⟩ := heteroLoop_ren (τ := τ) (f := deser env eas n) (g := deser env' eas n) (fun s l l' => ih s l l') loc loc' ss 0 [] [] [] rfl
          st st' he
        simp only [List.map_nil] at h1 h2
        cases hf : heteroLoop (deser env eas n) loc ss 0 [] [] st with
        | mk o s1 =>
          cases hg : heteroLoop (deser env' eas n) loc' (ss.map (Ser.renamed ρ τ)) 0 [] [] st' with
          | mk o' s2 =>
            rw [hf, hg] at h1 h2
            cases o <;> cases o' <;> simp only [Out.SameKind, Found] at h1
            · obtain ⟨h3, h4⟩ := h1
              refine ⟨?_, h2⟩
              simp only [heteroFinish, h3, h4, List.all_map, Function.comp_def, isNone_renamed]
              (repeat' split) <;> first | rfl | trivial | simp only [Out.SameKind, Ren, Val.renamed, all_eq]
            · exact ⟨trivial, h2⟩
            · exact ⟨h1, h2⟩
            · exact ⟨trivial, h2⟩

/-! ## Writing -/

theorem items_ren {f g : Elem → Val → Val → Out Elem} (h : ∀ e v x, g e (v.renamed ρ) x = f e v x) (fl : Flags) :
    ∀ (vs encs : List Val) (el : Elem), serItems g fl (vs.map (Val.renamed ρ)) encs el = serItems f fl vs encs el
  | [], _, _ => by simp only [List.map_nil, serItems]
  | v :: vs, [], _ => by simp only [List.map_cons, serItems]
  | v :: vs, x :: encs, el => by
    simp only [List.map_cons, serItems, isNone_renamed, h, items_ren h fl vs encs]
    split
    · rfl
    · congr 1
      funext e
      exact items_ren h fl vs encs e

theorem tuple_ren {f g : Ser → Elem → Val → Val → Out Elem} (h : ∀ s e v x, g (s.renamed ρ τ) e (v.renamed ρ) x = f s e v x) :
    ∀ (ss : List Ser) (vs encs : List Val) (el : Elem),
      serTuple g (ss.map (Ser.renamed ρ τ)) (vs.map (Val.renamed ρ)) encs el = serTuple f ss vs encs el
  | [], _, _, _ => by simp only [List.map_nil, serTuple]
  | s :: ss, [], _, _ => by simp only [List.map_cons, List.map_nil, serTuple]
  | s :: ss, v :: vs, [], _ => by simp only [List.map_cons, serTuple]
  | s :: ss, v :: vs, x :: encs, el => by
    simp only [List.map_cons, serTuple, h]
    congr 1
    funext e
    exact tuple_ren h ss vs encs e

theorem getAttr_ren (fields : List (String × Val)) (name : String) {β : Type} (k : Val → Out β) :
    (getAttr (Val.renamedItems ρ fields) name).bind k = (getAttr fields name).bind fun v => k (v.renamed ρ) := by
  unfold getAttr
  rw [get_renamed]
  cases Dict.get? fields name <;> rfl

theorem outFields_ren {f g : Ser → Elem → Val → Val → Out Elem} (h : ∀ s e v x, g (s.renamed ρ τ) e (v.renamed ρ) x = f s e v x) (fl : Flags)
    (self : Val) (fields : List (String × Val)) (set : List String) (enc : Val) {fs fs' : List Field} (hfs : Fields.Renames ρ τ fs fs') (el : Elem) :
    serFields g fl (self.renamed ρ) (Val.renamedItems ρ fields) set enc fs' el = serFields f fl self fields set enc fs el := by
  induction hfs generalizing el with
  | nil => rfl
  | @cons fd fd' fs fs' hfd _ ih =>
    have ih' : serFields g fl (self.renamed ρ) (Val.renamedItems ρ fields) set enc fs' = serFields f fl self fields set enc fs :=
      funext fun e => ih e
    simp only [serFields, hfd.exclude, hfd.name, ih']
    split
    · rfl
    · split
      · rfl
      · congr 1
        rcases hfd.serializer with ⟨h1, h2⟩ | ⟨k, k', h1, h2, hk⟩
        · simp only [h1, h2, hfd.ser, getAttr_ren, h]
        · simp only [h1, h2, getAttr_ren, hk]

theorem outModel_ren {f g : Flags → Ser → Elem → Val → Val → Out Elem} (h : ∀ fl s e v x, g fl (s.renamed ρ τ) e (v.renamed ρ) x = f fl s e v x)
    {m m' : ModelSer} (hm : m.Renames ρ τ m') (fl : Flags) (el : Elem) (v enc : Val) :
    serModel g m' fl el (v.renamed ρ) enc = serModel f m fl el v enc := by
  have hb := hm.body
  cases v with
  | model cls fields set =>
    simp only [Val.renamed, serModel, hm.skipEmpty]
    generalize m.body = b at hb
    generalize m'.body = b' at hb
    cases hb with
    | fields hfs => exact outFields_ren (fun s e v x => h _ s e v x) _ (.model cls fields set) fields set enc hfs el
    | root s =>
      simp only [getAttr_ren, h]
  | _ => rfl

theorem find_ren (hinj : ∀ a b, ρ a = ρ b → a = b) (cls : String) : ∀ alts : List Proxy,
    (alts.map (Proxy.renamed ρ)).find? (fun p => p.cls = ρ cls) = (alts.find? fun p => p.cls = cls).map (Proxy.renamed ρ)
  | [] => rfl
  | p :: alts => by
    simp only [List.map_cons, List.find?_cons, find_ren hinj cls alts]
    have : decide ((p.renamed ρ).cls = ρ cls) = decide (p.cls = cls) := by
      have h1 : (p.renamed ρ).cls = ρ p.cls := rfl
      rw [h1]
      exact decide_eq_decide.2 ⟨hinj _ _, fun h => by rw [h]⟩
    rw [this]
    cases decide (p.cls = cls) <;> rfl

theorem get_alts (tag : String) : ∀ alts : List (String × Proxy),
    Dict.get? (alts.map fun kp => (kp.1, kp.2.renamed ρ)) tag = (Dict.get? alts tag).map (Proxy.renamed ρ)
  | [] => rfl
  | (k, p) :: alts => by
    simp only [List.map_cons, Dict.get?]
    split
    · rfl
    · exact get_alts tag alts

theorem encode_ren {env env' : Env} (h : env'.reprOf = env.reprOf) (v : Val) : encodePrimitive env' v = encodePrimitive env v := by
  unfold encodePrimitive
  have : ∀ v, pyStr env' v = pyStr env v := by
    intro v
    unfold pyStr
    split <;> first | rfl | rw [h]
  split <;> first | rfl | exact this _

theorem pyStr_ren {env env' : Env} (h : env'.reprOf = env.reprOf) (v : Val) : pyStr env' v = pyStr env v := by
  unfold pyStr
  split <;> first | rfl | rw [h]

theorem serAttrs_ren {env env' : Env} (h : env'.reprOf = env.reprOf) (a : AttrsSer) (el : Elem) (v enc : Val) :
    serAttrs env' a el (v.renamed ρ) enc = serAttrs env a el v enc := by
  unfold serAttrs
  simp only [isNone_renamed, pyStr_ren h]

theorem serText_ren {env env' : Env} (h : env'.reprOf = env.reprOf) (nl : Bool) (fl : Flags) (el : Elem) (v enc : Val) :
    serText env' nl fl el (v.renamed ρ) enc = serText env nl fl el v enc := by
  unfold serText
  simp only [isNone_renamed, encode_ren h]

theorem ser_ren {env env' : Env} (hr : env.Renames ρ τ env') (n : Nat) (fl : Flags) (s : Ser) (el : Elem) (v enc : Val) :
    ser env' n fl (s.renamed ρ τ) el (v.renamed ρ) enc = ser env n fl s el v enc := by
  induction n generalizing fl s el v enc with
  | zero => rfl
  | succ n ih =>
    change serStep env' (ser env' n) fl (s.renamed ρ τ) el (v.renamed ρ) enc = serStep env (ser env n) fl s el v enc
    have hp : ∀ fl p el v enc, ser env' n fl (.proxy (p.renamed ρ)) el (v.renamed ρ) enc = ser env n fl (.proxy p) el v enc := by
      intro fl p el v enc
      simpa only [Ser.renamed] using ih fl (.proxy p) el v enc
    cases s with
    | text c nl => simp only [Ser.renamed, serStep, serText_ren hr.reprOf]
    | attr k c => simp only [Ser.renamed, serStep, isNone_renamed, encode_ren hr.reprOf]
    | elem nm ns mode c nl => simp only [Ser.renamed, serStep, isNone_renamed, serText_ren hr.reprOf, hr.backend]
    | attrs a => simp only [Ser.renamed, serStep, serAttrs_ren hr.reprOf]
    | mapElem a nm mode => simp only [Ser.renamed, serStep, serAttrs_ren hr.reprOf, len_renamed, hr.backend]
    | raw nm mode c =>
      simp only [Ser.renamed, serStep, hr.backend]
      cases v <;> rfl
    | primUnion c inner => simp only [Ser.renamed, serStep, ih]
    | modelUnion t c alts =>
      cases v with
      | model cls fields set =>
        have := hp
        simp only [Ser.renamed, serStep, Val.renamed, find_ren hr.injective]
        cases hf : alts.find? (fun p => decide (p.cls = cls)) with
        | none => rfl
        | some p => exact hp fl p el (.model cls fields set) enc
      | _ => rfl
    | tagged c d a mode alts =>
      simp only [Ser.renamed, serStep, get_alts]
      split
      · split
        · split
          · rfl
          · rename_i tag _ _
            cases Dict.get? alts tag with
            | none => rfl
            | some p => exact hp fl p el v _
        all_goals rfl
      · rfl
    | wrap path ns mode c inner => simp only [Ser.renamed, serStep, isNone_renamed, len_renamed, ih, hr.backend]
    | homog title c inner =>
      cases v with
      | list vs =>
        simp only [Ser.renamed, serStep, Val.renamed, Val.isNone, all_eq]
        cases enc with
        | list encs => simp only [items_ren (ρ := ρ) (f := ser env n fl inner) (g := ser env' n fl (inner.renamed ρ τ)) (fun e v x => ih fl inner e v x)]; rfl
        | _ => rfl
      | _ => rfl
    | hetero title c inners =>
      cases v with
      | list vs =>
        simp only [Ser.renamed, serStep, Val.renamed, Val.isNone, all_eq, serAll_eq]
        cases enc with
        | list encs =>
          simp only [List.isEmpty_map, List.length_map,
            tuple_ren (ρ := ρ) (τ := τ) (f := ser env n fl) (g := ser env' n fl) (fun s e v x => ih fl s e v x)]
          rfl
        | _ => rfl
      | _ => rfl
    | proxy p =>
      simp only [Ser.renamed, serStep]
      have h3 : (p.renamed ρ).cls = ρ p.cls := rfl
      have h4 : (p.renamed ρ).nillable = p.nillable := rfl
      have h5 : (p.renamed ρ).name = p.name := rfl
      have h6 : (p.renamed ρ).nsmap = p.nsmap := rfl
      rw [h3, h4, h5, h6]
      rcases hr.classes p.cls with ⟨h1, h2⟩ | ⟨m, m', h1, h2, hm⟩
      · rw [h1, h2]
      · rw [h1, h2]
        simp only [isNone_renamed, hr.backend, outModel_ren (fun fl s e v x => ih fl s e v x) hm]

end Rename

/-- C100: if classes get other names, every document is read alike: it gives the same instance up to the names, or a validation error in both cases, or the
same other exception. -/
theorem C100_reading (ρ τ : String → String) (env env' : Env) (hr : env.Renames ρ τ env') (eas : Bool) (n : Nat) (cls : String) (doc : Node) :
    SameRenamed ρ (fromXmlTree env eas n cls doc).1 (fromXmlTree env' eas n (ρ cls) doc).1 := by
  have key : (fromXmlTree env eas n cls doc).1.SameKind (Rename.Ren ρ) (fromXmlTree env' eas n (ρ cls) doc).1 := by
    unfold fromXmlTree
    rw [hr.backend]
    rcases hr.classes cls with ⟨h1, h2⟩ | ⟨m, m', h1, h2, hm⟩
    · rw [h1, h2]
      exact rfl
    · rw [h1, h2]
      simp only [hm.elementName]
      split
      · exact (Rename.model_ren hr hm (fun s l l' => Rename.deser_ren hr eas n s l l') [] [] _ _ rfl).1
      · exact rfl
  revert key
  generalize (fromXmlTree env eas n cls doc).1 = o
  generalize (fromXmlTree env' eas n (ρ cls) doc).1 = o'
  intro key
  cases o <;> cases o' <;> simp_all [Out.SameKind, SameRenamed]

/-- C100: if classes get other names, every instance is written alike: the same document or the same exception. -/
theorem C100_writing (ρ τ : String → String) (env env' : Env) (hr : env.Renames ρ τ env') (n : Nat) (fl : Flags) (cls : String) (v : Val) :
    toXmlTree env' n fl (ρ cls) (v.renamed ρ) = toXmlTree env n fl cls v := by
  unfold toXmlTree
  rcases hr.classes cls with ⟨h1, h2⟩ | ⟨m, m', h1, h2, hm⟩
  · rw [h1, h2]
  · rw [h1, h2]
    simp only [hm.elementName, hm.nsmap, hr.toJsonable, hr.backend, Rename.outModel_ren (fun fl s e v x => Rename.ser_ren hr n fl s e v x) hm]

/-- C100: a program whose classes have other names defines the same classes, whatever the order of the class statements and of the calls of `model_rebuild`:
the same ones are complete, and they have the same serializers up to the names. -/
theorem C100_definitions (ρ τ : String → String) (hinj : ∀ a b, ρ a = ρ b → a = b) (classes classes' : Classes) (hc : classes.Renames ρ τ classes')
    (k : Nat) (es : List Event) (cls : String) :
    (history classes k es .empty cls = none ∧ history classes' k (es.map (Event.renamed ρ)) .empty (ρ cls) = none) ∨
    ∃ m m', history classes k es .empty cls = some m ∧ history classes' k (es.map (Event.renamed ρ)) .empty (ρ cls) = some m' ∧ m.Renames ρ τ m' :=
  RenameCompile.history_rn hc hinj k es (fun _ => .inl ⟨rfl, rfl⟩) cls

/-- C100: a class statement, or a `model_rebuild`, that fails in the one program fails with the same exception in the other. -/
theorem C100_rejected (ρ τ : String → String) (hinj : ∀ a b, ρ a = ρ b → a = b) (classes classes' : Classes) (hc : classes.Renames ρ τ classes')
    (k : Nat) (es : List Event) (e : Event) (err : DefErr) : e.run classes k (history classes k es .empty) = .error err ↔
      (e.renamed ρ).run classes' k (history classes' k (es.map (Event.renamed ρ)) .empty) = .error err := by
  have h := RenameCompile.run_rn hc hinj (RenameCompile.history_rn hc hinj k es (built := .empty) (built' := .empty) fun _ => .inl ⟨rfl, rfl⟩) k e
  revert h
  generalize e.run classes k (history classes k es .empty) = x
  generalize (e.renamed ρ).run classes' k _ = y
  intro h
  cases x <;> cases y <;> simp only [RenameCompile.Both] at h
  · rw [h]
  · exact ⟨nofun, nofun⟩

/-- C100: after two such programs every document is read alike and every instance is written alike, if instances are validated and encoded alike. -/
theorem C100_program (ρ τ : String → String) (hinj : ∀ a b, ρ a = ρ b → a = b) (classes classes' : Classes) (hc : classes.Renames ρ τ classes')
    (k : Nat) (es : List Event) (env env' : Env) (h1 : env.model = history classes k es .empty)
    (h2 : env'.model = history classes' k (es.map (Event.renamed ρ)) .empty) (hb : env'.backend = env.backend)
    (hv : ∀ cls d, RenamedValidation ρ (env.validate cls d) (env'.validate (ρ cls) (d.renamed ρ)))
    (hj : ∀ v, env'.toJsonable (v.renamed ρ) = env.toJsonable v) (ho : env'.reprOf = env.reprOf) (n : Nat) (cls : String) :
    (∀ eas doc, SameRenamed ρ (fromXmlTree env eas n cls doc).1 (fromXmlTree env' eas n (ρ cls) doc).1) ∧
    (∀ fl v, toXmlTree env' n fl (ρ cls) (v.renamed ρ) = toXmlTree env n fl cls v) := by
  have hr : env.Renames ρ τ env' :=
    { injective := hinj
      backend := hb
      classes := fun c => by rw [h1, h2]; exact C100_definitions ρ τ hinj classes classes' hc k es c
      validate := hv
      toJsonable := hj
      reprOf := ho }
  exact ⟨fun eas doc => C100_reading ρ τ env env' hr eas n cls doc, fun fl v => C100_writing ρ τ env env' hr n fl cls v⟩

/-! ## Non-vacuity -/

namespace Ex

/-- The classes get a prefix. -/
def prefixed (c : String) : String := "My" ++ c

theorem prefixed_injective (a b : String) (h : prefixed a = prefixed b) : a = b := by
  have h2 : ("My" ++ a).toList = ("My" ++ b).toList := congrArg String.toList h
  simp only [String.toList_append, List.append_cancel_left_eq] at h2
  exact String.toList_inj.1 h2

/-- `class Rein(BaseXmlModel, tag='rein'): text: str`. -/
def rein (name : String) : ModelSer where
  name := name
  elementName := "rein"
  body := .fields [{ name := "text", ser := .text false false }]

/-- `class Halter(BaseXmlModel, tag='halter'): text: str`. -/
def halter (name : String) : ModelSer where
  name := name
  elementName := "halter"
  body := .fields [{ name := "text", ser := .text false false }]

def reinProxy (cls : String) : Proxy := { cls := cls, name := "rein", nsmap := none, mode := .strict, computed := false, nillable := false }

def halterProxy (cls : String) : Proxy := { cls := cls, name := "halter", nsmap := none, mode := .strict, computed := false, nillable := false }

/-- `class Stall(BaseXmlModel, tag='stall'): text: list[Rein | Halter]`. -/
def stall (name rein halter : String) : ModelSer where
  name := name
  elementName := "stall"
  body := .fields [{ name := "text", ser := .homog ⟨name, false⟩ false (.modelUnion ⟨name, false⟩ false [reinProxy rein, halterProxy halter]) }]

/-- The program before and after. -/
def stallEnv (renamed : Bool) : Env where
  backend := .lxml
  model := fun c =>
    if renamed then
      if c = "MyStall" then some (stall "MyStall" "MyRein" "MyHalter")
      else if c = "MyRein" then some (rein "MyRein") else if c = "MyHalter" then some (halter "MyHalter") else none
    else
      if c = "Stall" then some (stall "Stall" "Rein" "Halter")
      else if c = "Rein" then some (rein "Rein") else if c = "Halter" then some (halter "Halter") else none
  validate := fun _ d => needs "text" d
  toJsonable := fun _ => .dict [("text", .list [.dict [("text", .str "red")], .dict [("text", .str "blue")]])]
  reprOf := fun _ => ""

theorem stall_renames : (stallEnv false).Renames prefixed prefixed (stallEnv true) where
  injective := prefixed_injective
  backend := rfl
  classes cls := by
    by_cases h1 : cls = "Stall"
    · subst h1
      exact .inr ⟨_, _, rfl, rfl, ⟨rfl, rfl, .fields (.cons ⟨rfl, rfl, rfl, rfl, .inl ⟨rfl, rfl⟩, .inl ⟨rfl, rfl⟩⟩ .nil), rfl, rfl⟩⟩
    · by_cases h2 : cls = "Rein"
      · subst h2
        exact .inr ⟨_, _, rfl, rfl, ⟨rfl, rfl, .fields (.cons ⟨rfl, rfl, rfl, rfl, .inl ⟨rfl, rfl⟩, .inl ⟨rfl, rfl⟩⟩ .nil), rfl, rfl⟩⟩
      · by_cases h3 : cls = "Halter"
        · subst h3
          exact .inr ⟨_, _, rfl, rfl, ⟨rfl, rfl, .fields (.cons ⟨rfl, rfl, rfl, rfl, .inl ⟨rfl, rfl⟩, .inl ⟨rfl, rfl⟩⟩ .nil), rfl, rfl⟩⟩
        · have g1 : prefixed cls ≠ "MyStall" := fun h => h1 (prefixed_injective cls "Stall" h)
          have g2 : prefixed cls ≠ "MyRein" := fun h => h2 (prefixed_injective cls "Rein" h)
          have g3 : prefixed cls ≠ "MyHalter" := fun h => h3 (prefixed_injective cls "Halter" h)
          exact .inl ⟨by simp [stallEnv, h1, h2, h3], by simp [stallEnv, g1, g2, g3]⟩
  validate cls d := by
    show RenamedValidation prefixed (needs "text" d) (needs "text" (d.renamed prefixed))
    cases d <;> try exact .invalid _ _
    rename_i d
    simp only [Val.renamed, needs, Rename.get_renamed]
    cases Dict.get? d "text" with
    | none => exact .invalid _ _
    | some v => cases v <;> first | exact .valid [("text", _)] _ | exact .invalid _ _
  toJsonable _ := rfl
  reprOf := rfl

/-- A document with two sub-models of the union, and what the program before makes of it; the program after gives the same up to the names. -/
def stallDoc : Node := el "stall" none [el "rein" (some "red") [] [], el "halter" (some "blue") [] []] []

def stallVal (stall rein halter : String) : Val :=
  .model stall [("text", .list [.model rein [("text", .str "red")] ["text"], .model halter [("text", .str "blue")] ["text"]])] ["text"]

example : (fromXmlTree (stallEnv false) false 9 "Stall" stallDoc).1 = .ok (stallVal "Stall" "Rein" "Halter") := by kernel_rfl

example : (fromXmlTree (stallEnv true) false 9 "MyStall" stallDoc).1 = .ok (stallVal "MyStall" "MyRein" "MyHalter") := by kernel_rfl

example : (stallVal "Stall" "Rein" "Halter").renamed prefixed = stallVal "MyStall" "MyRein" "MyHalter" := rfl

/-- Both write it, to the same document. -/
example : toXmlTree (stallEnv true) 9 {} "MyStall" (stallVal "MyStall" "MyRein" "MyHalter") =
    toXmlTree (stallEnv false) 9 {} "Stall" (stallVal "Stall" "Rein" "Halter") :=
  C100_writing prefixed prefixed _ _ stall_renames 9 {} "Stall" (stallVal "Stall" "Rein" "Halter")

example : (toXmlTree (stallEnv false) 9 {} "Stall" (stallVal "Stall" "Rein" "Halter")) = .ok stallDoc := by kernel_rfl

/-- The definitions of these classes. -/
def reinDef (tag cls : String) : ClassDef where
  name := cls
  params := { tag := some tag }
  schema := .model cls false
  body := .fields [{ name := "text", schema := .prim "str" }] []

def stallDef (cls rein halter : String) : ClassDef where
  name := cls
  params := { tag := some "stall" }
  schema := .model cls false
  body := .fields [{ name := "text", schema := .list (.union [.model rein false, .model halter false]) }] []

def stallDefs (renamed : Bool) : Classes := fun c =>
  if renamed then
    if c = "MyStall" then some (stallDef "MyStall" "MyRein" "MyHalter")
    else if c = "MyRein" then some (reinDef "rein" "MyRein") else if c = "MyHalter" then some (reinDef "halter" "MyHalter") else none
  else
    if c = "Stall" then some (stallDef "Stall" "Rein" "Halter")
    else if c = "Rein" then some (reinDef "rein" "Rein") else if c = "Halter" then some (reinDef "halter" "Halter") else none

theorem stall_defs : (stallDefs false).Renames prefixed prefixed (stallDefs true) := by
  intro cls
  have same : ∀ tag c, (reinDef tag c).Renames prefixed prefixed (reinDef tag (prefixed c)) ∨ Elem.truthy (some tag) = false := by
    intro tag c
    cases h : Elem.truthy (some tag) with
    | false => exact .inr rfl
    | true => exact .inl ⟨rfl, .inl h, rfl, rfl, rfl, rfl, rfl, rfl, fun _ => .inl ⟨rfl, rfl⟩, fun _ => .inl ⟨rfl, rfl⟩⟩
  by_cases h1 : cls = "Stall"
  · subst h1
    exact .inr ⟨_, _, rfl, rfl, rfl, .inl (by decide), rfl, rfl, rfl, rfl, rfl, rfl, fun _ => .inl ⟨rfl, rfl⟩, fun _ => .inl ⟨rfl, rfl⟩⟩
  · by_cases h2 : cls = "Rein"
    · subst h2
      exact .inr ⟨_, _, rfl, rfl, (same "rein" "Rein").resolve_right (by decide)⟩
    · by_cases h3 : cls = "Halter"
      · subst h3
        exact .inr ⟨_, _, rfl, rfl, (same "halter" "Halter").resolve_right (by decide)⟩
      · have g1 : prefixed cls ≠ "MyStall" := fun h => h1 (prefixed_injective cls "Stall" h)
        have g2 : prefixed cls ≠ "MyRein" := fun h => h2 (prefixed_injective cls "Rein" h)
        have g3 : prefixed cls ≠ "MyHalter" := fun h => h3 (prefixed_injective cls "Halter" h)
        exact .inl ⟨by simp [stallDefs, h1, h2, h3], by simp [stallDefs, g1, g2, g3]⟩

/-- Both programs define all three classes. -/
example : (history (stallDefs false) 9 [.statement "Rein" true, .statement "Halter" true, .statement "Stall" true] .empty "Stall").isSome = true := by
  kernel_rfl

example : (history (stallDefs true) 9 ([.statement "Rein" true, .statement "Halter" true, .statement "Stall" true].map (Event.renamed prefixed)) .empty
    "MyStall").isSome = true := by
  kernel_rfl

/-- The tag must be declared: without it the name of the class is the name of the element. -/
example : (history (fun c => if c = "Rein" then some { reinDef "" "Rein" with params := {} } else none) 9 [.statement "Rein" true] .empty "Rein").map
    ModelSer.elementName = some "Rein" := by
  kernel_rfl

end Ex

end PXml
