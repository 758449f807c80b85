import Verif.Lemmas.Rekey
import Verif.Props.Retext

/-!
# C104: the names of attributes have no meaning of their own

Specification: `SpecRekey.lean`.
-/

namespace PXml

open Elem

namespace Rekey

variable {κ : String → String}

/-- The second value is the first with the attributes of native elements renamed. -/
abbrev Ren (κ : String → String) (a b : Val) : Prop := b = a.rekeyed κ

theorem isNone_rekeyed (v : Val) : (v.rekeyed κ).isNone = v.isNone := by cases v <;> simp [Val.rekeyed, Val.isNone]

theorem items_length : ∀ d : List (String × Val), (Val.rekeyedItems κ d).length = d.length
  | [] => rfl
  | (k, v) :: d => by simp [Val.rekeyedItems, items_length d]

theorem len_rekeyed (v : Val) : (v.rekeyed κ).len? = v.len? := by
  cases v with
  | raw node => cases node <;> simp [Val.rekeyed, Node.rekeyed, Val.len?, nodes_eq]
  | _ => simp [Val.rekeyed, Val.len?, all_eq, items_length]

theorem get_rekeyed (k : String) : ∀ d : List (String × Val),
    Dict.get? (Val.rekeyedItems κ d) k = (Dict.get? d k).map (Val.rekeyed κ)
  | [] => rfl
  | (k', v) :: d => by
    simp only [Val.rekeyedItems, Dict.get?]
    split
    · rfl
    · exact get_rekeyed k d

theorem set_rekeyed (k : String) (v : Val) : ∀ d : List (String × Val),
    Val.rekeyedItems κ (Dict.set d k v) = Dict.set (Val.rekeyedItems κ d) k (v.rekeyed κ)
  | [] => by simp [Dict.set, Val.rekeyedItems]
  | (k', v') :: d => by
    simp only [Val.rekeyedItems, Dict.set]
    split
    · rfl
    · simp only [Val.rekeyedItems, set_rekeyed k v d]

/-! ## Reading -/

/-- The values found so far are the same up to the renaming, and there are errors in both or in none. -/
def Found (κ : String → String) (a b : List Val × Dict ErrKey VErr) : Prop := b.1 = a.1.map (Val.rekeyed κ) ∧ a.2.isEmpty = b.2.isEmpty

/-- The same for the fields. -/
def FoundFields (κ : String → String) (a b : Dict String Val × Dict ErrKey VErr) : Prop :=
  b.1 = Val.rekeyedItems κ a.1 ∧ a.2.isEmpty = b.2.isEmpty

theorem renamed_none : Val.rekeyed κ .none = .none := rfl

/-- The runs give the same up to the renaming, and differ at most in what is reported. -/
def SameAs {α : Type} (κ : String → String) (R : α → α → Prop) (r r' : Out α × St) : Prop := r.1.SameKind R r'.1 ∧ r'.2.el = r.2.el.rekeyed κ

/-- The second function reads from the element with its attributes renamed what the first reads from the element. -/
def ReadAs {α : Type} (κ : String → String) (R : α → α → Prop) (f g : St → Out α × St) : Prop :=
  ∀ st st', st'.el = st.el.rekeyed κ → SameAs κ R (f st) (g st')

theorem onChild_rekey {α : Type} {R : α → α → Prop} {f g : St → Out α × St} (h : ReadAs κ R f g) {st st' : St} (he : st'.el = st.el.rekeyed κ) (i : Nat) :
    SameAs κ R (onChild st i f) (onChild st' i g) := by
  unfold onChild
  rw [he, r_elements, List.getElem?_map]
  cases st.el.elements[i]? with
  | none => exact ⟨rfl, he⟩
  | some c =>
    obtain ⟨h1, h2⟩ := h ⟨c, st.sm⟩ ⟨c.rekeyed κ, st'.sm⟩ rfl
    simp only [Option.map_some]
    exact ⟨h1, by simp only [h2, setChild_r]⟩

theorem popChild_rekey {f g : St → Out Val × St} (h : ReadAs κ (Ren κ) f g) (u : String) (m : Mode) : ReadAs κ (Ren κ) (fun st =>
    match st.el.popElement u m with
    | (none, el) => (.ok .none, { st with el := el })
    | (some i, el) => onChild { st with el := el } i f) (fun st =>
    match st.el.popElement u m with
    | (none, el) => (.ok .none, { st with el := el })
    | (some i, el) => onChild { st with el := el } i g) := by
  intro st st' he
  simp only [Elem.popElement]
  rw [he, search_r]
  cases st.el.search u m true with
  | mk o e' =>
    cases o with
    | none => exact ⟨rfl, rfl⟩
    | some i => exact onChild_rekey (st := ⟨e', st.sm⟩) (st' := ⟨e'.rekeyed κ, st'.sm⟩) h rfl i

theorem deserText_rekey (hκ : Rekeying κ) (eas c nl : Bool) : ReadAs κ (Ren κ) (deserText eas c nl) (deserText eas c nl) := by
  intro st st' he
  obtain ⟨e, sm⟩ := st
  obtain ⟨e', sm'⟩ := st'
  simp only at he
  subst he
  have ht : ∀ t, Ren κ (textVal eas t) (textVal eas t) := by
    intro t
    unfold textVal
    repeat' split
    all_goals rfl
  unfold deserText
  split
  · exact ⟨rfl, rfl⟩
  · cases nl with
    | false => 
      simp only [Bool.false_eq_true, if_false, popText_r]
      exact ⟨ht _, rfl⟩
    | true =>
      simp only [if_true, isNil_r hκ]
      cases e.isNil with
      | mk b e1 =>
        cases b with
        | true => exact ⟨rfl, rfl⟩
        | false => exact ⟨by simp only [popText_r]; exact ht _, by simp only [popText_r]⟩

theorem descend_rekey {f g : St → Out Val × St} (h : ReadAs κ (Ren κ) f g) (m : Mode) (path : List String) :
    ReadAs κ (Ren κ) (descend m f path) (descend m g path) := by
  induction path with
  | nil => exact h
  | cons u us ih =>
    intro st st' he
    simp only [descend, he, findElement_r]
    cases st.el.findElement u m with
    | error x => exact ⟨rfl, he⟩
    | ok r =>
      obtain ⟨o, e1⟩ := r
      cases o with
      | none => exact ⟨rfl, rfl⟩
      | some i => exact onChild_rekey (st := ⟨e1, st.sm⟩) (st' := ⟨e1.rekeyed κ, st'.sm⟩) ih rfl i

theorem homogLoop_rekey {f g : Loc → St → Out Val × St} (h : ∀ l l', ReadAs κ (Ren κ) (f l) (g l')) (loc loc' : Loc) (n idx : Nat)
    (acc : List Val) (errs errs' : Dict ErrKey VErr) (hE : errs.isEmpty = errs'.isEmpty) :
    ReadAs κ (Found κ) (homogLoop f loc n idx acc errs) (homogLoop g loc' n idx (acc.map (Val.rekeyed κ)) errs') := by
  induction n generalizing idx acc errs errs' with
  | zero => exact fun st st' he => ⟨trivial, he⟩
  | succ n ih =>
    intro st st' he
    unfold homogLoop
    obtain ⟨h1, h2⟩ := h (loc ++ [.idx idx]) (loc' ++ [.idx idx]) st st' he
    cases hf : f (loc ++ [.idx idx]) st with
    | mk o s1 =>
      cases hg : g (loc' ++ [.idx idx]) st' with
      | mk o' s2 =>
        rw [hf, hg] at h1 h2
        cases o <;> cases o' <;> simp only [Out.SameKind] at h1
        · subst h1
          simp only [isNone_rekeyed]
          split
          · exact ⟨⟨rfl, hE⟩, h2⟩
          · rename_i v _
            have := ih (idx + 1) (acc ++ [v]) _ _ hE _ _ h2
            simpa only [List.map_append, List.map_cons, List.map_nil] using this
        · exact ih _ _ _ _ (by cases errs <;> cases errs' <;> rfl) _ _ h2
        · exact ⟨h1, h2⟩
        · exact ⟨trivial, h2⟩

theorem heteroLoop_rekey {f g : Ser → Loc → St → Out Val × St} (h : ∀ s l l', s.mapless = true → ReadAs κ (Ren κ) (f s l) (g (s.rekeyed κ) l')) (loc loc' : Loc)
    (ss : List Ser) (hs : Ser.maplessAll ss = true) (idx : Nat) (acc : List Val) (errs errs' : Dict ErrKey VErr) (hE : errs.isEmpty = errs'.isEmpty) :
    ReadAs κ (Found κ) (heteroLoop f loc ss idx acc errs) (heteroLoop g loc' (ss.map (Ser.rekeyed κ)) idx (acc.map (Val.rekeyed κ)) errs') := by
  induction ss generalizing idx acc errs errs' with
  | nil => exact fun st st' he => ⟨⟨rfl, hE⟩, he⟩
  | cons s ss ih =>
    simp only [Ser.maplessAll, Bool.and_eq_true] at hs
    intro st st' he
    simp only [List.map_cons]
    unfold heteroLoop
    obtain ⟨h1, h2⟩ := h s (loc ++ [.idx idx]) (loc' ++ [.idx idx]) hs.1 st st' he
    cases hf : f s (loc ++ [.idx idx]) st with
    | mk o s1 =>
      cases hg : g (s.rekeyed κ) (loc' ++ [.idx idx]) st' with
      | mk o' s2 =>
        rw [hf, hg] at h1 h2
        cases o <;> cases o' <;> simp only [Out.SameKind] at h1
        · subst h1
          rename_i v
          have := ih hs.2 (idx + 1) (acc ++ [v]) _ _ hE _ _ h2
          simpa only [List.map_append, List.map_cons, List.map_nil] using this
        · exact ih hs.2 _ _ _ _ (by cases errs <;> cases errs' <;> rfl) _ _ h2
        · exact ⟨h1, h2⟩
        · exact ⟨trivial, h2⟩

theorem unionLoop_rekey {f g : Proxy → St → Out Val × St} (h : ∀ p, ReadAs κ (Ren κ) (f p) (g p)) (title title' : Title)
    (ps : List Proxy) (errs errs' : Dict ErrKey VErr) (hE : errs.isEmpty = errs'.isEmpty) :
    ReadAs κ (Ren κ) (unionLoop f title ps errs) (unionLoop g title' ps errs') := by
  induction ps generalizing errs errs' with
  | nil =>
    intro st st' he
    unfold unionLoop
    rw [hE, he]
    split
    · exact ⟨rfl, he⟩
    · exact ⟨trivial, stepForward_r _⟩
  | cons p ps ih =>
    intro st st' he
    unfold unionLoop
    obtain ⟨h1, h2⟩ := h p ⟨st.el.createSnapshot, st.sm⟩ ⟨st'.el.createSnapshot, st'.sm⟩ he
    cases hf : f p ⟨st.el.createSnapshot, st.sm⟩ with
    | mk o s1 =>
      cases hg : g p ⟨st'.el.createSnapshot, st'.sm⟩ with
      | mk o' s2 =>
        rw [hf, hg] at h1 h2
        cases o <;> cases o' <;> simp only [Out.SameKind] at h1
        · subst h1
          simp only [isNone_rekeyed]
          split
          · exact ih _ _ hE _ _ he
          · exact ⟨rfl, by simp only at h2; simp only [h2, he, applySnapshot_r]⟩
        · exact ih _ _ (by rw [isEmpty_set, isEmpty_set]) _ _ he
        · exact ⟨h1, he⟩
        · exact ⟨trivial, he⟩

theorem taggedLoop_rekey (hκ : Rekeying κ) {f g : Proxy → St → Out Val × St} (h : ∀ p, ReadAs κ (Ren κ) (f p) (g p)) (loc loc' : Loc)
    (a : String) (m : Mode) (alts : List (String × Proxy)) :
    ReadAs κ (Ren κ) (taggedLoop f loc a m alts) (taggedLoop g loc' (κ a) m alts) := by
  induction alts with
  | nil => exact fun st st' he => ⟨rfl, he⟩
  | cons p alts ih =>
    obtain ⟨tag, p⟩ := p
    intro st st' he
    unfold taggedLoop
    rw [he, search_r]
    cases st.el.search p.name m false with
    | mk o e' =>
      cases o with
      | none => exact ih _ _ rfl
      | some i =>
        simp only [r_elements, List.getElem?_map]
        cases e'.elements[i]? with
        | none => exact ⟨rfl, rfl⟩
        | some c =>
          have ha : (c.rekeyed κ).getAttrib (κ a) = c.getAttrib a := by simp only [Elem.getAttrib, r_attrib, getD_d, get_d hκ]
          simp only [Option.map_some, ha]
          by_cases hc : c.getAttrib a = some tag
          · rw [if_pos hc, if_pos hc]
            exact h p ⟨e', _⟩ ⟨e'.rekeyed κ, _⟩ rfl
          · rw [if_neg hc, if_neg hc]
            exact ih ⟨e', _⟩ ⟨e'.rekeyed κ, _⟩ rfl

theorem deserFields_rekey {f g : Ser → Loc → St → Out Val × St} (h : ∀ s l l', s.mapless = true → ReadAs κ (Ren κ) (f s l) (g (s.rekeyed κ) l')) {fs fs' : List Field}
    (hfs : Fields.Rekeys κ fs fs') (res : Dict String Val) (errs errs' : Dict ErrKey VErr) (hE : errs.isEmpty = errs'.isEmpty) :
    ReadAs κ (FoundFields κ) (deserFields f fs res errs) (deserFields g fs' (Val.rekeyedItems κ res) errs') := by
  induction hfs generalizing res errs errs' with
  | nil => exact fun st st' he => ⟨⟨rfl, hE⟩, he⟩
  | @cons fd fd' fs fs' hfd _ ih =>
    intro st st' he
    unfold deserFields
    have key : ∀ (r r' : Out Val × St), SameAs κ (Ren κ) r r' → SameAs κ (FoundFields κ)
        (match r with
          | (.ok v, st') => deserFields f fs (if v.isNone then res else res.set (fd.alias.getD fd.name) v) errs st'
          | (.verr e, st') => deserFields f fs res (errs.set (some (.name fd.name)) e) st'
          | (.crash e, st') => (.crash e, st')
          | (.diverge, st') => (.diverge, st'))
        (match r' with
          | (.ok v, st') =>
            deserFields g fs' (if v.isNone then Val.rekeyedItems κ res else Dict.set (Val.rekeyedItems κ res) (fd'.alias.getD fd'.name) v) errs' st'
          | (.verr e, st') => deserFields g fs' (Val.rekeyedItems κ res) (errs'.set (some (.name fd'.name)) e) st'
          | (.crash e, st') => (.crash e, st')
          | (.diverge, st') => (.diverge, st')) := by
      rintro ⟨o, s1⟩ ⟨o', s2⟩ ⟨h1, h2⟩
      cases o <;> cases o' <;> simp only [Out.SameKind] at h1
      · subst h1
        rename_i v
        have := ih (if v.isNone then res else res.set (fd.alias.getD fd.name) v) _ _ hE _ _ h2
        simp only [isNone_rekeyed, hfd.alias, hfd.name]
        split <;> rename_i hv
        · simpa only [hv, if_true] using this
        · simpa only [hv, if_false, Bool.false_eq_true, set_rekeyed] using this
      · exact ih _ _ _ (by rw [isEmpty_set, isEmpty_set]) _ _ h2
      · exact ⟨h1, h2⟩
      · exact ⟨trivial, h2⟩
    refine key _ _ ?_
    rcases hfd.validator with ⟨h1, h2⟩ | ⟨v, v', h1, h2, hv⟩
    · simp only [h1, h2, hfd.ser]
      exact h _ _ _ hfd.mapless _ _ he
    · simp only [h1, h2, he]
      obtain ⟨h3, h4⟩ := hv st.el
      refine ⟨?_, h4⟩
      revert h3
      generalize (v st.el).1 = o
      generalize (v' (st.el.rekeyed κ)).1 = o'
      intro h3
      cases o <;> cases o' <;> simp_all [SameRekeyed, Out.SameKind]

theorem validate_rekey {env env' : Env} {cls : String} {m m' : ModelSer} {d d' : Val} (hx : m'.extraForbid = m.extraForbid)
    (hv : RekeyedValidation κ (env.validate cls d) (env'.validate cls d')) (st st' : St) (he : st'.el = st.el.rekeyed κ) :
    (validateModel env cls m d st).SameKind (Ren κ) (validateModel env' cls m' d' st') := by
  unfold validateModel
  rw [he, hx]
  have key : ∀ x y : Option VErr, x.isSome = y.isSome → Out.SameKind (α := Val) (Ren κ)
      (match x with
        | some e => .verr e
        | none => match env.validate cls d with
          | .ok (fs, set) => .ok (.model cls fs set)
          | .error e => .verr (setSourceline m.hideInput st.sm e))
      (match y with
        | some e => .verr e
        | none => match env'.validate cls d' with
          | .ok (fs, set) => .ok (.model cls fs set)
          | .error e => .verr (setSourceline m'.hideInput st'.sm e)) := by
    intro x y hxy
    cases x with
    | some e => cases y with
      | some e' => trivial
      | none => cases hxy
    | none => cases y with
      | some e' => cases hxy
      | none =>
        simp only
        generalize env.validate cls d = a at hv
        generalize env'.validate cls d' = b at hv
        cases hv with
        | valid fs set => simp only [Out.SameKind, Ren, Val.rekeyed]
        | invalid e e' => trivial
  refine key _ _ ?_
  split
  · exact (checkExtra_isSome _ _ _).symm
  · rfl

theorem model_rekey {env env' : Env} (hr : env.Rekeys κ env') {cls : String} {m m' : ModelSer} (hm : m.Rekeys κ m')
    {f g : Ser → Loc → St → Out Val × St} (h : ∀ s l l', s.mapless = true → ReadAs κ (Ren κ) (f s l) (g (s.rekeyed κ) l')) (loc loc' : Loc) :
    ReadAs κ (Ren κ) (deserModel env f cls m loc) (deserModel env' g cls m' loc') := by
  intro st st' he
  have hb := hm.body
  unfold deserModel
  generalize m.body = b at hb
  generalize m'.body = b' at hb
  cases hb with
  | @fields fs fs' hfs =>
    simp only
    obtain ⟨h1, h2⟩ := deserFields_rekey h hfs [] [] [] rfl st st' he
    simp only [Val.rekeyedItems] at h1 h2
    cases hf : deserFields f fs [] [] st with
    | mk o s1 =>
      cases hg : deserFields g fs' [] [] st' with
      | mk o' s2 =>
        rw [hf, hg] at h1 h2
        cases o <;> cases o' <;> simp only [Out.SameKind, FoundFields] at h1
        · obtain ⟨h3, h4⟩ := h1
          rename_i a b
          obtain ⟨res, errs⟩ := a
          obtain ⟨res', errs'⟩ := b
          simp only at h3 h4
          subst h3
          simp only [h4]
          split
          · exact ⟨validate_rekey hm.extraForbid (hr.validate cls (.dict res)) _ _ h2, h2⟩
          · exact ⟨trivial, h2⟩
        · exact ⟨trivial, h2⟩
        · exact ⟨h1, h2⟩
        · exact ⟨trivial, h2⟩
  | root s hs =>
    simp only
    obtain ⟨h1, h2⟩ := h s loc loc' hs st st' he
    cases hf : f s loc st with
    | mk o s1 =>
      cases hg : g (s.rekeyed κ) loc' st' with
      | mk o' s2 =>
        rw [hf, hg] at h1 h2
        cases o <;> cases o' <;> simp only [Out.SameKind] at h1
        · subst h1
          rename_i v
          refine ⟨validate_rekey hm.extraForbid ?_ _ _ h2, h2⟩
          rw [isNone_rekeyed]
          split
          · exact hr.validate cls .undef
          · exact hr.validate cls v
        · exact ⟨trivial, h2⟩
        · exact ⟨h1, h2⟩
        · exact ⟨trivial, h2⟩

theorem deser_rekey {env env' : Env} (hr : env.Rekeys κ env') (eas : Bool) (n : Nat) (s : Ser) (hs : s.mapless = true) (loc loc' : Loc) :
    ReadAs κ (Ren κ) (deser env eas n s loc) (deser env' eas n (s.rekeyed κ) loc') := by
  induction n generalizing s loc loc' with
  | zero => exact fun st st' he => ⟨trivial, he⟩
  | succ n ih =>
    intro st st' he
    change SameAs κ (Ren κ) (deserStep env eas (deser env eas n) n s loc st) (deserStep env' eas (deser env' eas n) n (s.rekeyed κ) loc' st')
    cases s with
    | text c nl => simp only [Ser.rekeyed]; exact deserText_rekey hr.names eas c nl st st' he
    | attr nm c =>
      simp only [Ser.rekeyed, deserStep]
      split
      · exact ⟨rfl, he⟩
      · rw [he, popAttrib_r hr.names]
        cases st.el.popAttrib nm with
        | mk o e1 => cases o <;> exact ⟨rfl, rfl⟩
    | elem nm ns m c nl =>
      simp only [Ser.rekeyed, deserStep]
      split
      · exact ⟨rfl, he⟩
      · exact popChild_rekey (f := fun k => deserText eas c nl { k with sm := k.sm.set loc k.el.line })
          (g := fun k => deserText eas c nl { k with sm := k.sm.set loc' k.el.line }) (fun s1 s2 h => deserText_rekey hr.names eas c nl _ _ h) nm m st st' he
    | attrs a => exact nomatch hs
    | mapElem a nm m => exact nomatch hs
    | raw nm m c =>
      simp only [Ser.rekeyed, deserStep]
      split
      · exact ⟨rfl, he⟩
      · rw [he, hr.backend, popElementRemove_r]
        cases st.el.popElementRemove nm m with
        | mk o e1 =>
          cases o with
          | none => exact ⟨rfl, rfl⟩
          | some c1 => exact ⟨by simp only [Option.map_some, Out.SameKind, Ren, Val.rekeyed, toNative_r], rfl⟩
    | proxy p =>
      simp only [Ser.rekeyed, deserStep]
      rcases hr.classes p.cls with ⟨h1, h2⟩ | ⟨m, m', h1, h2, hm⟩
      · rw [h1, h2]
        exact ⟨rfl, he⟩
      · rw [h1, h2]
        simp only
        split
        · exact ⟨rfl, he⟩
        · refine popChild_rekey (f := _) (g := _) ?_ p.name p.mode st st' he
          intro s1 s2 h
          simp only [h, isNil_r hr.names]
          cases s1.el.isNil with
          | mk b e1 =>
            cases b with
            | true => exact ⟨rfl, rfl⟩
            | false => exact model_rekey hr hm (fun s l l' hs => ih s hs l l') loc loc' _ _ rfl
    | primUnion c s =>
      simp only [Ser.rekeyed, deserStep]
      split
      · exact ⟨rfl, he⟩
      · exact ih s hs loc loc' st st' he
    | modelUnion title c alts =>
      simp only [Ser.rekeyed, deserStep]
      split
      · exact ⟨rfl, he⟩
      · exact unionLoop_rekey (fun p => by simpa only [Ser.rekeyed] using ih (.proxy p) rfl loc loc') title _ alts [] [] rfl st st' he
    | tagged c d a m alts =>
      simp only [Ser.rekeyed, deserStep]
      split
      · exact ⟨rfl, he⟩
      · exact taggedLoop_rekey hr.names (fun p => by simpa only [Ser.rekeyed] using ih (.proxy p) rfl loc loc') loc loc' a m alts st st' he
    | wrap path ns m c s =>
      simp only [Ser.rekeyed, deserStep]
      split
      · exact ⟨rfl, he⟩
      · exact descend_rekey (f := fun k => deser env eas n s loc { k with sm := k.sm.set loc k.el.line })
          (g := fun k => deser env' eas n (s.rekeyed κ) loc' { k with sm := k.sm.set loc' k.el.line }) (fun s1 s2 h => ih s hs loc loc' _ _ h) m path st st' he
    | homog title c s =>
      simp only [Ser.rekeyed, deserStep]
      split
      · exact ⟨rfl, he⟩
      · obtain ⟨h1, h2⟩ := homogLoop_rekey (f := fun l st => deser env eas n s l st) (g := fun l st => deser env' eas n (s.rekeyed κ) l st)
          (fun l l' => ih s hs l l') loc loc' n 0 [] [] [] rfl st st' he
        simp only [List.map_nil] at h1 h2
        cases hf : homogLoop (fun l st => deser env eas n s l st) loc n 0 [] [] st with
        | mk o s1 =>
          cases hg : homogLoop (fun l st => deser env' eas n (s.rekeyed κ) l st) loc' n 0 [] [] st' with
          | mk o' s2 =>
            rw [hf, hg] at h1 h2
            cases o <;> cases o' <;> simp only [Out.SameKind, Found] at h1
            · obtain ⟨h3, h4⟩ := h1
              refine ⟨?_, h2⟩
              simp only [homogFinish, h3, h4, List.isEmpty_map]
              (repeat' split) <;> first | rfl | trivial | simp only [Out.SameKind, Ren, Val.rekeyed, all_eq]
            · exact ⟨trivial, h2⟩
            · exact ⟨h1, h2⟩
            · exact ⟨trivial, h2⟩
    | hetero title c ss =>
      simp only [Ser.rekeyed, deserStep, serAll_eq]
      split
      · exact ⟨rfl, he⟩
      · obtain ⟨h1, h2⟩ := heteroLoop_rekey (f := deser env eas n) (g := deser env' eas n) (fun s l l' hs => ih s hs l l') loc loc' ss hs 0 [] [] [] rfl
          st st' he
        simp only [List.map_nil] at h1 h2
        cases hf : heteroLoop (deser env eas n) loc ss 0 [] [] st with
        | mk o s1 =>
          cases hg : heteroLoop (deser env' eas n) loc' (ss.map (Ser.rekeyed κ)) 0 [] [] st' with
          | mk o' s2 =>
            rw [hf, hg] at h1 h2
            cases o <;> cases o' <;> simp only [Out.SameKind, Found] at h1
            · obtain ⟨h3, h4⟩ := h1
              refine ⟨?_, h2⟩
              simp only [heteroFinish, h3, h4, List.all_map, Function.comp_def, isNone_rekeyed]
              (repeat' split) <;> first | rfl | trivial | simp only [Out.SameKind, Ren, Val.rekeyed, all_eq]
            · exact ⟨trivial, h2⟩
            · exact ⟨h1, h2⟩
            · exact ⟨trivial, h2⟩

/-! ## Writing -/

theorem bind_rekey {x y : Out Elem} {k l : Elem → Out Elem} (h : y = x.rekeyed κ) (hk : ∀ e, l (e.rekeyed κ) = (k e).rekeyed κ) :
    y.bind l = (x.bind k).rekeyed κ := by
  subst h
  cases x with
  | ok e => exact hk e
  | _ => rfl

theorem items_rekey {f g : Elem → Val → Val → Out Elem} (h : ∀ e v x, g (e.rekeyed κ) (v.rekeyed κ) x = (f e v x).rekeyed κ) (fl : Flags) :
    ∀ (vs encs : List Val) (el : Elem), serItems g fl (vs.map (Val.rekeyed κ)) encs (el.rekeyed κ) = (serItems f fl vs encs el).rekeyed κ
  | [], _, _ => by simp only [List.map_nil, serItems, Out.rekeyed]
  | v :: vs, [], _ => by simp only [List.map_cons, serItems, Out.rekeyed]
  | v :: vs, x :: encs, el => by
    simp only [List.map_cons, serItems, isNone_rekeyed]
    split
    · exact items_rekey h fl vs encs el
    · exact bind_rekey (h el v x) fun e => items_rekey h fl vs encs e

theorem tuple_rekey {f g : Ser → Elem → Val → Val → Out Elem}
    (h : ∀ s e v x, s.mapless = true → g (s.rekeyed κ) (e.rekeyed κ) (v.rekeyed κ) x = (f s e v x).rekeyed κ) :
    ∀ (ss : List Ser), Ser.maplessAll ss = true → ∀ (vs encs : List Val) (el : Elem),
      serTuple g (ss.map (Ser.rekeyed κ)) (vs.map (Val.rekeyed κ)) encs (el.rekeyed κ) = (serTuple f ss vs encs el).rekeyed κ
  | [], _, _, _, _ => by simp only [List.map_nil, serTuple, Out.rekeyed]
  | s :: ss, _, [], _, _ => by simp only [List.map_cons, List.map_nil, serTuple, Out.rekeyed]
  | s :: ss, _, v :: vs, [], _ => by simp only [List.map_cons, serTuple, Out.rekeyed]
  | s :: ss, hs, v :: vs, x :: encs, el => by
    simp only [Ser.maplessAll, Bool.and_eq_true] at hs
    simp only [List.map_cons, serTuple]
    exact bind_rekey (h s el v x hs.1) fun e => tuple_rekey h ss hs.2 vs encs e

theorem getAttr_rekey (fields : List (String × Val)) (name : String) {k l : Val → Out Elem} (h : ∀ v, l (v.rekeyed κ) = (k v).rekeyed κ) :
    (getAttr (Val.rekeyedItems κ fields) name).bind l = ((getAttr fields name).bind k).rekeyed κ := by
  unfold getAttr
  rw [get_rekeyed]
  cases Dict.get? fields name with
  | none => rfl
  | some v => exact h v

theorem getItem_rekey (enc : Val) (name : String) {k l : Val → Out Elem} (h : ∀ v, l v = (k v).rekeyed κ) :
    (getItem enc name).bind l = ((getItem enc name).bind k).rekeyed κ := by
  generalize getItem enc name = o
  cases o with
  | ok v => exact h v
  | _ => rfl

theorem outFields_rekey {f g : Ser → Elem → Val → Val → Out Elem}
    (h : ∀ s e v x, s.mapless = true → g (s.rekeyed κ) (e.rekeyed κ) (v.rekeyed κ) x = (f s e v x).rekeyed κ) (fl : Flags)
    (self : Val) (fields : List (String × Val)) (set : List String) (enc : Val) {fs fs' : List Field} (hfs : Fields.Rekeys κ fs fs') (el : Elem) :
    serFields g fl (self.rekeyed κ) (Val.rekeyedItems κ fields) set enc fs' (el.rekeyed κ) =
      (serFields f fl self fields set enc fs el).rekeyed κ := by
  induction hfs generalizing el with
  | nil => rfl
  | @cons fd fd' fs fs' hfd _ ih =>
    simp only [serFields, hfd.exclude, hfd.name]
    split
    · exact ih el
    · split
      · exact ih el
      · refine bind_rekey ?_ fun e => ih e
        rcases hfd.serializer with ⟨h1, h2⟩ | ⟨k, k', h1, h2, hk⟩
        · simp only [h1, h2, hfd.ser]
          exact getAttr_rekey _ _ fun v => getItem_rekey _ _ fun x => h _ _ _ _ hfd.mapless
        · simp only [h1, h2]
          exact getAttr_rekey _ _ fun v => hk _ _ _

theorem outModel_rekey {f g : Flags → Ser → Elem → Val → Val → Out Elem}
    (h : ∀ fl s e v x, s.mapless = true → g fl (s.rekeyed κ) (e.rekeyed κ) (v.rekeyed κ) x = (f fl s e v x).rekeyed κ)
    {m m' : ModelSer} (hm : m.Rekeys κ m') (fl : Flags) (el : Elem) (v enc : Val) :
    serModel g m' fl (el.rekeyed κ) (v.rekeyed κ) enc = (serModel f m fl el v enc).rekeyed κ := by
  have hb := hm.body
  cases v with
  | model cls fields set =>
    simp only [Val.rekeyed, serModel, hm.skipEmpty]
    generalize m.body = b at hb
    generalize m'.body = b' at hb
    cases hb with
    | fields hfs => exact outFields_rekey (fun s e v x hs => h _ s e v x hs) _ (.model cls fields set) fields set enc hfs el
    | root s hs =>
      simp only
      split
      · rfl
      · exact getAttr_rekey _ _ fun v => h _ _ _ _ _ hs
  | _ => rfl

theorem pyStr_rekey {env env' : Env} (h : env'.reprOf = env.reprOf) (v : Val) : pyStr env' v = pyStr env v := by
  unfold pyStr
  split <;> first | rfl | rw [h]

theorem encode_rekey {env env' : Env} (h : env'.reprOf = env.reprOf) (v : Val) : encodePrimitive env' v = encodePrimitive env v := by
  unfold encodePrimitive
  split <;> first | rfl | exact pyStr_rekey h _

theorem serText_rekey (hκ : Rekeying κ) {env env' : Env} (h : env'.reprOf = env.reprOf) (nl : Bool) (fl : Flags) (el : Elem) (v enc : Val) :
    serText env' nl fl (el.rekeyed κ) (v.rekeyed κ) enc = (serText env nl fl el v enc).rekeyed κ := by
  unfold serText
  simp only [isNone_rekeyed, encode_rekey h, makeNil_r hκ]
  split
  · rfl
  · split <;> exact setText_r _ _

theorem appendUnlessEmpty_rekey (fl : Flags) (el sub : Elem) :
    appendUnlessEmpty fl (el.rekeyed κ) (sub.rekeyed κ) = (appendUnlessEmpty fl el sub).rekeyed κ := by
  unfold appendUnlessEmpty
  rw [isEmpty_r]
  split
  · rfl
  · exact append_r _ _

theorem ascend_rekey (b : Backend) (m : Mode) (nsmap : Option NsMap) {f g : Elem → Out Elem}
    (h : ∀ e, g (e.rekeyed κ) = (f e).rekeyed κ) : ∀ (path : List String) (el : Elem),
      ascend b m nsmap g path (el.rekeyed κ) = (ascend b m nsmap f path el).rekeyed κ
  | [], el => h el
  | t :: ts, el => by
    simp only [ascend, findElement_r]
    cases el.findElement t m with
    | error x => rfl
    | ok r =>
      obtain ⟨o, e1⟩ := r
      cases o with
      | none =>
        simp only [Except.map]
        refine bind_rekey ?_ fun e => congrArg Out.ok (append_r _ _)
        have := ascend_rekey b m nsmap h ts (makeElement b t nsmap)
        rwa [← makeElement_r] at this
      | some i =>
        simp only [Except.map, r_elements, List.getElem?_map]
        cases e1.elements[i]? with
        | none => rfl
        | some c => exact bind_rekey (ascend_rekey b m nsmap h ts c) fun e => congrArg Out.ok (setChild_r _ _ _)

theorem ser_rekey {env env' : Env} (hr : env.Rekeys κ env') (n : Nat) (fl : Flags) (s : Ser) (hs : s.mapless = true) (el : Elem) (v enc : Val) :
    ser env' n fl (s.rekeyed κ) (el.rekeyed κ) (v.rekeyed κ) enc = (ser env n fl s el v enc).rekeyed κ := by
  induction n generalizing fl s el v enc with
  | zero => rfl
  | succ n ih =>
    change serStep env' (ser env' n) fl (s.rekeyed κ) (el.rekeyed κ) (v.rekeyed κ) enc = (serStep env (ser env n) fl s el v enc).rekeyed κ
    have hp : ∀ fl p el v enc, ser env' n fl (.proxy p) (el.rekeyed κ) (v.rekeyed κ) enc = (ser env n fl (.proxy p) el v enc).rekeyed κ := by
      intro fl p el v enc
      simpa only [Ser.rekeyed] using ih fl (.proxy p) rfl el v enc
    cases s with
    | text c nl => exact congrArg Out.ok (serText_rekey hr.names hr.reprOf _ _ _ _ _)
    | attr k c =>
      simp only [Ser.rekeyed, serStep, isNone_rekeyed, encode_rekey hr.reprOf, setAttribute_r hr.names]
      split <;> rfl
    | elem nm ns mode c nl =>
      have h := serText_rekey (κ := κ) hr.names hr.reprOf nl fl (makeElement env.backend nm ns) v enc
      rw [← makeElement_r] at h
      simp only [Ser.rekeyed, serStep, isNone_rekeyed, hr.backend]
      rw [h, appendUnlessEmpty_rekey]
      split <;> rfl
    | attrs a => exact nomatch hs
    | mapElem a nm mode => exact nomatch hs
    | raw nm mode c =>
      simp only [Ser.rekeyed, serStep, hr.backend]
      cases v <;> first | rfl | skip
      simp only [Val.rekeyed, fromNative_r, appendUnlessEmpty_rekey]
      rfl
    | primUnion c inner => exact ih fl inner hs el v enc
    | modelUnion t c alts =>
      cases v with
      | model cls fields set =>
        simp only [Ser.rekeyed, serStep, Val.rekeyed]
        cases hf : alts.find? (fun p => decide (p.cls = cls)) with
        | none => rfl
        | some p => exact hp fl p el (.model cls fields set) enc
      | _ => rfl
    | tagged c d a mode alts =>
      simp only [Ser.rekeyed, serStep]
      split
      · split
        · split
          · rfl
          · rename_i tag _ _
            cases Dict.get? alts tag with
            | none => rfl
            | some p => exact hp fl p el v _
        all_goals rfl
      · rfl
    | wrap path ns mode c inner =>
      simp only [Ser.rekeyed, serStep, isNone_rekeyed, len_rekeyed, hr.backend]
      split
      · rfl
      · split
        · rfl
        · exact ascend_rekey _ _ _ (fun e => ih fl inner hs e v enc) path el
    | homog title c inner =>
      cases v with
      | list vs =>
        simp only [Ser.rekeyed, serStep, Val.rekeyed, Val.isNone, all_eq]
        cases enc with
        | list encs => exact items_rekey (f := ser env n fl inner) (g := ser env' n fl (inner.rekeyed κ)) (fun e v x => ih fl inner hs e v x) fl vs encs el
        | _ => rfl
      | _ => rfl
    | hetero title c inners =>
      cases v with
      | list vs =>
        simp only [Ser.rekeyed, serStep, Val.rekeyed, Val.isNone, all_eq, serAll_eq]
        cases enc with
        | list encs =>
          simp only [List.isEmpty_map, List.length_map, Bool.false_eq_true, if_false]
          split
          · rfl
          · split
            · rfl
            · exact tuple_rekey (f := ser env n fl) (g := ser env' n fl) (fun s e v x hs => ih fl s hs e v x) inners hs vs encs el
        | _ => rfl
      | _ => rfl
    | proxy p =>
      simp only [Ser.rekeyed, serStep]
      rcases hr.classes p.cls with ⟨h1, h2⟩ | ⟨m, m', h1, h2, hm⟩
      · rw [h1, h2]
        rfl
      · rw [h1, h2]
        have h3 := outModel_rekey (fun fl s e v x hs => ih fl s hs e v x) hm fl (makeElement env.backend p.name p.nsmap) v enc
        have h4 := append_r (κ := κ) el (makeElement env.backend p.name p.nsmap).makeNil
        rw [← makeNil_r hr.names, ← makeElement_r] at h4
        rw [← makeElement_r] at h3
        simp only [isNone_rekeyed, hr.backend]
        split
        · rfl
        · split
          · exact congrArg Out.ok h4
          · split
            · rfl
            · exact bind_rekey h3 fun e => congrArg Out.ok (appendUnlessEmpty_rekey _ _ _)

end Rekey

/-- C104: if attributes get other names, in the declarations and in the documents alike, every document is read alike: it gives the same instance, with the
attributes of native elements in it renamed, or a validation error in both cases, or the same other exception. -/
theorem C104_reading (κ : String → String) (env env' : Env) (hr : env.Rekeys κ env') (eas : Bool) (n : Nat) (cls : String) (doc : Node) :
    SameRekeyed κ (fromXmlTree env eas n cls doc).1 (fromXmlTree env' eas n cls (doc.rekeyed κ)).1 := by
  have key : (fromXmlTree env eas n cls doc).1.SameKind (Rekey.Ren κ) (fromXmlTree env' eas n cls (doc.rekeyed κ)).1 := by
    unfold fromXmlTree
    rw [hr.backend, Rekey.fromNative_r, Rekey.rootTag]
    rcases hr.classes cls with ⟨h1, h2⟩ | ⟨m, m', h1, h2, hm⟩
    · rw [h1, h2]
      exact rfl
    · rw [h1, h2]
      simp only [hm.elementName]
      split
      · exact (Rekey.model_rekey hr hm (fun s l l' hs => Rekey.deser_rekey hr eas n s hs l l') [] [] _ _ rfl).1
      · exact rfl
  revert key
  generalize (fromXmlTree env eas n cls doc).1 = o
  generalize (fromXmlTree env' eas n cls (doc.rekeyed κ)).1 = o'
  intro key
  cases o <;> cases o' <;> simp_all [Out.SameKind, SameRekeyed]

/-- C104: if attributes get other names, every instance is written to the document with the attributes renamed, or with the same exception. -/
theorem C104_writing (κ : String → String) (env env' : Env) (hr : env.Rekeys κ env') (n : Nat) (fl : Flags) (cls : String) (v : Val) :
    toXmlTree env' n fl cls (v.rekeyed κ) = (toXmlTree env n fl cls v).rekeyedDoc κ := by
  unfold toXmlTree
  rcases hr.classes cls with ⟨h1, h2⟩ | ⟨m, m', h1, h2, hm⟩
  · rw [h1, h2]
    rfl
  · rw [h1, h2]
    simp only [hm.elementName, hm.nsmap, hr.toJsonable, hr.backend]
    have h := Rekey.outModel_rekey (fun fl s e v x hs => Rekey.ser_rekey hr n fl s hs e v x) hm fl { tag := m.elementName, nsmap := m.nsmap } v (env.toJsonable v)
    rw [Rekey.elem_eq] at h
    simp only [List.map_nil, Option.map_none] at h
    rw [h]
    generalize serModel (ser env n) m fl _ v _ = o
    cases o with
    | ok e => exact congrArg Out.ok (Rekey.toNative_r _ e)
    | _ => rfl

namespace Ex

/-- What was called `kind` is called `height`, and the other way round. -/
def swapped (t : String) : String := if t = "kind" then "height" else if t = "height" then "kind" else t

theorem swapped_rekeying : Rekeying swapped where
  injective a b := by
    unfold swapped
    repeat' split
    all_goals intros; simp_all
  nil := by kernel_rfl

/-- `class Pad(BaseXmlModel, tag='pad'): kind: Literal['gel'] = attr(name=kind); text: str`, and `Foam` likewise with the kind `foam`. -/
def saddlePad (cls kind : String) : ModelSer where
  name := cls
  elementName := "pad"
  body := .fields [{ name := "kind", ser := .attr kind false }, { name := "text", ser := .text false false }]

/-- `class Saddle(BaseXmlModel, tag='saddle'): text: str = attr(name=height); kind: Pad | Foam = element(tag='pad', discriminator='kind')`, and then a field
for a raw element. -/
def saddle (kind height : String) : ModelSer where
  name := "Saddle"
  elementName := "saddle"
  body := .fields [{ name := "text", ser := .attr height false },
    { name := "kind", ser := (.tagged false "kind" kind .strict
      [("gel", { cls := "Pad", name := "pad", nsmap := none, mode := .strict, computed := false, nillable := false }),
       ("foam", { cls := "Foam", name := "pad", nsmap := none, mode := .strict, computed := false, nillable := false })]) },
    { name := "rest", ser := .raw "rest" .strict false }]

/-- The first two fields are required. -/
def needsTwo : Val → Except VErr (List (String × Val) × List String)
  | .dict d => match Dict.get? d "kind", Dict.get? d "text" with
    | some k, some t => match Dict.get? d "rest" with
      | some r => .ok ([("kind", k), ("text", t), ("rest", r)], ["kind", "text", "rest"])
      | none => .ok ([("kind", k), ("text", t)], ["kind", "text"])
    | _, _ => .error ⟨"Saddle", []⟩
  | _ => .error ⟨"Saddle", []⟩

mutual
/-- The encoded form, in which there is nothing for native elements. -/
def encoded : Val → Val
  | .model _ fs _ => .dict (encodedItems fs)
  | .list vs => .list (encodedList vs)
  | .dict d => .dict (encodedItems d)
  | .raw _ => .none
  | v => v
def encodedList : List Val → List Val
  | [] => []
  | v :: vs => encoded v :: encodedList vs
def encodedItems : List (String × Val) → List (String × Val)
  | [] => []
  | (k, v) :: d => (k, encoded v) :: encodedItems d
end

mutual
theorem encoded_rekeyed (κ : String → String) : ∀ v, encoded (v.rekeyed κ) = encoded v
  | .none => rfl
  | .str s => rfl
  | .bool b => rfl
  | .int i => rfl
  | .opaque r l => rfl
  | .undef => rfl
  | .raw n => by simp [Val.rekeyed, encoded]
  | .list xs => by simp [Val.rekeyed, encoded, encodedList_rekeyed κ xs]
  | .dict d => by simp [Val.rekeyed, encoded, encodedItems_rekeyed κ d]
  | .model c f st => by simp [Val.rekeyed, encoded, encodedItems_rekeyed κ f]

theorem encodedList_rekeyed (κ : String → String) : ∀ vs, encodedList (Val.rekeyedAll κ vs) = encodedList vs
  | [] => rfl
  | v :: vs => by simp [Val.rekeyedAll, encodedList, encoded_rekeyed κ v, encodedList_rekeyed κ vs]

theorem encodedItems_rekeyed (κ : String → String) : ∀ d, encodedItems (Val.rekeyedItems κ d) = encodedItems d
  | [] => rfl
  | (k, v) :: d => by simp [Val.rekeyedItems, encodedItems, encoded_rekeyed κ v, encodedItems_rekeyed κ d]
end

/-- The program before and after. -/
def saddleEnv (kind height : String) : Env where
  backend := .lxml
  model := fun c => if c = "Saddle" then some (saddle kind height) else if c = "Pad" ∨ c = "Foam" then some (saddlePad c kind) else none
  validate := fun _ d => needsTwo d
  toJsonable := encoded
  reprOf := fun _ => ""

theorem saddle_rekeys : (saddleEnv "kind" "height").Rekeys swapped (saddleEnv "height" "kind") where
  names := swapped_rekeying
  backend := rfl
  classes cls := by
    by_cases h1 : cls = "Saddle"
    · subst h1
      exact .inr ⟨_, _, rfl, rfl, ⟨rfl, rfl, .fields (.cons ⟨rfl, rfl, rfl, rfl, rfl, .inl ⟨rfl, rfl⟩, .inl ⟨rfl, rfl⟩⟩
        (.cons ⟨rfl, rfl, rfl, rfl, rfl, .inl ⟨rfl, rfl⟩, .inl ⟨rfl, rfl⟩⟩
          (.cons ⟨rfl, rfl, rfl, rfl, rfl, .inl ⟨rfl, rfl⟩, .inl ⟨rfl, rfl⟩⟩ .nil))), rfl, rfl⟩⟩
    · by_cases h2 : cls = "Pad" ∨ cls = "Foam"
      · exact .inr ⟨saddlePad cls "kind", saddlePad cls "height", by simp [saddleEnv, h1, h2], by simp [saddleEnv, h1, h2], ⟨rfl, rfl,
          .fields (.cons ⟨rfl, rfl, rfl, rfl, rfl, .inl ⟨rfl, rfl⟩, .inl ⟨rfl, rfl⟩⟩
            (.cons ⟨rfl, rfl, rfl, rfl, rfl, .inl ⟨rfl, rfl⟩, .inl ⟨rfl, rfl⟩⟩ .nil)), rfl, rfl⟩⟩
      · exact .inl ⟨by simp [saddleEnv, h1, h2], by simp [saddleEnv, h1, h2]⟩
  validate cls d := by
    show RekeyedValidation swapped (needsTwo d) (needsTwo (d.rekeyed swapped))
    cases d <;> try exact .invalid _ _
    rename_i d
    simp only [Val.rekeyed, needsTwo, Rekey.get_rekeyed]
    cases Dict.get? d "kind" with
    | none => exact .invalid _ _
    | some k =>
      cases Dict.get? d "text" with
      | none => exact .invalid _ _
      | some t =>
        cases Dict.get? d "rest" with
        | none => exact .valid [("kind", _), ("text", _)] _
        | some r => exact .valid [("kind", _), ("text", _), ("rest", _)] _
  toJsonable := encoded_rekeyed swapped
  reprOf := rfl

/-- `<saddle height="5"><pad kind="gel">soft</pad><rest kind="x"/></saddle>`, and the document with the names exchanged. -/
def saddleDoc (kind height : String) : Node :=
  el "saddle" none [el "pad" (some "soft") [] [(kind, "gel")], el "rest" none [] [(kind, "x")]] [(height, "5")]

example : (saddleDoc "kind" "height").rekeyed swapped = saddleDoc "height" "kind" := by kernel_rfl

/-- The instance: the raw element keeps its attribute. -/
def saddleVal (kind : String) : Val :=
  .model "Saddle" [("kind", .model "Pad" [("kind", .str "gel"), ("text", .str "soft")] ["kind", "text"]), ("text", .str "5"),
    ("rest", .raw (el "rest" none [] [(kind, "x")]))] ["kind", "text", "rest"]

/-- Each document gives its instance, read with its program, which is written to it. -/
example : (fromXmlTree (saddleEnv "kind" "height") false 9 "Saddle" (saddleDoc "kind" "height")).1 = .ok (saddleVal "kind") := by kernel_rfl

example : (fromXmlTree (saddleEnv "height" "kind") false 9 "Saddle" (saddleDoc "height" "kind")).1 = .ok (saddleVal "height") := by kernel_rfl

example : toXmlTree (saddleEnv "kind" "height") 9 {} "Saddle" (saddleVal "kind") = .ok (saddleDoc "kind" "height") := by kernel_rfl

example : toXmlTree (saddleEnv "height" "kind") 9 {} "Saddle" ((saddleVal "kind").rekeyed swapped) = .ok (saddleDoc "height" "kind") :=
  C104_writing swapped _ _ saddle_rekeys 9 {} "Saddle" (saddleVal "kind")

/-- Mapping fields must be left out, since there the names are data: the attribute is in the instance under its name. -/
example : (deser (saddleEnv "kind" "height") false 3 (.attrs { ns := none, nsmap := none, namespaced := false, computed := false }) []
    ⟨{ tag := "saddle", attrib := some [("kind", "gel")] }, []⟩).1 = .ok (.dict [("kind", .str "gel")]) := by kernel_rfl

end Ex

end PXml
