import Verif.Lemmas.LocFree
import Verif.SpecRootField

/-!
# C99: a root model is a class with one field

Specification: `SpecRootField.lean`.
-/

namespace PXml

open Elem

namespace RootField

theorem fields_alike {f g : Ser → Loc → St → Out Val × St} (h : ∀ s l l', ReadAlike Eq (f s l) (g s l')) (fs : List Field)
    (res : Dict String Val) (errs errs' : Dict ErrKey VErr) (hE : errs.isEmpty = errs'.isEmpty) :
    ReadAlike SameFound (deserFields f fs res errs) (deserFields g fs res errs') := by
  induction fs generalizing res errs errs' with
  | nil => exact fun st st' he => ⟨⟨rfl, hE⟩, he⟩
  | cons fd fs ih =>
    intro st st' he
    unfold deserFields
    have key : ∀ (r r' : Out Val × St), SameRead Eq r r' → SameRead SameFound
        (match r with
          | (.ok v, st') => deserFields f fs (if v.isNone then res else res.set (fd.alias.getD fd.name) v) errs st'
          | (.verr e, st') => deserFields f fs res (errs.set (some (.name fd.name)) e) st'
          | (.crash e, st') => (.crash e, st')
          | (.diverge, st') => (.diverge, st'))
        (match r' with
          | (.ok v, st') => deserFields g fs (if v.isNone then res else res.set (fd.alias.getD fd.name) v) errs' st'
          | (.verr e, st') => deserFields g fs res (errs'.set (some (.name fd.name)) e) st'
          | (.crash e, st') => (.crash e, st')
          | (.diverge, st') => (.diverge, st')) := by
      rintro ⟨o, s1⟩ ⟨o', s2⟩ ⟨h1, h2⟩
      cases o <;> cases o' <;> simp only [Out.SameKind] at h1
      · subst h1
        exact ih _ _ _ hE _ _ h2
      · exact ih _ _ _ (by rw [isEmpty_set, isEmpty_set]) _ _ h2
      · exact ⟨h1, h2⟩
      · exact ⟨trivial, h2⟩
    refine key _ _ ?_
    cases fd.validator with
    | none => exact h _ _ _ _ _ he
    | some v =>
      simp only [he]
      generalize v st'.el = r
      obtain ⟨o, e⟩ := r
      refine ⟨?_, rfl⟩
      cases o <;> first | rfl | trivial

theorem validate_alike {env env' : Env} {cls : String} {m m' : ModelSer} {d d' : Val} (hx : m.extraForbid = m'.extraForbid)
    (hv : SameValidation (env.validate cls d) (env'.validate cls d')) (st st' : St) (he : st.el = st'.el) :
    (validateModel env cls m d st).SameKind Eq (validateModel env' cls m' d' st') := by
  have hc : ∀ t t' e, (checkExtra t e).isSome = (checkExtra t' e).isSome := by
    intro t t' e
    unfold checkExtra
    split <;> rfl
  unfold validateModel
  rw [he, hx]
  have key : ∀ x y : Option VErr, x.isSome = y.isSome → Out.SameKind (α := Val) Eq
      (match x with
        | some e => .verr e
        | none => match env.validate cls d with
          | .ok (fs, set) => .ok (.model cls fs set)
          | .error e => .verr (setSourceline m.hideInput st.sm e))
      (match y with
        | some e => .verr e
        | none => match env'.validate cls d' with
          | .ok (fs, set) => .ok (.model cls fs set)
          | .error e => .verr (setSourceline m'.hideInput st'.sm e)) := by
    intro x y hxy
    cases x with
    | some e => cases y with
      | some e' => trivial
      | none => cases hxy
    | none => cases y with
      | some e' => cases hxy
      | none =>
        simp only
        generalize env.validate cls d = a at hv
        generalize env'.validate cls d' = b at hv
        cases hv with
        | valid x => rfl
        | invalid e e' => trivial
  refine key _ _ ?_
  split
  · exact hc _ _ _
  · rfl

theorem same_rooted {env env' : Env} {cls : String} (hv : ∀ d, SameValidation (env.validate cls d) (env'.validate cls d))
    {f g : Ser → Loc → St → Out Val × St} (h : ∀ s l l', ReadAlike Eq (f s l) (g s l')) (m : ModelSer) (loc loc' : Loc) :
    ReadAlike Eq (deserModel env f cls m loc) (deserModel env' g cls m loc') := by
  intro st st' he
  unfold deserModel
  cases hb : m.body with
  | fields fs =>
    simp only
    obtain ⟨h1, h2⟩ := fields_alike h fs [] [] [] rfl st st' he
    cases hf : deserFields f fs [] [] st with
    | mk o s1 =>
      cases hg : deserFields g fs [] [] st' with
      | mk o' s2 =>
        rw [hf, hg] at h1 h2
        cases o <;> cases o' <;> simp only [Out.SameKind, SameFound] at h1
        · obtain ⟨h3, h4⟩ := h1
          simp only [h3, h4]
          split
          · exact ⟨validate_alike rfl (hv _) _ _ h2, h2⟩
          · exact ⟨trivial, h2⟩
        · exact ⟨trivial, h2⟩
        · exact ⟨h1, h2⟩
        · exact ⟨trivial, h2⟩
  | root s =>
    simp only
    obtain ⟨h1, h2⟩ := h s loc loc' st st' he
    cases hf : f s loc st with
    | mk o s1 =>
      cases hg : g s loc' st' with
      | mk o' s2 =>
        rw [hf, hg] at h1 h2
        cases o <;> cases o' <;> simp only [Out.SameKind] at h1
        · subst h1
          exact ⟨validate_alike rfl (hv _) _ _ h2, h2⟩
        · exact ⟨trivial, h2⟩
        · exact ⟨h1, h2⟩
        · exact ⟨trivial, h2⟩

theorem model_rooted {env env' : Env} {cls : String} {m m' : ModelSer} (hi : m.IsRootAsField m')
    (hv : ∀ v, v ≠ .none → SameValidation (env.validate cls v) (env'.validate cls (.dict [("root", v)])))
    (hn : SameValidation (env.validate cls .undef) (env'.validate cls (.dict [])))
    {f g : Ser → Loc → St → Out Val × St} (h : ∀ s l l', ReadAlike Eq (f s l) (g s l')) (loc loc' : Loc) :
    ReadAlike Eq (deserModel env f cls m loc) (deserModel env' g cls m' loc') := by
  intro st st' he
  obtain ⟨s, hb, rfl⟩ := hi
  unfold deserModel
  simp only [hb, deserFields]
  obtain ⟨h1, h2⟩ := h s loc [.name "root"] st ⟨st'.el, st'.sm.set [.name "root"] st'.el.line⟩ he
  cases hf : f s loc st with
  | mk o s1 =>
    cases hg : g s [.name "root"] ⟨st'.el, st'.sm.set [.name "root"] st'.el.line⟩ with
    | mk o' s2 =>
      rw [hf, hg] at h1 h2
      cases o <;> cases o' <;> simp only [Out.SameKind] at h1
      · subst h1
        rename_i v
        simp only [List.isEmpty_nil, if_true]
        refine ⟨validate_alike (by rfl) ?_ _ _ h2, h2⟩
        cases v <;> first | exact hn | exact hv _ nofun
      · exact ⟨trivial, h2⟩
      · exact ⟨h1, h2⟩
      · exact ⟨trivial, h2⟩

theorem deser_rooted {env env' : Env} (hr : env.RootsAsFields env') (eas : Bool) (n : Nat) (s : Ser) (loc loc' : Loc) :
    ReadAlike Eq (deser env eas n s loc) (deser env' eas n s loc') := by
  induction n generalizing s loc loc' with
  | zero => exact fun st st' he => ⟨trivial, he⟩
  | succ n ih =>
    intro st st' he
    change SameRead Eq (deserStep env eas (deser env eas n) n s loc st) (deserStep env' eas (deser env' eas n) n s loc' st')
    unfold deserStep
    cases s with
    | text c nl => exact deserText_alike eas c nl st st' he
    | attr nm c =>
      simp only
      split
      · exact ⟨rfl, he⟩
      · rw [he]
        split <;> exact ⟨rfl, rfl⟩
    | elem nm ns m c nl =>
      simp only
      split
      · exact ⟨rfl, he⟩
      · exact popChild_alike (f := fun k => deserText eas c nl { k with sm := k.sm.set loc k.el.line })
          (g := fun k => deserText eas c nl { k with sm := k.sm.set loc' k.el.line }) (fun s1 s2 h => deserText_alike eas c nl _ _ h) nm m st st' he
    | attrs a => exact deserAttrs_alike a st st' he
    | mapElem a nm m =>
      simp only
      split
      · exact ⟨rfl, he⟩
      · exact popChild_alike (f := fun k => deserAttrs a { k with sm := k.sm.set loc k.el.line })
          (g := fun k => deserAttrs a { k with sm := k.sm.set loc' k.el.line }) (fun s1 s2 h => deserAttrs_alike a _ _ h) nm m st st' he
    | raw nm m c =>
      simp only
      split
      · exact ⟨rfl, he⟩
      · rw [he, hr.backend]
        split <;> exact ⟨rfl, rfl⟩
    | proxy p =>
      simp only
      rcases hr.classes p.cls with ⟨h1, hv⟩ | ⟨m, m', h1, h2, hi, hv, hn⟩
      · rw [h1]
        cases hm : env.model p.cls with
        | none => exact ⟨rfl, he⟩
        | some m =>
          simp only
          split
          · exact ⟨rfl, he⟩
          · refine popChild_alike (f := _) (g := _) ?_ p.name p.mode st st' he
            intro s1 s2 h
            simp only [h]
            split
            · exact ⟨rfl, rfl⟩
            · exact same_rooted hv (fun s l l' => ih s l l') m loc loc' _ _ rfl
      · rw [h1, h2]
        simp only
        split
        · exact ⟨rfl, he⟩
        · refine popChild_alike (f := _) (g := _) ?_ p.name p.mode st st' he
          intro s1 s2 h
          simp only [h]
          split
          · exact ⟨rfl, rfl⟩
          · exact model_rooted hi hv hn (fun s l l' => ih s l l') loc loc' _ _ rfl
    | primUnion c s =>
      simp only
      split
      · exact ⟨rfl, he⟩
      · exact ih s loc loc' st st' he
    | modelUnion title c alts =>
      simp only
      split
      · exact ⟨rfl, he⟩
      · exact unionLoop_alike (fun p => ih (.proxy p) loc loc') title alts [] [] rfl st st' he
    | tagged c d a m alts =>
      simp only
      split
      · exact ⟨rfl, he⟩
      · exact taggedLoop_alike (fun p => ih (.proxy p) loc loc') loc loc' a m alts st st' he
    | wrap path ns m c s =>
      simp only
      split
      · exact ⟨rfl, he⟩
      · exact descend_alike (f := fun k => deser env eas n s loc { k with sm := k.sm.set loc k.el.line })
          (g := fun k => deser env' eas n s loc' { k with sm := k.sm.set loc' k.el.line }) (fun s1 s2 h => ih s loc loc' _ _ h) m path st st' he
    | homog title c s =>
      simp only
      split
      · exact ⟨rfl, he⟩
      · obtain ⟨h1, h2⟩ := homogLoop_alike (f := fun l st => deser env eas n s l st) (g := fun l st => deser env' eas n s l st)
          (fun l l' => ih s l l') loc loc' n 0 [] [] [] rfl st st' he
        cases hf : homogLoop (fun l st => deser env eas n s l st) loc n 0 [] [] st with
        | mk o s1 =>
          cases hg : homogLoop (fun l st => deser env' eas n s l st) loc' n 0 [] [] st' with
          | mk o' s2 =>
            rw [hf, hg] at h1 h2
            cases o <;> cases o' <;> simp only [Out.SameKind, SameFound] at h1
            · obtain ⟨h3, h4⟩ := h1
              refine ⟨?_, h2⟩
              simp only [homogFinish, h3, h4]
              (repeat' split) <;> first | rfl | trivial
            · exact ⟨trivial, h2⟩
            · exact ⟨h1, h2⟩
            · exact ⟨trivial, h2⟩
    | hetero title c ss =>
      simp only
      split
      · exact ⟨rfl, he⟩
      · obtain ⟨h1, h2⟩ := heteroLoop_alike (f := deser env eas n) (g := deser env' eas n) (fun s l l' => ih s l l') loc loc' ss 0 [] [] [] rfl
          st st' he
        cases hf : heteroLoop (deser env eas n) loc ss 0 [] [] st with
        | mk o s1 =>
          cases hg : heteroLoop (deser env' eas n) loc' ss 0 [] [] st' with
          | mk o' s2 =>
            rw [hf, hg] at h1 h2
            cases o <;> cases o' <;> simp only [Out.SameKind, SameFound] at h1
            · obtain ⟨h3, h4⟩ := h1
              refine ⟨?_, h2⟩
              simp only [heteroFinish, h3, h4]
              (repeat' split) <;> first | rfl | trivial
            · exact ⟨trivial, h2⟩
            · exact ⟨h1, h2⟩
            · exact ⟨trivial, h2⟩

end RootField

/-- C99: if root models, at whatever places, are replaced by classes with one field named `root`, every document is read alike: it gives the same instance,
or a validation error in both cases, or the same other exception. -/
theorem C99_reading (env env' : Env) (hr : env.RootsAsFields env') (eas : Bool) (n : Nat) (cls : String) (doc : Node) :
    (∀ v, (fromXmlTree env eas n cls doc).1 = .ok v ↔ (fromXmlTree env' eas n cls doc).1 = .ok v) ∧
    ((∃ e, (fromXmlTree env eas n cls doc).1 = .verr e) ↔ ∃ e, (fromXmlTree env' eas n cls doc).1 = .verr e) ∧
    (∀ x, (fromXmlTree env eas n cls doc).1 = .crash x ↔ (fromXmlTree env' eas n cls doc).1 = .crash x) ∧
    ((fromXmlTree env eas n cls doc).1 = .diverge ↔ (fromXmlTree env' eas n cls doc).1 = .diverge) := by
  have key : (fromXmlTree env eas n cls doc).1.SameKind Eq (fromXmlTree env' eas n cls doc).1 := by
    unfold fromXmlTree
    rw [hr.backend]
    rcases hr.classes cls with ⟨h1, hv⟩ | ⟨m, m', h1, h2, hi, hv, hn⟩
    · rw [h1]
      cases env.model cls with
      | none => rfl
      | some m =>
        simp only
        split
        · exact (RootField.same_rooted hv (fun s l l' => RootField.deser_rooted hr eas n s l l') m [] [] _ _ rfl).1
        · rfl
    · have ht : m'.elementName = m.elementName := by obtain ⟨s, _, rfl⟩ := hi; rfl
      rw [h1, h2]
      simp only [ht]
      split
      · exact (RootField.model_rooted hi hv hn (fun s l l' => RootField.deser_rooted hr eas n s l l') [] [] _ _ rfl).1
      · rfl
  revert key
  generalize (fromXmlTree env eas n cls doc).1 = o
  generalize (fromXmlTree env' eas n cls doc).1 = o'
  intro key
  cases o <;> cases o' <;> simp only [Out.SameKind] at key <;> simp_all

theorem RootField.serModel_rooted (rec : Flags → Ser → Elem → Val → Val → Out Elem) {m m' : ModelSer} (hi : m.IsRootAsField m') (fl : Flags) (el : Elem)
    (cls cls' : String) (fields : List (String × Val)) (set : List String) (x : Val) :
    serModel rec m fl el (.model cls fields set) x = serModel rec m' fl el (.model cls' fields set) (.dict [("root", x)]) := by
  obtain ⟨s, hb, rfl⟩ := hi
  simp only [serModel, hb, serFields, getItem, Dict.get?]
  simp only [Bool.false_eq_true, if_false]
  split
  · rfl
  · simp only [if_true]
    cases getAttr fields "root" with
    | ok rv =>
      simp only [Out.bind]
      generalize rec _ s _ rv x = r
      cases r <;> rfl
    | _ => rfl

/-- C99: an instance of a root model is written as an instance of a class with one field named `root` is, whose encoding is a dictionary with the encoding
of the root. -/
theorem C99_writing (env : Env) (cls cls' : String) (m m' : ModelSer) (hm : env.model cls = some m) (hm' : env.model cls' = some m')
    (hi : m.IsRootAsField m') (n : Nat) (fl : Flags) (fields : List (String × Val)) (set : List String)
    (hx : env.toJsonable (.model cls' fields set) = .dict [("root", env.toJsonable (.model cls fields set))]) :
    toXmlTree env n fl cls (.model cls fields set) = toXmlTree env n fl cls' (.model cls' fields set) := by
  have ht : m'.elementName = m.elementName ∧ m'.nsmap = m.nsmap := by obtain ⟨s, _, rfl⟩ := hi; exact ⟨rfl, rfl⟩
  unfold toXmlTree
  simp only [hm, hm', hx, ht.1, ht.2]
  rw [RootField.serModel_rooted (ser env n) hi]

/-- C99: and so is a sub-model. -/
theorem C99_writing_submodel (env : Env) (p : Proxy) (cls' : String) (m m' : ModelSer) (hm : env.model p.cls = some m)
    (hm' : env.model cls' = some m') (hi : m.IsRootAsField m') (n : Nat) (fl : Flags) (el : Elem) (fields : List (String × Val)) (set : List String)
    (x : Val) : ser env n fl (.proxy p) el (.model p.cls fields set) x =
      ser env n fl (.proxy { p with cls := cls' }) el (.model cls' fields set) (.dict [("root", x)]) := by
  cases n with
  | zero => rfl
  | succ n =>
    simp only [ser, serStep, hm, hm', Val.isNone]
    rw [RootField.serModel_rooted (ser env n) hi fl _ p.cls cls']
    rfl

/-! ## Non-vacuity -/

namespace Ex

/-- `class Sizes(RootXmlModel): root: list[str] = element(tag='size')`. -/
def sizes : ModelSer where
  name := "Sizes"
  elementName := "sizes"
  body := .root (.homog ⟨"Sizes", false⟩ false (.elem "size" none .strict false false))

/-- `class Sizes(BaseXmlModel): root: list[str] = element(tag='size')`. -/
def sizesField : ModelSer where
  name := "Sizes"
  elementName := "sizes"
  body := .fields [{ name := "root", ser := .homog ⟨"Sizes", false⟩ false (.elem "size" none .strict false false) }]

/-- `class Shirt(BaseXmlModel): sizes: Sizes`. -/
def shirt : ModelSer where
  name := "Shirt"
  elementName := "shirt"
  body := .fields [{ name := "sizes", ser := .proxy { cls := "Sizes", name := "sizes", nsmap := none, mode := .strict, computed := false, nillable := false } }]

/-- The data of a field must be there. -/
def needs (key : String) : Val → Except VErr (List (String × Val) × List String)
  | .dict d => match Dict.get? d key with
    | none => .error ⟨key, []⟩
    | some .undef => .error ⟨key, []⟩
    | some v => .ok ([(key, v)], [key])
  | _ => .error ⟨key, []⟩

def shirtEnv (asField : Bool) : Env where
  backend := .lxml
  model := fun c => if c = "Shirt" then some shirt else if c = "Sizes" then some (if asField then sizesField else sizes) else none
  validate := fun c d => if c = "Sizes" then
      (if asField then needs "root" d else match d with | .undef => .error ⟨"Sizes", []⟩ | v => .ok ([("root", v)], ["root"]))
    else needs "sizes" d
  toJsonable := fun v => v
  reprOf := fun _ => ""

theorem shirt_roots : (shirtEnv false).RootsAsFields (shirtEnv true) where
  backend := rfl
  classes cls := by
    by_cases h : cls = "Sizes"
    · subst h
      refine .inr ⟨sizes, sizesField, rfl, rfl, ⟨_, rfl, rfl⟩, ?_, .invalid _ _⟩
      intro v hv
      cases v <;> first | exact absurd rfl hv | exact .valid _ | exact .invalid _ _
    · refine .inl ⟨?_, fun d => ?_⟩
      · simp only [shirtEnv, h, if_false]
      · simp only [shirtEnv, h, if_false]
        generalize needs "sizes" d = x
        cases x
        · exact .invalid _ _
        · exact .valid _

/-- Both read `<shirt><sizes><size>S</size><size>M</size></sizes></shirt>`, and reject `<shirt><sizes/></shirt>`. -/
example (b : Bool) : (fromXmlTree (shirtEnv b) false 9 "Shirt" (el "shirt" none [el "sizes" none [el "size" (some "S") [] [], el "size" (some "M") [] []] []] [])).1 =
    .ok (.model "Shirt" [("sizes", .model "Sizes" [("root", .list [.str "S", .str "M"])] ["root"])] ["sizes"]) := by
  cases b <;> kernel_rfl

end Ex

end PXml
