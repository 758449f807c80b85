import Verif.Props.Discriminator
import Verif.Props.Fields
import Verif.Props.Wrapped

/-!
# C93: a wrapper stands for a sub-model that holds only that field
-/

namespace PXml

open Elem

/-- A class that holds a single field `x`, read and written by `s`, and asks for nothing else (in Python: `class A(BaseXmlModel): x: ... = ...`,
without `extra='forbid'`, `skip_empty` and hooks on the field). -/
structure ModelSer.HoldsOnly (m : ModelSer) (x : String) (s : Ser) : Prop where
  body : m.body = .fields [{ name := x, ser := s }]
  lax : m.extraForbid = false
  skip : m.skipEmpty = none

/-- The data of a class with the only field `x`: nothing for `None`, so that the default of the field applies. -/
def held (x : String) : Val → Dict String Val
  | .none => []
  | v => [(x, v)]

/-- C93, reading: let the field `x` be declared as `wrapped(t, s)`, or else as a sub-model `t` of a class whose only field is `x`, declared as
`s`.  At every position of the reader, unless the element just passed is called `t` and unless an element `t` carries `xsi:nil`:

* the two take the same things off the document;
* both find nothing, or what the wrapper reads is exactly what the class is validated with;
* they fail alike. -/
theorem C93_read (env : Env) (hv : env.ValidatorsRead) (eas : Bool) (n : Nat) (t x cls : String) (m : ModelSer) (s : Ser) (mode : Mode)
    (wns mns : Option NsMap) (nillable : Bool) (loc : Loc) (st : St) (hcls : env.model cls = some m) (hm : m.HoldsOnly x s)
    (hn : st.el.next ≤ st.el.elements.length) (hfresh : ∀ c, st.el.seen.getLast? = some c → c.tag ≠ t)
    (hnil : ∀ c ∈ st.el.elements, c.tag = t → c.getAttrib nilAttr = none) :
    let w := deser env eas (n + 1) (.wrap [t] wns mode false s) [.name x] st
    let r := deser env eas (n + 1) (.proxy { cls := cls, name := t, nsmap := mns, mode := mode, nillable := nillable }) loc st
    r.2.el = w.2.el ∧
    ((st.el.popElement t mode).1 = none → w.1 = .ok .none ∧ r.1 = .ok .none) ∧
    ((st.el.popElement t mode).1 ≠ none →
      (∀ v, w.1 = .ok v → ∀ fs set, env.validate cls (.dict (held x v)) = .ok (fs, set) → r.1 = .ok (.model cls fs set)) ∧
      (∀ v, w.1 = .ok v → ∀ e, env.validate cls (.dict (held x v)) = .error e → ∃ e', r.1 = .verr e') ∧
      ((∃ e, w.1 = .verr e) → ∃ e, r.1 = .verr e) ∧
      (∀ e, w.1 = .crash e → r.1 = .crash e) ∧ (w.1 = .diverge → r.1 = .diverge)) := by
  intro w r
  have hw : w = deserStep env eas (deser env eas n) n (.wrap [t] wns mode false s) [.name x] st := rfl
  have hr : r = deserStep env eas (deser env eas n) n
    (.proxy { cls := cls, name := t, nsmap := mns, mode := mode, nillable := nillable }) loc st := rfl
  clear_value w r
  simp only [deserStep, hcls, Bool.false_eq_true, if_false, descend] at hw hr
  rw [(C03_C04_C05_look_behind st.el t mode hn).2 hfresh] at hw
  cases hp : st.el.popElement t mode with
  | mk o el =>
    rw [hp] at hw hr
    cases o with
    | none =>
      simp only at hw hr
      subst hw; subst hr
      exact ⟨rfl, fun _ => ⟨rfl, rfl⟩, fun h => absurd rfl h⟩
    | some i =>
      obtain ⟨c, hc, hct, hmem⟩ := search_index hp
      have hni : c.isNil = (false, c) := by
        unfold isNil; rw [popAttrib_absent (hnil c hmem hct)]; simp
      simp only [onChild, hc, hni, deserModel, hm.body, deserFields] at hw hr
      have hsm := deser_sm hv eas n s [.name x] c (Dict.set st.sm [.name x] c.line) (Dict.set (Dict.set st.sm loc c.line) [.name x] c.line)
      generalize hA : deser env eas n s [.name x] ⟨c, Dict.set st.sm [.name x] c.line⟩ = A at hw hsm
      generalize hB : deser env eas n s [.name x] ⟨c, Dict.set (Dict.set st.sm loc c.line) [.name x] c.line⟩ = B at hr hsm
      obtain ⟨a, sa⟩ := A
      obtain ⟨b, sb⟩ := B
      obtain ⟨h1, h2⟩ := hsm
      simp only at h1 h2
      have hheld : ∀ v : Val, (if v.isNone = true then ([] : Dict String Val) else Dict.set [] x v) = held x v := by
        intro v; cases v <;> rfl
      refine ⟨?_, fun h => (by cases h), fun _ => ?_⟩
      · subst hw; subst hr
        cases b with
        | ok v => simp [h2]
        | verr e => simp [Dict.set, h2]
        | crash e => simp [h2]
        | diverge => simp [h2]
      · have hw1 : w.1 = a := by rw [hw]
        rw [hw1]
        have hlift : ∀ v, b = .ok v → r.1 = validateModel env cls m (.dict (held x v)) sb := by
          intro v hb; subst hb; subst hr
          simp [← hheld]
        refine ⟨?_, ?_, ?_, ?_, ?_⟩
        · intro v ha fs set hval
          subst ha
          rw [hlift v (noLines_ok.1 h1.symm)]
          simp [validateModel, hm.lax, hval]
        · intro v ha e hval
          subst ha
          rw [hlift v (noLines_ok.1 h1.symm)]
          simp [validateModel, hm.lax, hval]
        · rintro ⟨e, ha⟩
          subst ha
          obtain ⟨e', hb, _⟩ := noLines_verr h1.symm
          subst hb; subst hr
          simp [Dict.set]
        · intro e ha
          subst ha
          have hb := noLines_crash.1 h1.symm
          subst hb; subst hr
          rfl
        · intro ha
          subst ha
          have hb := noLines_diverge.1 h1.symm
          subst hb; subst hr
          rfl

/-- C93, writing: the field `x` declared as `wrapped(t, s)`, or a sub-model `t` of a class whose only field is `x`, declared as `s`: the two write
the same element, unless the last element written before is called `t` and would be shared by the wrapper, and unless `skip_empty` applies to the
value or to the written element. -/
theorem C93_write (env : Env) (n : Nat) (fl : Flags) (t x cls : String) (m : ModelSer) (s : Ser) (mode mode' : Mode) (computed computed' : Bool)
    (nsmap : Option NsMap) (nillable : Bool) (el : Elem) (v enc : Val) (hcls : env.model cls = some m) (hm : m.HoldsOnly x s)
    (hv : v ≠ .none) (hel : el.AtEnd) (hlast : el.lastNamed t = none)
    (hskip : fl.skipEmpty = true →
      v.len? ≠ some 0 ∧ ∀ sub, ser env n fl s (makeElement env.backend t nsmap) v enc = .ok sub → sub.isEmpty = false) :
    ser env (n + 1) fl (.wrap [t] nsmap mode computed s) el v enc =
      ser env (n + 1) fl (.proxy { cls := cls, name := t, nsmap := nsmap, mode := mode', computed := computed', nillable := nillable }) el
        (.model cls [(x, v)] [x]) (.dict [(x, enc)]) := by
  have hvn : v.isNone = false := by cases v <;> first | rfl | exact absurd rfl hv
  change serStep env (ser env n) fl _ el v enc = serStep env (ser env n) fl _ el _ _
  have hfl : ({ fl with skipEmpty := fl.skipEmpty } : Flags) = fl := rfl
  simp only [serStep, hcls, Bool.false_eq_true, if_false, Val.isNone, Bool.and_false, ascend, C41_finds_last_only el hel, hlast,
    Option.map_none, serModel, hm.body, hm.skip, Option.getD_none, serFields, getAttr, getItem, Dict.get?, List.contains_cons, beq_self_eq_true,
    Bool.true_or, Bool.not_true, Bool.and_false, Out.bind, if_true]
  rw [if_neg (by simpa using fun h => (hskip h).1)]
  cases hs : ser env n fl s (makeElement env.backend t nsmap) v enc with
  | ok sub =>
    simp only [appendUnlessEmpty]
    cases hk : fl.skipEmpty with
    | false => simp
    | true => simp [(hskip hk).2 sub hs]
  | _ => rfl

/-- The data a root model is validated with: `None` means that nothing was found. -/
def rootData : Val → Val
  | .none => .undef
  | v => v

/-- C93, root models, reading: a sub-model `t` of a class with the root type `s` reads as the field `wrapped(t, s)` does. -/
theorem C93_root_read (env : Env) (eas : Bool) (n : Nat) (t cls : String) (m : ModelSer) (s : Ser) (mode : Mode)
    (wns mns : Option NsMap) (nillable : Bool) (loc : Loc) (st : St) (hcls : env.model cls = some m) (hm : m.body = .root s)
    (hlax : m.extraForbid = false) (hn : st.el.next ≤ st.el.elements.length) (hfresh : ∀ c, st.el.seen.getLast? = some c → c.tag ≠ t)
    (hnil : ∀ c ∈ st.el.elements, c.tag = t → c.getAttrib nilAttr = none) :
    let w := deser env eas (n + 1) (.wrap [t] wns mode false s) loc st
    let r := deser env eas (n + 1) (.proxy { cls := cls, name := t, nsmap := mns, mode := mode, nillable := nillable }) loc st
    r.2 = w.2 ∧
    ((st.el.popElement t mode).1 = none → w.1 = .ok .none ∧ r.1 = .ok .none) ∧
    ((st.el.popElement t mode).1 ≠ none →
      (∀ v, w.1 = .ok v → ∀ fs set, env.validate cls (rootData v) = .ok (fs, set) → r.1 = .ok (.model cls fs set)) ∧
      (∀ v, w.1 = .ok v → ∀ e, env.validate cls (rootData v) = .error e → ∃ e', r.1 = .verr e') ∧
      ((∃ e, w.1 = .verr e) → ∃ e, r.1 = .verr e) ∧
      (∀ e, w.1 = .crash e → r.1 = .crash e) ∧ (w.1 = .diverge → r.1 = .diverge)) := by
  intro w r
  have hw : w = deserStep env eas (deser env eas n) n (.wrap [t] wns mode false s) loc st := rfl
  have hr : r = deserStep env eas (deser env eas n) n
    (.proxy { cls := cls, name := t, nsmap := mns, mode := mode, nillable := nillable }) loc st := rfl
  clear_value w r
  simp only [deserStep, hcls, Bool.false_eq_true, if_false, descend] at hw hr
  rw [(C03_C04_C05_look_behind st.el t mode hn).2 hfresh] at hw
  cases hp : st.el.popElement t mode with
  | mk o el =>
    rw [hp] at hw hr
    cases o with
    | none =>
      simp only at hw hr
      subst hw; subst hr
      exact ⟨rfl, fun _ => ⟨rfl, rfl⟩, fun h => absurd rfl h⟩
    | some i =>
      obtain ⟨c, hc, hct, hmem⟩ := search_index hp
      have hni : c.isNil = (false, c) := by
        unfold isNil; rw [popAttrib_absent (hnil c hmem hct)]; simp
      simp only [onChild, hc, hni, deserModel, hm] at hw hr
      generalize deser env eas n s loc ⟨c, Dict.set st.sm loc c.line⟩ = A at hw hr
      obtain ⟨a, sa⟩ := A
      have hroot : ∀ v : Val, (if v.isNone = true then Val.undef else v) = rootData v := by intro v; cases v <;> rfl
      subst hw; subst hr
      refine ⟨?_, fun h => (by cases h), fun _ => ?_⟩
      · cases a <;> rfl
      · refine ⟨?_, ?_, ?_, ?_, ?_⟩
        · intro v ha fs set hval
          simp only at ha; subst ha
          simp [validateModel, hlax, hroot, hval]
        · intro v ha e hval
          simp only at ha; subst ha
          simp [validateModel, hlax, hroot, hval]
        · rintro ⟨e, ha⟩
          simp only at ha; subst ha
          exact ⟨_, rfl⟩
        · intro e ha
          simp only at ha; subst ha; rfl
        · intro ha
          simp only at ha; subst ha; rfl

/-- C93, root models, writing. -/
theorem C93_root_write (env : Env) (n : Nat) (fl : Flags) (t cls : String) (m : ModelSer) (s : Ser) (mode mode' : Mode) (computed computed' : Bool)
    (nsmap : Option NsMap) (nillable : Bool) (el : Elem) (v enc : Val) (hcls : env.model cls = some m) (hm : m.body = .root s)
    (hms : m.skipEmpty = none) (hv : v ≠ .none) (hel : el.AtEnd) (hlast : el.lastNamed t = none)
    (hskip : fl.skipEmpty = true →
      v.len? ≠ some 0 ∧ ∀ sub, ser env n fl s (makeElement env.backend t nsmap) v enc = .ok sub → sub.isEmpty = false) :
    ser env (n + 1) fl (.wrap [t] nsmap mode computed s) el v enc =
      ser env (n + 1) fl (.proxy { cls := cls, name := t, nsmap := nsmap, mode := mode', computed := computed', nillable := nillable }) el
        (.model cls [("root", v)] ["root"]) enc := by
  have hvn : v.isNone = false := by cases v <;> first | rfl | exact absurd rfl hv
  change serStep env (ser env n) fl _ el v enc = serStep env (ser env n) fl _ el _ _
  have hset : (["root"] : List String).contains "root" = true := by decide
  simp only [serStep, hcls, Bool.false_eq_true, if_false, Val.isNone, Bool.and_false, ascend, C41_finds_last_only el hel, hlast,
    Option.map_none, serModel, hm, hms, Option.getD_none, getAttr, Dict.get?, hset, Bool.not_true, Out.bind, if_true]
  rw [if_neg (by simpa using fun h => (hskip h).1)]
  cases hs : ser env n fl s (makeElement env.backend t nsmap) v enc with
  | ok sub =>
    simp only [appendUnlessEmpty]
    cases hk : fl.skipEmpty with
    | false => simp
    | true => simp [(hskip hk).2 sub hs]
  | _ => rfl

/-! ## Non-vacuity -/

namespace Ex

/-- `city: Optional[str] = element()` -/
def citySer : Ser := .elem "city" none .ordered false false

/-- `class Place(BaseXmlModel): city: Optional[str] = element()` -/
def placeSer : ModelSer := { name := "Place", elementName := "place", body := .fields [{ name := "city", ser := citySer }] }

def placeEnv : Env := { env with
  model := fun c => if c = "Place" then some placeSer else none
  validate := fun _ d => match d with | .dict [("city", v)] => .ok ([("city", v)], ["city"]) | _ => .ok ([("city", .none)], []) }

theorem place_holds : placeSer.HoldsOnly "city" citySer := ⟨rfl, rfl, rfl⟩

theorem placeEnv_read : placeEnv.ValidatorsRead := by
  intro c m fs h hb f hf g hg
  simp only [placeEnv] at h
  split at h
  · injection h with h; subst h
    injection hb with hb; subst hb
    simp only [List.mem_singleton] at hf; subst hf
    cases hg
  · cases h

/-- A foreign element, then the wrapper. -/
def placeDoc : Elem := fromNative .lxml (el "doc" none [el "x", el "place" none [el "city" (some "Rome")], el "y"])

/-- The hypotheses of `C93_read` hold, and both find the city. -/
example : placeDoc.next ≤ placeDoc.elements.length ∧ (∀ c, placeDoc.seen.getLast? = some c → c.tag ≠ "place") ∧
    (∀ c ∈ placeDoc.elements, c.tag = "place" → c.getAttrib nilAttr = none) ∧
    (deser placeEnv false 5 (.wrap ["place"] none .ordered false citySer) [.name "city"] ⟨placeDoc, []⟩).1 = .ok (.str "Rome") ∧
    (deser placeEnv false 5 (.proxy { cls := "Place", name := "place", mode := .ordered }) [.name "place"] ⟨placeDoc, []⟩).1 =
      .ok (.model "Place" [("city", .str "Rome")] ["city"]) := by
  refine ⟨Nat.zero_le _, ?_, ?_, rfl, rfl⟩
  · intro c h
    have : placeDoc.seen = [] := rfl
    rw [this] at h; cases h
  · intro c h _
    have : placeDoc.elements = [fromNative .lxml (el "x"), fromNative .lxml (el "place" none [el "city" (some "Rome")]), fromNative .lxml (el "y")] := rfl
    rw [this] at h
    simp only [List.mem_cons, List.not_mem_nil, or_false] at h
    rcases h with rfl | rfl | rfl <;> rfl

/-- The hypotheses of `C93_write` hold with `skip_empty`, and both write `<place><city>Rome</city></place>`. -/
example : (makeElement .lxml "doc" none).AtEnd ∧ (makeElement .lxml "doc" none).lastNamed "place" = none ∧
    (∀ sub, ser placeEnv 4 { skipEmpty := true } citySer (makeElement placeEnv.backend "place" none) (.str "Rome") (.str "Rome") = .ok sub →
      sub.isEmpty = false) ∧
    (Val.str "Rome").len? ≠ some 0 ∧
    ser placeEnv 5 { skipEmpty := true } (.wrap ["place"] none .strict false citySer) (makeElement .lxml "doc" none) (.str "Rome") (.str "Rome") =
      .ok ((makeElement .lxml "doc" none).append
        ((makeElement .lxml "place" none).append ((makeElement .lxml "city" none).setText "Rome"))) := by
  refine ⟨rfl, rfl, ?_, by decide, rfl⟩
  intro sub h
  have h' : ser placeEnv 4 { skipEmpty := true } citySer (makeElement placeEnv.backend "place" none) (.str "Rome") (.str "Rome") =
      .ok ((makeElement .lxml "place" none).append ((makeElement .lxml "city" none).setText "Rome")) := rfl
  rw [h'] at h
  injection h with h; subst h; rfl

/-- `class Name(RootXmlModel): root: str`, read and written as the text of its element. -/
def nameEnv : Env := { env with
  model := fun c => if c = "Name" then some { name := "Name", elementName := "name", body := .root (.text false false) } else none
  validate := fun _ d => match d with | .undef => .error ⟨"Name", []⟩ | v => .ok ([("root", v)], ["root"]) }

/-- The element `city` with its text, after a foreign element. -/
def nameDoc : Elem := fromNative .lxml (el "doc" none [el "x", el "city" (some "Rome"), el "y"])

/-- The hypotheses of `C93_root_read` and `C93_root_write` hold, and both find and write the text. -/
example : nameDoc.next ≤ nameDoc.elements.length ∧ nameDoc.seen = [] ∧
    (∀ c ∈ nameDoc.elements, c.tag = "city" → c.getAttrib nilAttr = none) ∧
    (deser nameEnv false 5 (.wrap ["city"] none .ordered false (.text false false)) [.name "city"] ⟨nameDoc, []⟩).1 = .ok (.str "Rome") ∧
    (deser nameEnv false 5 (.proxy { cls := "Name", name := "city", mode := .ordered }) [.name "city"] ⟨nameDoc, []⟩).1 =
      .ok (.model "Name" [("root", .str "Rome")] ["root"]) ∧
    (∀ sub, ser nameEnv 4 { skipEmpty := true } (.text false false) (makeElement nameEnv.backend "city" none) (.str "Rome") (.str "Rome") = .ok sub →
      sub.isEmpty = false) ∧
    ser nameEnv 5 { skipEmpty := true } (.proxy { cls := "Name", name := "city" }) (makeElement .lxml "doc" none)
        (.model "Name" [("root", .str "Rome")] ["root"]) (.str "Rome") =
      .ok ((makeElement .lxml "doc" none).append ((makeElement .lxml "city" none).setText "Rome")) := by
  refine ⟨Nat.zero_le _, rfl, ?_, rfl, rfl, ?_, rfl⟩
  · intro c h _
    have : nameDoc.elements = [fromNative .lxml (el "x"), fromNative .lxml (el "city" (some "Rome")), fromNative .lxml (el "y")] := rfl
    rw [this] at h
    simp only [List.mem_cons, List.not_mem_nil, or_false] at h
    rcases h with rfl | rfl | rfl <;> rfl
  · intro sub h
    have h' : ser nameEnv 4 { skipEmpty := true } (.text false false) (makeElement nameEnv.backend "city" none) (.str "Rome") (.str "Rome") =
        .ok ((makeElement .lxml "city" none).setText "Rome") := rfl
    rw [h'] at h
    injection h with h; subst h; rfl

/-- The element that was just passed. -/
def placePassed : Elem := { placeDoc with next := 2 }

end Ex

/-- C93: the restriction on the element just passed cannot be dropped: after an element `place` a wrapper `place` goes on in that element, while a
sub-model `place` takes the next one. -/
theorem C93_fresh_needed :
    (deser Ex.placeEnv false 5 (.wrap ["place"] none .ordered false Ex.citySer) [.name "city"] ⟨Ex.placePassed, []⟩).1 = .ok (.str "Rome") ∧
    (deser Ex.placeEnv false 5 (.proxy { cls := "Place", name := "place", mode := .ordered }) [.name "place"] ⟨Ex.placePassed, []⟩).1 = .ok .none :=
  ⟨rfl, rfl⟩

/-! ## C94: an element field is the text, or the attributes, of its element -/

/-- C94, reading: `element(t)` of a primitive type reads as `wrapped(t)` around the text, and `element(t)` of a mapping as `wrapped(t)` around the
attributes: the same value, the same things taken off the document and the same lines recorded. -/
theorem C94_read (env : Env) (eas : Bool) (n : Nat) (t : String) (ns wns : Option NsMap) (mode : Mode) (loc : Loc) (st : St)
    (hn : st.el.next ≤ st.el.elements.length) (hfresh : ∀ c, st.el.seen.getLast? = some c → c.tag ≠ t) :
    (∀ nillable, deser env eas (n + 2) (.elem t ns mode false nillable) loc st =
      deser env eas (n + 2) (.wrap [t] wns mode false (.text false nillable)) loc st) ∧
    (∀ a : AttrsSer, a.computed = false → deser env eas (n + 2) (.mapElem a t mode) loc st =
      deser env eas (n + 2) (.wrap [t] wns mode false (.attrs a)) loc st) := by
  refine ⟨fun nillable => ?_, fun a ha => ?_⟩
  · change deserStep env eas (deser env eas (n + 1)) (n + 1) _ loc st = deserStep env eas (deser env eas (n + 1)) (n + 1) _ loc st
    simp only [deserStep, Bool.false_eq_true, if_false, descend, (C03_C04_C05_look_behind st.el t mode hn).2 hfresh]
    rcases st.el.popElement t mode with ⟨_ | i, el⟩ <;> rfl
  · change deserStep env eas (deser env eas (n + 1)) (n + 1) _ loc st = deserStep env eas (deser env eas (n + 1)) (n + 1) _ loc st
    simp only [deserStep, ha, Bool.false_eq_true, if_false, descend, (C03_C04_C05_look_behind st.el t mode hn).2 hfresh]
    rcases st.el.popElement t mode with ⟨_ | i, el⟩ <;> rfl

theorem ofItems_ne_nil {β : Type} {d : List (String × β)} (h : d ≠ []) : Dict.ofItems d ≠ [] := by
  obtain ⟨kv, l, rfl⟩ := List.exists_cons_of_ne_nil h
  have hset : ∀ (q : Dict String β) k v, Dict.set q k v ≠ [] := by
    intro q k v; cases q with
    | nil => simp [Dict.set]
    | cons y q => simp only [Dict.set]; split <;> simp
  have hupd : ∀ (l : List (String × β)) (q : Dict String β), q ≠ [] → Dict.update q l ≠ [] := by
    intro l
    induction l with
    | nil => intro q hq; exact hq
    | cons y l ih => intro q _; exact ih _ (hset q y.1 y.2)
  exact hupd l _ (hset [] kv.1 kv.2)

/-- C94, writing: a value that is not `None` is written by `element(t)` as by `wrapped(t)` around its text, and a mapping as by `wrapped(t)` around its
attributes, unless the last element written before is called `t` or `skip_empty` drops the element. -/
theorem C94_write (env : Env) (n : Nat) (fl : Flags) (t : String) (nsmap : Option NsMap) (mode mode' : Mode) (computed computed' computed'' : Bool)
    (el : Elem) (v enc : Val) (hv : v ≠ .none) (hel : el.AtEnd) (hlast : el.lastNamed t = none) :
    (∀ nillable, (fl.skipEmpty = true → v.len? ≠ some 0 ∧ encodePrimitive env enc ≠ "") →
      ser env (n + 2) fl (.elem t nsmap mode computed nillable) el v enc =
        ser env (n + 2) fl (.wrap [t] nsmap mode' computed' (.text computed'' nillable)) el v enc) ∧
    (∀ a : AttrsSer, a.nsmap = nsmap → (fl.skipEmpty = true → (∃ k, v.len? = some (k + 1)) ∧ ∀ d, enc = .dict d → d ≠ []) →
      ser env (n + 2) fl (.mapElem a t mode) el v enc = ser env (n + 2) fl (.wrap [t] nsmap mode' computed' (.attrs a)) el v enc) := by
  have hvn : v.isNone = false := by cases v <;> first | rfl | exact absurd rfl hv
  refine ⟨fun nillable hskip => ?_, fun a hns hskip => ?_⟩
  · change serStep env (ser env (n + 1)) fl _ el v enc = serStep env (ser env (n + 1)) fl _ el v enc
    have htext : ∀ e : Elem, ser env (n + 1) fl (.text computed'' nillable) e v enc = .ok (serText env nillable fl e v enc) := fun _ => rfl
    simp only [serStep, hvn, Bool.false_and, Bool.false_eq_true, if_false, ascend, C41_finds_last_only el hel, hlast, Option.map_none, htext, Out.bind]
    rw [if_neg (by simpa using fun h => (hskip h).1)]
    simp only [appendUnlessEmpty]
    cases hk : fl.skipEmpty with
    | false => simp
    | true =>
      have : (serText env nillable fl (makeElement env.backend t nsmap) v enc).isEmpty = false := by
        simp [serText, hvn, Elem.isEmpty, setText, Elem.truthy, (hskip hk).2]
      simp [this]
  · subst hns
    change serStep env (ser env (n + 1)) fl _ el v enc = serStep env (ser env (n + 1)) fl _ el v enc
    have hattrs : ∀ e : Elem, ser env (n + 1) fl (.attrs a) e v enc = serAttrs env a e v enc := fun _ => rfl
    simp only [serStep, hvn, Bool.false_eq_true, if_false, ascend, C41_finds_last_only el hel, hlast, Option.map_none, hattrs]
    cases hk : fl.skipEmpty with
    | false => simp
    | true =>
      obtain ⟨⟨k, hlen⟩, hd⟩ := hskip hk
      simp only [if_true, hlen, Option.some.injEq, Nat.add_eq_zero_iff, reduceCtorEq, and_false, decide_false, Bool.and_false, Bool.false_eq_true,
        if_false]
      cases enc with
      | dict d =>
        simp only [serAttrs, hvn, Bool.false_eq_true, if_false, Out.bind, appendUnlessEmpty]
        have hne := ofItems_ne_nil (β := String) (d := d.map fun kv => (QName.uri ⟨kv.1, if (a.namespaced && Elem.truthy a.ns && truthyMap a.nsmap) = true
          then Dict.get? (a.nsmap.getD []) (a.ns.getD "") else none⟩, pyStr env kv.2)) (by simpa using hd d rfl)
        rw [if_neg]
        have htm : ∀ q : Dict String String, q ≠ [] → truthyMap (some q) = true := by
          intro q hq; cases q with
          | nil => exact absurd rfl hq
          | cons => rfl
        simp only [Elem.isEmpty, setAttributes, htm _ hne]
        simp
      | _ => simp [serAttrs, hvn, Out.bind]

namespace Ex

/-- The hypotheses of `C94_read` hold for `nameDoc`, and the text is found by both. -/
example : nameDoc.next ≤ nameDoc.elements.length ∧ (∀ c, nameDoc.seen.getLast? = some c → c.tag ≠ "city") ∧
    (deser nameEnv false 5 (.elem "city" none .ordered false true) [.name "city"] ⟨nameDoc, []⟩).1 = .ok (.str "Rome") := by
  refine ⟨Nat.zero_le _, ?_, rfl⟩
  intro c h
  have : nameDoc.seen = [] := rfl
  rw [this] at h; cases h

/-- The hypotheses of `C94_write` hold with `skip_empty`: a text and a mapping. -/
example : (makeElement .lxml "doc" none).AtEnd ∧ (makeElement .lxml "doc" none).lastNamed "city" = none ∧
    ((Val.str "Rome").len? ≠ some 0 ∧ encodePrimitive nameEnv (.str "Rome") ≠ "") ∧
    (∃ k, (Val.dict [("a", .str "1")]).len? = some (k + 1)) ∧
    ser nameEnv 5 { skipEmpty := true } (.mapElem {} "city" .strict) (makeElement .lxml "doc" none) (.dict [("a", .str "1")]) (.dict [("a", .str "1")]) =
      .ok ((makeElement .lxml "doc" none).append ((makeElement .lxml "city" none).setAttribute "a" "1")) :=
  ⟨rfl, rfl, by decide, ⟨0, rfl⟩, rfl⟩

end Ex

end PXml
