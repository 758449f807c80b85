import Verif.Lemmas.Parallel
import Verif.Props.Writing

/-!
# The children written by lists and models: C34, C37
-/

namespace PXml

open Elem

/-- The fields of a class that are written for an instance with the given explicitly set fields. -/
def writtenFields (fl : Flags) (set : List String) (fs : List Field) : List Field :=
  fs.filter fun f => !f.exclude && (!fl.excludeUnset || set.contains f.name)

/-- C37: the children written by a model are the concatenation, in field order, of the children written by each of its fields,
after the children that were there before. -/
theorem C37_field_order (env : Env) (n : Nat) (m : ModelSer) (fs : List Field) (hb : m.body = .fields fs)
    (hserializer : ∀ f ∈ fs, f.serializer = none) (hw : ∀ f ∈ fs, f.ser.Everywhere Ser.NotWrapped) (fl : Flags) (el el' : Elem)
    (cls : String) (fields : Dict String Val) (set : List String) (d : Dict String Val)
    (h : serModel (ser env n) m fl el (.model cls fields set) (.dict d) = .ok el') :
    el'.elements = el.elements ++ (writtenFields fl set fs).flatMap fun f =>
      f.ser.children env n { fl with skipEmpty := m.skipEmpty.getD fl.skipEmpty } ((fields.get? f.name).getD .none)
        ((d.get? f.name).getD .none) := by
  unfold serModel at h
  simp only [hb] at h
  generalize hfl : ({ fl with skipEmpty := m.skipEmpty.getD fl.skipEmpty } : Flags) = fl' at h ⊢
  have hu : fl'.excludeUnset = fl.excludeUnset := by rw [← hfl]
  rw [show writtenFields fl set fs = writtenFields fl' set fs by simp only [writtenFields, hu]]
  clear hfl hb
  induction fs generalizing el with
  | nil => simp only [serFields] at h; injection h with h; subst h; simp [writtenFields]
  | cons f fs ih =>
    have ih' := fun el => ih (fun f hf => hserializer f (by simp [hf])) (fun f hf => hw f (by simp [hf])) el
    unfold serFields at h
    by_cases h1 : f.exclude = true
    · rw [if_pos h1] at h
      rw [ih' el h]
      simp [writtenFields, h1]
    · rw [if_neg h1] at h
      by_cases h2 : (fl'.excludeUnset && !set.contains f.name) = true
      · rw [if_pos h2] at h
        rw [ih' el h]
        simp only [Bool.and_eq_true, Bool.not_eq_eq_eq_not, Bool.not_true] at h2
        simp [writtenFields, h2.1, show f.name ∉ set by simpa using h2.2]
      · rw [if_neg h2] at h
        obtain ⟨e1, h3, h4⟩ := bind_ok h
        rw [hserializer f (by simp)] at h3
        obtain ⟨v, h5, h6⟩ := bind_ok h3
        obtain ⟨x, h7, h8⟩ := bind_ok h6
        have hv : fields.get? f.name = some v := by
          unfold getAttr at h5
          split at h5
          · injection h5 with h5; subst h5; assumption
          · cases h5
        have hx : d.get? f.name = some x := by
          simp only [getItem] at h7
          split at h7
          · injection h7 with h7; subst h7; assumption
          · cases h7
        rw [ih' e1 h4, ser_children (hw f (by simp)) h8, List.append_assoc]
        congr 1
        have hkeep : writtenFields fl' set (f :: fs) = f :: writtenFields fl' set fs := by
          unfold writtenFields
          rw [List.filter_cons_of_pos]
          simp only [Bool.and_eq_true, Bool.not_eq_eq_eq_not, Bool.not_true, not_and, Bool.not_eq_false,
            Bool.or_eq_true] at h1 h2 ⊢
          refine ⟨by simpa using h1, ?_⟩
          cases hx : fl'.excludeUnset with
          | false => simp
          | true => exact .inr (h2 hx)
        rw [hkeep, List.flatMap_cons, hv, hx]
        rfl

/-- Non-vacuity of C37: a class with an attribute, an element and a list, written after another child. -/
example : ∃ el', serModel (ser Ex.env 3)
      { name := "A", elementName := "a", body := .fields [{ name := "i", ser := .attr "i" false },
        { name := "x", ser := .homog "A" false (.elem "x" none .strict false false) },
        { name := "y", ser := .elem "y" none .strict false false }] } {} { tag := "a", elements := [{ tag := "old" }], next := 1 }
      (.model "A" [("i", .str "7"), ("x", .list [.str "1", .str "2"]), ("y", .str "3")] [])
      (.dict [("i", .str "7"), ("x", .list [.str "1", .str "2"]), ("y", .str "3")]) = .ok el' ∧
    el'.elements = [{ tag := "old" }, { tag := "x", text := some "1" }, { tag := "x", text := some "2" },
      { tag := "y", text := some "3" }] := ⟨_, rfl, rfl⟩

/-- C34: a list is written in list order, after everything written before: the children of its items, one item after the
other (with `skip_empty`, items that are `None` are left out). -/
theorem C34_written_order (env : Env) (n : Nat) (fl : Flags) (title : Title) (c : Bool) (inner : Ser)
    (hi : inner.Everywhere Ser.NotWrapped) (el el' : Elem) (vs encs : List Val)
    (h : ser env (n + 1) fl (.homog title c inner) el (.list vs) (.list encs) = .ok el') :
    el'.elements = el.elements ++ ((vs.zip encs).filter fun p => !(fl.skipEmpty && p.1.isNone)).flatMap fun p =>
      inner.children env n fl p.1 p.2 := by
  change serItems (ser env n fl inner) fl vs encs el = .ok el' at h
  induction vs generalizing encs el with
  | nil => simp only [serItems] at h; injection h with h; subst h; simp
  | cons v vs ih =>
    cases encs with
    | nil => simp only [serItems] at h; injection h with h; subst h; simp
    | cons enc encs =>
      unfold serItems at h
      rw [List.zip_cons_cons]
      split at h
      · rename_i h1
        rw [ih _ _ h, List.filter_cons_of_neg (by simpa using h1)]
      · rename_i h1
        obtain ⟨e1, h2, h3⟩ := bind_ok h
        rw [ih _ _ h3, ser_children hi h2, List.append_assoc, List.filter_cons_of_pos (by simpa only [Bool.not_eq_true, Bool.not_eq_true'] using h1), List.flatMap_cons]

/-- C34: each item that is not `None` becomes exactly one child (without `skip_empty`), with the tag of the field. -/
theorem C34_one_child (env : Env) (hs : env.SerializersWrite) (n : Nat) (fl : Flags) (hfl : fl.skipEmpty = false) (inner : Ser)
    (name : String) (mode : Mode) (hi : inner.item? = some (name, mode)) (hraw : ∀ a b c, inner ≠ .raw a b c) (v enc : Val)
    (hv : v ≠ .none) (el el' : Elem) (h : ser env (n + 1) fl inner el v enc = .ok el') :
    ∃ c, inner.children env (n + 1) fl v enc = [c] ∧ c.tag = name := by
  have hvn : v.isNone = false := by cases v <;> first | rfl | exact absurd rfl hv
  have hnw : inner.Everywhere Ser.NotWrapped := by
    cases inner <;> simp only [Ser.item?, reduceCtorEq] at hi <;>
      exact .mk trivial (by simp [Ser.subs])
  have h0 := ser_par env (n + 1) fl inner hnw el { tag := "" } v enc
  rw [h] at h0
  have hok : ∃ a, ser env (n + 1) fl inner { tag := "" } v enc = .ok a := by
    cases hx : ser env (n + 1) fl inner { tag := "" } v enc with
    | ok a => exact ⟨a, rfl⟩
    | _ => rw [hx] at h0; exact absurd h0 id
  obtain ⟨a, ha⟩ := hok
  unfold Ser.children
  rw [ha]
  change serStep env (ser env n) fl inner { tag := "" } v enc = .ok a at ha
  cases inner <;> simp only [Ser.item?, reduceCtorEq] at hi
  case elem nm ns m c nl =>
    cases c <;> simp only [reduceCtorEq, Option.some.injEq, Prod.mk.injEq] at hi
    obtain ⟨rfl, rfl⟩ := hi
    simp only [serStep, hvn, Bool.false_and, Bool.false_eq_true, if_false, appendUnlessEmpty, hfl] at ha
    injection ha with ha
    subst ha
    refine ⟨_, rfl, ?_⟩
    exact (serText_writes (P := anywhere) env nl fl _ v enc trivial (fun _ => trivial)).tag
  case mapElem a' nm m =>
    split at hi
    · cases hi
    · simp only [Option.some.injEq, Prod.mk.injEq] at hi
      obtain ⟨rfl, rfl⟩ := hi
      simp only [serStep, hfl, Bool.false_eq_true, if_false] at ha
      obtain ⟨sub, h1, h2⟩ := bind_ok ha
      injection h2 with h2
      subst h2
      exact ⟨_, rfl, (serAttrs_writes (P := anywhere) h1 trivial).tag⟩
  case raw nm m c => exact absurd rfl (hraw nm m c)
  case proxy p =>
    split at hi
    · cases hi
    · simp only [Option.some.injEq, Prod.mk.injEq] at hi
      obtain ⟨rfl, rfl⟩ := hi
      simp only [serStep] at ha
      cases hm : env.model p.cls with
      | none => rw [hm] at ha; cases ha
      | some m =>
        simp only [hm, hvn, Bool.and_false, Bool.false_eq_true, if_false, appendUnlessEmpty, hfl, Bool.false_and] at ha
        obtain ⟨sub, h1, h2⟩ := bind_ok ha
        injection h2 with h2
        subst h2
        refine ⟨_, rfl, ?_⟩
        exact (serModel_writes (P := anywhere) (fun _ _ _ _ _ _ _ _ _ _ h => (ser_writes hs _ _ _ h).all)
          (fun _ hb f hf g hg _ _ _ _ h => hs _ _ _ hm hb f hf g hg _ _ _ _ h)
          (fun _ _ _ _ _ _ _ h => (ser_writes hs _ _ _ h).all) h1).tag

/-- Non-vacuity of C34: a list of two mails, written after another child. -/
example : ∃ el', ser Ex.env 2 {} (.homog "Person" false (.elem "mail" none .strict false false))
      { tag := "person", elements := [{ tag := "name" }], next := 1 } (.list [.str "a@x", .str "b@x"])
      (.list [.str "a@x", .str "b@x"]) = .ok el' ∧
    el'.elements = [{ tag := "name" }, { tag := "mail", text := some "a@x" }, { tag := "mail", text := some "b@x" }] :=
  ⟨_, rfl, rfl⟩

end PXml
