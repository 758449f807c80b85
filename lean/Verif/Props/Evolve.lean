import Verif.Lemmas.Evolve
import Verif.Example

/-! # C81: a newer version of the declarations reads old documents as before -/

namespace PXml

open Elem

/-- C81: a document that uses none of the additions is read by the newer version exactly as by the older one: the same value (with
the new fields filled in, at every depth), the same errors (up to line numbers) about the same inputs, the same other exception, and
the same data is left over. -/
theorem C81_old_documents (A : Additions) (K : Nat) (fill : Filling) (env env' : Env) (hg : env.Grows A K fill env')
    (hv : env.ValidatorsRead) (eas : Bool) (n : Nat) (cls : String) (root : Node) (hl : root.Lacks A)
    (hd : (fromXmlTree env eas n cls root).1 ≠ .diverge) (hb : (fromXmlTree env eas n cls root).1 ≠ .crash .assertionError)
    (n' : Nat) (hn : n + K + 2 ≤ n') :
    (fromXmlTree env' eas n' cls root).1.noLines = ((fromXmlTree env eas n cls root).1.upgrade fill).noLines ∧
      (fromXmlTree env' eas n' cls root).2 = (fromXmlTree env eas n cls root).2 := by
  have hfit : (fromNative env.backend root).Fit A := ⟨fromNative_lacks A _ root hl, fromNative_good _ root⟩
  obtain ⟨k, rfl⟩ : ∃ k, n' = n + k := ⟨n' - n, by omega⟩
  unfold fromXmlTree at hd hb ⊢
  cases hm : env.model cls with
  | none => rw [hm] at hb; exact absurd rfl hb
  | some m =>
    obtain ⟨m', hm', hmg⟩ := hg.models cls m hm
    rw [hm] at hd hb
    rw [hm', hg.backend]
    simp only [hmg.2.1] at hd hb ⊢
    by_cases ht : root.tag = m.elementName
    · rw [if_pos ht] at hd hb
      rw [if_pos ht, if_pos ht]
      have hkeep : ∀ s l, Keeping A (deser env eas n s l) :=
        fun s l st => deser_rel (fit_rel A) env (hv.respect (fit_rel A)) eas n s l st
      rcases deserModel_up hg hkeep (fun s s' h l => deser_up hg hv eas n k (by omega) s s' h l)
          (fun f hf l el sm he => new_absent A env' eas hf.2.2.1 hf.2.1 (by have := hf.2.2.2; omega) el he l sm) hm hmg
          (fun fs hb => hv.respect (fit_rel A) cls m fs hm hb) [] _ [] [] hfit with (h | h) | ⟨h1, h2⟩
      · exact absurd h hd
      · exact absurd h hb
      · exact ⟨h1.noLines, h2.symm⟩
    · rw [if_neg ht, if_neg ht]
      exact ⟨rfl, rfl⟩

namespace Ex

/-- The names used by the newer version of the example classes only. -/
def additions : Additions := { tags := ["labels", "bird"], attrs := ["country"] }

/-- A new class. -/
def bird : ModelSer where
  name := "Bird"
  elementName := "bird"
  body := .fields [{ name := "kind", ser := .attr "kind" false }]

/-- `Address` with a new attribute in the middle. -/
def address2 : ModelSer :=
  { address with
    body := .fields [
      { name := "zip", ser := .attr "zip" false },
      { name := "country", ser := .attr "country" false },
      { name := "street", ser := .text false false }] }

/-- `Person` with a new sub-model in front and a new wrapped list in the middle. -/
def person2 (mode : Mode) : ModelSer :=
  { person mode with
    body := .fields [
      { name := "bird", ser := .proxy { cls := "Bird", name := "bird", mode := mode } },
      { name := "id", ser := .attr "id" false },
      { name := "name", ser := .elem "name" none mode false false },
      { name := "nick", ser := .elem "nick" none mode false true },
      { name := "mails", ser := .homog "Person" false (.elem "mail" none mode false false) },
      { name := "labels", ser := .wrap ["labels", "group"] none mode false (.homog "Person" false (.elem "label" none mode false false)) },
      { name := "phone", ser := .wrap ["contact", "phones"] none mode false (.elem "phone" none mode false false) },
      { name := "home", ser := .proxy { cls := "Address", name := "home", mode := mode } },
      { name := "extra", ser := .mapElem {} "extra" mode }] }

/-- `Owner`, whose unions have a new alternative. -/
def owner2 : ModelSer :=
  { owner with
    body := .fields [
      { name := "pet", ser := .tagged false "kind" "kind" .strict
          [("bird", { cls := "Bird", name := "bird" }), ("dog", { cls := "Dog", name := "pet" }), ("cat", { cls := "Cat", name := "pet" })] },
      { name := "any", ser := .modelUnion "Owner" false
          [{ cls := "Dog", name := "pet" }, { cls := "Bird", name := "bird" }, { cls := "Cat", name := "pet" }] }] }

def model2 (mode : Mode) : String → Option ModelSer
  | "Address" => some address2
  | "Person" => some (person2 mode)
  | "Tree" => some tree
  | "Dog" => some dog
  | "Cat" => some cat
  | "Owner" => some owner2
  | "Bird" => some bird
  | _ => none

/-- The names of the new fields. -/
def newFields : String → List String
  | "Address" => ["country"]
  | "Person" => ["bird", "labels"]
  | _ => []

def validate2 (cls : String) (d : Val) : Except VErr (List (String × Val) × List String) :=
  match d with
  | .dict fs => check cls (decl cls ++ (newFields cls).map fun f => (f, false)) fs
  | .undef => .error ⟨cls, [⟨"missing", "Field required", [], .none, none⟩]⟩
  | v => .ok ([("root", v)], ["root"])

def env2 (mode : Mode := .strict) (b : Backend := .lxml) : Env :=
  { env mode b with model := model2 mode, validate := validate2 }

/-- The new fields are `None`. -/
def fillNone : Filling := fun cls fs => fs ++ (newFields cls).map fun f => (f, .none)

theorem get?_upgradePairs (fill : Filling) (d : Dict String Val) (k : String) :
    Dict.get? (Val.upgradePairs fill d) k = (d.get? k).map (Val.upgrade fill) := by
  induction d with
  | nil => rfl
  | cons x d ih =>
    obtain ⟨k', v⟩ := x
    simp only [Val.upgradePairs, Dict.get?_cons]
    split
    · rfl
    · exact ih

theorem check_grows (cls : String) (title : Title) (old : List (String × Bool)) (new : List String) (d : Dict String Val)
    (hfill : ∀ fs, fillNone cls fs = fs ++ new.map fun f => (f, .none)) (hd : ∀ k ∈ new, d.get? k = none) :
    check title (old ++ new.map fun f => (f, false)) (Val.upgradePairs fillNone d) = match check title old d with
      | .ok (fs, set) => .ok (fillNone cls (Val.upgradePairs fillNone fs), set)
      | .error e => .error (e.upgrade fillNone) := by
  have hm : ((old ++ new.map fun f => (f, false)).filter fun f => f.2 && (Dict.get? (Val.upgradePairs fillNone d) f.1).isNone) =
      old.filter fun f => f.2 && (d.get? f.1).isNone := by
    rw [List.filter_append]
    have h1 : ((new.map fun f => (f, false)).filter fun f => f.2 && (Dict.get? (Val.upgradePairs fillNone d) f.1).isNone) = [] := by
      rw [List.filter_eq_nil_iff]
      intro x hx
      obtain ⟨y, _, rfl⟩ := List.mem_map.1 hx
      simp
    rw [h1, List.append_nil]
    apply List.filter_congr
    intro x _
    simp [get?_upgradePairs]
  unfold check
  simp only [hm]
  split
  · simp only [hfill, Except.ok.injEq, Prod.mk.injEq]
    refine ⟨?_, ?_⟩
    · rw [List.map_append, List.map_map, upgradePairs_eq (List.map _ old), List.map_map]
      congr 1
      · apply List.map_congr_left
        intro x _
        simp only [get?_upgradePairs, Function.comp_def]
        cases d.get? x.1 <;> rfl
      · apply List.map_congr_left
        intro x hx
        simp [get?_upgradePairs, hd x hx]
    · rw [List.map_append, List.filter_append]
      have h1 : (List.map Prod.fst (new.map fun f => (f, false))).filter
          (fun f => (Dict.get? (Val.upgradePairs fillNone d) f).isSome) = [] := by
        rw [List.filter_eq_nil_iff]
        intro x hx
        simp only [List.map_map, List.mem_map, Function.comp_def] at hx
        obtain ⟨y, hy, rfl⟩ := hx
        simp [get?_upgradePairs, hd y hy]
      rw [h1, List.append_nil]
      apply List.filter_congr
      intro x _
      simp [get?_upgradePairs]
  · simp [VErr.upgrade, Val.upgrade]

theorem keys_none {m : ModelSer} {fs : List Field} (hb : m.body = .fields fs) {d : Val} (hd : m.DataOf (fun _ => True) d)
    (new : List String) (hn : ∀ k ∈ new, k ∉ fs.map fun f => f.alias.getD f.name) :
    ∃ res, d = .dict res ∧ ∀ k ∈ new, Dict.get? res k = none := by
  simp only [ModelSer.DataOf, hb] at hd
  obtain ⟨res, rfl, h⟩ := hd
  refine ⟨res, rfl, fun k hk => ?_⟩
  rw [Dict.get?_eq_none_iff]
  intro hm
  obtain ⟨kv, hkv, rfl⟩ := List.mem_map.1 hm
  obtain ⟨_, f, hf, he⟩ := h kv hkv
  exact hn _ hk (List.mem_map.2 ⟨f, hf, he.symm⟩)

theorem env2_grows (mode : Mode) (b : Backend) : (env mode b).Grows additions 3 fillNone (env2 mode b) where
  backend := rfl
  models := by
    refine model_cases (P := fun cls m => ∃ m', (env2 mode b).model cls = some m' ∧ m.Grows additions 3 fillNone (env2 mode b) m')
      ?_ ?_ ?_ ?_ ?_ ?_
    · refine ⟨address2, rfl, rfl, rfl, rfl, rfl, ?_⟩
      refine .keep ⟨rfl, rfl, .same, rfl⟩ (.new ⟨rfl, .attr (by simp [additions]), ?_, by simp [Ser.nesting]⟩
        (.keep ⟨rfl, rfl, .same, rfl⟩ .nil))
      exact Ser.everywhere_iff.2 ⟨trivial, by simp [Ser.subs]⟩
    · refine ⟨person2 mode, rfl, rfl, rfl, rfl, rfl, ?_⟩
      refine .new ⟨rfl, .proxy (by simp [additions]), Ser.everywhere_iff.2 ⟨rfl, by simp [Ser.subs]⟩, by simp [Ser.nesting]⟩ ?_
      refine .keep ⟨rfl, rfl, .same, rfl⟩ (.keep ⟨rfl, rfl, .same, rfl⟩ (.keep ⟨rfl, rfl, .same, rfl⟩
        (.keep ⟨rfl, rfl, .same, rfl⟩ (.new ⟨rfl, .wrap (by simp [additions]), ?_, by simp [Ser.nesting]⟩
          (.keep ⟨rfl, rfl, .same, rfl⟩ (.keep ⟨rfl, rfl, .same, rfl⟩ (.keep ⟨rfl, rfl, .same, rfl⟩ .nil)))))))
      refine Ser.everywhere_iff.2 ⟨trivial, ?_⟩
      simp only [Ser.subs, List.mem_singleton, forall_eq]
      refine Ser.everywhere_iff.2 ⟨trivial, ?_⟩
      simp only [Ser.subs, List.mem_singleton, forall_eq]
      exact Ser.everywhere_iff.2 ⟨trivial, by simp [Ser.subs]⟩
    · exact ⟨tree, rfl, rfl, rfl, rfl, rfl, .keep ⟨rfl, rfl, .same, rfl⟩ (.keep ⟨rfl, rfl, .same, rfl⟩ .nil)⟩
    · exact ⟨dog, rfl, rfl, rfl, rfl, rfl, .keep ⟨rfl, rfl, .same, rfl⟩ (.keep ⟨rfl, rfl, .same, rfl⟩ .nil)⟩
    · exact ⟨cat, rfl, rfl, rfl, rfl, rfl, .keep ⟨rfl, rfl, .same, rfl⟩ (.keep ⟨rfl, rfl, .same, rfl⟩ .nil)⟩
    · refine ⟨owner2, rfl, rfl, rfl, rfl, rfl, ?_⟩
      exact .keep ⟨rfl, rfl, .tagged (.new (by simp [additions]) (.keep rfl (.keep rfl .nil))), rfl⟩
        (.keep ⟨rfl, rfl, .modelUnion (.keep rfl (.new ⟨by simp [additions], rfl⟩ (.keep rfl .nil))), rfl⟩ .nil)
  validate := by
    intro cls m d hm hd
    have key : ∃ res, d = .dict res ∧ ∀ k ∈ newFields cls, Dict.get? res k = none := by
      revert hd
      revert d
      refine model_cases (P := fun cls m => ∀ d, m.DataOf (fun _ => True) d → ∃ res, d = .dict res ∧
        ∀ k ∈ newFields cls, Dict.get? res k = none) ?_ ?_ ?_ ?_ ?_ ?_ cls m hm <;>
        (intro d hd; exact keys_none rfl hd _ (by simp [newFields]))
    obtain ⟨res, rfl, hk⟩ := key
    exact check_grows cls cls (decl cls) (newFields cls) res (fun _ => rfl) hk

/-- A document of the older version: a person with an address. -/
def personDoc1 : Node :=
  .elem "person" [("id", "7")] [] none none
    [.elem "name" [] [] (some "Ann") none [] (some 2),
     .elem "mail" [] [] (some "a@x") none [] (some 3),
     .elem "home" [("zip", "123")] [] (some "Main St") none [] (some 4)] (some 1)

/-- Non-vacuity of C81: the newer version reads the older document as before; the new fields are `None`, also those of the
sub-model. -/
example : (fromXmlTree env2 false 20 "Person" personDoc1).1.noLines =
    ((fromXmlTree env false 9 "Person" personDoc1).1.upgrade fillNone).noLines :=
  (C81_old_documents additions 3 fillNone env env2 (env2_grows _ _) (Env.NoValidators.read noValidators) false 9 "Person" personDoc1
    (by simp [personDoc1, Node.Lacks, Node.LacksList, additions, Node.tag]) (by intro h; cases h) (by intro h; cases h) 20 (by omega)).1

example : (fromXmlTree env2 false 20 "Person" personDoc1).1 =
    .ok (.model "Person" [("id", .str "7"), ("name", .str "Ann"), ("nick", .none), ("mails", .list [.str "a@x"]), ("phone", .none),
      ("home", .model "Address" [("zip", .str "123"), ("street", .str "Main St"), ("country", .none)] ["zip", "street"]),
      ("extra", .none), ("bird", .none), ("labels", .none)] ["id", "name", "mails", "home"]) := by kernel_rfl

/-- Without the condition on the document the claim is false: the name of a new attribute occurs in this one, and is data that is
left over for the older version only. -/
example : (fromXmlTree env2 false 20 "Address" (.elem "Address" [("zip", "1"), ("country", "X")] [] none none [] none)).1 =
      .ok (.model "Address" [("zip", .str "1"), ("street", .none), ("country", .str "X")] ["zip", "country"]) ∧
    (fromXmlTree env false 9 "Address" (.elem "Address" [("zip", "1"), ("country", "X")] [] none none [] none)).1 =
      .ok (.model "Address" [("zip", .str "1"), ("street", .none)] ["zip"]) := ⟨by kernel_rfl, by kernel_rfl⟩

end Ex

end PXml
