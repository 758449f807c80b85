import Verif.Props.Order
import Verif.Props.Reading
import Verif.Lemmas.SimVal
import Verif.SpecVerdict

/-!
# Foreign elements and the order of children, with unions of models (C08, C09)

`C08_ordered_counterexample` and `C09_counterexample` concern the errors that are reported for a failed union.  The instance, and whether there
is one, does not depend on foreign elements or on the order of the children, with unions as well.
-/

namespace PXml

open Elem

/-! ## Helpers -/

theorem allowed_unions {env : Env} {K : List String} {mode : Mode} (hK : env.Everywhere (Ser.LooksFor K mode))
    (hraw : env.Everywhere Ser.NotRaw) : env.Everywhere (Ser.Allowed (.tags fun t m => t ∈ K ∧ m = mode) False True) := by
  have key : ∀ s : Ser, s.Everywhere (Ser.LooksFor K mode) → s.Everywhere Ser.NotRaw →
      s.Everywhere (Ser.Allowed (.tags fun t m => t ∈ K ∧ m = mode) False True) := by
    intro s h1
    induction h1 with
    | @mk s h _ ih =>
      intro h2
      obtain ⟨h2, k2⟩ := h2
      refine ⟨⟨h, ?_⟩, fun t ht => ih t ht (k2 t ht)⟩
      cases s <;> first | trivial | exact h2 | exact fun _ => trivial | exact fun _ _ _ => trivial
  intro c m hm
  have h1 := hK c m hm
  have h2 := hraw c m hm
  cases hb : m.body with
  | fields fs =>
    simp only [ModelSer.Everywhere, hb] at h1 h2 ⊢
    exact fun f hf => key _ (h1 f hf) (h2 f hf)
  | root s =>
    simp only [ModelSer.Everywhere, hb] at h1 h2 ⊢
    exact key _ h1 h2

theorem noValidators_read {env : Env} (h : env.NoValidators) : env.ValidatorsRead ∧ env.ValidatorsRaise ∧ env.ValidatorsTerminate := by
  refine ⟨?_, ?_, ?_⟩ <;> intro cls m fs hm hb f hf v hv <;> rw [h cls m fs hm hb f hf] at hv <;> cases hv

/-- Both documents are read to an end, without exceptions other than validation errors. -/
theorem verdict_of_val {env : Env} {eas : Bool} {T : Looks} {raw union forbid : Prop} {E : Elem → Elem → Prop} {P : Val → Prop} {norm : Int → Int}
    (S : Sim env env eas T raw union forbid E P norm) (hText : ∀ t, T.text t) (hA : env.Everywhere (Ser.Allowed T raw True))
    (hno : env.NoValidators) (hE : env.Everywhere (Ser.Resolved env)) (heas : eas = false ∨ env.Everywhere Ser.NoTextItems)
    (cls : String) (m : ModelSer) (hm : env.model cls = some m) (doc1 doc2 : Node) (ht : doc1.tag = doc2.tag)
    (h : E (fromNative env.backend doc1) (fromNative env.backend doc2)) :
    ∃ N, ∀ n, N ≤ n → SameVerdict (fromXmlTree env eas n cls doc1).1 (fromXmlTree env eas n cls doc2).1 := by
  obtain ⟨hv, hr, hter⟩ := noValidators_read hno
  have ends : ∀ doc, ∃ N, ∀ n, N ≤ n → (fromXmlTree env eas n cls doc).1 ≠ .diverge := by
    intro doc
    cases eas with
    | false =>
      obtain ⟨N, r, h1, h2⟩ := C29_reading_terminates env hv hter cls doc
      exact ⟨N, fun n hn => by rw [h2 n hn]; exact h1⟩
    | true =>
      rcases heas with heas | heas
      · cases heas
      · obtain ⟨N, r, h1, h2⟩ := C29_empty_as_string_partial env hv hter heas cls doc
        exact ⟨N, fun n hn => by rw [h2 n hn]; exact h1⟩
  obtain ⟨N1, h1⟩ := ends doc1
  obtain ⟨N2, h2⟩ := ends doc2
  refine ⟨max N1 N2, fun n hn => ?_⟩
  have h1 := h1 n (by omega)
  have h2 := h2 n (by omega)
  have c1 := C22_C28_only_validation_errors env hE hv hr eas n cls m hm doc1
  have c2 := C22_C28_only_validation_errors env hE hv hr eas n cls m hm doc2
  by_cases htag : doc1.tag = m.elementName
  · rcases fromXmlTree_val S hText hA n cls doc1 doc2 ht h with hb | hb | ⟨v, hb1, hb2⟩ | ⟨e, f, hb1, hb2⟩
    · exfalso
      cases ho : (fromXmlTree env eas n cls doc1).1 with
      | crash x => exact ((c1 x).1 ho).1 htag
      | diverge => exact h1 ho
      | ok v => rw [ho] at hb; exact hb
      | verr e => rw [ho] at hb; exact hb
    · exfalso
      cases ho : (fromXmlTree env eas n cls doc2).1 with
      | crash x => exact ((c2 x).1 ho).1 (ht ▸ htag)
      | diverge => exact h2 ho
      | ok v => rw [ho] at hb; exact hb
      | verr e => rw [ho] at hb; exact hb
    · rw [hb1, hb2]; exact .value v
    · rw [hb1, hb2]; exact .invalid e f
  · rw [(c1 .parsingError).2 ⟨htag, rfl⟩, (c2 .parsingError).2 ⟨ht ▸ htag, rfl⟩]
    exact .exception _

/-! ## C08, ordered mode -/

/-- C08 (ordered mode, unions of models included; partial: without raw fields, and the reported errors may differ, see
`C08_ordered_counterexample`): two documents that agree after removing, at any depth, the elements whose tags no field looks for, give the same
instance, or are both rejected with a validation error. -/
theorem C08_ordered_values_partial (env : Env) (hno : env.NoValidators) (hforbid : env.NoForbid) (hE : env.Everywhere (Ser.Resolved env))
    (K : List String) (hK : env.Everywhere (Ser.LooksFor K .ordered)) (hraw : env.Everywhere Ser.NotRaw) (eas : Bool)
    (heas : eas = false ∨ env.Everywhere Ser.NoTextItems) (cls : String) (m : ModelSer) (hm : env.model cls = some m) (doc1 doc2 : Node)
    (h : doc1.dropForeign K = doc2.dropForeign K) :
    ∃ N, ∀ n, N ≤ n → SameVerdict (fromXmlTree env eas n cls doc1).1 (fromXmlTree env eas n cls doc2).1 := by
  have ht : doc1.tag = doc2.tag := by rw [← dropForeign_tag K doc1, h, dropForeign_tag]
  have hA : env.Everywhere (Ser.Allowed (.tags fun t m => (fun t => decide (t ∈ K)) t = true ∧ m = .ordered) False True) := by
    simpa using allowed_unions hK hraw
  refine verdict_of_val (pruneSim env eas (fun t => decide (t ∈ K)) hforbid hno) (fun _ => trivial) hA hno hE heas cls m hm doc1 doc2 ht
    ⟨?_, fromNative_good _ _, fromNative_good _ _⟩
  rw [← prune_dropForeign K _ doc1, h, prune_dropForeign]

/-! ## C08 and C09, unordered mode -/

/-- C08 and C09 together (unordered mode, unions of models included; partial: without raw fields, and the reported errors may differ, see
`C09_counterexample`): two documents whose known parts differ in the order of children only, with each known tag at most once among the
children of an element, give the same instance, or are both rejected with a validation error. -/
theorem C08_C09_unordered_values_partial (env : Env) (hno : env.NoValidators) (hforbid : env.NoForbid) (hE : env.Everywhere (Ser.Resolved env))
    (K : List String) (hK : env.Everywhere (Ser.LooksFor K .unordered)) (hraw : env.Everywhere Ser.NotRaw) (eas : Bool)
    (heas : eas = false ∨ env.Everywhere Ser.NoTextItems) (cls : String) (m : ModelSer) (hm : env.model cls = some m) (doc1 doc2 : Node)
    (h : (doc1.dropForeign K).Shuffled (doc2.dropForeign K)) (hu : (doc1.dropForeign K).UniqueTags K) :
    ∃ N, ∀ n, N ≤ n → SameVerdict (fromXmlTree env eas n cls doc1).1 (fromXmlTree env eas n cls doc2).1 := by
  have ht : doc1.tag = doc2.tag := by rw [← dropForeign_tag K doc1, h.tag, dropForeign_tag]
  refine verdict_of_val (canonSim env eas K hforbid hno) (fun _ => trivial) (allowed_unions hK hraw) hno hE heas cls m hm doc1 doc2 ht
    ⟨?_, ⟨fromNative_good _ _, fromNative_good _ _⟩, fromNative_uniq_known K _ _ hu, fromNative_uniq_known K _ _ (h.unique hu)⟩
  rw [← canon_dropForeign K _ doc1, canon_shuffled K _ h hu, canon_dropForeign]

/-- C09 (unions of models included, partial as above): children may come in any order, at every depth. -/
theorem C09_values_partial (env : Env) (hno : env.NoValidators) (hforbid : env.NoForbid) (hE : env.Everywhere (Ser.Resolved env))
    (K : List String) (hK : env.Everywhere (Ser.LooksFor K .unordered)) (hraw : env.Everywhere Ser.NotRaw) (eas : Bool)
    (heas : eas = false ∨ env.Everywhere Ser.NoTextItems) (cls : String) (m : ModelSer) (hm : env.model cls = some m) (doc1 doc2 : Node)
    (h : doc1.Shuffled doc2) (hu : doc1.UniqueTags K) :
    ∃ N, ∀ n, N ≤ n → SameVerdict (fromXmlTree env eas n cls doc1).1 (fromXmlTree env eas n cls doc2).1 :=
  verdict_of_val (canonSim env eas K hforbid hno) (fun _ => trivial) (allowed_unions hK hraw) hno hE heas cls m hm doc1 doc2 h.tag
    ⟨canon_shuffled K _ h hu, ⟨fromNative_good _ _, fromNative_good _ _⟩, fromNative_uniq K _ _ hu, fromNative_uniq K _ _ (h.unique hu)⟩

/-! ## Non-vacuity -/

namespace Ex

/-- `class Zoo: animals: List[Union[Lion, Owl]] = element('animal'); keeper: str = element()`, one mode for all. -/
def zoo (mode : Mode) : ModelSer where
  name := "Zoo"
  elementName := "zoo"
  body := .fields [
    { name := "animals", ser := .homog "Zoo" false (.modelUnion "Zoo" false
        [{ cls := "Lion", name := "animal", mode := mode }, { cls := "Owl", name := "animal", mode := mode }]) },
    { name := "keeper", ser := .elem "keeper" none mode false false }]

def beast (name : String) (mode : Mode) : ModelSer where
  name := name
  elementName := "animal"
  body := .fields [
    { name := "name", ser := .elem "name" none mode false false },
    { name := "part", ser := .elem (if name = "Lion" then "mane" else "wing") none mode false false }]

def zooEnv (mode : Mode) : Env where
  backend := .std
  model c := if c = "Zoo" then some (zoo mode) else if c = "Lion" then some (beast "Lion" mode) else if c = "Owl" then some (beast "Owl" mode) else none
  validate c d :=
    match d with
    | .dict fs => check c (if c = "Zoo" then [("animals", false), ("keeper", true)] else [("name", true), ("part", true)]) fs
    | _ => .error ⟨c, []⟩
  toJsonable := json
  reprOf _ := "..."

def zooTags : List String := ["animal", "keeper", "name", "mane", "wing"]

theorem zoo_cases {mode : Mode} {P : String → ModelSer → Prop} (h1 : P "Zoo" (zoo mode)) (h2 : P "Lion" (beast "Lion" mode))
    (h3 : P "Owl" (beast "Owl" mode)) : ∀ cls m, (zooEnv mode).model cls = some m → P cls m := by
  intro cls m h
  simp only [zooEnv] at h
  split at h
  · injection h with h; subst h; rename_i hc; subst hc; exact h1
  · split at h
    · injection h with h; subst h; rename_i hc; subst hc; exact h2
    · split at h
      · injection h with h; subst h; rename_i hc; subst hc; exact h3
      · cases h

theorem zoo_everywhere {mode : Mode} {P : Ser → Prop}
    (h : ∀ s ∈ [Ser.homog "Zoo" false (.modelUnion "Zoo" false
        [{ cls := "Lion", name := "animal", mode := mode }, { cls := "Owl", name := "animal", mode := mode }]),
      .modelUnion "Zoo" false [{ cls := "Lion", name := "animal", mode := mode }, { cls := "Owl", name := "animal", mode := mode }],
      .proxy { cls := "Lion", name := "animal", mode := mode }, .proxy { cls := "Owl", name := "animal", mode := mode },
      .elem "keeper" none mode false false, .elem "name" none mode false false, .elem "mane" none mode false false,
      .elem "wing" none mode false false], P s) :
    (zooEnv mode).Everywhere P := by
  simp only [List.forall_mem_cons] at h
  apply zoo_cases <;>
    simp only [ModelSer.Everywhere, zoo, beast, List.forall_mem_cons, Ser.everywhere_modelUnion, Ser.everywhere_elem, Ser.everywhere_homog,
      Ser.everywhere_proxy] <;>
    simp [h]

/-- The hypotheses about the classes hold, in every mode. -/
theorem zoo_ok (mode : Mode) : (zooEnv mode).NoValidators ∧ (zooEnv mode).NoForbid ∧ (zooEnv mode).Everywhere (Ser.Resolved (zooEnv mode)) ∧
    (zooEnv mode).Everywhere (Ser.LooksFor zooTags mode) ∧ (zooEnv mode).Everywhere Ser.NotRaw ∧ (zooEnv mode).Everywhere Ser.NoTextItems := by
  refine ⟨?_, ?_, ?_, ?_, ?_, ?_⟩
  · intro cls m fs h
    revert h fs
    suffices h : ∀ cls m, (zooEnv mode).model cls = some m → ∀ fs, m.body = .fields fs → ∀ f ∈ fs, f.validator = none from
      fun fs h' hb => h cls m h' fs hb
    apply zoo_cases <;> (intro fs hb; injection hb with hb; subst hb; simp)
  · apply zoo_cases <;> rfl
  · apply zoo_everywhere; simp [Ser.Resolved, zooEnv]
  · apply zoo_everywhere; simp [Ser.LooksFor, Ser.searches, zooTags]
  · apply zoo_everywhere; simp [Ser.NotRaw]
  · apply zoo_everywhere; simp [Ser.NoTextItems]

def owl : Node := el "animal" none [el "name" (some "O"), el "wing" (some "w")]
def lion : Node := el "animal" none [el "name" (some "L"), el "mane" (some "m")]

/-- Two animals; the first one is not of the first class of the union. -/
def zooDoc : Node := el "zoo" none [owl, lion, el "keeper" (some "Ann")]

/-- The same with foreign elements at two depths. -/
def zooDocGrown : Node :=
  el "zoo" none [el "sign", el "animal" none [el "name" (some "O"), el "tail" (some "?"), el "wing" (some "w")], el "sign", lion, el "sign",
    el "keeper" (some "Ann") [el "sign"]]

def zooVal : Val :=
  .model "Zoo" [("animals", .list [.model "Owl" [("name", .str "O"), ("part", .str "w")] ["name", "part"],
    .model "Lion" [("name", .str "L"), ("part", .str "m")] ["name", "part"]]), ("keeper", .str "Ann")] ["animals", "keeper"]

end Ex

example : Ex.zooDoc.dropForeign Ex.zooTags = Ex.zooDocGrown.dropForeign Ex.zooTags ∧
    (fromXmlTree (Ex.zooEnv .ordered) false 9 "Zoo" Ex.zooDocGrown).1 = .ok Ex.zooVal := ⟨rfl, rfl⟩

/-- A union that fails in both documents: two verdicts alike, with different errors. -/
example :
    let bad := Ex.el "animal" none [Ex.el "name" (some "?")]
    let doc1 := Ex.el "zoo" none [bad, Ex.el "keeper" (some "Ann")]
    let doc2 := Ex.el "zoo" none [Ex.el "sign", bad, Ex.el "keeper" (some "Ann")]
    doc1.dropForeign Ex.zooTags = doc2.dropForeign Ex.zooTags ∧
    Ex.errLocs (fromXmlTree (Ex.zooEnv .ordered) false 9 "Zoo" doc1).1 ≠ Ex.errLocs (fromXmlTree (Ex.zooEnv .ordered) false 9 "Zoo" doc2).1 ∧
    (fromXmlTree (Ex.zooEnv .ordered) false 9 "Zoo" doc2).1 matches .verr _ := by
  refine ⟨rfl, ?_, rfl⟩
  have h1 : Ex.errLocs (fromXmlTree (Ex.zooEnv .ordered) false 9 "Zoo" (Ex.el "zoo" none [Ex.el "animal" none [Ex.el "name" (some "?")],
      Ex.el "keeper" (some "Ann")])).1 = [[.name "animals", .idx 0, .name "Lion", .name "part"],
        [.name "animals", .idx 0, .name "Owl", .name "part"]] := rfl
  have h2 : Ex.errLocs (fromXmlTree (Ex.zooEnv .ordered) false 9 "Zoo" (Ex.el "zoo" none [Ex.el "sign", Ex.el "animal" none [Ex.el "name" (some "?")],
      Ex.el "keeper" (some "Ann")])).1 = [[.name "animals", .idx 0, .name "Lion", .name "part"],
        [.name "animals", .idx 0, .name "Owl", .name "part"], [.name "animals", .idx 1, .name "Lion", .name "part"],
        [.name "animals", .idx 1, .name "Owl", .name "part"]] := rfl
  intro h
  rw [h1, h2] at h
  simp at h

/-- Children in another order, at two depths, with a union whose first member fails. -/
example :
    let doc1 := Ex.el "zoo" none [Ex.owl, Ex.el "keeper" (some "Ann")]
    let doc2 := Ex.el "zoo" none [Ex.el "keeper" (some "Ann"), Ex.el "animal" none [Ex.el "wing" (some "w"), Ex.el "name" (some "O")]]
    doc1.Shuffled doc2 ∧ doc1.UniqueTags Ex.zooTags ∧
    (fromXmlTree (Ex.zooEnv .unordered) false 9 "Zoo" doc2).1 = .ok (.model "Zoo" [("animals", .list [.model "Owl"
      [("name", .str "O"), ("part", .str "w")] ["name", "part"]]), ("keeper", .str "Ann")] ["animals", "keeper"]) := by
  refine ⟨?_, ?_, rfl⟩
  · refine .elem (l := [Ex.el "animal" none [Ex.el "wing" (some "w"), Ex.el "name" (some "O")], Ex.el "keeper" (some "Ann")]) rfl ?_
      (List.Perm.swap _ _ _)
    intro i c1 c2 h1 h2
    match i with
    | 0 =>
      cases h1; cases h2
      refine .elem (l := [Ex.el "name" (some "O"), Ex.el "wing" (some "w")]) rfl ?_ (List.Perm.swap _ _ _)
      intro i c1 c2 h1 h2
      rw [h1] at h2
      cases h2
      exact .refl _
    | 1 => cases h1; cases h2; exact .refl _
    | n + 2 => cases h1
  · refine ⟨by decide, ?_⟩
    simp [Node.UniqueTagsList, Node.UniqueTags, Ex.el, Ex.owl, Ex.zooTags, Node.tag]

end PXml
