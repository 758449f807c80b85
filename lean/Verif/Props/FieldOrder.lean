import Verif.Lemmas.FieldOrderModel
import Verif.Props.Order

/-!
# C87: the order of fields in unordered mode

The specification is in `Verif/SpecFieldOrder.lean`.
-/

namespace PXml

open Elem

/-- The document as it is before anything is read. -/
theorem fresh_kept (env : Env) (root : Node) (s : Ser) (h : root.SingleFor env s) :
    Kept (s.view env) (fromNative env.backend root) (fromNative env.backend root) := by
  have hn : (fromNative env.backend root).next = 0 := by cases root <;> simp [fromNative]
  have hl : (fromNative env.backend root).lastSeen = none := by simp [lastSeen, hn]
  have hu : (fromNative env.backend root).unread = (root.children.filter fun c => !c.isComment).map (fromNative env.backend) := by
    simp only [unread, hn, List.drop_zero]
    cases root with
    | elem tag attrib nsmap text tail cs line => simp only [fromNative, Node.children, fromNativeList_eq]
    | comment => simp [fromNative, Node.children]
    | pi => simp [fromNative, Node.children]
  refine ⟨⟨fun _ => rfl, fun _ _ => rfl, fun _ => rfl, fun _ _ => rfl, ?_, fun _ _ => Iff.rfl, by omega, by omega⟩, ?_⟩
  · intro t ht
    rw [hu]
    have := h t ht
    simp only [ofTag, List.filter_map, List.length_map]
    simpa [Function.comp_def, fromNative_tag] using this
  · intro c hc
    rw [hl] at hc
    cases hc

/-- C87: two classes that differ in the order of their fields only read a document alike, if the fields are read in unordered mode and do
not get into each other's way, and the document has at most one child for each field.  Whatever the fields contain (sub-models of any kind,
wrapped fields, discriminated unions, raw elements) and whatever else is in the document. -/
theorem C87_field_order (env : Env) (hv : env.ValidatorsRead) (eas : Bool) (n : Nat) (A B : String) (m m' : ModelSer)
    (fs fs' : List Field) (hA : env.model A = some m) (hB : env.model B = some m') (hm : m.body = .fields fs)
    (hm' : m'.body = .fields fs') (horder : fs.Perm fs') (hname : m.elementName = m'.elementName) (hx : m.extraForbid = false)
    (hx' : m'.extraForbid = false) (hind : Independent env fs) (hval : ValidatesAlike env A B) (root : Node)
    (hone : ∀ f ∈ fs, root.SingleFor env f.ser) :
    SameUpToOrder A B (fromXmlTree env eas n A root).1 (fromXmlTree env eas n B root).1 := by
  have h1 := deserModel_alone hv eas n A m (fromNative env.backend root) fs hm hx hind ⟨fromNative env.backend root, []⟩
    (fun f hf => fresh_kept env root f.ser (hone f hf)) []
  have h2 := deserModel_alone hv eas n B m' (fromNative env.backend root) fs' hm' hx' (hind.perm horder) ⟨fromNative env.backend root, []⟩
    (fun f hf => fresh_kept env root f.ser (hone f (horder.mem_iff.2 hf))) []
  have hd : (fs.flatMap (dataOf (Field.alone env eas n (fromNative env.backend root)))).Perm
      (fs'.flatMap (dataOf (Field.alone env eas n (fromNative env.backend root)))) := horder.flatMap_right _
  have he : (fs.flatMap (errsOf (Field.alone env eas n (fromNative env.backend root)))).Perm
      (fs'.flatMap (errsOf (Field.alone env eas n (fromNative env.backend root)))) := horder.flatMap_right _
  have hv := hval _ _ hd
  have hset : (∀ f ∈ fs, (f.alone env eas n (fromNative env.backend root)).Settled) →
      ¬ ∃ f ∈ fs', ¬ (f.alone env eas n (fromNative env.backend root)).Settled :=
    fun h ⟨f, hf, hn⟩ => hn (h f (horder.mem_iff.2 hf))
  have hset' : (∀ f ∈ fs', (f.alone env eas n (fromNative env.backend root)).Settled) →
      ¬ ∃ f ∈ fs, ¬ (f.alone env eas n (fromNative env.backend root)).Settled :=
    fun h ⟨f, hf, hn⟩ => hn (h f (horder.mem_iff.1 hf))
  unfold fromXmlTree
  simp only [hA, hB, ← hname]
  split
  · simp only
    generalize hr : (deserModel env (deser env eas n) A m [] ⟨fromNative env.backend root, []⟩) = r at h1
    generalize hr' : (deserModel env (deser env eas n) B m' [] ⟨fromNative env.backend root, []⟩) = r' at h2
    obtain ⟨o, st⟩ := r
    obtain ⟨o', st'⟩ := r'
    generalize fs.flatMap (dataOf (Field.alone env eas n (fromNative env.backend root))) = d at *
    generalize fs'.flatMap (dataOf (Field.alone env eas n (fromNative env.backend root))) = d' at *
    generalize fs.flatMap (errsOf (Field.alone env eas n (fromNative env.backend root))) = es at *
    generalize fs'.flatMap (errsOf (Field.alone env eas n (fromNative env.backend root))) = es' at *
    have hes : es = [] ↔ es' = [] := ⟨fun h => by subst h; exact he.symm.eq_nil, fun h => by subst h; exact he.eq_nil⟩
    cases o with
    | ok v =>
      obtain ⟨a, b, x, s, c, rfl⟩ := h1
      cases o' with
      | ok w =>
        obtain ⟨_, _, y, s', c', rfl⟩ := h2
        rw [c, c'] at hv
        exact .ok hv.1 hv.2
      | verr e' =>
        obtain ⟨_, ⟨h, _⟩ | ⟨_, e, sm, c', _⟩⟩ := h2
        · exact absurd (hes.1 b) h
        · rw [c, c'] at hv; exact hv.elim
      | crash => exact absurd h2 (hset a)
      | diverge => exact absurd h2 (hset a)
    | verr e =>
      obtain ⟨a, h1⟩ := h1
      cases o' with
      | ok w =>
        obtain ⟨_, b, y, s', c', rfl⟩ := h2
        rcases h1 with ⟨h, _⟩ | ⟨_, e, sm, c, _⟩
        · exact absurd (hes.2 b) h
        · rw [c, c'] at hv; exact hv.elim
      | verr e' =>
        obtain ⟨_, h2⟩ := h2
        rcases h1 with ⟨h, l, hl, rfl⟩ | ⟨h, f, sm, c, rfl⟩
        · rcases h2 with ⟨_, l', hl', rfl⟩ | ⟨h', _⟩
          · exact .verr (sameErrors_into (by rw [hl, hl']; exact he))
          · exact absurd (hes.2 h') h
        · rcases h2 with ⟨h', _⟩ | ⟨_, f', sm', c', rfl⟩
          · exact absurd (hes.1 h) h'
          · rw [c, c'] at hv
            exact .verr (sameErrors_lines hv _ _ _ _)
      | crash => exact absurd h2 (hset a)
      | diverge => exact absurd h2 (hset a)
    | crash x =>
      cases o' with
      | ok w => exact absurd h1 (hset' h2.1)
      | verr e' => exact absurd h1 (hset' h2.1)
      | crash => exact .raised nofun nofun nofun nofun
      | diverge => exact .raised nofun nofun nofun nofun
    | diverge =>
      cases o' with
      | ok w => exact absurd h1 (hset' h2.1)
      | verr e' => exact absurd h1 (hset' h2.1)
      | crash => exact .raised nofun nofun nofun nofun
      | diverge => exact .raised nofun nofun nofun nofun
  · exact .raised nofun nofun nofun nofun

namespace Ex

/-- The fields of `person` in the reverse order. -/
def nosrep : ModelSer where
  name := "Nosrep"
  elementName := "person"
  body := .fields (match (person .unordered).body with | .fields fs => fs.reverse | .root _ => [])

/-- Both classes, validated alike: the name is required, the data is taken as it is. -/
def orderEnv : Env where
  backend := .lxml
  model cls := if cls = "Nosrep" then some nosrep else model .unordered cls
  validate cls d := if cls = "Person" ∨ cls = "Nosrep" then
      match d with
      | .dict fs => if fs.any (fun kv => kv.1 = "name") then .ok (fs, fs.map Prod.fst)
        else .error ⟨cls, [⟨"missing", "Field required", [.name "name"], .dict fs, none⟩]⟩
      | _ => .error ⟨cls, []⟩
    else validate cls d
  toJsonable := json
  reprOf _ := ""

/-- A document with the children in an order that is that of neither class. -/
def orderDoc : Node :=
  el "person" none [el "home" (some "Main St") [] [("zip", "1")], el "contact" none [el "phones" none [el "phone" (some "5")]],
    el "other" none, el "name" (some "Ann"), el "mail" (some "a@b.c")] [("id", "7")]

theorem orderEnv_validators : orderEnv.ValidatorsRead := by
  intro cls m fs hm hb f hf v hv
  simp only [orderEnv] at hm
  split at hm
  · cases hm
    simp only [nosrep, person, Body.fields.injEq] at hb
    subst hb
    simp at hf
    rcases hf with rfl | rfl | rfl | rfl | rfl | rfl | rfl <;> cases hv
  · exact absurd hv (by rw [noValidators (b := .lxml) cls m fs hm hb f hf]; simp)

/-- The tag of the children that a field of `person` goes to. -/
def tagOf : String → String
  | "mails" => "mail"
  | "phone" => "contact"
  | n => n

theorem person_takes (f : Field) (fs : List Field) (hb : (person .unordered).body = .fields fs) (hf : f ∈ fs) :
    ¬ f.ser.Takes orderEnv .text ∧ (∀ k, f.ser.Takes orderEnv (.attr k) → f.name = "id") ∧
      ∀ t, f.ser.GoesTo orderEnv t → f.name ≠ "id" ∧ t = tagOf f.name := by
  simp only [person, Body.fields.injEq] at hb
  subst hb
  simp only [List.mem_cons, List.not_mem_nil, or_false] at hf
  rcases hf with rfl | rfl | rfl | rfl | rfl | rfl | rfl
  · exact ⟨nofun, fun _ _ => rfl, fun t h => by rcases h with h | ⟨_, h⟩ <;> cases h⟩
  · exact ⟨nofun, nofun, fun t h => by rcases h with h | ⟨_, h⟩ <;> cases h; exact ⟨by decide, rfl⟩⟩
  · exact ⟨nofun, nofun, fun t h => by rcases h with h | ⟨_, h⟩ <;> cases h; exact ⟨by decide, rfl⟩⟩
  · exact ⟨(by rintro (_ | _); rename_i h; cases h), (by rintro k (_ | _); rename_i h; cases h), fun t h => by
      rcases h with h | ⟨_, h⟩ <;> (cases h; rename_i h; cases h); exact ⟨by decide, rfl⟩⟩
  · exact ⟨nofun, nofun, fun t h => by rcases h with h | ⟨_, h⟩ <;> cases h; exact ⟨by decide, rfl⟩⟩
  · exact ⟨nofun, nofun, fun t h => by rcases h with h | ⟨_, h⟩ <;> cases h; exact ⟨by decide, rfl⟩⟩
  · exact ⟨nofun, nofun, fun t h => by rcases h with h | ⟨_, h⟩ <;> cases h; exact ⟨by decide, rfl⟩⟩

theorem person_independent (fs : List Field) (hb : (person .unordered).body = .fields fs) : Independent orderEnv fs where
  validator f hf := by
    simp only [person, Body.fields.injEq] at hb
    subst hb
    simp only [List.mem_cons, List.not_mem_nil, or_false] at hf
    rcases hf with rfl | rfl | rfl | rfl | rfl | rfl | rfl <;> rfl
  unordered f hf := by
    simp only [person, Body.fields.injEq] at hb
    subst hb
    simp only [List.mem_cons, List.not_mem_nil, or_false] at hf
    rcases hf with rfl | rfl | rfl | rfl | rfl | rfl | rfl
    · exact .attr
    · exact .elem
    · exact .elem
    · exact .homog .elem
    · exact .wrap
    · exact .proxy rfl
    · exact .mapElem
  apart := by
    have hp : fs.Pairwise fun f g => (f.name = "id" → g.name ≠ "id") ∧ tagOf f.name ≠ tagOf g.name := by
      simp only [person, Body.fields.injEq] at hb
      subst hb
      simp [tagOf]
    refine hp.imp_of_mem fun {f g} hf hg hne => ?_
    obtain ⟨a1, a2, a3⟩ := person_takes f fs hb hf
    obtain ⟨_, b2, b3⟩ := person_takes g fs hb hg
    exact ⟨fun h => a1 h.1, fun k h => hne.1 (a2 k h.1) (b2 k h.2), fun t h => hne.2 ((a3 t h.1).2.symm.trans (b3 t h.2).2)⟩
  names := by
    simp only [person, Body.fields.injEq] at hb
    subst hb
    simp
  keys := by
    simp only [person, Body.fields.injEq] at hb
    subst hb
    simp [Field.key]

theorem orderEnv_alike : ValidatesAlike orderEnv "Person" "Nosrep" := by
  intro d d' h
  have hany : d'.any (fun kv => kv.1 = "name") = d.any (fun kv => kv.1 = "name") := by
    rw [Bool.eq_iff_iff]
    simp only [List.any_eq_true, h.mem_iff]
  simp only [orderEnv, true_or, or_true, if_true, hany]
  by_cases hn : d.any (fun kv => kv.1 = "name") = true
  · simp only [hn, if_true]
    exact ⟨h, h.map _⟩
  · simp only [hn, Bool.false_eq_true, if_false]
    exact .refl _

theorem orderDoc_single (f : Field) (fs : List Field) (hb : (person .unordered).body = .fields fs) (hf : f ∈ fs) :
    orderDoc.SingleFor orderEnv f.ser := by
  intro t ht
  obtain ⟨_, _, h⟩ := person_takes f fs hb hf
  obtain ⟨_, rfl⟩ := h t ht
  simp only [person, Body.fields.injEq] at hb
  subst hb
  simp only [List.mem_cons, List.not_mem_nil, or_false] at hf
  rcases hf with rfl | rfl | rfl | rfl | rfl | rfl | rfl <;> decide

/-- A class with seven fields of different kinds and the class with the fields in the reverse order read the document alike. -/
example : SameUpToOrder "Person" "Nosrep" (fromXmlTree orderEnv false 9 "Person" orderDoc).1 (fromXmlTree orderEnv false 9 "Nosrep" orderDoc).1 :=
  C87_field_order orderEnv orderEnv_validators false 9 "Person" "Nosrep" (person .unordered) nosrep _ _ rfl rfl rfl rfl
    (List.reverse_perm _).symm rfl rfl rfl (person_independent _ rfl) orderEnv_alike orderDoc (fun f hf => orderDoc_single f _ rfl hf)

/-- It is an instance with the data of the document. -/
example : (fromXmlTree orderEnv false 9 "Nosrep" orderDoc).1 = .ok (.model "Nosrep"
    [("home", .model "Address" [("zip", .str "1"), ("street", .str "Main St")] ["zip", "street"]), ("phone", .str "5"),
      ("mails", .list [.str "a@b.c"]), ("name", .str "Ann"), ("id", .str "7")] ["home", "phone", "mails", "name", "id"]) := by kernel_rfl

/-- `class AB: a: str = element(); b: str = element()`, or the fields the other way round, in unordered mode. -/
def twoFields (cls : String) : ModelSer where
  name := cls
  elementName := "doc"
  body := .fields (if cls = "AB" then [{ name := "a", ser := .elem "a" none .unordered false false }, { name := "b", ser := .elem "b" none .unordered false false }]
    else [{ name := "b", ser := .elem "b" none .unordered false false }, { name := "a", ser := .elem "a" none .unordered false false }])

def twoEnv : Env where
  backend := .lxml
  model cls := if cls = "AB" ∨ cls = "BA" then some (twoFields cls) else none
  validate _ d := match d with | .dict fs => .ok (fs, fs.map Prod.fst) | _ => .ok ([], [])
  toJsonable := json
  reprOf _ := ""

/-- C87 without the condition that the document has at most one child for each field: `<doc><a>1</a><a>2</a><b>3</b></doc>` gives the first
`a` if `a` is declared first, and the second one if `b` is (the search in unordered mode puts the element that it has found before the
others, and the first `a` in the place of that element). -/
theorem C87_single_needed :
    let doc := el "doc" none [el "a" (some "1"), el "a" (some "2"), el "b" (some "3")]
    (fromXmlTree twoEnv false 9 "AB" doc).1 = .ok (.model "AB" [("a", .str "1"), ("b", .str "3")] ["a", "b"]) ∧
      (fromXmlTree twoEnv false 9 "BA" doc).1 = .ok (.model "BA" [("b", .str "3"), ("a", .str "2")] ["b", "a"]) :=
  ⟨by kernel_rfl, by kernel_rfl⟩

end Ex
end PXml
