import Verif.Props.Writing
import Verif.Props.Unions
import Verif.Props.Reading

/-!
# C21 for whole documents, C33 for unions over several element names, C41 while reading
-/

namespace PXml

open Elem

/-! ## C21 -/

/-- The same class with no field excluded. -/
def ModelSer.included (m : ModelSer) : ModelSer :=
  match m.body with
  | .fields fs => { m with body := .fields (fs.map fun f => { f with exclude := false }) }
  | .root _ => m

/-- The same classes with no field excluded. -/
def Env.included (env : Env) : Env := { env with model := fun cls => (env.model cls).map ModelSer.included }

theorem ser_excluded (env : Env) (n : Nat) : ser env n = ser (env.without fun _ f => f.exclude) n := by
  induction n with
  | zero => rfl
  | succ n ih =>
    funext fl s el v enc
    change serStep env (ser env n) fl s el v enc = serStep _ (ser (env.without fun _ f => f.exclude) n) fl s el v enc
    rw [← ih]
    cases s with
    | proxy p =>
      simp only [serStep, Env.without]
      cases hm : env.model p.cls with
      | none => rfl
      | some m => simp only [Option.map_some, ← C21_excluded]
    | _ => rfl

/-- C21 for whole documents: the document is the one that the same classes without their excluded fields write, at every depth. -/
theorem C21_document (env : Env) (n : Nat) (fl : Flags) (cls : String) (v : Val) :
    toXmlTree env n fl cls v = toXmlTree (env.without fun _ f => f.exclude) n fl cls v := by
  unfold toXmlTree
  rw [ser_excluded]
  simp only [Env.without]
  cases hm : env.model cls with
  | none => rfl
  | some m =>
    simp only [Option.map_some, ← C21_excluded]
    cases hb : m.body <;> simp only [ModelSer.without, hb]

theorem deserModel_included (env : Env) (rec : Ser → Loc → St → Out Val × St) (cls : String) (m : ModelSer) (loc : Loc) (st : St) :
    deserModel env rec cls m loc st = deserModel env.included rec cls m.included loc st := by
  cases hb : m.body with
  | fields fs =>
    rw [C21_read env rec cls m fs hb]
    simp only [ModelSer.included, hb]
    rfl
  | root s =>
    simp only [ModelSer.included, hb]
    rfl

theorem deser_included (env : Env) (eas : Bool) (n : Nat) : deser env eas n = deser env.included eas n := by
  induction n with
  | zero => rfl
  | succ n ih =>
    funext s loc st
    change deserStep env eas (deser env eas n) n s loc st = deserStep _ eas (deser env.included eas n) n s loc st
    rw [← ih]
    cases s with
    | proxy p =>
      simp only [deserStep]
      change (match env.model p.cls with | none => _ | some m => _) = (match (env.model p.cls).map ModelSer.included with | none => _ | some m => _)
      cases hm : env.model p.cls with
      | none => rfl
      | some m => simp only [Option.map_some, ← deserModel_included]
    | _ => rfl

/-- C21 for whole documents: excluded fields are read as if they were not excluded, at every depth. -/
theorem C21_read_document (env : Env) (eas : Bool) (n : Nat) (cls : String) (root : Node) :
    fromXmlTree env eas n cls root = fromXmlTree env.included eas n cls root := by
  unfold fromXmlTree
  rw [deser_included]
  simp only
  change (match env.model cls with | none => _ | some m => _) = (match (env.model cls).map ModelSer.included with | none => _ | some m => _)
  cases hm : env.model cls with
  | none => rfl
  | some m =>
    simp only [Option.map_some, ← deserModel_included]
    cases hb : m.body <;> simp only [ModelSer.included, hb] <;> rfl

/-! ## C33 -/

/-- C33 without a condition on the names of the elements, in strict and ordered mode: the field is read exactly as the first alternative
whose candidate element carries its tag would be read alone. -/
theorem C33_first (env : Env) (eas : Bool) (n : Nat) (loc : Loc) (st : St) (discr attrName tag : String) (mode : Mode)
    (hm : mode ≠ .unordered) (pre post : List (String × Proxy)) (p : Proxy) (c : Elem) (hmode : p.mode = mode) (hcomp : p.computed = false)
    (hp : (env.model p.cls).isSome = true)
    (hpre : ∀ a ∈ pre, ∀ c, st.el.candidate a.2.name mode = some c → c.getAttrib attrName ≠ some a.1)
    (hc : st.el.candidate p.name mode = some c) (hattr : c.getAttrib attrName = some tag) :
    deser env eas (n + 2) (.tagged false discr attrName mode (pre ++ (tag, p) :: post)) loc st = deser env eas (n + 1) (.proxy p) loc st := by
  change taggedLoop (fun p st => deser env eas (n + 1) (.proxy p) loc st) loc attrName mode (pre ++ (tag, p) :: post) st = _
  have peek : ∀ {t : String} {c : Elem}, st.el.candidate t mode = some c → ∃ i, st.el.search t mode false = (some i, st.el) ∧
      st.el.elements[i]? = some c := by
    intro t c hc
    obtain ⟨i, el', h1, h2⟩ := candidate_some hc false
    have : el' = st.el := by
      cases mode with
      | strict =>
        simp only [search, strictSearch] at h1
        split at h1
        · split at h1
          · injection h1 with h1 h2; exact h2.symm
          · cases h1
        · cases h1
      | ordered =>
        simp only [search, orderedSearch] at h1
        split at h1
        · injection h1 with h1 h2; exact h2.symm
        · cases h1
      | unordered => exact absurd rfl hm
    subst this
    exact ⟨i, h1, h2⟩
  induction pre with
  | nil =>
    obtain ⟨i, h1, h2⟩ := peek hc
    simp only [List.nil_append, taggedLoop, h1, h2, hattr, if_true]
    rcases proxy_after_peek env eas n loc p st hcomp (by rw [hmode]; exact h1) (by rw [hmode]; exact hc) with h | h
    · exact h
    · rw [h] at hp; cases hp
  | cons a pre ih =>
    obtain ⟨t, q⟩ := a
    have ih := ih fun a ha => hpre a (by simp [ha])
    have hq := hpre (t, q) (by simp)
    simp only at hq
    simp only [List.cons_append, taggedLoop]
    cases hc : st.el.candidate q.name mode with
    | none =>
      rw [candidate_none hc]
      exact ih
    | some c =>
      obtain ⟨i, h1, h2⟩ := peek hc
      simp only [h1, h2, if_neg (hq c hc)]
      exact ih

/-- C33 in strict mode, whatever the names of the elements: the next child selects the alternative by its name and its attribute, so that the
order of the alternatives does not matter. -/
theorem C33_strict (env : Env) (eas : Bool) (n : Nat) (loc : Loc) (st : St) (discr attrName tag : String)
    (alts : List (String × Proxy)) (htags : (alts.map Prod.fst).Nodup) (p : Proxy) (hin : (tag, p) ∈ alts) (hmode : p.mode = .strict)
    (hcomp : p.computed = false) (hp : (env.model p.cls).isSome = true) (c : Elem) (rest : List Elem) (hc : st.el.unread = c :: rest)
    (hname : c.tag = p.name) (hattr : c.getAttrib attrName = some tag) :
    deser env eas (n + 2) (.tagged false discr attrName .strict alts) loc st = deser env eas (n + 1) (.proxy p) loc st := by
  obtain ⟨pre, post, rfl⟩ := List.append_of_mem hin
  refine C33_first env eas n loc st discr attrName tag .strict nofun pre post p c hmode hcomp hp ?_ ?_ hattr
  · intro a ha c' hc' ht
    simp only [Elem.candidate, hc, List.head?_cons, Option.filter] at hc'
    split at hc'
    · injection hc' with hc'
      subst hc'
      rw [hattr] at ht
      injection ht with ht
      simp only [List.map_append, List.map_cons, List.nodup_append] at htags
      exact htags.2.2 a.1 (List.mem_map_of_mem ha) tag (by simp) ht.symm
    · cases hc'
  · simp [Elem.candidate, hc, hname]

/-! ## C41 -/

/-- C41 while reading: reading any field keeps the position, here and at every depth, within the children or right behind the last one; so the
child before the position, which a wrapped field looks at, is there unless nothing has been read yet, and no lookup raises an `IndexError`. -/
theorem C41_read (env : Env) (hE : env.Everywhere (Ser.Resolved env)) (hv : env.ValidatorsRead) (hr : env.ValidatorsRaise) (eas : Bool) (n : Nat)
    (s : Ser) (hs : s.Everywhere (Ser.Resolved env)) (loc : Loc) (st : St) (h : st.el.Good) :
    (deser env eas n s loc st).2.el.Good ∧ (∀ x, (deser env eas n s loc st).1 ≠ .crash x) ∧
      ∀ t mode, ∃ r, (deser env eas n s loc st).2.el.findElement t mode = .ok r := by
  obtain ⟨h1, h2⟩ := deser_safe env hE (ValidatorsSafe_of hv hr) eas n s hs loc st h
  refine ⟨h2, fun x hx => (by rw [hx] at h1; cases h1), fun t mode => ?_⟩
  obtain ⟨r, h3, _⟩ := findElement_ok h2 t mode
  exact ⟨r, h3⟩

/-- C41: it starts there. -/
theorem C41_read_start (b : Backend) (root : Node) : (fromNative b root).Good := fromNative_good b root

namespace Ex

/-- The tree with the identifier excluded. -/
def shy : ModelSer where
  name := "Tree"
  elementName := "tree"
  body := .fields [
    { name := "id", ser := .attr "id" false, exclude := true },
    { name := "kids", ser := .homog "Tree" false (.proxy { cls := "Tree", name := "tree" }) }]

def shyEnv : Env := { env with model := fun cls => if cls = "Tree" then some shy else none }

/-- Non-vacuity of C21: nothing is written of the identifiers, at any depth, and they are read. -/
example : toXmlTree shyEnv 9 {} "Tree" (.model "Tree" [("id", .str "1"), ("kids", .list [.model "Tree" [("id", .str "2"), ("kids", .none)] ["id"]])]
      ["id", "kids"]) = .ok (el "tree" none [el "tree"]) ∧
    (fromXmlTree shyEnv false 9 "Tree" (el "tree" none [el "tree" none [] [("id", "2")]] [("id", "1")])).1 =
      .ok (.model "Tree" [("id", .str "1"), ("kids", .list [.model "Tree" [("id", .str "2"), ("kids", .none)] ["id"]])] ["id", "kids"]) :=
  ⟨by kernel_rfl, by kernel_rfl⟩

/-- An element with a cat under a name of its own. -/
def catDoc : Elem := fromNative .lxml (el "owner" none [el "felis" none [el "lives" (some "9")] [("kind", "cat")]])

/-- Non-vacuity of C33: the alternatives have different element names, and the second one is selected. -/
example : deser (env) false 9 (.tagged false "kind" "kind" .strict [("dog", { cls := "Dog", name := "canis" }), ("cat", { cls := "Cat", name := "felis" })])
      [.name "pet"] ⟨catDoc, []⟩ = deser (env) false 8 (.proxy { cls := "Cat", name := "felis" }) [.name "pet"] ⟨catDoc, []⟩ ∧
    (deser (env) false 8 (.proxy { cls := "Cat", name := "felis" }) [.name "pet"] ⟨catDoc, []⟩).1 =
      .ok (.model "Cat" [("kind", .str "cat"), ("lives", .str "9")] ["kind", "lives"]) :=
  ⟨C33_strict (env) false 7 _ ⟨catDoc, []⟩ "kind" "kind" "cat" _ (by simp) { cls := "Cat", name := "felis" } (by simp) rfl rfl rfl _ _ rfl rfl rfl,
    by kernel_rfl⟩

/-- Non-vacuity of C41: the tree is read, two children deep, and the position ends right behind the last child. -/
example : (env).Everywhere (Ser.Resolved (env)) ∧ (env).ValidatorsRead ∧ (env).ValidatorsRaise ∧
    (deser (env) false 9 (.homog "Tree" false (.proxy { cls := "Tree", name := "tree" })) [.name "kids"]
      ⟨fromNative .lxml (el "tree" none [el "tree" none [] [("id", "1")], el "tree" none [] [("id", "2")]]), []⟩).2.el.next = 2 :=
  ⟨by apply everywhere; simp [Ser.Resolved, env, model], Env.NoValidators.read noValidators,
    (by intro cls m fs hm hb f hf v hv; rw [noValidators cls m fs hm hb f hf] at hv; cases hv), by kernel_rfl⟩

/-- C33 in ordered mode with several element names: the order of the alternatives decides, if both have a candidate. -/
theorem C33_order_needed :
    let doc := fromNative .lxml (el "owner" none [el "felis" none [el "lives" (some "9")] [("kind", "cat")],
      el "canis" none [el "name" (some "Rex")] [("kind", "dog")]])
    let dog : String × Proxy := ("dog", { cls := "Dog", name := "canis", mode := .ordered })
    let cat : String × Proxy := ("cat", { cls := "Cat", name := "felis", mode := .ordered })
    (deser (env) false 9 (.tagged false "kind" "kind" .ordered [dog, cat]) [] ⟨doc, []⟩).1 =
        .ok (.model "Dog" [("kind", .str "dog"), ("name", .str "Rex")] ["kind", "name"]) ∧
      (deser (env) false 9 (.tagged false "kind" "kind" .ordered [cat, dog]) [] ⟨doc, []⟩).1 =
        .ok (.model "Cat" [("kind", .str "cat"), ("lives", .str "9")] ["kind", "lives"]) :=
  ⟨by kernel_rfl, by kernel_rfl⟩

end Ex
end PXml
