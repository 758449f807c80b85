import Verif.SpecPieces
import Verif.SpecEffort
import Verif.Props.Place

/-!
# C91: every instance in the result is what its class reads from its own element

The specification is in `Verif/SpecPieces.lean` and `Verif/SpecPlace.lean`.
-/

namespace PXml

open Elem

theorem Node.Inside.trans {x y z : Node} (h1 : x.Inside y) (h2 : y.Inside z) : x.Inside z := by
  induction h2 with
  | child hk hc => exact .deeper hk hc h1
  | deeper hk hc _ ih => exact .deeper hk hc ih

theorem Node.Inside.asRoot {x k : Node} {tag : String} (h : x.Inside (k.asRoot tag)) : x.Inside k := by
  have hkids : (k.asRoot tag).children = k.children := by cases k <;> rfl
  cases h with
  | child h1 h2 => rw [hkids] at h1; exact .child h1 h2
  | deeper h1 h2 h3 => rw [hkids] at h1; exact .deeper h1 h2 h3

theorem elementCountList_mem {k : Node} {ns : List Node} (h : k ∈ ns) : k.elementCount ≤ Node.elementCountList ns := by
  induction ns with
  | nil => cases h
  | cons n ns ih =>
    simp only [Node.elementCountList]
    rcases List.mem_cons.1 h with rfl | h
    · omega
    · have := ih h; omega

theorem elementCount_child {k node : Node} (h : k ∈ node.children) : k.elementCount < node.elementCount := by
  cases node with
  | elem tag attrib nsmap text tail children line =>
    have := elementCountList_mem (show k ∈ children from h)
    simp only [Node.elementCount]
    omega
  | comment => cases h
  | pi => cases h

theorem elementCount_inside {x node : Node} (h : x.Inside node) : x.elementCount < node.elementCount := by
  induction h with
  | child h _ => exact elementCount_child h
  | deeper h _ _ ih => have := elementCount_child h; omega

theorem elementCount_asRoot {k : Node} (hc : k.isComment = false) (tag : String) : (k.asRoot tag).elementCount = k.elementCount := by
  cases k with
  | elem tag attrib nsmap text tail children line => rfl
  | comment => simp [Node.isComment] at hc
  | pi => rfl

theorem part_str {c : String} {b : List (String × Val)} {s : List String} {t : String} (h : Val.Part (.model c b s) (.str t)) : False := by
  cases h

/-- An instance in what a field gives is inside what a class gives for an element inside. -/
theorem gives_instance {env : Env} {eas : Bool} {s : Ser} {node : Node} {v : Val} (h : s.Gives env eas node v) {c : String}
    {b : List (String × Val)} {set : List String} (hp : Val.Part (.model c b set) v) :
    ∃ (k : Node) (cls : String) (m : ModelSer) (j : Nat) (u : Val), k.Inside node ∧ k.isComment = false ∧ env.model cls = some m ∧
      (fromXmlTree env eas j cls (k.asRoot m.elementName)).1 = .ok u ∧ Val.Part (.model c b set) u := by
  induction h with
  | absent => cases hp
  | text _ => cases hp
  | emptyText _ => cases hp
  | attr _ => cases hp
  | attrs _ hd =>
    cases hp with
    | entry hk hw =>
      obtain ⟨_, x, _, _, hx⟩ := hd _ hk
      simp only at hx
      subst hx
      cases hw
  | elem hk hc _ _ ih =>
    obtain ⟨k', cls, m, j, u, h1, h2⟩ := ih hp
    exact ⟨k', cls, m, j, u, .deeper hk hc h1, h2⟩
  | mapElem hk hc _ _ ih =>
    obtain ⟨k', cls, m, j, u, h1, h2⟩ := ih hp
    exact ⟨k', cls, m, j, u, .deeper hk hc h1, h2⟩
  | raw _ _ _ => cases hp
  | proxy _ hm hk hc _ hr => exact ⟨_, _, _, _, _, .child hk hc, hc, hm, hr, hp⟩
  | primUnion _ ih => exact ih hp
  | modelUnion _ _ ih => exact ih hp
  | tagged _ _ ih => exact ih hp
  | wrapped _ ih => exact ih hp
  | wrap hk hc _ _ ih =>
    obtain ⟨k', cls, m, j, u, h1, h2⟩ := ih hp
    exact ⟨k', cls, m, j, u, .deeper hk hc h1, h2⟩
  | homog _ ih =>
    cases hp with
    | item hw hpw => exact ih _ hw hpw
  | hetero hl _ ih =>
    cases hp with
    | item hw hpw =>
      obtain ⟨i, hi, rfl⟩ := List.mem_iff_getElem.1 hw
      exact ih i _ _ (List.getElem?_eq_getElem (hl ▸ hi)) (List.getElem?_eq_getElem hi) hpw

/-- What is returned is an instance of the class. -/
theorem fromXmlTree_instance {env : Env} {eas : Bool} {n : Nat} {cls : String} {root : Node} {v : Val}
    (h : (fromXmlTree env eas n cls root).1 = .ok v) : ∃ m a set, env.model cls = some m ∧ v = .model cls a set := by
  unfold fromXmlTree at h
  cases hm : env.model cls with
  | none => rw [hm] at h; cases h
  | some m =>
    rw [hm] at h
    refine ⟨m, ?_⟩
    have hval : ∀ data st, validateModel env cls m data st = .ok v → ∃ a set, v = .model cls a set := by
      intro data st hv
      unfold validateModel at hv
      split at hv
      · cases hv
      · split at hv
        · simp only [Out.ok.injEq] at hv
          exact ⟨_, _, hv.symm⟩
        · cases hv
    have : ∃ a set, v = .model cls a set := by
      simp only at h
      split at h
      · unfold deserModel at h
        split at h
        · split at h <;> try cases h
          split at h
          · exact hval _ _ h
          · cases h
        · split at h <;> try cases h
          exact hval _ _ h
      · cases h
    obtain ⟨a, set, hv⟩ := this
    exact ⟨a, set, rfl, hv⟩

/-- C91: every instance in the result of `from_xml_tree`, at whatever depth, other than the result itself, is what its class reads from an
element inside the document, taken as a document of its own. -/
theorem C91_every_instance (env : Env) (hno : env.NoValidators) (hk : env.KeepsInstances) (eas : Bool) (n : Nat) (cls : String) (root : Node)
    (v : Val) (h : (fromXmlTree env eas n cls root).1 = .ok v) (c : String) (a : List (String × Val)) (set : List String)
    (hp : Val.Part (.model c a set) v) :
    v = .model c a set ∨ ∃ (x : Node) (m : ModelSer) (j : Nat), x.Inside root ∧ x.isComment = false ∧ env.model c = some m ∧
      (fromXmlTree env eas j c (x.asRoot m.elementName)).1 = .ok (.model c a set) := by
  generalize hN : root.elementCount = N
  induction N using Nat.strongRecOn generalizing n cls root v with
  | ind N ih =>
    obtain ⟨m, b, s, hm, rfl⟩ := fromXmlTree_instance h
    cases hp with
    | refl => exact .inl rfl
    | field hin hpw =>
      refine .inr ?_
      have key : ∃ (k : Node) (cls' : String) (m' : ModelSer) (j : Nat) (u : Val), k.Inside root ∧ k.isComment = false ∧ env.model cls' = some m' ∧
          (fromXmlTree env eas j cls' (k.asRoot m'.elementName)).1 = .ok u ∧ Val.Part (.model c a set) u := by
        cases hb : m.body with
        | fields fs =>
          obtain ⟨d, hv, hd⟩ := C89_place env hno eas n cls m fs hm hb root b s h
          have := hk cls _ b s hv _ hin c a set hpw
          cases this with
          | entry hkv hpd =>
            obtain ⟨f, _, _, hg⟩ := hd _ hkv
            exact gives_instance hg hpd
        | root sr =>
          obtain ⟨w, hv, hg⟩ := C89_place_root env hno eas n cls m sr hm hb root b s h
          have := hk cls _ b s hv _ hin c a set hpw
          split at this
          · cases this
          · exact gives_instance hg this
      obtain ⟨k, cls', m', j, u, hki, hkc, hm', hr, hpu⟩ := key
      have hlt : (k.asRoot m'.elementName).elementCount < N := by
        rw [elementCount_asRoot hkc, ← hN]; exact elementCount_inside hki
      rcases ih _ hlt j cls' _ u hr hpu rfl with rfl | ⟨x, m2, j2, hx, hxc, hm2, hr2⟩
      · obtain ⟨_, _, _, _, hcls⟩ := fromXmlTree_instance hr
        injection hcls with hcls
        subst hcls
        exact ⟨k, m', j, hki, hkc, hm', hr⟩
      · exact ⟨x, m2, j2, hx.asRoot.trans hki, hxc, hm2, hr2⟩

namespace Ex

/-- The validation of the example classes makes no instances. -/
theorem keepsInstances {mode : Mode} {b : Backend} : (env mode b).KeepsInstances := by
  intro cls data a set h kv hkv c x s hp
  simp only [env, validate] at h
  split at h
  · rename_i d
    simp only [check] at h
    split at h
    · injection h with h
      injection h with h1 h2
      subst h1
      obtain ⟨f, _, rfl⟩ := List.mem_map.1 hkv
      simp only at hp
      cases hg : Dict.get? d f.1 with
      | none => rw [hg] at hp; cases hp
      | some w => rw [hg] at hp; exact .entry (Dict.mem_of_get? hg) hp
    · cases h
  · cases h
  · injection h with h
    injection h with h1 h2
    subst h1
    simp only [List.mem_singleton] at hkv
    subst hkv
    exact hp

/-- The innermost, the middle and the outer instance of a tree three levels deep. -/
abbrev inner3 : Val := .model "Tree" [("id", .str "3"), ("kids", .none)] ["id"]
abbrev middle3 : Val := .model "Tree" [("id", .str "2"), ("kids", .list [inner3])] ["id", "kids"]
abbrev outer3 : Val := .model "Tree" [("id", .str "1"), ("kids", .list [middle3])] ["id", "kids"]

theorem inner_part : Val.Part inner3 outer3 :=
  .field (k := "kids") (w := .list [middle3]) (by simp) (.item (w := middle3) (by simp)
    (.field (k := "kids") (w := .list [inner3]) (by simp) (.item (w := inner3) (by simp) .refl)))

/-- Non-vacuity of C91: the innermost instance is what the class reads from an element inside. -/
example : ∃ (x : Node) (m : ModelSer) (j : Nat),
    x.Inside (el "tree" none [el "tree" none [el "tree" none [] [("id", "3")]] [("id", "2")]] [("id", "1")]) ∧ x.isComment = false ∧
    (env).model "Tree" = some m ∧ (fromXmlTree (env) false j "Tree" (x.asRoot m.elementName)).1 = .ok inner3 := by
  rcases C91_every_instance (env) noValidators keepsInstances false 9 "Tree"
    (el "tree" none [el "tree" none [el "tree" none [] [("id", "3")]] [("id", "2")]] [("id", "1")]) outer3 (by kernel_rfl) "Tree"
    [("id", .str "3"), ("kids", .none)] ["id"] inner_part with h | h
  · simp [outer3] at h
  · exact h

/-- A class that forbids extra data. -/
def strictTwig : ModelSer where
  name := "Twig"
  elementName := "twig"
  extraForbid := true
  body := .fields [{ name := "id", ser := .attr "id" false }]

def twigHolder : ModelSer where
  name := "Holder"
  elementName := "twigHolder"
  body := .fields [{ name := "twig", ser := .proxy { cls := "Twig", name := "twig" } }]

def twigEnv : Env where
  backend := .lxml
  model cls := if cls = "Twig" then some strictTwig else if cls = "Holder" then some twigHolder else none
  validate cls d := check cls (if cls = "Twig" then [("id", true)] else [("twig", true)]) (match d with | .dict d => d | _ => [])
  toJsonable := json
  reprOf _ := ""

/-- The attribute `xsi:nil` has to be left out: a class that forbids extra data takes it in a sub-element, but not in the root. -/
theorem C91_nil_counts :
    (fromXmlTree twigEnv false 9 "Holder" (el "twigHolder" none [el "twig" none [] [("id", "1"), (nilAttr, "false")]])).1 =
      .ok (.model "Holder" [("twig", .model "Twig" [("id", .str "1")] ["id"])] ["twig"]) ∧
    ∃ e, (fromXmlTree twigEnv false 9 "Twig" (el "twig" none [] [("id", "1"), (nilAttr, "false")])).1 = .verr e :=
  ⟨by kernel_rfl, _, rfl⟩

end Ex

end PXml
