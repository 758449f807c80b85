import Verif.Lemmas.Reread
import Verif.Props.Writing
import Verif.Props.Fields
import Verif.Props.Names
import Std.Data.String.ToInt

/-!
# Nillable fields (C30), raw elements (C32), mappings (C35)
-/

namespace PXml

open Elem

/-! ## C30 -/

/-- The fields that write xsi:nil: element fields and sub-model fields declared nillable. -/
def Ser.nillable? : Ser → Bool
  | .elem _ _ _ false nillable => nillable
  | .proxy p => !p.computed && p.nillable
  | _ => false

/-- C30: the attribute is `nil` of the namespace of XML Schema instances, in the notation `{namespace}name` of the XML library. -/
theorem C30_attribute_name : nilAttr = QName.uri ⟨"nil", some "http://www.w3.org/2001/XMLSchema-instance"⟩ := by decide

/-- C30: an element with xsi:nil="true" is read as `None`, whatever else it contains. -/
theorem C30_nil_is_none (env : Env) (eas : Bool) (n : Nat) (s : Ser) (hs : s.nillable? = true) (hr : s.Resolved env) (loc : Loc)
    (st : St) (name : String) (mode : Mode) (hi : s.item? = some (name, mode)) (c : Elem)
    (hc : st.el.candidate name mode = some c) (hnil : c.getAttrib nilAttr = some "true") :
    (deser env eas (n + 1) s loc st).1 = .ok .none := by
  obtain ⟨i, el', h1, h2⟩ := candidate_some hc true
  have hn : c.isNil.1 = true := by rw [isNil_fst]; simpa using hnil
  rw [deser_item hi hr, h1]
  simp only [onChild, h2]
  cases s with
  | elem nm ns m cmp nl =>
    cases cmp with
    | true => cases hi
    | false =>
      simp only [Ser.nillable?] at hs
      subst hs
      simp only [Ser.onItem, deserText, Bool.false_eq_true, if_false, if_true]
      rcases hx : c.isNil with ⟨b, e1⟩
      rw [hx] at hn
      simp only at hn
      subst hn
      rfl
  | proxy p =>
    simp only [Ser.Resolved, Option.isSome_iff_exists] at hr
    obtain ⟨m, hm⟩ := hr
    simp only [Ser.onItem, hm]
    rcases hx : c.isNil with ⟨b, e1⟩
    rw [hx] at hn
    simp only at hn
    subst hn
    rfl
  | _ => cases hs

/-- C30: for `None`, a nillable field writes one child element, which carries xsi:nil="true" (unless `exclude_none` or, for
element fields, `skip_empty` asks to leave it out). -/
theorem C30_none_is_nil (env : Env) (n : Nat) (fl : Flags) (s : Ser) (hs : s.nillable? = true) (hr : s.Resolved env) (name : String)
    (mode : Mode) (hi : s.item? = some (name, mode)) (el : Elem) (enc : Val) (hfl : fl.excludeNone = false)
    (hsk : fl.skipEmpty = false) :
    ∃ c, ser env (n + 1) fl s el .none enc = .ok (el.append c) ∧ c.tag = name ∧ c.getAttrib nilAttr = some "true" := by
  change ∃ c, serStep env (ser env n) fl s el .none enc = _ ∧ _
  cases s with
  | elem nm ns m cmp nl =>
    cases cmp with
    | true => cases hi
    | false =>
      simp only [Ser.nillable?] at hs
      subst hs
      simp only [Ser.item?, Option.some.injEq, Prod.mk.injEq] at hi
      obtain ⟨rfl, rfl⟩ := hi
      refine ⟨serText env true fl (makeElement env.backend nm ns) .none enc, ?_, ?_⟩
      · simp only [serStep, hfl, hsk, Bool.or_self, Bool.and_false, Bool.false_eq_true, if_false, appendUnlessEmpty,
          Bool.false_and]
      · refine ⟨?_, ?_⟩ <;> simp [serText, hfl, hsk, Val.isNone, makeNil, setText, setAttribute, getAttrib, makeElement,
          Dict.set, Dict.get?_cons]
  | proxy p =>
    simp only [Ser.nillable?, Bool.and_eq_true, Bool.not_eq_eq_eq_not, Bool.not_true] at hs
    simp only [Ser.item?, hs.1, Bool.false_eq_true, if_false, Option.some.injEq, Prod.mk.injEq] at hi
    obtain ⟨rfl, rfl⟩ := hi
    simp only [Ser.Resolved, Option.isSome_iff_exists] at hr
    obtain ⟨m, hm⟩ := hr
    refine ⟨(makeElement env.backend p.name p.nsmap).makeNil, ?_, rfl, ?_⟩
    · simp [serStep, hm, hfl, hs.2, Val.isNone]
    · simp [makeNil, setAttribute, getAttrib, makeElement, Dict.set, Dict.get?_cons]
  | _ => cases hs

/-- C30: what is written for `None` reads back as `None`, also when empty text counts as a string. -/
theorem C30_none_round_trip (env : Env) (eas : Bool) (n n' : Nat) (fl : Flags) (s : Ser) (hs : s.nillable? = true)
    (hr : s.Resolved env) (name : String) (mode : Mode) (hi : s.item? = some (name, mode)) (tag : String) (enc : Val)
    (hfl : fl.excludeNone = false) (hsk : fl.skipEmpty = false) (loc : Loc) (sm : SMap) :
    ∃ el, ser env (n + 1) fl s { tag := tag } .none enc = .ok el ∧
      (deser env eas (n' + 1) s loc ⟨fromNative env.backend (toNative env.backend el), sm⟩).1 = .ok .none := by
  obtain ⟨c, h1, h2, h3⟩ := C30_none_is_nil env n fl s hs hr name mode hi { tag := tag } enc hfl hsk
  refine ⟨_, h1, ?_⟩
  refine C30_nil_is_none env eas n' s hs hr loc _ name mode hi c.reread ?_ (by rw [reread_getAttrib]; exact h3)
  rw [fromNative_toNative]
  cases mode <;> simp [Elem.candidate, Elem.unread, Elem.append, h2, Option.filter]

/-- C30: a value that is not `None` is never written as nil: the element of an element field carries no xsi:nil. -/
theorem C30_value_not_nil (env : Env) (n : Nat) (fl : Flags) (name : String) (nsmap : Option NsMap) (mode : Mode)
    (computed nillable : Bool) (el : Elem) (v enc : Val) (hv : v ≠ .none) :
    ∃ el', ser env (n + 1) fl (.elem name nsmap mode computed nillable) el v enc = .ok el' ∧
      ∀ c ∈ el'.elements, c ∈ el.elements ∨ c.getAttrib nilAttr = none := by
  have hvn : v.isNone = false := by cases v <;> first | rfl | exact absurd rfl hv
  refine ⟨appendUnlessEmpty fl el (serText env nillable fl (makeElement env.backend name nsmap) v enc), ?_, ?_⟩
  · change serStep env (ser env n) fl (.elem name nsmap mode computed nillable) el v enc = _
    simp only [serStep, hvn, Bool.false_and, Bool.false_eq_true, if_false]
  · intro c hc
    unfold appendUnlessEmpty at hc
    split at hc
    · exact .inl hc
    · simp only [Elem.append, List.mem_append, List.mem_singleton] at hc
      rcases hc with hc | rfl
      · exact .inl hc
      · right
        simp [serText, hvn, setText, makeElement, getAttrib]

/-- C30, sub-models: the element of an instance carries no xsi:nil, provided no field of the class is itself an attribute
field of that name, a mapping of all attributes, or nillable text. -/
theorem C30_instance_not_nil_partial (env : Env) (hns : env.SerializersWrite) (n : Nat) (fl : Flags) (p : Proxy) (m : ModelSer)
    (hm : env.model p.cls = some m)
    (hclaims : match m.body with
      | .fields fs => ∀ f ∈ fs, f.serializer = none ∧ ¬f.ser.Claims [] (.attr nilAttr) ∧ ¬f.ser.Claims [] .attrs
      | .root s => ¬s.Claims [] (.attr nilAttr) ∧ ¬s.Claims [] .attrs)
    (el el' : Elem) (v enc : Val) (hv : v ≠ .none) (h : ser env (n + 1) fl (.proxy p) el v enc = .ok el') :
    ∀ c ∈ el'.elements, c ∈ el.elements ∨ c.getAttrib nilAttr = none := by
  have hvn : v.isNone = false := by cases v <;> first | rfl | exact absurd rfl hv
  change serStep env (ser env n) fl (.proxy p) el v enc = _ at h
  simp only [serStep, hm, hvn, Bool.and_false, Bool.false_eq_true, if_false] at h
  obtain ⟨sub, h1, h2⟩ := bind_ok h
  injection h2 with h2
  subst h2
  have hw : Writes (fun path slot => slot = .text ∨ path ≠ [] ∨ (∃ t, slot = .child t) ∨ (∃ k, k ≠ nilAttr ∧ slot = .attr k))
      (makeElement env.backend p.name p.nsmap) sub := by
    have key : ∀ (s : Ser), ¬s.Claims [] (.attr nilAttr) → ¬s.Claims [] .attrs → ∀ path slot, s.Claims path slot →
        slot = .text ∨ path ≠ [] ∨ (∃ t, slot = .child t) ∨ (∃ k, k ≠ nilAttr ∧ slot = .attr k) := by
      intro s hs1 hs2 path slot hcl
      by_cases hp : path = []
      · subst hp
        cases slot with
        | text => exact .inl rfl
        | attr k => exact .inr (.inr (.inr ⟨k, fun hk => hs1 (hk ▸ hcl), rfl⟩))
        | attrs => exact absurd hcl hs2
        | child t => exact .inr (.inr (.inl ⟨t, rfl⟩))
      · exact .inr (.inl hp)
    cases hb : m.body with
    | fields fs =>
      rw [hb] at hclaims
      refine serModel_writes ?_ ?_ ?_ h1
      · intro fs' hb' f hf hser fl el v enc el' h
        rw [hb] at hb'; injection hb' with hb'; subst hb'
        exact (ser_writes hns _ _ _ h).mono (key f.ser (hclaims f hf).2.1 (hclaims f hf).2.2)
      · intro fs' hb' f hf g hg
        rw [hb] at hb'; injection hb' with hb'; subst hb'
        rw [(hclaims f hf).1] at hg; cases hg
      · intro s hb'; rw [hb] at hb'; cases hb'
    | root s =>
      rw [hb] at hclaims
      refine serModel_writes ?_ ?_ ?_ h1
      · intro fs' hb'; rw [hb] at hb'; cases hb'
      · intro fs' hb'; rw [hb] at hb'; cases hb'
      · intro s' hb' fl el v enc el' h
        rw [hb] at hb'; injection hb' with hb'; subst hb'
        exact (ser_writes hns _ _ _ h).mono (key s hclaims.1 hclaims.2)
  have hattr : sub.getAttrib nilAttr = none := by
    rw [hw.attribute nilAttr (by simp) (by simp)]
    rfl
  intro c hc
  unfold appendUnlessEmpty at hc
  split at hc
  · exact .inl hc
  · simp only [Elem.append, List.mem_append, List.mem_singleton] at hc
    rcases hc with hc | rfl
    · exact .inl hc
    · exact .inr hattr

namespace Ex

/-- `class Opt(RootXmlModel): root: Optional[str] = field(nillable)`, i.e. a root model around nillable text. -/
def opt : ModelSer := { name := "Opt", elementName := "opt", body := .root (.text false true) }

def optEnv : Env := { env with model := fun cls => if cls = "Opt" then some opt else none }

/-- The element `a` with the written child. -/
def optDoc : Elem := { tag := "a", elements := [{ tag := "opt", text := some "", attrib := some [(nilAttr, "true")] }], next := 1 }

/-- C30, the full statement fails for sub-models: an instance of a root model whose root is nillable text and `None` is
written with xsi:nil="true", although the instance is not `None`; it reads back as `None`. -/
theorem C30_counterexample :
    ser optEnv 2 {} (.proxy { cls := "Opt", name := "opt" }) { tag := "a" } (.model "Opt" [("root", .none)] ["root"]) .none =
      .ok optDoc ∧
    (deser optEnv false 2 (.proxy { cls := "Opt", name := "opt" }) [] ⟨fromNative .lxml (toNative .lxml optDoc), []⟩).1 =
      .ok .none := ⟨rfl, rfl⟩

/-- Non-vacuity of C30: the nillable field `nick` of the person document, and the `None` it is read as and written for. -/
example : (deser (env) false 1 (.elem "nick" none .ordered false true) [] ⟨fromNative .lxml personDoc, []⟩).1 = .ok .none :=
  C30_nil_is_none (env) false 0 (.elem "nick" none .ordered false true) rfl trivial [] _ "nick" .ordered rfl _ rfl rfl

example : ∃ c, ser (env) 1 {} (.elem "nick" none .ordered false true) { tag := "person" } .none .none =
    .ok (Elem.append { tag := "person" } c) ∧ c.tag = "nick" ∧ c.getAttrib nilAttr = some "true" :=
  C30_none_is_nil (env) 0 {} (.elem "nick" none .ordered false true) rfl trivial "nick" .ordered rfl _ _ rfl rfl

example : ∃ el', ser (env) 3 {} (.proxy { cls := "Address", name := "home", nillable := true }) { tag := "person" }
    (.model "Address" [("zip", .str "1"), ("street", .none)] ["zip"]) (.dict [("zip", .str "1"), ("street", .none)]) = .ok el' ∧
    ∀ c ∈ el'.elements, c.getAttrib nilAttr = none := by
  refine ⟨_, rfl, fun c hc => ?_⟩
  refine (C30_instance_not_nil_partial (env) noSerializers.write 2 {} { cls := "Address", name := "home", nillable := true } address rfl
    ?_ { tag := "person" } _ (.model "Address" [("zip", .str "1"), ("street", .none)] ["zip"])
    (.dict [("zip", .str "1"), ("street", .none)]) (by simp) rfl c hc).resolve_left (by simp)
  simp only [address, List.forall_mem_cons]
  have h1 : ∀ k slot, Ser.Claims (.attr k false) [] slot → slot = .attr k := by intro k slot h; cases h; rfl
  have h2 : ∀ slot, Ser.Claims (.text false false) [] slot → slot = .text := by intro slot h; cases h; rfl
  refine ⟨⟨trivial, fun h => ?_, fun h => ?_⟩, ⟨trivial, fun h => ?_, fun h => ?_⟩, by simp⟩
  · exact absurd (h1 _ _ h) (by decide)
  · exact absurd (h1 _ _ h) (by decide)
  · exact absurd (h2 _ h) (by decide)
  · exact absurd (h2 _ h) (by decide)

end Ex

/-! ## C32 -/

/-- C32: a raw field is handed a complete copy of the element it finds (tag, attributes, text, tail and all descendants in
order), and that content is no longer there for other fields. -/
theorem C32_read (env : Env) (eas : Bool) (n : Nat) (name : String) (mode : Mode) (loc : Loc) (st : St) (c : Elem)
    (hc : st.el.candidate name mode = some c) :
    ∃ st', deser env eas (n + 1) (.raw name mode false) loc st = (.ok (.raw (toNative env.backend c)), st') ∧
      st.el.content.Perm (c.content ++ st'.el.content) ∧ (toNative env.backend c).pieces = c.content := by
  obtain ⟨i, el', h1, h2⟩ := candidate_some hc true
  refine ⟨⟨el'.setChild i c.hollow, st.sm.set loc c.line⟩, ?_, ?_, toNative_pieces _ _⟩
  · change deserStep env eas (deser env eas n) n (.raw name mode false) loc st = _
    simp only [deserStep, Bool.false_eq_true, if_false, popElementRemove, popElement, h1, h2]
    have : toNative env.backend (detached c) = toNative env.backend c := by cases c; rfl
    rw [this]
    rfl
  · obtain ⟨l, k, h3, h4, _⟩ := search_spec st.el name mode true
    rw [h1] at h3
    simp only at h3
    subst h3
    have h5 := flatMap_set_perm (c := c) (c' := c.hollow) content c.content h2 (by
      have : c.hollow.content = [] := by rw [content_eq]; simp [hollow, Elem.own]
      rw [this, List.append_nil])
    have h6 : (st.el.elements.flatMap content).Perm (l.flatMap content) := (h4.symm.flatMap_right _)
    rw [content_eq st.el]
    simp only
    rw [content_eq (setChild _ _ _)]
    refine (List.Perm.append_left _ (h6.trans h5)).trans ?_
    rw [← List.append_assoc, ← List.append_assoc]
    exact List.Perm.append_right _ List.perm_append_comm

/-- C32: read from a document, the copy is the sub-tree of the document, without comments, prefix declarations and line
numbers. -/
theorem C32_read_document (env : Env) (eas : Bool) (n : Nat) (name : String) (mode : Mode) (loc : Loc) (root sub : Node) (sm : SMap)
    (hsub : (fromNative env.backend root).candidate name mode = some (fromNative env.backend sub)) (hpi : sub.NoPIs)
    (hcm : sub.isComment = false) :
    (deser env eas (n + 1) (.raw name mode false) loc ⟨fromNative env.backend root, sm⟩).1 = .ok (.raw sub.plain) := by
  obtain ⟨st', h1, _⟩ := C32_read env eas n name mode loc ⟨fromNative env.backend root, sm⟩ _ hsub
  rw [h1, toNative_fromNative _ _ hpi hcm]

/-- C32: writing a raw value adds the sub-tree, complete, as the last child. -/
theorem C32_write (env : Env) (n : Nat) (fl : Flags) (hfl : fl.skipEmpty = false) (name : String) (mode : Mode) (computed : Bool)
    (el : Elem) (node : Node) (enc : Val) (hpi : node.NoPIs) (hcm : node.isComment = false) :
    ∃ el', ser env (n + 1) fl (.raw name mode computed) el (.raw node) enc = .ok el' ∧
      (toNative env.backend el').children = (toNative env.backend el).children ++ [node.plain] := by
  refine ⟨el.append (fromNative env.backend node), ?_, ?_⟩
  · change serStep env (ser env n) fl (.raw name mode computed) el (.raw node) enc = _
    simp [serStep, appendUnlessEmpty, hfl]
  · have happ : ∀ l l' : List Elem, toNativeList env.backend (l ++ l') = toNativeList env.backend l ++ toNativeList env.backend l' := by
      intro l l'
      induction l with
      | nil => rfl
      | cons e l ih => simp [toNativeList, ih]
    rw [Elem.eta el]
    simp only [Elem.append, toNative, Node.children, happ, toNativeList, toNative_fromNative _ _ hpi hcm]

/-- C32: what is written is read back unchanged (comments, prefix declarations and line numbers aside), if the element has the
tag the field looks for. -/
theorem C32_round_trip (env : Env) (eas : Bool) (n n' : Nat) (fl : Flags) (hfl : fl.skipEmpty = false) (name : String) (mode : Mode)
    (tag : String) (node : Node) (enc : Val) (hpi : node.NoPIs) (hcm : node.isComment = false) (htag : node.tag = name) (loc : Loc)
    (sm : SMap) :
    ∃ el, ser env (n + 1) fl (.raw name mode false) { tag := tag } (.raw node) enc = .ok el ∧
      (deser env eas (n' + 1) (.raw name mode false) loc ⟨fromNative env.backend (toNative env.backend el), sm⟩).1 =
        .ok (.raw node.plain) := by
  refine ⟨({ tag := tag } : Elem).append (fromNative env.backend node), ?_, ?_⟩
  · change serStep env (ser env n) fl (.raw name mode false) _ (.raw node) enc = _
    simp [serStep, appendUnlessEmpty, hfl]
  · have hc : (fromNative env.backend (toNative env.backend (({ tag := tag } : Elem).append (fromNative env.backend node)))).candidate
        name mode = some (fromNative env.backend node).reread := by
      have ht : (fromNative env.backend node).tag = name := by
        cases node with
        | elem => exact htag
        | comment => cases hcm
        | pi => exact absurd hpi id
      rw [fromNative_toNative]
      cases mode <;> simp [Elem.candidate, Elem.unread, Elem.append, ht, Option.filter]
    obtain ⟨st', h1, _⟩ := C32_read env eas n' name mode loc
      ⟨fromNative env.backend (toNative env.backend (({ tag := tag } : Elem).append (fromNative env.backend node))), sm⟩ _ hc
    rw [h1, toNative_reread, toNative_fromNative _ _ hpi hcm, dropPrefixes_plain]

namespace Ex

/-- A sub-tree with everything: attributes, texts, tails, a comment, nested elements. -/
def rawDoc : Node :=
  el "a" none [el "x" (some "1"), .elem "r" [("k", "v")] [("p", "urn:p")] (some "t") (some "tail")
    [.comment (some "c") none, el "s" (some "2") [el "u"]] (some 5)]

/-- Non-vacuity of C32: the sub-tree is found behind another element, read, and written again. -/
example : (deser (env) false 1 (.raw "r" .ordered false) [] ⟨fromNative .lxml rawDoc, []⟩).1 =
    .ok (.raw (.elem "r" [("k", "v")] [] (some "t") (some "tail") [el "s" (some "2") [el "u"]] none)) :=
  C32_read_document (env) false 0 "r" .ordered [] rawDoc
    (.elem "r" [("k", "v")] [("p", "urn:p")] (some "t") (some "tail") [.comment (some "c") none, el "s" (some "2") [el "u"]] (some 5))
    [] rfl (by simp [Node.NoPIs, Node.NoPIsList, el]) rfl

/-- C32, the hypothesis on the tag is needed: an element is written with its own tag, whatever the name of the field, and
then not found by the field. -/
theorem C32_tag_needed :
    ∃ e, ser (env) 1 {} (.raw "r" .strict false) { tag := "a" } (.raw (el "other" (some "1"))) .none = .ok e ∧
      (deser (env) false 1 (.raw "r" .strict false) [] ⟨fromNative .lxml (toNative .lxml e), []⟩).1 = .ok .none := ⟨_, rfl, rfl⟩

end Ex

/-! ## C35 -/

/-- A dictionary of strings, as a value. -/
def strDict (d : Dict String String) : Val := .dict (d.map fun kv => (kv.1, .str kv.2))

theorem serAttrs_space (env : Env) (a : AttrsSer) (el : Elem) (v enc : Val) (hv : v.isNone = false) : serAttrs env a el v enc =
    match enc with
    | .dict d => .ok (el.setAttributes (Dict.ofItems (d.map fun kv => (QName.uri ⟨kv.1, a.space⟩, pyStr env kv.2))))
    | _ => .crash .attributeError := by
  unfold serAttrs
  rw [hv]
  simp only [Bool.false_eq_true, if_false]
  have : (if a.namespaced && truthy a.ns && truthyMap a.nsmap then (a.nsmap.getD []).get? (a.ns.getD "") else none) = a.space := by
    unfold AttrsSer.space
    cases a.namespaced <;> rcases a.nsmap with _ | (_ | ⟨x, m⟩) <;> rcases a.ns with _ | y <;> simp [truthy, truthyMap]
  rw [this]
  cases enc <;> rfl

theorem uri_injective {ns : Option String} {k k' : String} (h : QName.uri ⟨k, ns⟩ = QName.uri ⟨k', ns⟩) : k = k' := by
  cases ns with
  | none => exact h
  | some x =>
    simp only [QName.uri] at h
    split at h
    · exact h
    · have := congrArg String.toList h
      exact String.ext (by simpa using this)

theorem ofItems_map {α β γ δ : Type} [DecidableEq α] [DecidableEq γ] (d : Dict α β) (hd : d.WF) (f : α → γ)
    (hf : ∀ x ∈ d.keys, ∀ y ∈ d.keys, f x = f y → x = y) (g : α × β → δ) :
    Dict.ofItems (d.map fun kv => (f kv.1, g kv)) = d.map fun kv => (f kv.1, g kv) := by
  apply Dict.ofItems_of_wf
  unfold Dict.WF Dict.keys
  rw [List.map_map]
  change (d.map fun kv => f kv.1).Nodup
  rw [show (d.map fun kv => f kv.1) = d.keys.map f by simp [Dict.keys]]
  have hd' : d.keys.Nodup := hd
  refine List.Pairwise.map _ (fun _ _ h => h) (hd'.imp_of_mem fun hx hy hxy h => hxy (hf _ hx _ hy h))

theorem deserAttrs_mapped (a : AttrsSer) (hc : a.computed = false) (d : Dict String String) (hd : d.WF)
    (hk : a.namespaced = true → ∀ k ∈ d.keys, PlainName k) (hns : ∀ ns, a.space = some ns → ns ≠ "" ∧ '\n' ∉ ns.toList) (st : St)
    (hst : st.el.attrib = some (d.map fun kv => (QName.uri ⟨kv.1, a.space⟩, kv.2))) :
    (deserAttrs a st).1 = .ok (strDict d) := by
  unfold deserAttrs
  simp only [hc, Bool.false_eq_true, if_false, popAttributes, hst, List.map_map]
  have h1 : (d.map ((fun kv : String × String => (if a.namespaced then (QName.fromUri kv.1).tag else kv.1, Val.str kv.2)) ∘
      fun kv => (QName.uri ⟨kv.1, a.space⟩, kv.2))) = d.map fun kv => (kv.1, Val.str kv.2) := by
    apply List.map_congr_left
    intro kv hkv
    simp only [Function.comp]
    cases hn : a.namespaced with
    | false => simp [AttrsSer.space, hn, QName.uri]
    | true =>
      have hkk : kv.1 ∈ d.keys := List.mem_map_of_mem hkv
      obtain ⟨h2, h3, h4⟩ := hk hn _ hkk
      simp only [if_true]
      rw [C24_parse_uri ⟨kv.1, a.space⟩ h2 h3 h4 hns]
  rw [h1]
  have h2 := ofItems_map d hd id (fun _ _ _ _ h => h) (fun kv => Val.str kv.2)
  simp only [id] at h2
  rw [h2]
  rfl

/-- C35: a dictionary field writes one attribute per entry, in order, and from what was written the same dictionary is
read. -/
theorem C35_attributes (env : Env) (eas : Bool) (n n' : Nat) (fl : Flags) (a : AttrsSer) (hc : a.computed = false)
    (d : Dict String String) (hd : d.WF) (hk : a.namespaced = true → ∀ k ∈ d.keys, PlainName k)
    (hns : ∀ ns, a.space = some ns → ns ≠ "" ∧ '\n' ∉ ns.toList) (v : Val) (hv : v ≠ .none) (tag : String) (loc : Loc) (sm : SMap) :
    ∃ el, ser env (n + 1) fl (.attrs a) { tag := tag } v (strDict d) = .ok el ∧
      el.attrib = some (d.map fun kv => (QName.uri ⟨kv.1, a.space⟩, kv.2)) ∧
      (deser env eas (n' + 1) (.attrs a) loc ⟨fromNative env.backend (toNative env.backend el), sm⟩).1 = .ok (strDict d) := by
  have hvn : v.isNone = false := by cases v <;> first | rfl | exact absurd rfl hv
  refine ⟨({ tag := tag } : Elem).setAttributes (d.map fun kv => (QName.uri ⟨kv.1, a.space⟩, kv.2)), ?_, rfl, ?_⟩
  · change serAttrs env a _ v (strDict d) = _
    rw [serAttrs_space _ _ _ _ _ hvn]
    simp only [strDict, List.map_map]
    have := ofItems_map d hd (fun k => QName.uri ⟨k, a.space⟩) (fun _ _ _ _ h => uri_injective h) (fun kv => kv.2)
    rw [← this]
    rfl
  · change (deserAttrs a _).1 = _
    refine deserAttrs_mapped a hc d hd hk hns _ ?_
    rw [fromNative_toNative]
    simp [setAttributes]

/-- C35: the same for a dictionary in an element of its own. -/
theorem C35_element (env : Env) (eas : Bool) (n n' : Nat) (fl : Flags) (a : AttrsSer) (hc : a.computed = false) (name : String)
    (mode : Mode) (d : Dict String String) (hd : d.WF) (hk : a.namespaced = true → ∀ k ∈ d.keys, PlainName k)
    (hns : ∀ ns, a.space = some ns → ns ≠ "" ∧ '\n' ∉ ns.toList) (hfl : fl.skipEmpty = true → d ≠ []) (tag : String) (loc : Loc)
    (sm : SMap) :
    ∃ c el, ser env (n + 1) fl (.mapElem a name mode) { tag := tag } (strDict d) (strDict d) = .ok el ∧ el.elements = [c] ∧
      c.tag = name ∧ c.attrib = some (d.map fun kv => (QName.uri ⟨kv.1, a.space⟩, kv.2)) ∧
      (deser env eas (n' + 1) (.mapElem a name mode) loc ⟨fromNative env.backend (toNative env.backend el), sm⟩).1 =
        .ok (strDict d) := by
  have hsub : serAttrs env a (makeElement env.backend name a.nsmap) (strDict d) (strDict d) =
      .ok ((makeElement env.backend name a.nsmap).setAttributes (d.map fun kv => (QName.uri ⟨kv.1, a.space⟩, kv.2))) := by
    rw [serAttrs_space _ _ _ _ _ rfl]
    simp only [strDict, List.map_map]
    have := ofItems_map d hd (fun k => QName.uri ⟨k, a.space⟩) (fun _ _ _ _ h => uri_injective h) (fun kv => kv.2)
    rw [← this]
    rfl
  refine ⟨(makeElement env.backend name a.nsmap).setAttributes (d.map fun kv => (QName.uri ⟨kv.1, a.space⟩, kv.2)),
    ({ tag := tag } : Elem).append ((makeElement env.backend name a.nsmap).setAttributes
      (d.map fun kv => (QName.uri ⟨kv.1, a.space⟩, kv.2))), ?_, rfl, rfl, rfl, ?_⟩
  · change serStep env (ser env n) fl (.mapElem a name mode) _ (strDict d) (strDict d) = _
    simp only [serStep, hsub]
    by_cases hs : fl.skipEmpty = true
    · obtain ⟨kv, d', rfl⟩ := List.exists_cons_of_ne_nil (hfl hs)
      simp [hs, strDict, Val.len?, Out.bind, appendUnlessEmpty, isEmpty, setAttributes, truthyMap]
    · simp [hs, Out.bind]
  · rw [fromNative_toNative]
    rw [deser_item (s := .mapElem a name mode) (name := name) (mode := mode) (by simp [Ser.item?, hc]) trivial]
    obtain ⟨i, el', h1, h2⟩ := candidate_some (e := (({ tag := tag } : Elem).append ((makeElement env.backend name a.nsmap).setAttributes
      (d.map fun kv => (QName.uri ⟨kv.1, a.space⟩, kv.2)))).reread) (t := name) (m := mode)
      (c := ((makeElement env.backend name a.nsmap).setAttributes (d.map fun kv => (QName.uri ⟨kv.1, a.space⟩, kv.2))).reread)
      (by cases mode <;> simp [Elem.candidate, Elem.unread, Elem.append, Option.filter, makeElement, setAttributes]) true
    rw [h1]
    simp only [onChild, h2, Ser.onItem]
    refine deserAttrs_mapped a hc d hd hk hns _ ?_
    simp [setAttributes]

/-- Non-vacuity of C35: two entries, namespaced. -/
example : ∃ el, ser Ex.env 1 {} (.attrs { ns := some "p", nsmap := some [("p", "urn:p")], namespaced := true }) { tag := "a" }
      (strDict [("k", "v"), ("l", "w")]) (strDict [("k", "v"), ("l", "w")]) = .ok el ∧
    el.attrib = some [("{urn:p}k", "v"), ("{urn:p}l", "w")] ∧
    (deser Ex.env false 1 (.attrs { ns := some "p", nsmap := some [("p", "urn:p")], namespaced := true }) []
      ⟨fromNative .lxml (toNative .lxml el), []⟩).1 = .ok (strDict [("k", "v"), ("l", "w")]) :=
  C35_attributes Ex.env false 0 0 {} { ns := some "p", nsmap := some [("p", "urn:p")], namespaced := true } rfl
    [("k", "v"), ("l", "w")] (by decide) (fun _ => by simp [Dict.keys, PlainName]) (by simp [AttrsSer.space, Dict.get?])
    (strDict [("k", "v"), ("l", "w")]) (by simp [strDict]) "a" [] []

/-- Values that are not strings are written with `str()`: `None` becomes the text `None`, which is read back as a string. -/
theorem C35_none_is_text :
    ∃ el, ser Ex.env 1 {} (.attrs {}) { tag := "a" } (.dict [("k", .none)]) (.dict [("k", .none)]) = .ok el ∧
      (deser Ex.env false 1 (.attrs {}) [] ⟨fromNative .lxml (toNative .lxml el), []⟩).1 = .ok (strDict [("k", "None")]) :=
  ⟨_, rfl, rfl⟩

/-- The text is what Python's `str` makes of the value of an entry. -/
def PyText (t : String) : Val → Prop
  | .none => t = "None"
  | .str s => t = s
  | .bool b => t = if b then "True" else "False"
  | .int i => t.toInt? = some i
  | _ => True

/-- C35: the values of a dictionary field are written as Python's `str` writes them — strings as they are, integers in decimal
notation, but Booleans as `True` and `False`, not in the form of XML Schema as all other primitive values (C50). -/
theorem C35_texts (env : Env) (n : Nat) (fl : Flags) (a : AttrsSer) (el : Elem) (v : Val) (hv : v ≠ .none) (d : Dict String Val) (hd : d.WF) :
    ∃ el', ser env (n + 1) fl (.attrs a) el v (.dict d) = .ok el' ∧ ∀ k x, (k, x) ∈ d →
      ∃ t, (QName.uri ⟨k, a.space⟩, t) ∈ el'.attrib.getD [] ∧ PyText t x := by
  have hvn : v.isNone = false := by cases v <;> first | rfl | exact absurd rfl hv
  have hs : ser env (n + 1) fl (.attrs a) el v (.dict d) = serAttrs env a el v (.dict d) := rfl
  rw [hs, serAttrs_space _ _ _ _ _ hvn]
  refine ⟨_, rfl, fun k x hkx => ⟨pyStr env x, ?_, ?_⟩⟩
  · rw [ofItems_map d hd (fun k => QName.uri ⟨k, a.space⟩) (fun _ _ _ _ h => uri_injective h) (fun kv => pyStr env kv.2)]
    exact List.mem_map.2 ⟨(k, x), hkx, rfl⟩
  · cases x with
    | bool b => cases b <;> rfl
    | int i => exact Int.toInt?_repr i
    | _ => first | rfl | trivial

/-- The conditions can be met: a dictionary of Booleans. -/
example : ∃ el', ser Ex.env 1 {} (.attrs {}) { tag := "a" } (.dict [("k", .bool true)]) (.dict [("k", .bool true)]) = .ok el' ∧
    el'.attrib = some [("k", "True")] := ⟨_, rfl, rfl⟩

end PXml
