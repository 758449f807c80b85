import Verif.Lemmas.EmitModel

/-!
# Writing and reading back (C01, C02)

The specification is in `Verif/SpecRoundTrip.lean`: `Handed env eas fl wh so (.model cls v enc v')` says, without mentioning elements,
that the fields of `v` do not compete for places and that `v'` is the instance pydantic builds when every field is handed the
string form of the value that was written, bottom up.
-/

namespace PXml

open Elem

variable {wh so : Bool}

theorem round_trip (env : Env) (henv : env.Everywhere (Ser.Resolved env)) (eas : Bool) (fl : Flags)
    (cls : String) (v v' : Val) (h : Handed env eas fl wh so (.model cls v (env.toJsonable v) v')) :
    ∃ tree r N, r.Clean wh ∧ ∀ n ≥ N, toXmlTree env n fl cls v = .ok tree ∧ fromXmlTree env eas n cls tree = (.ok v', r) := by
  obtain ⟨m, M, hm, hM, _⟩ : ModelSem wh env eas fl so cls v (env.toJsonable v) v' := handed_sem henv h
  obtain ⟨w, ⟨N1, h1⟩, h2⟩ := hM.writes { tag := m.elementName, nsmap := m.nsmap } ⟨rfl, rfl, rfl, rfl, rfl⟩
  obtain ⟨r, h3, h4, N2, h5⟩ := hM.reads _ w ⟨rfl, rfl, rfl, rfl, rfl⟩ h2
  refine ⟨toNative env.backend w, r, N1 + N2, h3, fun n hn => ⟨?_, ?_⟩⟩
  · simp only [toXmlTree, hm, h1 n (by omega), Out.bind]
  · obtain ⟨sm', h6⟩ := h5 n (by omega) [] []
    have ht : (toNative env.backend w).tag = m.elementName := by
      have := h2.tag
      cases w
      exact this
    unfold fromXmlTree
    simp only [hm, ht, if_true]
    rw [fromNative_toNative, h6]

/-- C01: an instance whose fields do not compete for places is written to a tree, and reading this tree gives the instance that
pydantic builds from the written values. -/
theorem C01_round_trip (env : Env) (henv : env.Everywhere (Ser.Resolved env)) (eas : Bool) (fl : Flags)
    (cls : String) (v v' : Val) (h : Handed env eas fl wh so (.model cls v (env.toJsonable v) v')) :
    ∃ tree N, ∀ n ≥ N, toXmlTree env n fl cls v = .ok tree ∧ (fromXmlTree env eas n cls tree).1 = .ok v' := by
  obtain ⟨tree, r, N, _, h⟩ := round_trip env henv eas fl cls v v' h
  exact ⟨tree, N, fun n hn => ⟨(h n hn).1, by rw [(h n hn).2]⟩⟩

/-- C02: after reading what was written for the instance, nothing is left in the element, unless there are computed fields. -/
theorem C02_nothing_left (env : Env) (henv : env.Everywhere (Ser.Resolved env)) (eas : Bool) (fl : Flags)
    (cls : String) (v v' : Val) (h : Handed env eas fl true so (.model cls v (env.toJsonable v) v')) :
    ∃ tree N, ∀ n ≥ N, toXmlTree env n fl cls v = .ok tree ∧ ∀ path, (fromXmlTree env eas n cls tree).2.getUnbound path = [] := by
  obtain ⟨tree, r, N, hr, h⟩ := round_trip env henv eas fl cls v v' h
  exact ⟨tree, N, fun n hn => ⟨(h n hn).1, by rw [(h n hn).2]; exact hr rfl⟩⟩

/-! ## Non-vacuity -/

namespace Ex

/-- A row whose field has a value. -/
abbrev there (r : Field × Option (Val × Val) × Val) : Bool := !r.2.2.isNone

theorem textMeans_of_ne {eas : Bool} {t : String} (h : t ≠ "") : textMeans eas t = .str t := if_neg h

theorem elem_handed {env : Env} {eas : Bool} {fl : Flags} {name : String} {nsmap : Option NsMap} {mode : Mode} {nillable : Bool}
    {v enc : Val} (hv : v ≠ .none) (he : encodePrimitive env enc ≠ "") : Handed env eas fl wh so
      (.field (.elem name nsmap mode false nillable) (some (v, enc)) (.str (encodePrimitive env enc))) := by
  have := Handed.elem (wh := wh) (so := so) (eas := eas) (fl := fl) (name := name) (nsmap := nsmap) (mode := mode) (nillable := nillable)
    hv (fun _ _ => he)
  rwa [if_neg (fun h => he h.2), textMeans_of_ne he] at this

theorem text_handed {env : Env} {eas : Bool} {fl : Flags} {nillable : Bool}
    {v enc : Val} (hv : v ≠ .none) (he : encodePrimitive env enc ≠ "") : Handed env eas fl wh so
      (.field (.text false nillable) (some (v, enc)) (.str (encodePrimitive env enc))) := by
  have := Handed.text (wh := wh) (so := so) (eas := eas) (fl := fl) (nillable := nillable) hv (fun _ => he)
  rwa [textMeans_of_ne he] at this

theorem encode_str (env : Env) (t : String) : encodePrimitive env (.str t) = t := rfl

/-- The example person: every field kind of the class, with and without `skip_empty`. -/
theorem ann_handed (mode : Mode) (b : Backend) (sk : Bool) : Handed (env mode b) false { skipEmpty := sk } true so (.model "Person" ann ((env mode b).toJsonable ann) ann) := by
  refine Handed.fields there (c := "Person") (m := person mode) (rows := [
      ({ name := "id", ser := .attr "id" false }, some (.str "7", .str "7"), .str "7"),
      ({ name := "name", ser := .elem "name" none mode false false }, some (.str "Ann", .str "Ann"), .str "Ann"),
      ({ name := "nick", ser := .elem "nick" none mode false true }, some (.none, .none), .none),
      ({ name := "mails", ser := .homog "Person" false (.elem "mail" none mode false false) },
        some (.list [.str "a@x", .str "b@x"], .list [.str "a@x", .str "b@x"]), .list [.str "a@x", .str "b@x"]),
      ({ name := "phone", ser := .wrap ["contact", "phones"] none mode false (.elem "phone" none mode false false) },
        some (.str "123", .str "123"), .str "123"),
      ({ name := "home", ser := .proxy { cls := "Address", name := "home", mode := mode } },
        some (.model "Address" [("zip", .str "0815"), ("street", .str "Main St")] ["zip", "street"],
          .dict [("zip", .str "0815"), ("street", .str "Main St")]),
        .model "Address" [("zip", .str "0815"), ("street", .str "Main St")] ["zip", "street"]),
      ({ name := "extra", ser := .mapElem {} "extra" mode },
        some (.dict [("k", .str "v"), ("l", .str "w")], .dict [("k", .str "v"), ("l", .str "w")]),
        .dict [("k", .str "v"), ("l", .str "w")])]) rfl rfl (by simp) ?_ (by simp) ?_ (fun _ => ⟨_, .head _, rfl⟩) ?_ rfl
  · refine .field trivial ?_ (.field trivial ?_ (.field trivial ?_ (.field trivial ?_
      (.wrapped (t := "contact") (group := [_]) (by simp) ?_ (.wrapped (t := "phones") (group := [_]) (by simp) ?_ (.field trivial (by simp) .nil)
        (by simp) .nil) ?_ (.field trivial ?_ (.field trivial (by simp) .nil)))))) <;>
      simp [Ser.slots, Slot.Competes, Ser.Under, Ser.inWrapper]
  · simp only [List.forall_mem_cons, Field.Writes]
    refine ⟨?_, ?_, ?_, ?_, ?_, ?_, ?_, by simp⟩ <;> exact ⟨trivial, by simp, rfl, rfl⟩
  · simp only [List.forall_mem_cons]
    refine ⟨.attr (by simp), elem_handed (by simp) (by simp [encode_str]), ?_, ?_,
      .wrap (so' := false) (by simp) (by simp [Val.len?]) (elem_handed (by simp) (by simp [encode_str])), ?_, ?_, by simp⟩
    · have := Handed.elemNone (env := env mode b) (eas := false) (fl := (person mode).flagsIn { skipEmpty := sk }) (wh := true) (so := false)
        (name := "nick") (nsmap := none) (mode := mode) (nillable := true) (enc := .none) rfl (by simp)
      rwa [if_pos (.inr rfl)] at this
    · exact .homog (rows := [((.str "a@x", .str "a@x"), .str "a@x"), ((.str "b@x", .str "b@x"), .str "b@x")]) .elem (by simp) (by simp)
        (by
          simp only [List.forall_mem_cons]
          exact ⟨elem_handed (by simp) (by simp [encode_str]), elem_handed (by simp) (by simp [encode_str]), by simp⟩)
    · refine .proxy (m := address) rfl (by simp) rfl ?_ ?_ (.fields there (m := address) (rows := [
          ({ name := "zip", ser := .attr "zip" false }, some (.str "0815", .str "0815"), .str "0815"),
          ({ name := "street", ser := .text false false }, some (.str "Main St", .str "Main St"), .str "Main St")])
          rfl rfl (by simp) ?_ (by simp) ?_ (fun _ => ⟨_, .head _, rfl⟩) ?_ rfl)
      · intro fs h
        injection h with h
        subst h
        simp [Ser.slots, nilAttr]
      · intro s h; cases h
      · exact .field trivial (by simp [Ser.slots, Slot.Competes]) (.field trivial (by simp) .nil)
      · simp [Field.Writes, Dict.get?]
      · simp only [List.forall_mem_cons]
        exact ⟨.attr (by simp), text_handed (by simp) (by simp [encode_str]), by simp⟩
    · have := Handed.mapElem (env := env mode b) (eas := false) (fl := (person mode).flagsIn { skipEmpty := sk }) (wh := true) (so := true)
        (a := {}) (name := "extra") (mode := mode) (v := .dict [("k", .str "v"), ("l", .str "w")])
        (d := [("k", .str "v"), ("l", .str "w")]) rfl (by simp)
        ⟨by simp [Dict.WF, Dict.keys], by simp [Dict.keys, AttrsSer.space, QName.uri, nilAttr], by simp, by simp [AttrsSer.space]⟩
        (by simp [Val.len?]) (by simp)
      rwa [if_neg (by simp)] at this

theorem resolved (mode : Mode) (b : Backend) : (env mode b).Everywhere (Ser.Resolved (env mode b)) := by
  apply everywhere
  simp [Ser.Resolved, env, model]

example (mode : Mode) (b : Backend) (sk : Bool) : ∃ tree N, ∀ n ≥ N, toXmlTree (env mode b) n { skipEmpty := sk } "Person" ann = .ok tree ∧
    (fromXmlTree (env mode b) false n "Person" tree).1 = .ok ann :=
  C01_round_trip (so := true) _ (resolved mode b) _ _ _ _ _ (ann_handed mode b sk)

example (mode : Mode) (b : Backend) (sk : Bool) : ∃ tree N, ∀ n ≥ N, toXmlTree (env mode b) n { skipEmpty := sk } "Person" ann = .ok tree ∧
    ∀ path, (fromXmlTree (env mode b) false n "Person" tree).2.getUnbound path = [] :=
  C02_nothing_left (so := true) _ (resolved mode b) _ _ _ _ _ (ann_handed mode b sk)

/-- Trees of any width and depth with any labels. -/
inductive Rose where
  | node (id : String) (kids : List Rose)

mutual
/-- The instance of the recursive class. -/
def Rose.val : Rose → Val
  | .node id [] => .model "Tree" [("id", .str id), ("kids", .none)] ["id"]
  | .node id (k :: ks) => .model "Tree" [("id", .str id), ("kids", .list (k.val :: Rose.vals ks))] ["id", "kids"]
def Rose.vals : List Rose → List Val
  | [] => []
  | k :: ks => k.val :: Rose.vals ks
end

theorem Rose.vals_eq (ks : List Rose) : Rose.vals ks = ks.map Rose.val := by
  induction ks with
  | nil => rfl
  | cons k ks ih => simp [Rose.vals, ih]

theorem jsonList_eq (vs : List Val) : jsonList vs = vs.map json := by
  induction vs with
  | nil => rfl
  | cons k ks ih => simp [jsonList, ih]

theorem Rose.val_ne (t : Rose) : t.val ≠ .none := by
  cases t with | node id kids => cases kids <;> simp [Rose.val]

theorem tree_tidy : Tidy (tree.body.rec (fun fs => fs.map fun f => f.ser) (fun s => [s])) := by
  exact .field trivial (by simp [Ser.slots, Slot.Competes]) (.field trivial (by simp) .nil)

mutual
theorem rose_handed (sk so : Bool) (t : Rose) : Handed env false { skipEmpty := sk } true so (.model "Tree" t.val (json t.val) t.val) := by
  cases t with
  | node id kids =>
    cases kids with
    | nil =>
      refine .fields there (m := tree) (rows := [
        ({ name := "id", ser := .attr "id" false }, some (.str id, .str id), .str id),
        ({ name := "kids", ser := .homog "Tree" false (.proxy { cls := "Tree", name := "tree" }) }, some (.none, .none), .none)])
        rfl rfl (by simp) tree_tidy (by simp) ?_ (fun _ => ⟨_, .head _, rfl⟩) ?_ ?_
      · simp only [List.forall_mem_cons, Field.Writes]
        refine ⟨?_, ?_, by simp⟩ <;> exact ⟨trivial, by simp, rfl, rfl⟩
      · simp only [List.forall_mem_cons]
        exact ⟨.attr (by simp), .homogNone .proxy, by simp⟩
      · rfl
    | cons k ks =>
      have hk := rose_handed sk sk k
      have hks := roses_handed sk sk ks
      have hnil : ∀ fs, tree.body = .fields fs → ∀ f ∈ fs, Slot.attr nilAttr ∉ f.ser.slots := by
        intro fs h
        injection h with h
        subst h
        simp [Ser.slots, nilAttr]
      have hl := Handed.homog (wh := true) (so := true) (env := env) (eas := false) (fl := { skipEmpty := sk }) (title := "Tree") (inner := .proxy { cls := "Tree", name := "tree" })
        (rows := (k :: ks).map fun t => ((t.val, json t.val), t.val)) .proxy
        (by
          intro r hr
          obtain ⟨t, _, rfl⟩ := List.mem_map.1 hr
          exact ⟨t.val_ne, t.val_ne⟩)
        (by simp)
        (by
          intro r hr
          obtain ⟨t, ht, rfl⟩ := List.mem_map.1 hr
          refine .proxy rfl t.val_ne rfl hnil (by intro s h; cases h) ?_
          rcases List.mem_cons.1 ht with rfl | ht
          · exact hk
          · exact hks t ht)
      refine .fields there (m := tree) (rows := [
        ({ name := "id", ser := .attr "id" false }, some (.str id, .str id), .str id),
        ({ name := "kids", ser := .homog "Tree" false (.proxy { cls := "Tree", name := "tree" }) },
          some (.list ((k :: ks).map Rose.val), .list ((k :: ks).map fun t => json t.val)), .list ((k :: ks).map Rose.val))])
        rfl rfl (by simp) tree_tidy (by simp) ?_ (fun _ => ⟨_, .head _, rfl⟩) ?_ ?_
      · simp [Field.Writes, Dict.get?, Rose.vals_eq, json, jsonItems, jsonList, jsonList_eq]
      · simp only [List.forall_mem_cons]
        refine ⟨.attr (by simp), ?_, by simp⟩
        simp only [List.map_map, Function.comp_def, List.map_eq_nil_iff, reduceCtorEq, if_false] at hl
        exact hl
      · simp only [Rose.vals_eq]
        rfl
theorem roses_handed (sk so : Bool) (ts : List Rose) : ∀ t ∈ ts, Handed env false { skipEmpty := sk } true so (.model "Tree" t.val (json t.val) t.val) := by
  cases ts with
  | nil => simp
  | cons t ts =>
    intro x hx
    have h1 := rose_handed sk so t
    have h2 := roses_handed sk so ts
    rcases List.mem_cons.1 hx with rfl | hx
    · exact h1
    · exact h2 x hx
end

/-- Every instance of the recursive class comes back unchanged, with and without `skip_empty`. -/
theorem C01_all_trees (sk : Bool) (t : Rose) : ∃ tree N, ∀ n ≥ N, toXmlTree env n { skipEmpty := sk } "Tree" t.val = .ok tree ∧
    (fromXmlTree env false n "Tree" tree).1 = .ok t.val :=
  C01_round_trip (so := true) _ (resolved _ _) _ _ _ _ _ (rose_handed sk true t)

/-- A class with a stored element, and a computed element and a computed attribute made from it. -/
def square (forbid : Bool) : ModelSer where
  name := "Square"
  elementName := "square"
  extraForbid := forbid
  body := .fields [
    { name := "side", ser := .elem "side" none .strict false false },
    { name := "label", ser := .elem "label" none .strict true false },
    { name := "unit", ser := .attr "unit" true }]

/-- A class with a square and a name. -/
def sheet (forbid : Bool) : ModelSer where
  name := "Sheet"
  elementName := "sheet"
  extraForbid := forbid
  body := .fields [
    { name := "square", ser := .proxy { cls := "Square", name := "square" } },
    { name := "name", ser := .elem "name" none .strict false false }]

def squareVal (side : String) : Val :=
  .model "Square" [("side", .str side), ("label", .str ("side " ++ side)), ("unit", .str "cm")] ["side"]

def sheetVal (side name : String) : Val := .model "Sheet" [("square", squareVal side), ("name", .str name)] ["square", "name"]

def squareEnv (inner outer : Bool) : Env where
  backend := .lxml
  model cls := if cls = "Square" then some (square inner) else if cls = "Sheet" then some (sheet outer) else none
  validate cls d := match cls, d with
    | "Square", .dict [("side", .str side)] =>
      .ok ([("side", .str side), ("label", .str ("side " ++ side)), ("unit", .str "cm")], ["side"])
    | "Sheet", .dict fs => check cls [("square", true), ("name", true)] fs
    | cls, _ => .error ⟨cls, []⟩
  toJsonable := json
  reprOf _ := "..."

theorem square_resolved (inner outer : Bool) : (squareEnv inner outer).Everywhere (Ser.Resolved (squareEnv inner outer)) := by
  intro cls m hm
  simp only [squareEnv] at hm
  split at hm
  · injection hm with hm
    subst hm
    simp only [ModelSer.Everywhere, square, List.forall_mem_cons]
    exact ⟨⟨trivial, by simp [Ser.subs]⟩, ⟨trivial, by simp [Ser.subs]⟩, ⟨trivial, by simp [Ser.subs]⟩, by simp⟩
  · split at hm
    · injection hm with hm
      subst hm
      simp only [ModelSer.Everywhere, sheet, List.forall_mem_cons]
      exact ⟨⟨rfl, by simp [Ser.subs]⟩, ⟨trivial, by simp [Ser.subs]⟩, by simp⟩
    · cases hm

theorem square_handed (sk : Bool) (side : String) (hs : side ≠ "") :
    Handed (squareEnv false false) false { skipEmpty := sk } false so (.model "Square" (squareVal side) (json (squareVal side)) (squareVal side)) := by
  refine .computed (fun _ => true) (m := square false) (rows := [
      ({ name := "side", ser := .elem "side" none .strict false false }, some (.str side, .str side), .str side)]) (more := [
      ({ name := "label", ser := .elem "label" none .strict true false }, some (.str ("side " ++ side), .str ("side " ++ side)),
        .str ("side " ++ side)),
      ({ name := "unit", ser := .attr "unit" true }, some (.str "cm", .str "cm"), .str "cm")])
    rfl rfl rfl (.field trivial (by simp) .nil)
    (.field trivial (by simp [Ser.stored, Ser.slots, Slot.Competes]) (.field trivial (by simp) .nil))
    (by simp [Ser.slots, Slot.Competes]) (by simp [Ser.computed]) (by simp) ?_ (fun _ => ⟨_, .head _, rfl⟩) ?_ ?_ ?_
  · simp [Field.Writes, Dict.get?, json, jsonItems]
  · simp only [List.forall_mem_cons]
    exact ⟨elem_handed (by simp) hs, by simp⟩
  · simp only [List.forall_mem_cons]
    exact ⟨elem_handed (by simp) (by simp [encode_str]), .attr (by simp), by simp⟩
  · simp [handedData, Dict.set, squareEnv, Val.isNone]

theorem sheet_handed (sk : Bool) (side name : String) (hs : side ≠ "") (hn : name ≠ "") :
    Handed (squareEnv false false) false { skipEmpty := sk } false false
      (.model "Sheet" (sheetVal side name) (json (sheetVal side name)) (sheetVal side name)) := by
  refine .fields there (wh := false) (m := sheet false) (rows := [
      ({ name := "square", ser := .proxy { cls := "Square", name := "square" } }, some (squareVal side, json (squareVal side)), squareVal side),
      ({ name := "name", ser := .elem "name" none .strict false false }, some (.str name, .str name), .str name)])
    rfl rfl (fun _ => rfl) (.field trivial (by simp [Ser.slots, Slot.Competes]) (.field trivial (by simp) .nil))
    (by simp) ?_ (by simp) ?_ ?_
  · simp [Field.Writes, Dict.get?, jsonItems, json]
  · simp only [List.forall_mem_cons]
    refine ⟨.proxy rfl (by simp [squareVal]) rfl ?_ (by intro s h; cases h) (square_handed sk side hs), elem_handed (by simp) hn, by simp⟩
    intro fs h
    injection h with h
    subst h
    simp [Ser.slots, nilAttr]
  · simp [handedData, Dict.set, squareEnv, Val.isNone, squareVal, check, Dict.get?]

/-- Every sheet comes back unchanged, although its square has computed fields. -/
theorem C01_all_sheets (sk : Bool) (side name : String) (hs : side ≠ "") (hn : name ≠ "") :
    ∃ tree N, ∀ n ≥ N, toXmlTree (squareEnv false false) n { skipEmpty := sk } "Sheet" (sheetVal side name) = .ok tree ∧
      (fromXmlTree (squareEnv false false) false n "Sheet" tree).1 = .ok (sheetVal side name) :=
  C01_round_trip _ (square_resolved _ _) _ _ _ _ _ (sheet_handed sk side name hs hn)

/-! ## Where the conditions are needed -/

/-- C01: a class with computed fields must not forbid extra data, and neither may a class that contains it: what it writes is
rejected, as the computed values are never read. -/
theorem C01_counterexample_computed :
    ((toXmlTree (squareEnv true false) 9 {} "Square" (squareVal "3")).bind fun t =>
      (fromXmlTree (squareEnv true false) false 9 "Square" t).1) =
      .verr ⟨"Square", [⟨"extra_forbidden", "Extra inputs are not permitted", [.name "@unit"], .str "cm", some (-1)⟩,
        ⟨"extra_forbidden", "Extra inputs are not permitted", [.name "label"], .str "side 3", some (-1)⟩]⟩ ∧
    ((toXmlTree (squareEnv false true) 9 {} "Sheet" (sheetVal "3" "A")).bind fun t =>
      (fromXmlTree (squareEnv false true) false 9 "Sheet" t).1) =
      .verr ⟨"Sheet", [⟨"extra_forbidden", "Extra inputs are not permitted", [.name "square", .name "@unit"], .str "cm", some (-1)⟩,
        ⟨"extra_forbidden", "Extra inputs are not permitted", [.name "square", .name "label"], .str "side 3", some (-1)⟩]⟩ := by
  refine ⟨?_, ?_⟩ <;> kernel_rfl

/-- Two fields in the wrapper `w` with an element of their own between them. -/
def apart : ModelSer where
  name := "Apart"
  elementName := "a"
  body := .fields [
    { name := "x", ser := .wrap ["w"] none .unordered false (.elem "x" none .unordered false false) },
    { name := "m", ser := .elem "m" none .unordered false false },
    { name := "y", ser := .wrap ["w"] none .unordered false (.elem "y" none .unordered false false) }]

/-- A pair whose first item may be missing. -/
def pair : ModelSer where
  name := "Pair"
  elementName := "p"
  body := .fields [
    { name := "p", ser := .hetero "Pair" false [.elem "i" none .strict false false, .elem "i" none .strict false false] }]

def apartEnv : Env where
  backend := .lxml
  model cls := if cls = "Apart" then some apart else if cls = "Pair" then some pair else none
  validate cls d := match d with
    | .dict fs => check cls (if cls = "Apart" then [("x", false), ("m", false), ("y", false)] else [("p", false)]) fs
    | _ => .error ⟨cls, []⟩
  toJsonable := json
  reprOf _ := "..."

/-- C01: fields that share a wrapper have to be next to each other. Here, when the first field is missing, its reader already opens
the wrapper of the second one, and the value of the second field is lost. -/
theorem C01_counterexample_apart :
    ((toXmlTree apartEnv 9 {} "Apart" (.model "Apart" [("x", .str "1"), ("m", .str "2"), ("y", .str "3")] ["x", "m", "y"])).bind fun t =>
      (fromXmlTree apartEnv false 9 "Apart" t).1) =
    .ok (.model "Apart" [("x", .str "1"), ("m", .str "2"), ("y", .str "3")] ["x", "m", "y"]) ∧
    ((toXmlTree apartEnv 9 { excludeNone := true } "Apart"
        (.model "Apart" [("x", .none), ("m", .str "2"), ("y", .str "3")] ["m", "y"])).bind fun t =>
      (fromXmlTree apartEnv false 9 "Apart" t).1) =
    .ok (.model "Apart" [("x", .none), ("m", .str "2"), ("y", .none)] ["m"]) := by
  refine ⟨?_, ?_⟩ <;> kernel_rfl

/-- C01: the items of a tuple have to be there. A missing item is not written with `exclude_none`, and the following ones move up. -/
theorem C01_counterexample_tuple :
    ((toXmlTree apartEnv 9 { excludeNone := true } "Pair" (.model "Pair" [("p", .list [.none, .str "2"])] ["p"])).bind fun t =>
      (fromXmlTree apartEnv false 9 "Pair" t).1) = .ok (.model "Pair" [("p", .list [.str "2", .none])] ["p"]) := by kernel_rfl

/-- Words in a list, a sub-model, and a wrapped raw element. -/
def sparse : ModelSer where
  name := "Sparse"
  elementName := "s"
  body := .fields [
    { name := "words", ser := .homog "Sparse" false (.elem "word" none .strict false false) },
    { name := "note", ser := .proxy { cls := "Note", name := "note" } },
    { name := "raw", ser := .wrap ["w"] none .strict false (.raw "raw" .strict false) }]

/-- A class with one optional text. -/
def note : ModelSer where
  name := "Note"
  elementName := "note"
  body := .fields [{ name := "text", ser := .text false false }]

def sparseEnv : Env where
  backend := .lxml
  model cls := if cls = "Sparse" then some sparse else if cls = "Note" then some note else none
  validate cls d := match d with
    | .dict fs => check cls (if cls = "Sparse" then [("words", false), ("note", false), ("raw", false)] else [("text", false)]) fs
    | _ => .error ⟨cls, []⟩
  toJsonable := json
  reprOf _ := "..."

/-- C01: with `skip_empty` the items of a list, sub-models and wrapped raw elements have to be non-empty. The empty string vanishes from
the list, the sub-model without a text comes back as `None`, and so does a wrapped raw element that has a text but no children, as its
length counts. -/
theorem C01_counterexample_skip :
    ((toXmlTree sparseEnv 9 { skipEmpty := true } "Sparse"
        (.model "Sparse" [("words", .list [.str "", .str "b"]), ("note", .none), ("raw", .none)] ["words"])).bind fun t =>
      (fromXmlTree sparseEnv false 9 "Sparse" t).1) =
    .ok (.model "Sparse" [("words", .list [.str "b"]), ("note", .none), ("raw", .none)] ["words"]) ∧
    ((toXmlTree sparseEnv 9 { skipEmpty := true } "Sparse"
        (.model "Sparse" [("words", .none), ("note", .model "Note" [("text", .none)] []), ("raw", .none)] ["note"])).bind fun t =>
      (fromXmlTree sparseEnv false 9 "Sparse" t).1) =
    .ok (.model "Sparse" [("words", .none), ("note", .none), ("raw", .none)] []) ∧
    ((toXmlTree sparseEnv 9 { skipEmpty := true } "Sparse"
        (.model "Sparse" [("words", .none), ("note", .none), ("raw", .raw (el "raw" (some "kept?")))] ["raw"])).bind fun t =>
      (fromXmlTree sparseEnv false 9 "Sparse" t).1) =
    .ok (.model "Sparse" [("words", .none), ("note", .none), ("raw", .none)] []) ∧
    ((toXmlTree sparseEnv 9 {} "Sparse"
        (.model "Sparse" [("words", .none), ("note", .none), ("raw", .raw (el "raw" (some "kept?")))] ["raw"])).bind fun t =>
      (fromXmlTree sparseEnv false 9 "Sparse" t).1) =
    .ok (.model "Sparse" [("words", .none), ("note", .none), ("raw", .raw (el "raw" (some "kept?")))] ["raw"]) := by
  refine ⟨?_, ?_, ?_, ?_⟩ <;> kernel_rfl

end Ex
end PXml
