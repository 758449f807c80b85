import Verif.SpecTyped
import Verif.Lemmas.EmitModel

/-! # Typed instances are handed through -/

namespace PXml

theorem exists_rows {α β : Type} {R : α → β → Prop} : ∀ {l : List α}, (∀ a ∈ l, ∃ b, R a b) →
    ∃ rows : List (α × β), rows.map Prod.fst = l ∧ ∀ r ∈ rows, R r.1 r.2
  | [], _ => ⟨[], rfl, by simp⟩
  | a :: l, h => by
    obtain ⟨b, hb⟩ := h a (by simp)
    obtain ⟨rows, h1, h2⟩ := exists_rows (l := l) fun x hx => h x (by simp [hx])
    refine ⟨(a, b) :: rows, by simp [h1], fun r hr => ?_⟩
    rcases List.mem_cons.1 hr with rfl | hr
    · exact hb
    · exact h2 r hr

theorem val_bareList_eq (vs : List Val) : Val.bareList vs = vs.map Val.bare := by
  induction vs with
  | nil => rfl
  | cons v vs ih => simp [Val.bareList, ih]

theorem val_bareItems_eq (d : List (String × Val)) : Val.bareItems d = d.map fun kv => (kv.1, kv.2.bare) := by
  induction d with
  | nil => rfl
  | cons kv d ih => simp [Val.bareItems, ih]

mutual
theorem plain_plain (n : Node) : n.plain.plain = n.plain := by
  cases n with
  | elem tag attrib nsmap text tail children line =>
    have := plain_plainList children
    simp only [Node.plain, Node.dropComments, Node.dropPrefixes, Node.dropLines] at this ⊢
    rw [this]
  | comment => rfl
  | pi => rfl
theorem plain_plainList (l : List Node) :
    Node.dropLinesList (Node.dropPrefixesList (Node.dropCommentsList (Node.dropLinesList (Node.dropPrefixesList (Node.dropCommentsList l))))) =
      Node.dropLinesList (Node.dropPrefixesList (Node.dropCommentsList l)) := by
  cases l with
  | nil => rfl
  | cons n l =>
    have h1 := plain_plain n
    have h2 := plain_plainList l
    simp only [Node.dropCommentsList]
    cases hc : n.isComment with
    | true => simpa using h2
    | false =>
      have hc' : (n.dropComments.dropPrefixes.dropLines).isComment = false := by
        cases n <;> first | rfl | cases hc
      simp only [Node.plain] at h1
      simp [Node.dropLinesList, Node.dropPrefixesList, Node.dropCommentsList, hc', h1, h2]
end

theorem find?_key {α : Type} (f : α → String) {l : List α} (hnd : (l.map f).Nodup) {a : α} (ha : a ∈ l) :
    l.find? (fun x => f x = f a) = some a := by
  induction l with
  | nil => cases ha
  | cons b l ih =>
    simp only [List.map_cons, List.nodup_cons] at hnd
    rcases List.mem_cons.1 ha with rfl | ha
    · rw [List.find?_cons_of_pos (by simp)]
    · rw [List.find?_cons_of_neg, ih hnd.2 ha]
      simp only [decide_eq_true_eq]
      intro e
      apply hnd.1
      rw [e]
      exact List.mem_map_of_mem ha

/-- The data of a field is found under its key. -/
theorem handedData_get (rows : List (Field × Option (Val × Val) × Val)) (acc : Dict String Val) (k : String)
    (hnd : (rows.map fun r => r.1.alias.getD r.1.name).Nodup) :
    Dict.get? (rows.foldl (fun res r => if r.2.2.isNone then res else res.set (r.1.alias.getD r.1.name) r.2.2) acc) k =
      match rows.find? fun r => r.1.alias.getD r.1.name = k with
      | some r => if r.2.2.isNone then acc.get? k else some r.2.2
      | none => acc.get? k := by
  induction rows generalizing acc with
  | nil => rfl
  | cons r rows ih =>
    simp only [List.map_cons, List.nodup_cons] at hnd
    rw [List.foldl_cons, ih _ hnd.2]
    by_cases hk : r.1.alias.getD r.1.name = k
    · have : rows.find? (fun r => r.1.alias.getD r.1.name = k) = none := by
        rw [List.find?_eq_none]
        intro x hx hxk
        apply hnd.1
        rw [hk]
        have := List.mem_map_of_mem (f := fun r : Field × Option (Val × Val) × Val => r.1.alias.getD r.1.name) hx
        simpa [of_decide_eq_true hxk] using this
      rw [this, List.find?_cons_of_pos (by simpa using hk)]
      cases hn : r.2.2.isNone <;> simp [hk, hn]
    · rw [List.find?_cons_of_neg (by simpa using hk)]
      have : Dict.get? (if r.2.2.isNone then acc else acc.set (r.1.alias.getD r.1.name) r.2.2) k = acc.get? k := by
        split
        · rfl
        · rw [Dict.get?_set_ne _ _ hk]
      rw [this]

theorem handedData_mem {rows : List (Field × Option (Val × Val) × Val)} (hnd : (rows.map fun r => r.1.alias.getD r.1.name).Nodup)
    {r : Field × Option (Val × Val) × Val} (hr : r ∈ rows) :
    Dict.get? (handedData rows) (r.1.alias.getD r.1.name) = if r.2.2.isNone then none else some r.2.2 := by
  rw [handedData, handedData_get rows [] _ hnd]
  have := find?_key (fun x : Field × Option (Val × Val) × Val => x.1.alias.getD x.1.name) hnd hr
  rw [this]
  rfl

theorem items_get {β : Type} {l : List (String × β)} (h : (l.map Prod.fst).Nodup) {k : String} {v : β} (hm : (k, v) ∈ l) :
    Dict.get? l k = some v := Dict.get?_of_mem h hm

section
variable (env : Env) (P : Prims) (types : String → Option Types) (eas : Bool) (fl : Flags) (wh so : Bool)

/-- What is shown for values of fields and for instances. -/
def Held.Back : Held → Prop
  | .field d s ty v void => ∃ y, Handed env eas fl wh so (.field s (some (v, env.toJsonable v)) y) ∧
      (void = true → y = .none) ∧ (void = false → v ≠ .none ∧ y ≠ .none ∧ ∃ x, Makes P d ty y x ∧ x.bare = v.bare)
  | .inst cls v => ∃ fields set fields' set', v = .model cls fields set ∧
      Handed env eas fl wh so (.model cls v (env.toJsonable v) (.model cls fields' set')) ∧
      (Val.model cls fields' set').bare = v.bare

variable {env P types eas fl wh so}

theorem readable_map {a : AttrsSer} {items : List (String × Val)} (g : Val → Val) (h : a.Readable items) :
    a.Readable (items.map fun kv => (kv.1, g kv.2)) := by
  have hk : Dict.keys (items.map fun kv => (kv.1, g kv.2)) = Dict.keys items := by
    simp [Dict.keys, Function.comp_def]
  unfold AttrsSer.Readable Dict.WF at h ⊢
  rw [hk]
  exact h

theorem HasTypes.nil_fields (hT : env.HasTypes types) {cls : String} {d : Dict String Schema} {ts : List Typed} {cs : List Derived}
    (h : types cls = some (.fields d ts cs)) : ∃ m, env.model cls = some m ∧
      (∀ fs, m.body = .fields fs → ∀ f ∈ fs, Slot.attr Elem.nilAttr ∉ f.ser.slots) ∧
      (∀ s, m.body = .root s → Slot.attr Elem.nilAttr ∉ s.slots) := by
  obtain ⟨m, h1, h2, -, h5, -, -, -, h8, -⟩ := hT.1 cls d ts cs h
  refine ⟨m, h1, ?_, ?_⟩
  · intro fs hfs f hf
    rw [h2] at hfs
    cases hfs
    rcases List.mem_append.1 hf with hf | hf
    · obtain ⟨t, ht, rfl⟩ := List.mem_map.1 hf
      obtain ⟨ht, hv⟩ := List.mem_filter.1 ht
      exact (h5 t ht (by simpa using hv)).2.2
    · obtain ⟨c, hc, rfl⟩ := List.mem_map.1 hf
      exact (h8 c hc).2.2.2.1
  · intro s hs
    rw [h2] at hs
    cases hs

theorem HasTypes.nil_root (hT : env.HasTypes types) {cls : String} {d : Dict String Schema} {s : Ser} {ty : Schema} {df : Option Val}
    (h : types cls = some (.root d s ty df)) : ∃ m, env.model cls = some m ∧
      (∀ fs, m.body = .fields fs → ∀ f ∈ fs, Slot.attr Elem.nilAttr ∉ f.ser.slots) ∧
      (∀ s, m.body = .root s → Slot.attr Elem.nilAttr ∉ s.slots) := by
  obtain ⟨m, h1, h2, -, h5⟩ := hT.2 cls d s ty df h
  refine ⟨m, h1, ?_, ?_⟩
  · intro fs hfs
    rw [h2] at hfs
    cases hfs
  · intro s hs
    rw [h2] at hs
    cases hs
    exact h5

/-- An instance has a class with types. -/
theorem Sound.nil (hT : env.HasTypes types) {cls : String} {v : Val} (h : Sound env P types eas fl wh so (.inst cls v)) :
    ∃ m, env.model cls = some m ∧
      (∀ fs, m.body = .fields fs → ∀ f ∈ fs, Slot.attr Elem.nilAttr ∉ f.ser.slots) ∧
      (∀ s, m.body = .root s → Slot.attr Elem.nilAttr ∉ s.slots) := by
  cases h with
  | fields h1 => exact HasTypes.nil_fields hT h1
  | root h1 => exact HasTypes.nil_root hT h1
  | whole h =>
    cases h with
    | fields h1 => exact HasTypes.nil_fields hT h1
    | root h1 => exact HasTypes.nil_root hT h1

/-- Nothing is lost by not asking that something is written. -/
theorem Sound.weaken {x : Held} (h : Sound env P types eas fl wh true x) (so : Bool) : Sound env P types eas fl wh so x := by
  cases so with
  | true => exact h
  | false =>
    generalize he : true = so at h
    induction h with
    | text h1 h2 h3 => exact .text h1 h2 (by simp)
    | textEmpty h1 h2 h3 => cases he
    | textNone h1 h2 => exact .textNone h1 (by simp)
    | attr h1 => exact .attr h1
    | attrNone h1 => cases he
    | elem h1 h2 => exact .elem h1 h2
    | elemEmpty h1 h2 h3 h4 => exact .elemEmpty h1 h2 h3 (by simp)
    | elemNone h1 h2 => exact .elemNone h1 (by simp)
    | primUnion h1 _ ih => exact .primUnion h1 (ih he)
    | attrs h1 h2 h3 h4 h5 => exact .attrs h1 h2 h3 h4 (by simp)
    | mapElem h1 h2 h3 h4 h5 => exact .mapElem h1 h2 h3 h4 h5
    | mapElemEmpty => cases he
    | raw h1 h2 h3 h4 h5 => exact .raw h1 h2 h3 h4 h5
    | rawNone => cases he
    | model h1 h2 h3 => exact .model h1 h2 h3
    | modelNone h1 h2 => exact .modelNone h1 (by simp)
    | union h1 h2 h3 h4 h5 h6 => exact .union h1 h2 h3 h4 h5 h6
    | unionNone => cases he
    | tagged h1 h2 h3 h4 h5 h6 h7 h8 h9 h10 h11 h12 h13 h14 h15 => exact .tagged h1 h2 h3 h4 h5 h6 h7 h8 h9 h10 h11 h12 h13 h14 h15
    | list h1 h2 h3 h4 => exact .list h1 h2 h3 h4
    | listEmpty => cases he
    | tuple h1 h2 h3 h4 h5 => exact .tuple h1 h2 h3 h4 h5
    | tupleNone => cases he
    | wrap h1 h2 h3 => exact .wrap h1 h2 h3
    | wrapNone => cases he
    | fields h1 h2 h3 h4 h5 h6 h7 h8 h9 h10 h11 h12 h13 => exact .fields h1 h2 h3 h4 h5 h6 h7 h8 (by simp) h10 h11 h12 h13
    | root h1 h2 h3 h4 h5 _ ih => exact .root h1 h2 h3 h4 h5 (ih he)
    | whole _ ih => exact .whole (ih he)

/-- An instance of a class without computed fields, all of whose fields are part of the XML. -/
theorem Sound.plain {cls : String} {m : ModelSer} {d : Dict String Schema} {rows : List (Typed × Val × Option Bool × Bool)} {set : List String}
    (h1 : types cls = some (.fields d (rows.map Prod.fst) [])) (h2 : env.model cls = some m) (h3 : ∀ r ∈ rows, r.1.hidden = false)
    (h4 : wh = false → m.extraForbid = false)
    (h5 : ∀ r ∈ rows, r.2.2.1 = none ↔ r.1.field.exclude = true ∨ (fl.excludeUnset = true ∧ r.1.field.name ∉ set))
    (h6 : ∀ r ∈ rows, r.2.2.1 = none → r.1.field.ser.Silent eas)
    (h7 : ∀ r ∈ rows, r.2.2.1 ≠ some false → ∃ x, r.1.default = some x ∧ x.bare = r.2.1.bare)
    (h8 : so = true → ∃ r ∈ rows, r.2.2.1 ≠ none ∧ r.2.2.2 = true)
    (h9 : ∀ r ∈ rows, ∀ b, r.2.2.1 = some b → Sound env P types eas (m.flagsIn fl) wh r.2.2.2 (.field d r.1.field.ser r.1.ty r.2.1 b)) :
    Sound env P types eas fl wh so (.inst cls (.model cls (rows.map fun r => (r.1.field.name, r.2.1)) set)) := by
  have := Sound.fields (env := env) (P := P) (types := types) (eas := eas) (fl := fl) (wh := wh) (so := so) (cls := cls) (m := m) (d := d)
    (rows := rows) (more := []) (set := set) h1 h2 h4 (by simp) rfl (fun r hr => by simpa [h3 r hr] using h5 r hr)
    (fun r hr e => .inr (h6 r hr e)) h7 (fun e => .inl (h8 e)) h9 (by simp) (by simp) (by simp)
  simpa using this

theorem proxy_back (hT : env.HasTypes types) {p : Proxy} {v : Val} (hc : p.computed = false)
    (hs : Sound env P types eas fl wh fl.skipEmpty (.inst p.cls v)) (ih : Held.Back env P eas fl wh fl.skipEmpty (.inst p.cls v)) (so : Bool) :
    ∃ fields set fields' set', v = .model p.cls fields set ∧
      Handed env eas fl wh so (.field (.proxy p) (some (v, env.toJsonable v)) (.model p.cls fields' set')) ∧
      (Val.model p.cls fields' set').bare = v.bare := by
  obtain ⟨fields, set, fields', set', rfl, h, hb⟩ := ih
  obtain ⟨m, hm, h1, h2⟩ := hs.nil hT
  exact ⟨fields, set, fields', set', rfl, .proxy hc (by simp) hm h1 h2 h, hb⟩

/-- An instance of a class with or without computed fields. -/
theorem handed_instance {cls c : String} {m : ModelSer} {rows more : List (Field × Option (Val × Val) × Val)}
    (solid : Field × Option (Val × Val) × Val → Bool) {fields enc fields' : List (String × Val)} {set set' : List String}
    (hm : env.model cls = some m) (hbody : m.body = .fields (rows.map (fun r => r.1) ++ more.map fun r => r.1))
    (hfb : wh = false → m.extraForbid = false) (hwh : more ≠ [] → wh = false) (htidy : Tidy (rows.map fun r => r.1.ser))
    (htidy' : Tidy (more.map fun r => r.1.ser.stored))
    (hcomp : ∀ r ∈ rows, ∀ a ∈ r.1.ser.slots, ∀ u ∈ more, ∀ b ∈ u.1.ser.slots, ¬ a.Competes b)
    (hc : ∀ u ∈ more, u.1.ser.computed = true) (hno : ∀ r ∈ rows ++ more, r.1.validator = none ∧ r.1.serializer = none)
    (hw : ∀ r ∈ rows ++ more, r.1.Writes fl fields set enc r.2.1) (hso : so = true → ∃ r ∈ rows ++ more, solid r = true)
    (hrows : ∀ r ∈ rows, Handed env eas (m.flagsIn fl) wh (solid r) (.field r.1.ser r.2.1 r.2.2))
    (hmore : ∀ u ∈ more, Handed env eas (m.flagsIn fl) wh (solid u) (.field u.1.ser.stored u.2.1 u.2.2))
    (hval : env.validate cls (.dict (handedData rows)) = .ok (fields', set')) :
    Handed env eas fl wh so (.model cls (.model c fields set) (.dict enc) (.model cls fields' set')) := by
  by_cases he : more = []
  · subst he
    simp only [List.map_nil, List.append_nil] at hbody hno hw hso
    exact .fields solid hm hbody hfb htidy hno hw hso hrows hval
  · obtain rfl := hwh he
    exact .computed solid hm hbody (hfb rfl) htidy htidy' hcomp hc hno hw hso hrows hmore hval

theorem writes_of {f : Field} {fields enc : List (String × Val)} {set : List String} {x y : Val} {b : Option Bool}
    (hw : b = none ↔ f.exclude = true ∨ (fl.excludeUnset = true ∧ f.name ∉ set))
    (hx : Dict.get? fields f.name = some x) (hy : Dict.get? enc f.name = some y) :
    f.Writes fl fields set enc (b.map fun _ => (x, y)) := by
  cases b with
  | none => exact hw.1 rfl
  | some b =>
    have hnw : ¬(f.exclude = true ∨ (fl.excludeUnset = true ∧ f.name ∉ set)) := fun h => by cases hw.2 h
    refine ⟨?_, ?_, hx, hy⟩
    · cases he : f.exclude with
      | false => rfl
      | true => exact absurd (.inl he) hnw
    · intro he
      by_cases hin : f.name ∈ set
      · exact hin
      · exact absurd (.inr ⟨he, hin⟩) hnw

theorem sound_back (hT : env.HasTypes types) (hF : env.Follows P types) {x : Held}
    (h : Sound env P types eas fl wh so x) : Held.Back env P eas fl wh so x := by
  induction h with
  | @text fl wh so d ty nillable v hp he hso =>
    obtain ⟨h1, h2, -⟩ := hF.prim ty v hp
    have ht : textMeans eas (encodePrimitive env (env.toJsonable v)) = .str (encodePrimitive env (env.toJsonable v)) := by
      unfold textMeans
      split
      · rename_i h; rcases he with rfl | he
        · rw [h]; rfl
        · exact absurd h he
      · rfl
    refine ⟨_, .text h1 hso, by simp, fun _ => ⟨h1, by rw [ht]; simp, v, ?_, rfl⟩⟩
    rw [ht]
    exact .prim h2
  | @textEmpty fl wh d ty nillable v hp he ht =>
    obtain ⟨h1, h2, -⟩ := hF.prim ty v hp
    exact ⟨_, .text h1 (by simp), fun _ => by rw [ht]; simp [textMeans, he], by simp⟩
  | @textNone fl wh so d ty nillable he hso =>
    refine ⟨_, .textNone hF.json_none hso, fun _ => ?_, by simp⟩
    rcases he with rfl | ⟨h1, h2⟩
    · simp [textMeans]
    · simp [h1, h2]
  | @attr fl wh so d ty name v hp =>
    obtain ⟨h1, h2, -⟩ := hF.prim ty v hp
    exact ⟨_, .attr h1, by simp, fun _ => ⟨h1, by simp, v, .prim h2, rfl⟩⟩
  | @attrNone fl wh d ty name he =>
    exact ⟨_, .attrNone hF.json_none (by simp), fun _ => by simp [he], by simp⟩
  | @elem fl wh so d ty name nsmap mode nillable v hp he =>
    obtain ⟨h1, h2, -⟩ := hF.prim ty v hp
    have hn : ¬(fl.skipEmpty = true ∧ encodePrimitive env (env.toJsonable v) = "") := by
      rintro ⟨a, b⟩
      rcases he with ⟨-, he⟩ | he
      · rw [a] at he; cases he
      · exact he b
    have ht : textMeans eas (encodePrimitive env (env.toJsonable v)) = .str (encodePrimitive env (env.toJsonable v)) := by
      unfold textMeans
      split
      · rename_i h; rcases he with ⟨rfl, -⟩ | he
        · rw [h]; rfl
        · exact absurd h he
      · rfl
    refine ⟨_, .elem h1 (fun _ e he' => hn ⟨e, he'⟩), by simp, fun _ => ⟨h1, by rw [if_neg hn, ht]; simp, v, ?_, rfl⟩⟩
    rw [if_neg hn, ht]
    exact .prim h2
  | @elemEmpty fl wh so d ty name nsmap mode nillable v hp he ht hso =>
    obtain ⟨h1, h2, -⟩ := hF.prim ty v hp
    refine ⟨_, .elem h1 (fun h e => ?_), fun _ => ?_, by simp⟩
    · rw [hso h] at e; cases e
    · rcases he with rfl | he
      · simp [ht, textMeans]
      · simp [ht, he]
  | @elemNone fl wh so d ty name nsmap mode nillable he hso =>
    refine ⟨_, .elemNone hF.json_none hso, fun _ => ?_, by simp⟩
    rcases he with rfl | h | h
    · simp [textMeans]
    · simp [h]
    · simp [h]
  | @primUnion fl wh so d ty inner v void hl _ ih =>
    obtain ⟨y, h1, h2, h3⟩ := ih
    exact ⟨y, .primUnion hl h1, h2, h3⟩
  | @attrs fl wh so d ty k vt a items hc hty hr hp hso =>
    refine ⟨asStrings env (items.map fun kv => (kv.1, env.toJsonable kv.2)), ?_, by simp, fun _ => ⟨by simp, ?_, ?_⟩⟩
    · rw [hF.json_dict]
      exact .attrs hc (by simp) (readable_map _ hr) (fun e => by simpa using hso e)
    · simp [asStrings]
    · have := Makes.dict (P := P) (rows := items.map fun kv => (kv.1, pyStr env (env.toJsonable kv.2), kv.2)) hty (by
        intro r hr
        obtain ⟨kv, hkv, rfl⟩ := List.mem_map.1 hr
        exact (hF.prim vt kv.2 (hp kv hkv)).2.2)
      refine ⟨_, ?_, rfl⟩
      simpa [asStrings, Function.comp_def] using this
  | @mapElem fl wh so d ty k vt a name mode items hc hty hr hp hne =>
    refine ⟨asStrings env (items.map fun kv => (kv.1, env.toJsonable kv.2)), ?_, by simp, fun _ => ⟨by simp, ?_, ?_⟩⟩
    · rw [hF.json_dict]
      have := Handed.mapElem (env := env) (eas := eas) (fl := fl) (wh := wh) (so := so) (a := a) (name := name) (mode := mode)
        (v := .dict items) hc (by simp) (readable_map env.toJsonable hr) (by simp [Val.len?]) (fun _ e => by simpa using hne e)
      rwa [if_neg (fun e => hne e.1 (by simpa using e.2))] at this
    · simp [asStrings]
    · have := Makes.dict (P := P) (rows := items.map fun kv => (kv.1, pyStr env (env.toJsonable kv.2), kv.2)) hty (by
        intro r hr
        obtain ⟨kv, hkv, rfl⟩ := List.mem_map.1 hr
        exact (hF.prim vt kv.2 (hp kv hkv)).2.2)
      refine ⟨_, ?_, rfl⟩
      simpa [asStrings, Function.comp_def] using this
  | @mapElemEmpty fl wh d ty a name mode hc hns hsk =>
    refine ⟨.none, ?_, fun _ => rfl, by simp⟩
    have := Handed.mapElem (env := env) (eas := eas) (fl := fl) (wh := wh) (so := false) (a := a) (name := name) (mode := mode)
      (v := .dict []) (d := []) hc (by simp) ⟨List.nodup_nil, by simp [Dict.keys], by simp [Dict.keys], hns⟩ (by simp [Val.len?]) (by simp)
    rw [hF.json_dict]
    simpa [hsk] using this
  | @raw fl wh so d ty name mode n hty h1 h2 h3 h4 =>
    refine ⟨_, .raw h1 h2 h3 h4, by simp, fun _ => ⟨by simp, by simp, .raw n.plain, .raw hty, ?_⟩⟩
    simp [Val.bare, plain_plain]
  | rawNone => exact ⟨_, .rawNone, fun _ => rfl, by simp⟩
  | @model fl wh so d ty p r v hc hty hs ih =>
    obtain ⟨fields, set, fields', set', rfl, h, hb⟩ := proxy_back hT hc hs ih so
    exact ⟨_, h, by simp, fun _ => ⟨by simp, by simp, _, .model hty, hb⟩⟩
  | modelNone hc hso => exact ⟨_, .proxyNone hc hso, fun _ => rfl, by simp⟩
  | @union fl wh so d ty c cs title pre post p r v h1 h2 h3 hc hpre hs ih =>
    obtain ⟨fields, set, fields', set', rfl, h, hb⟩ := proxy_back hT hc hs ih true
    exact ⟨_, .modelUnion rfl hpre h, by simp, fun _ => ⟨by simp, by simp, _, .union h1 h2 h3, hb⟩⟩
  | unionNone => exact ⟨_, .modelUnionNone, fun _ => rfl, by simp⟩
  | @tagged fl wh so d d' ty discr attrName tag o mode cs c r pre post p ts cs' t fields set h1 h2 h3 hc htag hpre hty ht hh hser hname hex hset hget hs ih =>
    obtain ⟨_, _, fields', set', he, h, hb⟩ := proxy_back hT hc hs ih true
    obtain ⟨m, hm, hbody, -⟩ := hT.1 _ _ _ _ hty
    have hj := hF.json_fields _ _ _ _ hty fields set
    have hgj : Dict.get? (fields.map fun kv => (kv.1, env.toJsonable kv.2)) discr = some (.str tag) := by
      rw [dict_get?_map, hget, Option.map_some, hF.json_str]
    refine ⟨.model p.cls fields' set', ?_, by simp, fun _ => ⟨by simp, by simp, _, .tagged h1 h2 h3, hb⟩⟩
    rw [hj] at h ⊢
    exact .tagged htag hpre hgj hm hbody (List.mem_append_left _ (List.mem_map_of_mem (List.mem_filter.2 ⟨ht, by simpa using hh⟩))) hser hname ⟨hex, fun e => by rw [hname]; exact hset e, by rw [hname]; exact hget,
      by rw [hname]; exact hgj⟩ (by simp) h
  | @list fl wh so d ty t item title inner v vs h1 h2 hi _ ih =>
    obtain ⟨rows, hr1, hr2⟩ := exists_rows (R := fun x (yz : Val × Val) =>
      Handed env eas fl wh fl.skipEmpty (.field inner (some (x, env.toJsonable x)) yz.1) ∧ x ≠ .none ∧ yz.1 ≠ .none ∧
        Makes P d item yz.1 yz.2 ∧ yz.2.bare = x.bare) (l := v :: vs) fun x hx => by
      obtain ⟨y, a1, -, a3⟩ := ih x hx
      obtain ⟨b1, b2, z, b3, b4⟩ := a3 rfl
      exact ⟨(y, z), a1, b1, b2, b3, b4⟩
    have hne : rows ≠ [] := by rintro rfl; cases hr1
    have hh := Handed.homog (env := env) (eas := eas) (fl := fl) (wh := wh) (so := so) (title := title) (inner := inner)
      (rows := rows.map fun r => ((r.1, env.toJsonable r.1), r.2.1)) hi (by
        intro r hr
        obtain ⟨x, hx, rfl⟩ := List.mem_map.1 hr
        exact ⟨(hr2 x hx).2.1, (hr2 x hx).2.2.1⟩) (fun _ => by simpa using hne) (by
        intro r hr
        obtain ⟨x, hx, rfl⟩ := List.mem_map.1 hr
        exact (hr2 x hx).1)
    have ht := Makes.list (P := P) (rows := rows.map Prod.snd) h1 h2 (by
      intro r hr
      obtain ⟨x, hx, rfl⟩ := List.mem_map.1 hr
      exact (hr2 x hx).2.2.2.1)
    simp only [List.map_map, Function.comp_def, List.map_eq_nil_iff, hne, if_false] at hh ht
    refine ⟨_, ?_, by simp, fun _ => ⟨by simp, ?_, _, ht, ?_⟩⟩
    · rw [hF.json_list, ← hr1]
      simp only [List.map_map, Function.comp_def]
      exact hh
    · simp
    · rw [← hr1]
      simp only [Val.bare, val_bareList_eq, List.map_map, Function.comp_def, Val.list.injEq]
      exact List.map_congr_left fun r hr => (hr2 r hr).2.2.2.2
  | @listEmpty fl wh d ty title inner v hv hi =>
    rcases hv with rfl | rfl
    · exact ⟨_, .homogNone hi, fun _ => rfl, by simp⟩
    · refine ⟨.none, ?_, fun _ => rfl, by simp⟩
      rw [hF.json_list]
      exact Handed.homog (rows := []) hi (by simp) (by simp) (by simp)
  | @tuple fl wh so d ty t title rows h1 h2 hne hi _ ih =>
    obtain ⟨rs, hr1, hr2⟩ := exists_rows (R := fun (r : Ser × Schema × Val) (yz : Val × Val) =>
      Handed env eas fl wh fl.skipEmpty (.field r.1 (some (r.2.2, env.toJsonable r.2.2)) yz.1) ∧ r.2.2 ≠ .none ∧ yz.1 ≠ .none ∧
        Makes P d r.2.1 yz.1 yz.2 ∧ yz.2.bare = r.2.2.bare) (l := rows) fun x hx => by
      obtain ⟨y, a1, -, a3⟩ := ih x hx
      obtain ⟨b1, b2, z, b3, b4⟩ := a3 rfl
      exact ⟨(y, z), a1, b1, b2, b3, b4⟩
    have hne' : rs ≠ [] := by rintro rfl; exact hne hr1.symm
    have hh := Handed.hetero (env := env) (eas := eas) (fl := fl) (wh := wh) (so := so) (title := title)
      (rows := rs.map fun r => (r.1.1, (r.1.2.2, env.toJsonable r.1.2.2), r.2.1)) (by simpa using hne') (by
        intro r hr
        obtain ⟨x, hx, rfl⟩ := List.mem_map.1 hr
        exact hi x.1 (by rw [← hr1]; exact List.mem_map_of_mem hx)) (by
        intro r hr
        obtain ⟨x, hx, rfl⟩ := List.mem_map.1 hr
        exact (hr2 x hx).2.1) (by
        intro r hr
        obtain ⟨x, hx, rfl⟩ := List.mem_map.1 hr
        exact (hr2 x hx).1)
    have ht := Makes.tuple (P := P) (rows := rs.map fun r => (r.1.2.1, r.2)) h1 h2 (by
      rw [← hr1]; simp [Function.comp_def]) (by
      intro r hr
      obtain ⟨x, hx, rfl⟩ := List.mem_map.1 hr
      exact (hr2 x hx).2.2.2.1)
    have hall : (rs.map fun r => (r.1.1, (r.1.2.2, env.toJsonable r.1.2.2), r.2.1)).all (fun r => r.2.2.isNone) = false := by
      cases rs with
      | nil => exact absurd rfl hne'
      | cons r rs =>
        have := (hr2 r (by simp)).2.2.1
        simp only [List.map_cons, List.all_cons, Bool.and_eq_false_iff]
        left
        cases hy : r.2.1 <;> first | rfl | exact absurd hy this
    simp only [hall, Bool.false_eq_true, if_false, List.map_map, Function.comp_def] at hh ht
    refine ⟨_, ?_, by simp, fun _ => ⟨by simp, ?_, _, ht, ?_⟩⟩
    · rw [hF.json_list, ← hr1]
      simp only [List.map_map, Function.comp_def]
      exact hh
    · simp
    · rw [← hr1]
      simp only [Val.bare, val_bareList_eq, List.map_map, Function.comp_def, Val.list.injEq]
      exact List.map_congr_left fun r hr => (hr2 r hr).2.2.2.2
  | tupleNone h1 h2 => exact ⟨_, .heteroNone h1 h2, fun _ => rfl, by simp⟩
  | @wrap fl wh so so' d ty t path nsmap mode inner v void hv hlen _ ih =>
    obtain ⟨y, h1, h2, h3⟩ := ih
    exact ⟨y, .wrap hv hlen h1, h2, h3⟩
  | wrapNone hv hs => exact ⟨_, .wrapNone hv hs, fun _ => rfl, by simp⟩
  | @fields fl wh so cls m d rows more set stored hty hm' hfb hwh hst hw hsil hdf hso _ hcw hcsil _ ih ihc =>
    obtain ⟨m', hm, hbody, htidy, hno, hnd, hkeys, htidy', hcno, hcomp⟩ := hT.1 _ _ _ _ hty
    rw [hm'] at hm
    cases hm
    have hpt : ∀ r ∈ rows, ∃ yx : Val × Val, (r.1.hidden = false →
        Handed env eas (m.flagsIn fl) wh (r.2.2.2 && r.2.2.1.isSome) (.field r.1.field.ser (r.2.2.1.map fun _ => (r.2.1, env.toJsonable r.2.1)) yx.1)) ∧
        yx.2.bare = r.2.1.bare ∧ ((yx.1 = .none ∧ r.1.default = some yx.2) ∨
          (r.1.hidden = false ∧ yx.1 ≠ .none ∧ Makes P d r.1.ty yx.1 yx.2)) := by
      intro r hr
      cases hb : r.2.2.1 with
      | none =>
        obtain ⟨x, hx1, hx2⟩ := hdf r hr (by simp [hb])
        refine ⟨(.none, x), fun hh => ?_, hx2, .inl ⟨rfl, hx1⟩⟩
        rcases hsil r hr hb with h | h
        · rw [hh] at h; cases h
        · simpa using Handed.silent h
      | some b =>
        have hh : r.1.hidden = false := by
          cases hh : r.1.hidden with
          | false => rfl
          | true => rw [(hw r hr).2 (.inl hh)] at hb; cases hb
        obtain ⟨y, h1, h2, h3⟩ := ih r hr b hb
        have h1 : Handed env eas (m.flagsIn fl) wh (r.2.2.2 && (some b).isSome) (.field r.1.field.ser (some (r.2.1, env.toJsonable r.2.1)) y) := by
          simpa using h1
        cases b with
        | true =>
          obtain ⟨x, hx1, hx2⟩ := hdf r hr (by simp [hb])
          exact ⟨(y, x), fun _ => h1, hx2, .inl ⟨h2 rfl, hx1⟩⟩
        | false =>
          obtain ⟨-, h4, x, h5, h6⟩ := h3 rfl
          exact ⟨(y, x), fun _ => h1, h6, .inr ⟨hh, h4, h5⟩⟩
    obtain ⟨rs, hr1, hr2⟩ := exists_rows hpt
    subst hr1
    have hct : ∀ c ∈ more, ∃ y : Val, Handed env eas (m.flagsIn fl) wh (c.2.2 && c.2.1.isSome)
        (.field c.1.field.ser.stored (c.2.1.map fun _ => (c.1.get stored, env.toJsonable (c.1.get stored))) y) := by
      intro c hc
      cases hb : c.2.1 with
      | none => exact ⟨.none, by simpa using Handed.silent (hcsil c hc hb)⟩
      | some b =>
        obtain ⟨y, h1, -, -⟩ := ihc c hc b hb
        exact ⟨y, by simpa using h1⟩
    obtain ⟨ms, hm1, hm2⟩ := exists_rows hct
    subst hm1
    have hj := hF.json_fields _ _ _ _ hty
    simp only [List.map_map, Function.comp_def] at hty hnd hkeys hj hst htidy' ⊢
    -- the rows of the written class
    let wr : (Typed × Val × Option Bool × Bool) × Val × Val → Field × Option (Val × Val) × Val :=
      fun r => (r.1.1.field, r.1.2.2.1.map (fun _ => (r.1.2.1, env.toJsonable r.1.2.1)), r.2.1)
    let wc : (Derived × Option Bool × Bool) × Val → Field × Option (Val × Val) × Val :=
      fun c => (c.1.1.field, c.1.2.1.map (fun _ => (c.1.1.get stored, env.toJsonable (c.1.1.get stored))), c.2)
    let vis := rs.filter fun r => !r.1.1.hidden
    have hvis : ∀ r ∈ vis, r ∈ rs ∧ r.1.1.hidden = false := fun r hr => by
      obtain ⟨h1, h2⟩ := List.mem_filter.1 hr
      exact ⟨h1, by simpa using h2⟩
    have hfil : ((rs.map Prod.fst).map Prod.fst).filter (fun t => !t.hidden) = vis.map fun r => r.1.1 := by
      rw [List.map_map, List.filter_map]; rfl
    rw [hfil] at hbody htidy
    have hsub : ∀ r ∈ rs, r.1.1 ∈ (rs.map Prod.fst).map Prod.fst := fun r hr => List.mem_map_of_mem (List.mem_map_of_mem hr)
    have hcsub : ∀ c ∈ ms, c.1.1 ∈ (ms.map Prod.fst).map Prod.fst := fun c hc => List.mem_map_of_mem (List.mem_map_of_mem hc)
    have hk' : ((vis.map wr).map fun r => r.1.alias.getD r.1.name).Nodup := by
      rw [List.map_map]
      exact List.Nodup.sublist (List.Sublist.map _ List.filter_sublist) hkeys
    -- the new values by name
    let value : String → Val := fun k => ((rs.find? fun r => r.1.1.field.name = k).map fun r => r.2.2).getD .none
    have hvalue : ∀ r ∈ rs, value r.1.1.field.name = r.2.2 := by
      intro r hr
      have := find?_key (fun x : (Typed × Val × Option Bool × Bool) × Val × Val => x.1.1.field.name) (List.nodup_append.1 hnd).1 hr
      simp [value, this]
    let tab : List (String × Bool) := rs.map (fun r => (r.1.1.field.name, r.1.2.2.2 && r.1.2.2.1.isSome)) ++
      ms.map fun c => (c.1.1.field.name, c.1.2.2 && c.1.2.1.isSome)
    have htab : (tab.map Prod.fst).Nodup := by simpa [tab, Function.comp_def] using hnd
    let solid : Field × Option (Val × Val) × Val → Bool := fun u => (Dict.get? tab u.1.name).getD false
    have hsolid : ∀ r ∈ rs, solid (wr r) = (r.1.2.2.2 && r.1.2.2.1.isSome) := by
      intro r hr
      have := items_get htab (List.mem_append_left _ (List.mem_map_of_mem hr))
      simp [solid, wr, this]
    have hsolid' : ∀ c ∈ ms, solid (wc c) = (c.1.2.2 && c.1.2.1.isSome) := by
      intro c hc
      have := items_get htab (List.mem_append_right _ (List.mem_map_of_mem hc))
      simp [solid, wc, this]
    obtain ⟨set', hval⟩ := hF.fields _ _ _ _ hty (handedData (vis.map wr)) value (by
      intro t ht
      obtain ⟨r, hr, rfl⟩ := List.mem_map.1 ht
      rw [hvalue r hr]
      cases hh : r.1.1.hidden with
      | true =>
        rcases (hr2 r hr).2.2 with ⟨-, h2⟩ | ⟨h1, -⟩
        · refine .inr ⟨?_, h2⟩
          rw [handedData, handedData_get _ _ _ hk', List.find?_eq_none.2]
          · rfl
          · intro u hu hk
            obtain ⟨r', hr', rfl⟩ := List.mem_map.1 hu
            obtain ⟨hr', hh'⟩ := hvis r' hr'
            have h1 := find?_key (fun x : (Typed × Val × Option Bool × Bool) × Val × Val => x.1.1.key) hkeys hr
            have h2 := find?_key (fun x : (Typed × Val × Option Bool × Bool) × Val × Val => x.1.1.key) hkeys hr'
            have : r'.1.1.key = r.1.1.key := of_decide_eq_true hk
            rw [this, h1] at h2
            cases h2
            rw [hh] at hh'; cases hh'
        · rw [hh] at h1; cases h1
      | false =>
        have hm := handedData_mem hk' (r := wr r) (List.mem_map_of_mem (List.mem_filter.2 ⟨hr, by simpa using hh⟩))
        have hm : Dict.get? (handedData (vis.map wr)) r.1.1.key = if r.2.1.isNone then none else some r.2.1 := hm
        rw [hm]
        rcases (hr2 r hr).2.2 with ⟨h1, h2⟩ | ⟨-, h1, h2⟩
        · right; rw [h1]; exact ⟨rfl, h2⟩
        · left
          have : r.2.1.isNone = false := by cases hy : r.2.1 <;> first | rfl | exact absurd hy h1
          simp only [this, Bool.false_eq_true, if_false]
          exact ⟨_, rfl, h2⟩)
    have hjs := hj (stored ++ ms.map fun c => (c.1.1.field.name, c.1.1.get stored)) set
    have hall : (stored ++ ms.map fun c => (c.1.1.field.name, c.1.1.get stored)).map Prod.fst =
        rs.map (fun r => r.1.1.field.name) ++ ms.map fun c => c.1.1.field.name := by
      rw [hst]; simp [Function.comp_def]
    have hwf : Dict.WF (stored ++ ms.map fun c => (c.1.1.field.name, c.1.1.get stored)) := by
      unfold Dict.WF Dict.keys; rw [hall]; exact hnd
    have hget : ∀ k x, (k, x) ∈ stored ++ ms.map (fun c => (c.1.1.field.name, c.1.1.get stored)) →
        Dict.get? (stored ++ ms.map fun c => (c.1.1.field.name, c.1.1.get stored)) k = some x ∧
        Dict.get? ((stored ++ ms.map fun c => (c.1.1.field.name, c.1.1.get stored)).map fun kv => (kv.1, env.toJsonable kv.2)) k =
          some (env.toJsonable x) := by
      intro k x hx
      have := Dict.get?_of_mem hwf hx
      exact ⟨this, by rw [dict_get?_map, this]; rfl⟩
    have hbare : Val.bareItems (rs.map fun r => (r.1.1.field.name, value r.1.1.field.name)) = Val.bareItems stored := by
      rw [hst]
      simp only [val_bareItems_eq, List.map_map, Function.comp_def]
      exact List.map_congr_left fun r hr => by rw [hvalue r hr, (hr2 r hr).2.1]
    refine ⟨_, _, rs.map (fun r => (r.1.1.field.name, value r.1.1.field.name)) ++
        ms.map fun c => (c.1.1.field.name, c.1.1.get (rs.map fun r => (r.1.1.field.name, value r.1.1.field.name))), set', rfl, ?_, ?_⟩
    rotate_left
    · simp only [Val.bare, val_bareItems_eq, List.map_append, List.map_map, Function.comp_def, Val.model.injEq, true_and, and_true]
      simp only [val_bareItems_eq, List.map_map, Function.comp_def] at hbare
      rw [hbare]
      congr 1
      refine List.map_congr_left fun c hc => ?_
      rw [(hcno c.1.1 (hcsub c hc)).2.2.2.2 _ stored (by simpa only [val_bareItems_eq, List.map_map, Function.comp_def] using hbare)]
    · rw [hjs]
      refine handed_instance solid (m := m) (rows := vis.map wr) (more := ms.map wc) hm' ?_ hfb (fun he => hwh (by simpa using he))
        ?_ ?_ ?_ ?_ ?_ ?_ ?_ ?_ ?_ ?_
      · rw [hbody]; simp [wr, wc, Function.comp_def]
      · simpa [wr, Function.comp_def] using htidy
      · simpa [wc, Function.comp_def] using htidy'
      · intro r hr a ha u hu b hb
        obtain ⟨x, hx, rfl⟩ := List.mem_map.1 hr
        obtain ⟨c, hc, rfl⟩ := List.mem_map.1 hu
        obtain ⟨hx, hh⟩ := hvis x hx
        exact hcomp _ (hsub x hx) hh a ha _ (hcsub c hc) b hb
      · intro u hu
        obtain ⟨c, hc, rfl⟩ := List.mem_map.1 hu
        exact (hcno _ (hcsub c hc)).1
      · intro r hr
        rcases List.mem_append.1 hr with hr | hr
        · obtain ⟨x, hx, rfl⟩ := List.mem_map.1 hr
          obtain ⟨hx, hh⟩ := hvis x hx
          have := hno _ (hsub x hx) hh
          exact ⟨this.1, this.2.1⟩
        · obtain ⟨c, hc, rfl⟩ := List.mem_map.1 hr
          have := hcno _ (hcsub c hc)
          exact ⟨this.2.1, this.2.2.1⟩
      · intro r hr
        rcases List.mem_append.1 hr with hr | hr
        · obtain ⟨x, hx, rfl⟩ := List.mem_map.1 hr
          obtain ⟨hx, hh⟩ := hvis x hx
          have hg := hget x.1.1.field.name x.1.2.1 (List.mem_append_left _ (by rw [hst]; exact List.mem_map_of_mem hx))
          refine writes_of ?_ hg.1 hg.2
          have := hw x.1 (List.mem_map_of_mem hx)
          simpa [hh] using this
        · obtain ⟨c, hc, rfl⟩ := List.mem_map.1 hr
          have hg := hget c.1.1.field.name (c.1.1.get stored) (List.mem_append_right _ (List.mem_map_of_mem hc))
          exact writes_of (hcw c.1 (List.mem_map_of_mem hc)) hg.1 hg.2
      · intro e
        rcases hso e with ⟨r, hr, h1, h2⟩ | ⟨c, hc, h1, h2⟩
        · obtain ⟨x, hx, rfl⟩ := List.mem_map.1 hr
          have hh : x.1.1.hidden = false := by
            cases hh : x.1.1.hidden with
            | false => rfl
            | true => exact absurd ((hw x.1 (List.mem_map_of_mem hx)).2 (.inl hh)) h1
          refine ⟨wr x, List.mem_append_left _ (List.mem_map_of_mem (List.mem_filter.2 ⟨hx, by simpa using hh⟩)), ?_⟩
          rw [hsolid x hx, h2, Option.isSome_iff_ne_none.2 h1]
          rfl
        · obtain ⟨x, hx, rfl⟩ := List.mem_map.1 hc
          refine ⟨wc x, List.mem_append_right _ (List.mem_map_of_mem hx), ?_⟩
          rw [hsolid' x hx, h2, Option.isSome_iff_ne_none.2 h1]
          rfl
      · intro r hr
        obtain ⟨x, hx, rfl⟩ := List.mem_map.1 hr
        obtain ⟨hx, hh⟩ := hvis x hx
        rw [hsolid x hx]
        exact (hr2 x hx).1 hh
      · intro u hu
        obtain ⟨c, hc, rfl⟩ := List.mem_map.1 hu
        rw [hsolid' c hc]
        exact hm2 c hc
      · simpa [Function.comp_def] using hval
  | @root fl wh so cls m d s ty df v void set hty hm' hfb hset hdf _ ih =>
    obtain ⟨m', hm, hbody, htidy, hnil⟩ := hT.2 _ _ _ _ _ hty
    rw [hm'] at hm
    cases hm
    obtain ⟨y, h1, h2, h3⟩ := ih
    have hj := hF.json_root _ _ _ _ _ hty v set
    obtain ⟨r1, r2⟩ := hF.root _ _ _ _ _ hty
    have : ∃ x set', env.validate cls (if y.isNone then .undef else y) = .ok ([("root", x)], set') ∧ x.bare = v.bare := by
      cases void with
      | true =>
        rw [h2 rfl]
        obtain ⟨x, hx1, hx2⟩ := hdf rfl
        obtain ⟨set', hs⟩ := r2 x hx1
        exact ⟨x, set', hs, hx2⟩
      | false =>
        obtain ⟨-, h4, x, h5, h6⟩ := h3 rfl
        obtain ⟨set', hs⟩ := r1 y x h5
        have : y.isNone = false := by cases y <;> first | rfl | exact absurd rfl h4
        rw [this]
        exact ⟨x, set', hs, h6⟩
    obtain ⟨x, set', hs, hx⟩ := this
    refine ⟨_, _, [("root", x)], set', rfl, ?_, ?_⟩
    · rw [hj]
      refine .root hm' hbody hfb htidy rfl ?_ h1 hs
      have : ¬(fl.excludeUnset = true ∧ "root" ∉ set) := fun ⟨a, b⟩ => b (hset a)
      rw [if_neg this]
    · simp [Val.bare, Val.bareItems, hx]
  | @whole fl so x _ ih =>
    cases x with
    | field d s ty v void =>
      obtain ⟨y, h1, h2, h3⟩ := ih
      exact ⟨y, .whole h1, h2, h3⟩
    | inst cls v =>
      obtain ⟨fields, set, fields', set', h1, h2, h3⟩ := ih
      exact ⟨fields, set, fields', set', h1, .whole h2, h3⟩

end
end PXml
