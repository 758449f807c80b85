import Verif.Lemmas.Typed
import Verif.Props.Program
import Verif.Props.Text

/-!
# Typed instances come back (C74)
-/

namespace PXml

/-- C74: every instance of a typed class comes back. It is written to a tree, and reading the tree gives an equal instance. -/
theorem C74_round_trip (env : Env) (henv : env.Everywhere (Ser.Resolved env)) (P : Prims) (types : String → Option Types)
    (hT : env.HasTypes types) (hF : env.Follows P types) (eas : Bool) (fl : Flags) (wh so : Bool)
    (cls : String) (v : Val) (h : Sound env P types eas fl wh so (.inst cls v)) :
    ∃ tree v' N, v'.bare = v.bare ∧ ∀ n ≥ N, toXmlTree env n fl cls v = .ok tree ∧ (fromXmlTree env eas n cls tree).1 = .ok v' := by
  obtain ⟨fields, set, fields', set', rfl, h1, h2⟩ := sound_back hT hF h
  obtain ⟨tree, N, h3⟩ := C01_round_trip env henv eas fl cls _ _ h1
  exact ⟨tree, _, N, h2, h3⟩

/-! ## A pydantic that follows the types exists -/

theorem rows_functional {α β γ : Type} {R : α → β → γ → Prop} : ∀ {l l' : List (α × β × γ)},
    (∀ r ∈ l, ∀ z, R r.1 r.2.1 z → r.2.2 = z) → (∀ r ∈ l', R r.1 r.2.1 r.2.2) →
    l.map (fun r => (r.1, r.2.1)) = l'.map (fun r => (r.1, r.2.1)) → l.map (fun r => r.2.2) = l'.map (fun r => r.2.2)
  | [], [], _, _, _ => rfl
  | [], _ :: _, _, _, h => by cases h
  | _ :: _, [], _, _, h => by cases h
  | a :: l, b :: l', h1, h2, h => by
    simp only [List.map_cons, List.cons.injEq, Prod.mk.injEq] at h ⊢
    refine ⟨h1 a (by simp) _ ?_, rows_functional (fun r hr => h1 r (by simp [hr])) (fun r hr => h2 r (by simp [hr])) h.2⟩
    rw [h.1.1, h.1.2]
    exact h2 b (by simp)

theorem map_pair_inj {α β γ : Type} {f : γ → α} {g : γ → β} : ∀ {l l' : List γ}, l.map f = l'.map f → l.map g = l'.map g →
    l.map (fun r => (f r, g r)) = l'.map (fun r => (f r, g r))
  | [], [], _, _ => rfl
  | [], _ :: _, h, _ => by cases h
  | _ :: _, [], h, _ => by cases h
  | a :: l, b :: l', h1, h2 => by
    simp only [List.map_cons, List.cons.injEq] at h1 h2 ⊢
    exact ⟨by rw [h1.1, h2.1], map_pair_inj h1.2 h2.2⟩

/-- At most one value is made out of data. -/
theorem Makes.det {P : Prims} {d : Dict String Schema} {s : Schema} {y x : Val} (h : Makes P d s y x) :
    ∀ {y' x'}, Makes P d s y' x' → y' = y → x = x' := by
  induction h with
  | prim h =>
    intro y' x' h' e
    cases h' <;> cases e
    rename_i h'
    rw [h] at h'
    injection h'
  | @list s t item rows h1 h2 _ ih =>
    intro y' x' h' e
    cases h' with
    | @list _ t' item' rows' h1' h2' h3' =>
      obtain ⟨-, rfl⟩ := h1.det h1'
      have hi : item = item' := by rcases h2 with rfl | rfl <;> rcases h2' with h | h <;> cases h <;> rfl
      subst hi
      injection e with e
      have := rows_functional (R := fun (_ : Unit) y x => Makes P d item y x) (l := rows.map fun r => ((), r)) (l' := rows'.map fun r => ((), r))
        (by
          intro r hr z hz
          obtain ⟨r, hr', rfl⟩ := List.mem_map.1 hr
          exact ih r hr' hz rfl)
        (by
          intro r hr
          obtain ⟨r, hr', rfl⟩ := List.mem_map.1 hr
          exact h3' r hr')
        (by
          simp only [List.map_map, Function.comp_def]
          exact map_pair_inj (f := fun _ => ()) (g := Prod.fst) (by
            have := congrArg (List.map fun _ => ()) e
            simp only [List.map_map, Function.comp_def] at this
            exact this.symm) e.symm)
      simp only [List.map_map, Function.comp_def] at this
      exact congrArg Val.list this
    | tuple h1' h2' =>
      obtain ⟨-, rfl⟩ := h1.det h1'
      rcases h2 with rfl | rfl <;> rcases h2' with h | h <;> cases h
    | _ => cases e
  | @tuple s t items rows h1 h2 h3 _ ih =>
    intro y' x' h' e
    cases h' with
    | @tuple _ t' items' rows' h1' h2' h3' h4' =>
      obtain ⟨-, rfl⟩ := h1.det h1'
      have hi : items = items' := by rcases h2 with rfl | rfl <;> rcases h2' with h | h <;> cases h <;> rfl
      subst hi
      injection e with e
      exact congrArg Val.list (rows_functional (R := Makes P d) (fun r hr z hz => ih r hr hz rfl) h4'
        (map_pair_inj (f := Prod.fst) (g := fun r => r.2.1) (h3.trans h3'.symm) e.symm))
    | list h1' h2' =>
      obtain ⟨-, rfl⟩ := h1.det h1'
      rcases h2 with rfl | rfl <;> rcases h2' with h | h <;> cases h
    | _ => cases e
  | @dict s k v rows h1 h2 =>
    intro y' x' h' e
    cases h' with
    | @dict _ k' v' rows' h1' h2' =>
      obtain ⟨-, e'⟩ := h1.det h1'
      cases e'
      injection e with e
      have hf : rows'.map Prod.fst = rows.map Prod.fst := by
        have := congrArg (List.map Prod.fst) e
        simpa [Function.comp_def] using this
      have hg : rows'.map (fun r => r.2.1) = rows.map (fun r => r.2.1) := by
        have := congrArg (List.map fun kv : String × Val => match kv.2 with | .str t => t | _ => "") e
        simpa [Function.comp_def] using this
      have := rows_functional (R := fun (_ : String) y x => P.parse v y = some x) (l := rows) (l' := rows')
        (fun r hr z hz => by
          have := h2 r hr
          rw [hz] at this
          injection this with this
          exact this.symm) h2'
        (map_pair_inj (f := Prod.fst) (g := fun r => r.2.1) hf.symm hg.symm)
      exact congrArg Val.dict (map_pair_inj (f := Prod.fst) (g := fun r => r.2.2) hf.symm this)
    | _ => cases e
  | model => intro y' x' h' e; cases h' <;> cases e <;> rfl
  | union => intro y' x' h' e; cases h' <;> cases e <;> rfl
  | tagged => intro y' x' h' e; cases h' <;> cases e <;> rfl
  | raw => intro y' x' h' e; cases h' <;> cases e <;> rfl
  | none => intro y' x' h' e; cases h' <;> cases e <;> rfl

/-- The verdict of pydantic on the data, by the types: the fields of the new instance. -/
def Verdict (P : Prims) (types : String → Option Types) (cls : String) (data : Val) (fields : List (String × Val)) : Prop :=
  (∃ d ts cs dict, ∃ value : String → Val, types cls = some (.fields d ts cs) ∧ data = .dict dict ∧
    (∀ t ∈ ts, (∃ y, Dict.get? dict t.key = some y ∧ Makes P d t.ty y (value t.field.name)) ∨
      (Dict.get? dict t.key = none ∧ t.default = some (value t.field.name))) ∧
    fields = ts.map (fun t => (t.field.name, value t.field.name)) ++
      cs.map (fun c => (c.field.name, c.get (ts.map fun t => (t.field.name, value t.field.name))))) ∨
  ∃ d s ty df x, types cls = some (.root d s ty df) ∧ fields = [("root", x)] ∧ (Makes P d ty data x ∨ (data = .undef ∧ df = some x))

theorem Makes.ne_undef {P : Prims} {d : Dict String Schema} {s : Schema} {x : Val} : ¬Makes P d s .undef x := by
  intro h
  cases h

theorem Verdict.det {P : Prims} {types : String → Option Types} {cls : String} {data : Val} {fs fs' : List (String × Val)}
    (h : Verdict P types cls data fs) (h' : Verdict P types cls data fs') : fs = fs' := by
  rcases h with ⟨d, ts, cs, dict, value, h1, rfl, h3, rfl⟩ | ⟨d, s, ty, df, x, h1, rfl, h3⟩ <;>
    rcases h' with ⟨d', ts', cs', dict', value', h1', h2', h3', rfl⟩ | ⟨d', s', ty', df', x', h1', rfl, h3'⟩ <;>
    rw [h1] at h1' <;> cases h1'
  · cases h2'
    suffices h : ts.map (fun t => (t.field.name, value t.field.name)) = ts.map fun t => (t.field.name, value' t.field.name) by rw [h]
    refine List.map_congr_left fun t ht => ?_
    rcases h3 t ht with ⟨y, a1, a2⟩ | ⟨a1, a2⟩ <;> rcases h3' t ht with ⟨y', b1, b2⟩ | ⟨b1, b2⟩ <;> rw [a1] at b1
    · injection b1 with b1
      rw [a2.det b2 b1.symm]
    · cases b1
    · cases b1
    · rw [a2] at b2
      injection b2 with b2
      rw [b2]
  · rcases h3 with h3 | ⟨rfl, h3⟩ <;> rcases h3' with h3' | ⟨h4, h3'⟩
    · rw [h3.det h3' rfl]
    · rw [h4] at h3
      exact absurd h3 Makes.ne_undef
    · exact absurd h3' Makes.ne_undef
    · rw [h3] at h3'
      injection h3' with h3'
      rw [h3']

mutual
/-- Encoding item by item and field by field, root models as their root. -/
def jsonBy (types : String → Option Types) : Val → Val
  | .model cls fields _ =>
    match types cls, fields with
    | some (.root _ _ _ _), [(_, v)] => jsonBy types v
    | _, fields => .dict (jsonItemsBy types fields)
  | .list vs => .list (jsonListBy types vs)
  | .dict d => .dict (jsonItemsBy types d)
  | v => v
def jsonListBy (types : String → Option Types) : List Val → List Val
  | [] => []
  | v :: vs => jsonBy types v :: jsonListBy types vs
def jsonItemsBy (types : String → Option Types) : List (String × Val) → List (String × Val)
  | [] => []
  | (k, v) :: d => (k, jsonBy types v) :: jsonItemsBy types d
end

theorem jsonListBy_eq (types : String → Option Types) (vs : List Val) : jsonListBy types vs = vs.map (jsonBy types) := by
  induction vs with
  | nil => rfl
  | cons v vs ih => simp [jsonListBy, ih]

theorem jsonItemsBy_eq (types : String → Option Types) (d : List (String × Val)) :
    jsonItemsBy types d = d.map fun kv => (kv.1, jsonBy types kv.2) := by
  induction d with
  | nil => rfl
  | cons kv d ih => simp [jsonItemsBy, ih]

/-- The names of the fields that are set: those with data. -/
def setBy (types : String → Option Types) (cls : String) (data : Val) : List String :=
  match types cls, data with
  | some (.fields _ ts _), .dict dict => (ts.filter fun t => (Dict.get? dict t.key).isSome).map fun t => t.field.name
  | some (.root _ _ _ _), .undef => []
  | some (.root _ _ _ _), _ => ["root"]
  | _, _ => []

open Classical in
/-- The environment of typed classes. -/
noncomputable def typedEnv (b : Backend) (model : String → Option ModelSer) (P : Prims) (types : String → Option Types) (reprOf : Val → String) :
    Env where
  backend := b
  model := model
  validate cls data := if h : ∃ fs, Verdict P types cls data fs then .ok (Classical.choose h, setBy types cls data) else .error ⟨cls, []⟩
  toJsonable := jsonBy types
  reprOf := reprOf

theorem typedEnv_validate {b : Backend} {model : String → Option ModelSer} {P : Prims} {types : String → Option Types} {reprOf : Val → String}
    {cls : String} {data : Val} {fs : List (String × Val)} (h : Verdict P types cls data fs) :
    (typedEnv b model P types reprOf).validate cls data = .ok (fs, setBy types cls data) := by
  have hex : ∃ fs, Verdict P types cls data fs := ⟨fs, h⟩
  simp only [typedEnv]
  rw [dif_pos hex, (Classical.choose_spec hex).det h]

/-- C74: the assumptions about pydantic can be met, for all types: the values made out of the data are unique. -/
theorem C74_pydantic_exists (b : Backend) (model : String → Option ModelSer) (P : Prims) (types : String → Option Types) (reprOf : Val → String)
    (hP : ∀ s v, P.Is s v → v ≠ .none ∧ P.parse s (encodePrimitive (typedEnv b model P types reprOf) (jsonBy types v)) = some v ∧
      P.parse s (pyStr (typedEnv b model P types reprOf) (jsonBy types v)) = some v) :
    (typedEnv b model P types reprOf).Follows P types where
  fields cls d ts cs h data value hv := ⟨_, typedEnv_validate (Or.inl ⟨d, ts, cs, data, value, h, rfl, hv, rfl⟩)⟩
  root cls d s ty df h :=
    ⟨fun y x hy => ⟨_, typedEnv_validate (Or.inr ⟨d, s, ty, df, x, h, rfl, .inl hy⟩)⟩,
      fun x hx => ⟨_, typedEnv_validate (Or.inr ⟨d, s, ty, df, x, h, rfl, .inr ⟨rfl, hx⟩⟩)⟩⟩
  json_fields cls d ts cs h fields set := by
    show jsonBy types _ = _
    unfold jsonBy
    simp only [h, jsonItemsBy_eq]
    rfl
  json_root cls d s ty df h x set := by
    show jsonBy types (.model cls [("root", x)] set) = jsonBy types x
    conv => lhs; unfold jsonBy
    simp only [h]
  json_list vs := by
    show jsonBy types _ = _
    simp only [jsonBy, jsonListBy_eq]
    rfl
  json_dict d := by
    show jsonBy types _ = _
    simp only [jsonBy, jsonItemsBy_eq]
    rfl
  json_str s := by show jsonBy types _ = _; simp only [jsonBy]
  json_none := by show jsonBy types _ = _; simp only [jsonBy]
  prim := hP

/-! ## Non-vacuity -/

namespace TypedEx

/-- Strings and truth values. -/
def prims : Prims where
  Is s v := (s = .prim "str" ∧ ∃ t, v = .str t) ∨ (s = .prim "bool" ∧ ∃ b, v = .bool b)
  parse s t :=
    match s with
    | .prim "str" => some (.str t)
    | .prim "bool" => if t = "true" ∨ t = "True" then some (.bool true) else if t = "false" ∨ t = "False" then some (.bool false) else none
    | _ => none

/-- `class Doc: open: bool = attr(); note: Optional[str] = element(default=None); kids: List[Doc] = wrapped('kids', element('doc'), default=[])` -/
def fields : List Typed := [
  ⟨{ name := "open", ser := .attr "open" false }, .prim "bool", none, false⟩,
  ⟨{ name := "note", ser := .elem "note" none .strict false false, alias := some "remark" }, .prim "str", some .none, false⟩,
  ⟨{ name := "kids", ser := .wrap ["kids"] none .strict false (.homog "Doc" false (.proxy { cls := "Doc", name := "doc" })) },
    .default (.list (.ref "doc")), some (.list []), false⟩]

def doc : ModelSer := { name := "Doc", elementName := "doc", body := .fields (fields.map Typed.field) }

def defs : Dict String Schema := [("doc", .model "Doc" false)]

def types (cls : String) : Option Types := if cls = "Doc" then some (.fields defs fields []) else none

def model (cls : String) : Option ModelSer := if cls = "Doc" then some doc else none

noncomputable def env : Env := typedEnv .lxml model prims types fun _ => ""

theorem resolved : env.Everywhere (Ser.Resolved env) := by
  intro cls m h
  have h' : (if cls = "Doc" then some doc else none) = some m := h
  split at h' <;> cases h'
  simp only [ModelSer.Everywhere, doc, fields, List.map_cons, List.map_nil, List.forall_mem_cons]
  have hp : (Ser.proxy { cls := "Doc", name := "doc" }).Everywhere (Ser.Resolved env) :=
    ⟨show (env.model "Doc").isSome = true from rfl, by simp [Ser.subs]⟩
  refine ⟨⟨trivial, by simp [Ser.subs]⟩, ⟨trivial, by simp [Ser.subs]⟩, ⟨trivial, ?_⟩, by simp⟩
  intro t ht
  simp only [Ser.subs, List.mem_singleton] at ht
  subst ht
  refine ⟨trivial, fun t ht => ?_⟩
  simp only [Ser.subs, List.mem_singleton] at ht
  subst ht
  exact hp

theorem hasTypes : env.HasTypes types := by
  refine ⟨fun cls d ts cs h => ?_, fun cls d s ty df h => ?_⟩
  · have h' : (if cls = "Doc" then some (Types.fields defs fields []) else none) = some (.fields d ts cs) := h
    split at h' <;> cases h'
    rename_i hc
    subst hc
    refine ⟨doc, rfl, rfl, ?_, ?_, by simp [fields], by simp [fields, Typed.key], .nil, by simp, by simp⟩
    · refine .field trivial (by simp [Ser.slots, Slot.Competes]) (.field trivial (by simp [Ser.slots, Slot.Competes]) ?_)
      exact .wrapped (t := "kids") (group := [_]) (rest := []) (by simp) (by simp [Ser.Under]) (.field trivial (by simp) .nil) (by simp) .nil
    · simp [fields, Ser.slots, Elem.nilAttr]
  · have h' : (if cls = "Doc" then some (Types.fields defs fields []) else none) = some (.root d s ty df) := h
    split at h' <;> cases h'

theorem follows : env.Follows prims types := by
  refine C74_pydantic_exists _ _ _ _ _ ?_
  rintro s v (⟨rfl, t, rfl⟩ | ⟨rfl, b, rfl⟩)
  · exact ⟨by simp, by simp [jsonBy, encodePrimitive, pyStr, prims], by simp [jsonBy, pyStr, prims]⟩
  · cases b
    · exact ⟨by simp, by simp [jsonBy, encodePrimitive, prims], by simp [jsonBy, pyStr, prims]⟩
    · exact ⟨by simp, by simp [jsonBy, encodePrimitive, prims], by simp [jsonBy, pyStr, prims]⟩

/-- Trees of documents. -/
inductive Doc where
  | mk (opn : Bool) (note : Option String) (kids : List Doc)

mutual
def Doc.val : Doc → Val
  | .mk b n ks => .model "Doc" [("open", .bool b), ("note", n.elim .none .str), ("kids", .list (Doc.vals ks))] ["open"]
def Doc.vals : List Doc → List Val
  | [] => []
  | k :: ks => k.val :: Doc.vals ks
end

/-- All documents come back, of all widths and depths; the notes are missing or not empty. -/
inductive Doc.Noted : Doc → Prop
  | mk {b : Bool} {n : Option String} {ks : List Doc} : n ≠ some "" → (∀ k ∈ ks, Noted k) → Noted (.mk b n ks)

theorem mem_vals {x : Val} : ∀ {ks : List Doc}, x ∈ Doc.vals ks → ∃ k ∈ ks, x = k.val
  | [], h => by cases h
  | k :: ks, h => by
    rcases List.mem_cons.1 h with h | h
    · exact ⟨k, by simp, h⟩
    · obtain ⟨k', h1, h2⟩ := mem_vals h
      exact ⟨k', by simp [h1], h2⟩

/-- With and without `skip_empty`, which makes no difference here: the attribute is always written. -/
theorem sound (skip : Bool) {x : Doc} (h : x.Noted) :
    Sound env prims types false { excludeNone := true, skipEmpty := skip } true true (.inst "Doc" x.val) := by
  induction h with
  | @mk b n ks hn _ ih =>
    have hv : (Doc.mk b n ks).val =
        .model "Doc" [("open", .bool b), ("note", n.elim .none .str), ("kids", .list (Doc.vals ks))] ["open"] := by
      simp only [Doc.val]
    rw [hv]
    refine Sound.plain (rows := [(fields[0], .bool b, some false, true), (fields[1], n.elim .none .str, some n.isNone, false),
      (fields[2], .list (Doc.vals ks), some ks.isEmpty, false)]) (m := doc) (d := defs) rfl rfl (by simp [fields]) (by simp) ?_ ?_ ?_ (by simp) ?_
    · simp [fields]
    · simp
    · simp only [List.forall_mem_cons, fields, List.getElem_cons_zero, List.getElem_cons_succ]
      refine ⟨by simp, ?_, ?_, by simp⟩
      · intro h
        cases n with
        | none => exact ⟨_, rfl, rfl⟩
        | some n => simp at h
      · intro h
        cases ks with
        | nil => exact ⟨_, rfl, rfl⟩
        | cons k ks => simp at h
    · simp only [List.forall_mem_cons, fields, List.getElem_cons_zero, List.getElem_cons_succ]
      refine ⟨?_, ?_, ?_, by simp⟩
      · rintro b' h; cases h
        exact .attr (.inr ⟨rfl, _, rfl⟩)
      · rintro b' h; cases h
        cases n with
        | none => exact .elemNone (.inl rfl) (by simp)
        | some n =>
          refine .elem (.inl ⟨rfl, _, rfl⟩) (.inr ?_)
          show encodePrimitive env (jsonBy types (.str n)) ≠ ""
          simp only [jsonBy, encodePrimitive, pyStr]
          exact fun e => hn (by rw [e])
      · rintro b' h; cases h
        cases ks with
        | nil =>
          cases skip with
          | false => exact .wrap (so' := false) (by simp) (by simp [ModelSer.flagsIn, doc]) (.listEmpty (.inr rfl) .proxy)
          | true => exact .wrapNone (.inr ⟨rfl, rfl⟩) (.homog .proxy)
        | cons k ks =>
          refine .wrap (so' := true) (by simp) (by simp [Doc.vals, Val.len?]) ?_
          refine .list (item := .ref "doc") (.default (.done rfl)) (.inl rfl) .proxy ?_
          intro x hx
          obtain ⟨k', hk, rfl⟩ := mem_vals (ks := k :: ks) hx
          have := ih k' hk
          exact .model rfl (.ref (r := "doc") rfl (.done rfl)) (this.weaken _)

example (skip : Bool) (x : Doc) (h : x.Noted) : ∃ tree v' N, v'.bare = x.val.bare ∧
    ∀ n ≥ N, toXmlTree env n { excludeNone := true, skipEmpty := skip } "Doc" x.val = .ok tree ∧
    (fromXmlTree env false n "Doc" tree).1 = .ok v' :=
  C74_round_trip env resolved prims types hasTypes follows false _ true true "Doc" x.val (sound skip h)

end TypedEx

end PXml
