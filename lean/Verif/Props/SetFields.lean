import Verif.Props.Stable
import Verif.Lemmas.SetFields

/-! # C82: which fields were set explicitly matters for `exclude_unset` only -/

namespace PXml

/-- C82: without `exclude_unset` it makes no difference to what is written which fields of an instance, or of instances inside of it, were
set explicitly: neither to the document nor to an exception. -/
theorem C82_set_fields_irrelevant (env : Env) (hs : env.SerializersIgnoreSet)
    (hj : ∀ v w : Val, v.forgetSet = w.forgetSet → env.toJsonable v = env.toJsonable w) (n : Nat) (fl : Flags) (hu : fl.excludeUnset = false)
    (cls : String) (v w : Val) (h : v.forgetSet = w.forgetSet) : toXmlTree env n fl cls v = toXmlTree env n fl cls w := by
  unfold toXmlTree
  cases hm : env.model cls with
  | none => rfl
  | some m =>
    simp only
    rw [hj v w h, serModel_forget (fun fl hu s el v w enc h => ser_forget hs n fl hu s el v w enc h) hs hm hu _ h]

/-- C80: what is written for an instance that was read is a canonical form of the document: reading it and writing it again gives the same
document. -/
theorem C80_canonical (env : Env) (henv : env.Everywhere (Ser.Resolved env)) (hno : env.NoValidators) (hser : env.SerializersIgnoreSet)
    (hj : ∀ v w : Val, v.forgetSet = w.forgetSet → env.toJsonable v = env.toJsonable w) (P : Prims) (types : String → Option Types)
    (hT : env.HasTypes types) (hF : env.Follows P types) (hO : env.Only P types) (dicts eas : Bool) (fl : Flags) (hu : fl.excludeUnset = false)
    (wh : Bool) (hS : env.Stable P types dicts eas fl wh) (cls : String) (doc : Node) (k : Nat) (v : Val)
    (h : (fromXmlTree env eas k cls doc).1 = .ok v) (hn : dicts = true → v.NoNil) (hr : v.RawFree) :
    ∃ tree v' N, ∀ n ≥ N, toXmlTree env n fl cls v = .ok tree ∧ (fromXmlTree env eas n cls tree).1 = .ok v' ∧
      toXmlTree env n fl cls v' = .ok tree := by
  obtain ⟨tree, v', N, h1, h2⟩ := C80_reread env henv hno P types hT hF hO dicts eas fl wh hS cls doc k v h hn
  refine ⟨tree, v', N, fun n hn' => ⟨(h2 n hn').1, (h2 n hn').2, ?_⟩⟩
  have hr' : v'.RawFree := (rawFree_bare v').mp (h1 ▸ (rawFree_bare v).mpr hr)
  rw [C82_set_fields_irrelevant env hser hj n fl hu cls v' v (by rw [← RawFree.forgetSet hr', ← RawFree.forgetSet hr, h1])]
  exact (h2 n hn').1

/-- C80: the same for text, if the library reads back what it printed. -/
theorem C80_canonical_text (env : Env) (henv : env.Everywhere (Ser.Resolved env)) (hno : env.NoValidators)
    (hraw : env.Everywhere Ser.NotRaw) (hser : env.SerializersIgnoreSet)
    (hj : ∀ v w : Val, v.forgetSet = w.forgetSet → env.toJsonable v = env.toJsonable w) (P : Prims) (types : String → Option Types)
    (hT : env.HasTypes types) (hF : env.Follows P types) (hO : env.Only P types) (dicts eas : Bool) (fl : Flags) (hu : fl.excludeUnset = false)
    (wh : Bool) (hS : env.Stable P types dicts eas fl wh) (print : Node → Except PyErr String)
    (parse : String → Except PyErr Node) (cls text : String) (k : Nat) (v : Val)
    (h : fromXml env parse eas k cls text = .ok v) (hn : dicts = true → v.NoNil) (hr : v.RawFree)
    (hlib : ∀ tree, (∃ N, ∀ n ≥ N, toXmlTree env n fl cls v = .ok tree) → Reparses print parse tree) :
    ∃ text' v' N, ∀ n ≥ N, toXml env print n fl cls v = .ok text' ∧ fromXml env parse eas n cls text' = .ok v' ∧
      toXml env print n fl cls v' = .ok text' := by
  obtain ⟨text', v', N, h1, h2⟩ := C80_text env henv hno hraw P types hT hF hO dicts eas fl wh hS print parse cls text k v h hn hlib
  refine ⟨text', v', N, fun n hn' => ⟨(h2 n hn').1, (h2 n hn').2, ?_⟩⟩
  have hr' : v'.RawFree := (rawFree_bare v').mp (h1 ▸ (rawFree_bare v).mpr hr)
  have := C82_set_fields_irrelevant env hser hj n fl hu cls v' v (by rw [← RawFree.forgetSet hr', ← RawFree.forgetSet hr, h1])
  simp only [toXml, this]
  exact (h2 n hn').1

/-! ## Non-vacuity -/

mutual
theorem jsonBy_forget (types : String → Option Types) (v : Val) : jsonBy types v.forgetSet = jsonBy types v := by
  cases v with
  | list vs => simp only [Val.forgetSet, jsonBy, jsonBy_forgetList types vs]
  | dict d => simp only [Val.forgetSet, jsonBy, jsonBy_forgetItems types d]
  | model cls fields set =>
    rw [Val.forgetSet]
    unfold jsonBy
    cases h : types cls with
    | none => simp only [jsonBy_forgetItems types fields]
    | some t =>
      cases t with
      | fields d ts cs => simp only [jsonBy_forgetItems types fields]
      | root d s ty df =>
        match fields with
        | [] => rfl
        | [(k, v)] => simp only [Val.forgetSetItems, jsonBy_forget types v]
        | (k, v) :: kv :: fields =>
          have := jsonBy_forgetItems types ((k, v) :: kv :: fields)
          simp only [Val.forgetSetItems] at this ⊢
          rw [this]
  | _ => rfl
theorem jsonBy_forgetList (types : String → Option Types) (vs : List Val) : jsonListBy types (Val.forgetSetList vs) = jsonListBy types vs := by
  cases vs with
  | nil => rfl
  | cons v vs => simp only [Val.forgetSetList, jsonListBy, jsonBy_forget types v, jsonBy_forgetList types vs]
theorem jsonBy_forgetItems (types : String → Option Types) (d : List (String × Val)) :
    jsonItemsBy types (Val.forgetSetItems d) = jsonItemsBy types d := by
  cases d with
  | nil => rfl
  | cons kv d => simp only [Val.forgetSetItems, jsonItemsBy, jsonBy_forget types kv.2, jsonBy_forgetItems types d]
end

namespace TypedEx

theorem serializersIgnoreSet : env.SerializersIgnoreSet := by
  intro cls m fs h hb f hf g hg
  have h' : (if cls = "Doc" then some doc else none) = some m := h
  split at h' <;> cases h'
  cases hb
  simp only [fields, List.map_cons, List.map_nil, List.mem_cons, List.not_mem_nil, or_false] at hf
  rcases hf with rfl | rfl | rfl <;> cases hg

theorem jsonIgnoresSet (v w : Val) (h : v.forgetSet = w.forgetSet) : env.toJsonable v = env.toJsonable w := by
  show jsonBy types v = jsonBy types w
  rw [← jsonBy_forget types v, h, jsonBy_forget]

mutual
theorem Doc.rawFree : ∀ x : Doc, x.val.RawFree
  | .mk b n ks => by
    cases n <;> exact ⟨trivial, trivial, Doc.rawFrees ks, trivial⟩
theorem Doc.rawFrees : ∀ ks : List Doc, Val.RawFreeList (Doc.vals ks)
  | [] => trivial
  | k :: ks => ⟨k.rawFree, Doc.rawFrees ks⟩
end

/-- A document the note of which was set to its default explicitly is written as one the note of which was not set. -/
example (n : Nat) (b : Bool) (kids : List Val) :
    toXmlTree env n {} "Doc" (.model "Doc" [("open", .bool b), ("note", .none), ("kids", .list kids)] ["open", "note"]) =
    toXmlTree env n {} "Doc" (.model "Doc" [("open", .bool b), ("note", .none), ("kids", .list kids)] ["open"]) :=
  C82_set_fields_irrelevant env serializersIgnoreSet jsonIgnoresSet n {} rfl "Doc" _ _ rfl

/-- With `exclude_unset` they are written differently. -/
theorem C82_exclude_unset_differs : ∃ tree tree', tree ≠ tree' ∧ ∀ n ≥ 2,
    toXmlTree env n { excludeUnset := true } "Doc" (.model "Doc" [("open", .bool true), ("note", .str "x"), ("kids", .list [])] ["open"]) =
      .ok tree ∧
    toXmlTree env n { excludeUnset := true } "Doc" (.model "Doc" [("open", .bool true), ("note", .str "x"), ("kids", .list [])] ["note"]) =
      .ok tree' := by
  refine ⟨.elem "doc" [("open", "true")] [] none none [] none,
    .elem "doc" [] [] none none [.elem "note" [] [] (some "x") none [] none] none, ?_, fun n hn => ?_⟩
  rotate_left
  · obtain ⟨n, rfl⟩ : ∃ k, n = k + 2 := ⟨n - 2, by omega⟩
    exact ⟨rfl, rfl⟩
  · simp

/-- All documents have a canonical form. -/
example (x : Doc) (h : x.Noted) : ∃ doc k v, (fromXmlTree env false k "Doc" doc).1 = .ok v ∧
    ∃ tree v' N, ∀ n ≥ N, toXmlTree env n { excludeNone := true } "Doc" v = .ok tree ∧ (fromXmlTree env false n "Doc" tree).1 = .ok v' ∧
      toXmlTree env n { excludeNone := true } "Doc" v' = .ok tree := by
  obtain ⟨tree, v, N, h1, h2⟩ := C74_round_trip env resolved prims types hasTypes follows false _ true true "Doc" x.val (sound false h)
  exact ⟨tree, N, v, (h2 N (Nat.le_refl N)).2, C80_canonical env resolved noValidators serializersIgnoreSet jsonIgnoresSet prims types
    hasTypes follows only false false _ rfl true (stable false) "Doc" tree N v (h2 N (Nat.le_refl N)).2 (by simp)
    ((rawFree_bare v).mp (h1 ▸ (rawFree_bare x.val).mpr x.rawFree))⟩

end TypedEx

end PXml
