import Verif.Hooks
import Verif.Serializer
import Verif.Lemmas.Dict
import Verif.Example

/-!
# Custom field validators and serializers: C55
-/

namespace PXml

/-! ## Specification -/

/-- The order is one in which the attributes of the class that `BaseModel` does not have can be enumerated. -/
def Mro.Enumerates {F : Type} (mro : Mro F) (base order : List String) : Prop :=
  order.Nodup ∧ ∀ a, a ∈ order ↔ (∃ d ∈ mro, a ∈ Dict.keys d) ∧ a ∉ base

/-- The class has a method of that name, its own or inherited and not overridden, that is decorated for the field; its name is not
one of `BaseModel`'s. -/
def Mro.Claims {F : Type} (mro : Mro F) (base : List String) (claims : Member F → List String) (field name : String) (f : F) : Prop :=
  name ∉ base ∧ ∃ m, mro.getattr name = some m ∧ m.truthy = true ∧ field ∈ claims m ∧ f = m.func

/-- At most one method is decorated for the field. -/
def Mro.OneClaim {F : Type} (mro : Mro F) (base : List String) (claims : Member F → List String) (field : String) : Prop :=
  ∀ a b f g, mro.Claims base claims field a f → mro.Claims base claims field b g → a = b

/-- The last function of a kind in a field's metadata. -/
def lastOf {F : Type} (pick : Metadatum F → Option F) (ms : List (Metadatum F)) : Option F := (ms.filterMap pick).getLast?

/-- The functions of the two kinds. -/
def Metadatum.validator? {F : Type} : Metadatum F → Option F | .validator f => some f | _ => none
def Metadatum.serializer? {F : Type} : Metadatum F → Option F | .serializer f => some f | _ => none

/-! ## Lemmas -/

section
variable {F : Type}

theorem foldl_set_get? (f : F) (fs : List String) (d : Dict String F) (k : String) :
    Dict.get? (fs.foldl (fun d field => Dict.set d field f) d) k = if k ∈ fs then some f else Dict.get? d k := by
  induction fs generalizing d with
  | nil => simp
  | cons x fs ih =>
    rw [List.foldl_cons, ih, Dict.get?_set]
    by_cases h1 : k ∈ fs <;> by_cases h2 : x = k
    · simp [h1]
    · simp [h1]
    · simp [h2]
    · simp [h1, h2, Ne.symm h2]

theorem claimed_get? (mro : Mro F) (base : List String) (claims : Member F → List String) (k : String) (names : List String)
    (hb : ∀ a ∈ names, a ∉ base) (d : Dict String F) :
    (∃ a f, a ∈ names ∧ mro.Claims base claims k a f ∧ Dict.get? (claimed mro claims names d) k = some f) ∨
      ((∀ a ∈ names, ∀ f, ¬ mro.Claims base claims k a f) ∧ Dict.get? (claimed mro claims names d) k = Dict.get? d k) := by
  induction names generalizing d with
  | nil => exact Or.inr ⟨by simp, rfl⟩
  | cons a names ih =>
    have hb' : ∀ a ∈ names, a ∉ base := fun x hx => hb x (List.mem_cons_of_mem _ hx)
    simp only [claimed]
    rcases ih hb' (claimStep mro claims a d) with ⟨x, f, h1, h2, h3⟩ | ⟨h1, h2⟩
    · exact Or.inl ⟨x, f, List.mem_cons_of_mem _ h1, h2, h3⟩
    · rw [h2]
      unfold claimStep
      cases hg : mro.getattr a with
      | none =>
        refine Or.inr ⟨fun x hx f hc => ?_, rfl⟩
        rcases List.mem_cons.1 hx with rfl | hx
        · obtain ⟨_, m, hm, _⟩ := hc; rw [hg] at hm; cases hm
        · exact h1 x hx f hc
      | some m =>
        by_cases ht : m.truthy = true
        · simp only [ht, if_true, foldl_set_get?]
          by_cases hk : k ∈ claims m
          · rw [if_pos hk]
            exact Or.inl ⟨a, m.func, by simp, ⟨hb a (by simp), m, hg, ht, hk, rfl⟩, rfl⟩
          · rw [if_neg hk]
            refine Or.inr ⟨fun x hx f hc => ?_, rfl⟩
            rcases List.mem_cons.1 hx with rfl | hx
            · obtain ⟨_, m', hm, _, h4, _⟩ := hc; rw [hg] at hm; cases hm; exact hk h4
            · exact h1 x hx f hc
        · simp only [ht]
          refine Or.inr ⟨fun x hx f hc => ?_, rfl⟩
          rcases List.mem_cons.1 hx with rfl | hx
          · obtain ⟨_, m', hm, h4, _⟩ := hc; rw [hg] at hm; cases hm; exact ht h4
          · exact h1 x hx f hc

theorem foldl_pick_get? (pick : Metadatum F → Option F) (field : String) (ms : List (Metadatum F)) (d : Dict String F) (k : String) :
    Dict.get? (ms.foldl (annotateStep pick field) d) k =
      if field = k then (lastOf pick ms).or (Dict.get? d k) else Dict.get? d k := by
  induction ms generalizing d with
  | nil => simp [lastOf]
  | cons m ms ih =>
    rw [List.foldl_cons, ih]
    unfold annotateStep
    cases hp : pick m with
    | none => simp [lastOf, hp]
    | some f =>
      simp only [Dict.get?_set, lastOf, List.filterMap_cons, hp]
      by_cases h : field = k
      · subst h
        simp only [if_true]
        cases hl : ms.filterMap pick with
        | nil => simp
        | cons y l => simp [List.getLast?_eq_some_getLast]
      · simp [h]

theorem annotated_get?_other (pick : Metadatum F → Option F) (fields : List (String × List (Metadatum F))) (d : Dict String F) (k : String)
    (hk : k ∉ Dict.keys fields) : Dict.get? (annotated pick fields d) k = Dict.get? d k := by
  induction fields generalizing d with
  | nil => rfl
  | cons x fields ih =>
    obtain ⟨n, ms⟩ := x
    simp only [Dict.keys, List.map_cons, List.mem_cons, not_or] at hk
    simp only [annotated]
    rw [ih _ hk.2, foldl_pick_get?, if_neg (Ne.symm hk.1)]

theorem annotated_get? (pick : Metadatum F → Option F) (fields : List (String × List (Metadatum F))) (hf : Dict.WF fields) (k : String)
    (d : Dict String F) :
    Dict.get? (annotated pick fields d) k = ((Dict.get? fields k).bind (lastOf pick)).or (Dict.get? d k) := by
  induction fields generalizing d with
  | nil => simp [annotated, Dict.get?]
  | cons x fields ih =>
    obtain ⟨n, ms⟩ := x
    simp only [Dict.WF, Dict.keys, List.map_cons, List.nodup_cons] at hf
    simp only [annotated]
    by_cases h : n = k
    · subst h
      rw [annotated_get?_other pick fields _ n hf.1, foldl_pick_get?, if_pos rfl]
      simp [Dict.get?]
    · rw [ih hf.2, foldl_pick_get?, if_neg h]
      simp [Dict.get?, h]

/-- A claiming method is found in every enumeration. -/
theorem claims_mem {mro : Mro F} {base order : List String} {claims : Member F → List String} (ho : mro.Enumerates base order)
    {k a : String} {f : F} (h : mro.Claims base claims k a f) : a ∈ order := by
  obtain ⟨h1, m, h2, _⟩ := h
  refine (ho.2 a).2 ⟨?_, h1⟩
  unfold Mro.getattr at h2
  obtain ⟨d, hd, hm⟩ := List.exists_of_findSome?_eq_some h2
  exact ⟨d, hd, List.mem_map.2 ⟨_, Dict.mem_of_get? hm, rfl⟩⟩

/-- The function of a field, whatever the order. -/
theorem collected {mro : Mro F} {base order : List String} {claims : Member F → List String} (ho : mro.Enumerates base order)
    (pick : Metadatum F → Option F) (fields : List (String × List (Metadatum F))) (hf : Dict.WF fields) (k : String)
    (hone : mro.OneClaim base claims k) :
    (∀ a f, mro.Claims base claims k a f → Dict.get? (claimed mro claims order (annotated pick fields [])) k = some f) ∧
    ((∀ a f, ¬ mro.Claims base claims k a f) →
      Dict.get? (claimed mro claims order (annotated pick fields [])) k = (Dict.get? fields k).bind (lastOf pick)) := by
  have hb : ∀ a ∈ order, a ∉ base := fun a ha => ((ho.2 a).1 ha).2
  rcases claimed_get? mro base claims k order hb (annotated pick fields []) with ⟨a, f, h1, h2, h3⟩ | ⟨h1, h2⟩
  · refine ⟨fun b g hg => ?_, fun hn => absurd h2 (hn a f)⟩
    have : b = a := hone b a g f hg h2
    subst this
    obtain ⟨_, m, hm, _, _, rfl⟩ := hg
    obtain ⟨_, m', hm', _, _, rfl⟩ := h2
    rw [hm] at hm'
    cases hm'
    exact h3
  · refine ⟨fun b g hg => absurd hg (h1 b (claims_mem ho hg) g), fun _ => ?_⟩
    rw [h2, annotated_get? pick fields hf]
    simp [Dict.get?]

/-! ## Theorems -/

/-- **C55** (which function). If at most one method of the class, declared or inherited, is decorated as the validator of the field,
then that method is the field's validator, whatever its annotations say; if there is none, the last `XmlFieldValidator` of the field's
metadata is. The order in which Python enumerates the attributes of the class does not matter. -/
theorem C55_validator_partial (mro : Mro F) (base order : List String) (ho : mro.Enumerates base order)
    (fields : List (String × List (Metadatum F))) (hf : Dict.WF fields) (k : String) (hone : mro.OneClaim base Member.validates k) :
    (∀ a f, mro.Claims base Member.validates k a f → Dict.get? (collectValidators fields mro order) k = some f) ∧
    ((∀ a f, ¬ mro.Claims base Member.validates k a f) →
      Dict.get? (collectValidators fields mro order) k = (Dict.get? fields k).bind (lastOf Metadatum.validator?)) :=
  collected ho _ fields hf k hone

/-- **C55** (which function), the same for serializers. -/
theorem C55_serializer_partial (mro : Mro F) (base order : List String) (ho : mro.Enumerates base order)
    (fields : List (String × List (Metadatum F))) (hf : Dict.WF fields) (k : String) (hone : mro.OneClaim base Member.serializes k) :
    (∀ a f, mro.Claims base Member.serializes k a f → Dict.get? (collectSerializers fields mro order) k = some f) ∧
    ((∀ a f, ¬ mro.Claims base Member.serializes k a f) →
      Dict.get? (collectSerializers fields mro order) k = (Dict.get? fields k).bind (lastOf Metadatum.serializer?)) :=
  collected ho _ fields hf k hone

/-- A subclass inherits a decorated method, unless it defines an attribute of that name itself: then the new attribute alone counts,
and without the decorator it is no validator (serializer) any more. -/
theorem C55_inherited (mro : Mro F) (base : List String) (claims : Member F → List String) (k a : String) (f : F)
    (d : Dict String (Member F)) :
    (a ∉ Dict.keys d → (Mro.Claims (d :: mro) base claims k a f ↔ mro.Claims base claims k a f)) ∧
    (∀ m, Dict.get? d a = some m →
      (Mro.Claims (d :: mro) base claims k a f ↔ a ∉ base ∧ m.truthy = true ∧ k ∈ claims m ∧ f = m.func)) := by
  constructor
  · intro h
    have : Mro.getattr (d :: mro) a = mro.getattr a := by
      simp [Mro.getattr, (Dict.get?_eq_none_iff d a).2 h]
    simp only [Mro.Claims, this]
  · intro m h
    have : Mro.getattr (d :: mro) a = some m := by simp [Mro.getattr, h]
    simp only [Mro.Claims, this, Option.some.injEq, exists_eq_left']

end

/-! ## What the functions replace -/

/-- Two fields that are read alike: the same name, alias and custom validator, and the same serializer unless there is a custom
validator. -/
def Field.ReadsLike (f g : Field) : Prop :=
  f.name = g.name ∧ f.alias = g.alias ∧ f.validator = g.validator ∧ (f.validator = none → f.ser = g.ser)

/-- Two fields that are written alike. -/
def Field.WritesLike (f g : Field) : Prop :=
  f.name = g.name ∧ f.exclude = g.exclude ∧ f.serializer = g.serializer ∧ (f.serializer = none → f.ser = g.ser)

/-- The two lists are related item by item. -/
inductive Pairwise {α : Type} (R : α → α → Prop) : List α → List α → Prop
  | nil : Pairwise R [] []
  | cons {a b as bs} : R a b → Pairwise R as bs → Pairwise R (a :: as) (b :: bs)

/-- The bodies of two classes with related fields. -/
inductive Body.Like (R : Field → Field → Prop) : Body → Body → Prop
  | fields {fs gs} : Pairwise R fs gs → Body.Like R (.fields fs) (.fields gs)
  | root (s) : Body.Like R (.root s) (.root s)

/-- Two environments whose classes are the same as far as reading is concerned. -/
structure Env.ReadsLike (env env' : Env) : Prop where
  backend : env.backend = env'.backend
  validate : env.validate = env'.validate
  absent : ∀ cls, env.model cls = none ↔ env'.model cls = none
  model : ∀ cls m m', env.model cls = some m → env'.model cls = some m' →
    m.name = m'.name ∧ m.hideInput = m'.hideInput ∧ m.elementName = m'.elementName ∧ m.extraForbid = m'.extraForbid ∧ Body.Like Field.ReadsLike m.body m'.body

/-- Two environments whose classes are the same as far as writing is concerned. -/
structure Env.WritesLike (env env' : Env) : Prop where
  backend : env.backend = env'.backend
  json : env.toJsonable = env'.toJsonable
  repr : env.reprOf = env'.reprOf
  absent : ∀ cls, env.model cls = none ↔ env'.model cls = none
  model : ∀ cls m m', env.model cls = some m → env'.model cls = some m' →
    m.elementName = m'.elementName ∧ m.nsmap = m'.nsmap ∧ m.skipEmpty = m'.skipEmpty ∧ Body.Like Field.WritesLike m.body m'.body

theorem deserFields_like {rec : Ser → Loc → St → Out Val × St} {fs gs : List Field} (h : Pairwise Field.ReadsLike fs gs) :
    ∀ res errs st, deserFields rec fs res errs st = deserFields rec gs res errs st := by
  induction h with
  | nil => intros; rfl
  | @cons f g fs gs h _ ih =>
    intro res errs st
    obtain ⟨h1, h2, h3, h4⟩ := h
    simp only [deserFields, ← h1, ← h2, ← h3]
    cases hv : f.validator with
    | none => rw [h4 hv]; simp only [ih]
    | some v => simp only [ih]

theorem deserModel_like {env env' : Env} (he : env.ReadsLike env') {rec : Ser → Loc → St → Out Val × St} {cls : String} {m m' : ModelSer}
    (h1 : env.model cls = some m) (h2 : env'.model cls = some m') (loc : Loc) (st : St) :
    deserModel env rec cls m loc st = deserModel env' rec cls m' loc st := by
  obtain ⟨hn, hh, _, hx, hb⟩ := he.model cls m m' h1 h2
  have ht : m.title = m'.title := by simp only [ModelSer.title, hn, hh]
  have hval : ∀ v st, validateModel env cls m v st = validateModel env' cls m' v st := by
    intro v st
    simp only [validateModel, he.validate, ht, hh, hx]
  unfold deserModel
  cases hm : m.body with
  | fields fs =>
    rw [hm] at hb
    generalize hm' : m'.body = b at hb
    cases hb with
    | fields hb => simp only [deserFields_like hb, hval, ht]
  | root s =>
    rw [hm] at hb
    generalize hm' : m'.body = b at hb
    cases hb with
    | root => simp only [hval, ht]

theorem deser_like {env env' : Env} (he : env.ReadsLike env') (eas : Bool) (n : Nat) : deser env eas n = deser env' eas n := by
  induction n with
  | zero => rfl
  | succ n ih =>
    funext s loc st
    change deserStep env eas (deser env eas n) n s loc st = deserStep env' eas (deser env' eas n) n s loc st
    rw [ih]
    cases s with
    | proxy p =>
      simp only [deserStep]
      cases h : env.model p.cls with
      | none => rw [(he.absent p.cls).1 h]
      | some m =>
        cases h' : env'.model p.cls with
        | none => rw [(he.absent p.cls).2 h'] at h; cases h
        | some m' => simp only [deserModel_like he h h']
    | raw name mode c => simp only [deserStep, he.backend]
    | _ => rfl

/-- **C55** (reading). A field with a custom validator is read by that function alone: its type and its annotations make no difference
to the result of reading a document, nor do serializers, exclusion and anything else that concerns writing. -/
theorem C55_read (env env' : Env) (he : env.ReadsLike env') (eas : Bool) (n : Nat) (cls : String) (root : Node) :
    fromXmlTree env eas n cls root = fromXmlTree env' eas n cls root := by
  unfold fromXmlTree
  rw [he.backend]
  cases h : env.model cls with
  | none => rw [(he.absent cls).1 h]
  | some m =>
    cases h' : env'.model cls with
    | none => rw [(he.absent cls).2 h'] at h; cases h
    | some m' => simp only [deser_like he, deserModel_like he h h', (he.model cls m m' h h').2.2.1]

theorem serFields_like {rec : Ser → Elem → Val → Val → Out Elem} {fl : Flags} {self : Val} {fields : Dict String Val} {set : List String}
    {enc : Val} {fs gs : List Field} (h : Pairwise Field.WritesLike fs gs) :
    ∀ el, serFields rec fl self fields set enc fs el = serFields rec fl self fields set enc gs el := by
  induction h with
  | nil => intros; rfl
  | @cons f g fs gs h _ ih =>
    intro el
    obtain ⟨h1, h2, h3, h4⟩ := h
    have ih' : serFields rec fl self fields set enc fs = serFields rec fl self fields set enc gs := funext ih
    simp only [serFields, ← h1, ← h2, ← h3, ih']
    cases hv : f.serializer with
    | none => rw [h4 hv]
    | some v => rfl

theorem serModel_like {env env' : Env} (he : env.WritesLike env') {rec : Flags → Ser → Elem → Val → Val → Out Elem} {cls : String}
    {m m' : ModelSer} (h1 : env.model cls = some m) (h2 : env'.model cls = some m') (fl : Flags) (el : Elem) (v enc : Val) :
    serModel rec m fl el v enc = serModel rec m' fl el v enc := by
  obtain ⟨_, _, hs, hb⟩ := he.model cls m m' h1 h2
  unfold serModel
  cases hm : m.body with
  | fields fs =>
    rw [hm] at hb
    generalize hm' : m'.body = b at hb
    cases hb with
    | fields hb => simp only [serFields_like hb, hs]
  | root s =>
    rw [hm] at hb
    generalize hm' : m'.body = b at hb
    cases hb with
    | root => simp only [hs]

theorem pyStr_like {env env' : Env} (he : env.WritesLike env') : pyStr env = pyStr env' := by
  funext v
  unfold pyStr
  rw [he.repr]

theorem encode_like {env env' : Env} (he : env.WritesLike env') (v : Val) : encodePrimitive env v = encodePrimitive env' v := by
  unfold encodePrimitive
  rw [pyStr_like he]

theorem ser_like {env env' : Env} (he : env.WritesLike env') (n : Nat) : ser env n = ser env' n := by
  have ht : serText env = serText env' := by
    funext a b c d e
    simp only [serText, encode_like he]
  have ha : serAttrs env = serAttrs env' := by
    funext a b c d
    simp only [serAttrs, pyStr_like he]
  induction n with
  | zero => rfl
  | succ n ih =>
    funext fl s el v enc
    change serStep env (ser env n) fl s el v enc = serStep env' (ser env' n) fl s el v enc
    rw [ih]
    cases s with
    | proxy p =>
      simp only [serStep]
      cases h : env.model p.cls with
      | none => rw [(he.absent p.cls).1 h]
      | some m =>
        cases h' : env'.model p.cls with
        | none => rw [(he.absent p.cls).2 h'] at h; cases h
        | some m' => simp only [serModel_like he h h', he.backend]
    | _ => simp only [serStep, ht, ha, encode_like he, he.backend]

/-- **C55** (writing). A field with a custom serializer is written by that function alone: its type and its annotations make no
difference to the output, nor do validators, aliases and anything else that concerns reading. -/
theorem C55_write (env env' : Env) (he : env.WritesLike env') (n : Nat) (fl : Flags) (cls : String) (v : Val) :
    toXmlTree env n fl cls v = toXmlTree env' n fl cls v := by
  unfold toXmlTree
  rw [he.backend, he.json]
  cases h : env.model cls with
  | none => rw [(he.absent cls).1 h]
  | some m =>
    cases h' : env'.model cls with
    | none => rw [(he.absent cls).2 h'] at h; cases h
    | some m' =>
      obtain ⟨h1, h2, _, _⟩ := he.model cls m m' h h'
      simp only [ser_like he, serModel_like he h h', h1, h2]

/-! ### Concrete cases -/

namespace Ex

/-- A class with a method for the field `x`, inherited, one for `y` that is overridden without the decorator, and annotations. -/
def hookMro : Mro Nat :=
  [[("own", { func := 1, validates := ["z"] }), ("over", { func := 2 })],
   [("inherited", { func := 3, validates := ["x"], serializes := ["x"] }), ("over", { func := 4, validates := ["y"] })],
   [("model_dump", { func := 5 })]]

def hookFields : List (String × List (Metadatum Nat)) :=
  [("x", [.validator 10]), ("y", [.validator 11, .other, .validator 12]), ("z", []), ("w", [.serializer 13])]

example : hookMro.Enumerates ["model_dump"] ["over", "own", "inherited"] ∧ hookMro.Enumerates ["model_dump"] ["inherited", "own", "over"] := by
  constructor <;> refine ⟨by decide, fun a => ?_⟩ <;> simp [hookMro, Dict.keys] <;> grind

example : hookMro.Claims ["model_dump"] Member.validates "x" "inherited" 3 := ⟨by decide, _, rfl, rfl, by decide, rfl⟩

example : collectValidators hookFields hookMro ["over", "own", "inherited"] = [("x", 3), ("y", 12), ("z", 1)] ∧
    collectSerializers hookFields hookMro ["over", "own", "inherited"] = [("w", 13), ("x", 3)] := ⟨by decide, by decide⟩

example : hookMro.OneClaim ["model_dump"] Member.validates "x" := by
  have key : ∀ a f, hookMro.Claims ["model_dump"] Member.validates "x" a f → a = "inherited" := by
    rintro a f ⟨_, m, hm, _, h, _⟩
    simp only [hookMro, Mro.getattr, Dict.get?, List.findSome?] at hm
    grind
  intro a b f g h1 h2
  rw [key a f h1, key b g h2]

/-- A class with one field that has a custom validator and serializer. -/
def hookModel (s : Ser) : ModelSer :=
  { name := "M", elementName := "m",
    body := .fields [{ name := "x", ser := s, validator := some fun e => (.ok (.str "read"), e),
                       serializer := some fun _ e _ => .ok (e.setText "written") }] }

/-- The field's type is read as the text, or from an attribute. -/
def hookEnv (s : Ser) : Env :=
  { env with model := fun c => if c = "M" then some (hookModel s) else none }

example : (hookEnv (.text false false)).ReadsLike (hookEnv (.attr "a" false)) ∧
    (hookEnv (.text false false)).WritesLike (hookEnv (.attr "a" false)) := by
  constructor
  · refine ⟨rfl, rfl, fun cls => ?_, fun cls m m' h1 h2 => ?_⟩
    · by_cases h : cls = "M" <;> simp [hookEnv, h]
    · by_cases h : cls = "M" <;> simp only [hookEnv, h, if_true, if_false, Option.some.injEq] at h1 h2
      · subst h1; subst h2
        exact ⟨rfl, rfl, rfl, rfl, .fields (.cons ⟨rfl, rfl, rfl, fun h => by cases h⟩ .nil)⟩
      · cases h1
  · refine ⟨rfl, rfl, rfl, fun cls => ?_, fun cls m m' h1 h2 => ?_⟩
    · by_cases h : cls = "M" <;> simp [hookEnv, h]
    · by_cases h : cls = "M" <;> simp only [hookEnv, h, if_true, if_false, Option.some.injEq] at h1 h2
      · subst h1; subst h2
        exact ⟨rfl, rfl, rfl, .fields (.cons ⟨rfl, rfl, rfl, fun h => by cases h⟩ .nil)⟩
      · cases h1

/-- **C55** as stated is false: if two methods are decorated for the same field, the order in which Python enumerates a set of strings
decides, which depends on the hash seed of the process. -/
theorem C55_counterexample : ∃ (mro : Mro Nat) (base o1 o2 : List String) (k : String),
    mro.Enumerates base o1 ∧ mro.Enumerates base o2 ∧
      Dict.get? (collectValidators [] mro o1) k ≠ Dict.get? (collectValidators [] mro o2) k := by
  refine ⟨[[("a", { func := 1, validates := ["x"] }), ("b", { func := 2, validates := ["x"] })]], [], ["a", "b"], ["b", "a"], "x", ?_, ?_, by decide⟩
  · refine ⟨by decide, fun a => ?_⟩; simp [Dict.keys]; grind
  · refine ⟨by decide, fun a => ?_⟩; simp [Dict.keys]; grind

end Ex

end PXml
