import Verif.Lemmas.CompileBuilt
import Verif.Props.Accepted

/-!
# Histories of class definitions (C56), recursive classes (C57)

Classes are defined in some order, with forward references, and completed later by `model_rebuild`.
-/

namespace PXml

/-- The class an event is about. -/
def Event.cls : Event → String
  | .statement c _ => c
  | .rebuild c _ => c

/-- Whether all forward references of the class are resolved at the event. -/
def Event.complete : Event → Bool
  | .statement _ k => k
  | .rebuild _ k => k

/-- No class has been defined. -/
def Built.empty : Built := fun _ => none

section
variable {classes : Classes} {n : Nat}

theorem setSerializer_eq {built built' : Built} {c : String} {k : Bool} (h : setSerializer classes n built c k = .ok built') :
    (classes c = none ∧ built' = built) ∨ ∃ cd m, classes c = some cd ∧
      buildClass classes built n { cd with complete := cd.complete && k } = .ok m ∧
      built' = fun x => if x = c then m else built x := by
  unfold setSerializer at h
  cases hc : classes c with
  | none => rw [hc] at h; exact Or.inl ⟨rfl, (Except.ok.inj h).symm⟩
  | some cd =>
    rw [hc] at h
    simp only at h
    cases hb : buildClass classes built n { cd with complete := cd.complete && k } with
    | error e => rw [hb] at h; cases h
    | ok m => rw [hb] at h; exact Or.inr ⟨cd, m, rfl, hb, (Except.ok.inj h).symm⟩

theorem buildClass_incomplete {built : Built} {cd : ClassDef} (h : cd.complete = false) :
    buildClass classes built n cd = .ok none := by
  simp [buildClass, h]

theorem buildClass_none {built : Built} {cd : ClassDef} (h : buildClass classes built n cd = .ok none) : cd.complete = false := by
  unfold buildClass at h
  cases hc : cd.complete with
  | false => rfl
  | true =>
    rw [if_pos hc] at h
    split at h
    · cases h
    · split at h
      · cases h
      · rename_i cd' _
        cases hk : compileClass (parse classes built n) cd' _ with
        | error e => rw [hk] at h; cases h
        | ok m => rw [hk] at h; cases h
    · cases h

/-- An event for another class does not touch the class. -/
theorem run_other {built built' : Built} {e : Event} {c : String} (he : e.cls ≠ c) (h : e.run classes n built = .ok built') :
    built' c = built c := by
  have key : ∀ (d : String) (k : Bool), d ≠ c → setSerializer classes n built d k = .ok built' → built' c = built c := by
    intro d k hd h
    rcases setSerializer_eq h with ⟨_, rfl⟩ | ⟨_, _, _, _, rfl⟩
    · rfl
    · exact if_neg (Ne.symm hd)
  cases e with
  | statement d k => exact key d k he h
  | rebuild d k =>
    simp only [Event.run] at h
    split at h
    · exact key d k he h
    · rw [← Except.ok.inj h]

theorem history_append (es es' : List Event) : ∀ built : Built,
    history classes n (es ++ es') built = history classes n es' (history classes n es built) := by
  induction es with
  | nil => intro _; rfl
  | cons e es ih =>
    intro built
    simp only [List.cons_append, history]
    cases e.run classes n built with
    | error _ => exact ih _
    | ok b => exact ih _

/-- C56: a class that has been built keeps its serializer, whatever classes are defined or rebuilt afterwards; `model_rebuild`
of the class itself does not replace it either. -/
theorem C56_stays (classes : Classes) (n : Nat) (c : String) (m : ModelSer) : ∀ (es : List Event) (built : Built),
    (∀ e ∈ es, ∀ k, e ≠ .statement c k) → built c = some m → history classes n es built c = some m
  | [], _, _, h => h
  | e :: es, built, hs, h => by
    have hs' : ∀ e ∈ es, ∀ k, e ≠ .statement c k := fun e he => hs e (by simp [he])
    unfold history
    cases hr : e.run classes n built with
    | error _ => exact C56_stays classes n c m es built hs' h
    | ok b =>
      refine C56_stays classes n c m es b hs' ?_
      by_cases he : e.cls = c
      · cases e with
        | statement d k => exact absurd (congrArg (Event.statement · k) he) (hs (.statement d k) (by simp) k)
        | rebuild d k =>
          cases he
          simp only [Event.run, Event.cls] at hr h
          rw [h] at hr
          rw [← Except.ok.inj hr]
          exact h
      · rw [run_other he hr]; exact h

theorem history_none (c : String) : ∀ (es : List Event) (built : Built),
    (∀ e ∈ es, e.cls = c → e.complete = false) → built c = none → history classes n es built c = none
  | [], _, _, h => h
  | e :: es, built, hs, h => by
    have hs' : ∀ e ∈ es, e.cls = c → e.complete = false := fun e he => hs e (by simp [he])
    unfold history
    cases hr : e.run classes n built with
    | error _ => exact history_none c es built hs' h
    | ok b =>
      refine history_none c es b hs' ?_
      by_cases he : e.cls = c
      · have hk := hs e (by simp) he
        cases e with
        | statement d k =>
          cases he; cases hk
          rcases setSerializer_eq hr with ⟨_, rfl⟩ | ⟨cd, m, _, hb, rfl⟩
          · exact h
          · rw [buildClass_incomplete (by simp)] at hb
            rw [← Except.ok.inj hb]
            simp [Event.cls]
        | rebuild d k =>
          cases he; cases hk
          simp only [Event.run, Event.cls, Bool.and_false, Bool.false_eq_true, if_false] at hr h
          rw [← Except.ok.inj hr]
          exact h
      · rw [run_other he hr]; exact h

/-- C56: as long as its forward references are not resolved, a class can neither be read nor written: every attempt is an
`AssertionError`, for every document and value. -/
theorem C56_incomplete (classes : Classes) (n : Nat) (es : List Event) (c : String)
    (h : ∀ e ∈ es, e.cls = c → e.complete = false) (env : Env) (henv : env.model = history classes n es .empty) :
    (∀ eas k root, (fromXmlTree env eas k c root).1 = .crash .assertionError) ∧
    (∀ k fl v, toXmlTree env k fl c v = .crash .assertionError) := by
  have hn : env.model c = none := by rw [henv]; exact history_none c es _ h rfl
  constructor
  · intro eas k root
    simp [fromXmlTree, hn]
  · intro k fl v
    simp [toXmlTree, hn]

/-- C56: from the first accepted class statement or `model_rebuild` with all forward references resolved (and all generic
parameters given) the class has a serializer, whatever happens to other classes in between and afterwards. -/
theorem C56_complete (classes : Classes) (n : Nat) (before after : List Event) (e : Event) (cd : ClassDef)
    (hc : classes e.cls = some cd) (hg : cd.complete = true) (hk : e.complete = true)
    (ha : ∃ b, e.run classes n (history classes n before .empty) = .ok b)
    (hs : ∀ e' ∈ after, ∀ k, e' ≠ .statement e.cls k) :
    ∃ m, history classes n (before ++ e :: after) .empty e.cls = some m := by
  obtain ⟨b, hb⟩ := ha
  rw [history_append]
  simp only [history, hb]
  have key : setSerializer classes n (history classes n before .empty) e.cls true = .ok b → ∃ m, b e.cls = some m := by
    intro hset
    rcases setSerializer_eq hset with ⟨hcn, _⟩ | ⟨cd', m, hcd', hbc, rfl⟩
    · rw [hc] at hcn; cases hcn
    · rw [hc] at hcd'; cases hcd'
      cases m with
      | none =>
        have := buildClass_none hbc
        simp [hg] at this
      | some m => exact ⟨m, by simp⟩
  have hex : ∃ m, b e.cls = some m := by
    cases e with
    | statement d k => cases hk; exact key hb
    | rebuild d k =>
      cases hk
      simp only [Event.run, Event.cls] at hb key ⊢
      split at hb
      · exact key hb
      · rename_i hnn
        rw [← Except.ok.inj hb]
        cases hd : history classes n before .empty d with
        | none => rw [hd] at hnn; simp at hnn
        | some m => exact ⟨m, rfl⟩
  obtain ⟨m, hm⟩ := hex
  exact ⟨m, C56_stays classes n _ m after b hs hm⟩

/-- Where a serializer comes from. -/
theorem history_origin (c : String) (m : ModelSer) : ∀ (es : List Event) (built : Built),
    history classes n es built c = some m → built c = some m ∨ ∃ es' cd, classes c = some cd ∧
      buildClass classes (history classes n es' built) n { cd with complete := true } = .ok (some m)
  | [], _, h => Or.inl h
  | e :: es, built, h => by
    unfold history at h
    have lift : ∀ b : Built, (∀ es', history classes n es' b = history classes n (e :: es') built) →
        history classes n es b c = some m → b c = some m ∨ ∃ es' cd, classes c = some cd ∧
        buildClass classes (history classes n es' built) n { cd with complete := true } = .ok (some m) := by
      intro b hl hb
      rcases history_origin c m es b hb with h | ⟨es', cd, h1, h2⟩
      · exact Or.inl h
      · exact Or.inr ⟨e :: es', cd, h1, by rw [← hl]; exact h2⟩
    cases hr : e.run classes n built with
    | error _ =>
      rw [hr] at h
      exact lift built (fun es' => by simp only [history, hr]) h
    | ok b =>
      rw [hr] at h
      replace h := lift b (fun es' => by simp only [history, hr]) h
      rcases h with h | h
      · by_cases he : e.cls = c
        · have key : ∀ k, setSerializer classes n built c k = .ok b → built c = some m ∨ ∃ es' cd, classes c = some cd ∧
              buildClass classes (history classes n es' built) n { cd with complete := true } = .ok (some m) := by
            intro k hset
            rcases setSerializer_eq hset with ⟨_, rfl⟩ | ⟨cd, m', hcd, hb, rfl⟩
            · exact Or.inl h
            · simp only [if_pos] at h
              subst h
              have hk : (cd.complete && k) = true := by
                cases hk : (cd.complete && k) with
                | true => rfl
                | false => rw [buildClass_incomplete hk] at hb; cases hb
              rw [hk] at hb
              exact Or.inr ⟨[], cd, hcd, hb⟩
          cases e with
          | statement d k => cases he; exact key k hr
          | rebuild d k =>
            cases he
            simp only [Event.run, Event.cls] at hr key h
            split at hr
            · exact key k hr
            · rw [← Except.ok.inj hr] at h; exact Or.inl h
        · rw [run_other he hr] at h; exact Or.inl h
      · exact Or.inr h

/-- C56: the order in which classes are defined and completed does not matter: wherever two programs end up with a serializer for
a class, it is the same one. -/
theorem C56_order (classes : Classes) (n : Nat) (es es' : List Event) (c : String) (m m' : ModelSer)
    (h : history classes n es .empty c = some m) (h' : history classes n es' .empty c = some m') : m = m' := by
  suffices key : ∀ (es : List Event) (b : Built), (∀ es', b.Agree (history classes n es' .empty)) →
      ∀ es', (history classes n es b).Agree (history classes n es' .empty) from
    key es .empty (fun _ c m m' h _ => by cases h) es' c m m' h h'
  clear h h' es es' c m m'
  intro es
  induction es with
  | nil => intro b hb; exact hb
  | cons e es ih =>
    intro b hb es'
    cases hr : e.run classes n b with
    | error _ =>
      have hh : history classes n (e :: es) b = history classes n es b := by simp only [history, hr]
      rw [hh]
      exact ih b hb es'
    | ok b' =>
      have hh : history classes n (e :: es) b = history classes n es b' := by simp only [history, hr]
      rw [hh]
      refine ih b' ?_ es'
      intro es' c m m' hc hc'
      by_cases he : e.cls = c
      · have key : ∀ k, setSerializer classes n b c k = .ok b' → m = m' := by
          intro k hset
          rcases setSerializer_eq hset with ⟨_, rfl⟩ | ⟨cd, o, hcd, hbc, rfl⟩
          · exact hb es' c m m' hc hc'
          · simp only [if_pos] at hc
            subst hc
            have hk : (cd.complete && k) = true := by
              cases hk : (cd.complete && k) with
              | true => rfl
              | false => rw [buildClass_incomplete hk] at hbc; cases hbc
            rw [hk] at hbc
            rcases history_origin c m' es' .empty hc' with h0 | ⟨es'', cd', hcd', hb'⟩
            · cases h0
            · rw [hcd] at hcd'; cases hcd'
              exact Option.some.inj (buildClass_agree classes (hb es'') n _ hbc hb')
        cases e with
        | statement d k => cases he; exact key k hr
        | rebuild d k =>
          cases he
          simp only [Event.run, Event.cls] at hr key hc hc'
          split at hr
          · exact key k hr
          · rw [← Except.ok.inj hr] at hc
            exact hb es' _ m m' hc hc'
      · rw [run_other he hr] at hc
        exact hb es' c m m' hc hc'

/-- C56: programs that end up with serializers for the same classes read and write alike. -/
theorem C56_alike (classes : Classes) (n : Nat) (es es' : List Event)
    (h : ∀ c, (history classes n es .empty c).isSome = (history classes n es' .empty c).isSome) (env : Env) :
    (∀ eas k c root, fromXmlTree { env with model := history classes n es .empty } eas k c root =
      fromXmlTree { env with model := history classes n es' .empty } eas k c root) ∧
    (∀ k fl c v, toXmlTree { env with model := history classes n es .empty } k fl c v =
      toXmlTree { env with model := history classes n es' .empty } k fl c v) := by
  have heq : history classes n es .empty = history classes n es' .empty := by
    funext c
    have hc := h c
    cases h1 : history classes n es .empty c with
    | none =>
      cases h2 : history classes n es' .empty c with
      | none => rfl
      | some m' => rw [h1, h2] at hc; cases hc
    | some m =>
      cases h2 : history classes n es' .empty c with
      | none => rw [h1, h2] at hc; cases hc
      | some m' => rw [C56_order classes n es es' c m m' h1 h2]
  rw [heq]
  exact ⟨fun _ _ _ _ => rfl, fun _ _ _ _ => rfl⟩

theorem supported_members {built : Built} {d : Dict String Schema} {p : Place} {s : Schema} {discr : Option String}
    {choices : List (Option String × Schema)} (h : s.Supported classes built.Keyed d p) (ht : Strips d s d (.tagged discr choices))
    {c : Option String × Schema} (hc : c ∈ choices) {cls : String} {r : Bool} (hm : Strips d c.2 d (.model cls r)) :
    ∃ m, built cls = some m := by
  induction h with
  | wrapped h1 _ _ _ _ ih =>
    obtain ⟨-, rfl⟩ := ht.det h1
    exact ih (.done rfl)
  | tagged h1 _ _ h2 =>
    obtain ⟨-, e⟩ := ht.det h1
    cases e
    obtain ⟨_, cls', _, _, hs, _, _, m, _, _, _, hb, _⟩ := h2 c hc
    obtain ⟨-, e⟩ := hm.det hs
    cases e
    exact ⟨m, hb⟩
  | prim h1 | inst h1 | raw h1 | model h1 | dict h1 | typedDict h1 | primUnion h1 | modelUnion h1 =>
    obtain ⟨-, e⟩ := ht.det h1; cases e
  | collection h1 h2 | elements h1 h2 | tuple h1 h2 =>
    obtain ⟨-, e⟩ := ht.det h1
    subst e
    rcases h2 with h2 | h2 <;> cases h2

/-- C57: the members of a discriminated union have to be built before the class that contains the union.  Therefore a class with a
discriminated union that has the class itself among its members cannot be built by any program, although its forward
references can be resolved. -/
theorem C57_recursive_union (classes : Classes) (hc : classes.Proper) (cls : String) (cd : ClassDef) (hcd : classes cls = some cd)
    (hcomp : cd.complete = true) (hp : cd.Proper) (hpl : cd.Plain) (r : Bool) (d : Dict String Schema)
    (hs : Strips [] cd.schema d (.model cls r)) (hd : PlainDefs d) (fs : List FieldDef) (cs : List ComputedDef)
    (hbody : cd.body = .fields fs cs) (f : FieldDef) (hf : f ∈ fs) (hxml : f.noXml = false) (discr : Option String)
    (choices : List (Option String × Schema)) (ht : Strips d f.schema d (.tagged discr choices))
    (c : Option String × Schema) (hch : c ∈ choices) (r' : Bool) (hm : Strips d c.2 d (.model cls r'))
    (n : Nat) (es : List Event) : history classes n es .empty cls = none := by
  have fails : ∀ (built : Built) (m : ModelSer), built cls = none → buildClass classes built n cd ≠ .ok (some m) := by
    intro built m hb h
    have hsup := (C28_class_accepted hc cls cd hcd hcomp hp hpl r d hs hd).1 ⟨n, m, h⟩
    simp only [ClassDef.Supported, hbody] at hsup
    obtain ⟨m', hm'⟩ := supported_members (hsup.2.1 f hf hxml) ht hch hm
    rw [hb] at hm'
    cases hm'
  have key : ∀ (es : List Event) (built : Built), built cls = none → history classes n es built cls = none := by
    intro es
    induction es with
    | nil => intro _ h; exact h
    | cons e es ih =>
      intro built hb
      unfold history
      cases hr : e.run classes n built with
      | error _ => exact ih built hb
      | ok b =>
        refine ih b ?_
        by_cases he : e.cls = cls
        · have hset : ∀ k, setSerializer classes n built cls k = .ok b → b cls = none := by
            intro k h
            rcases setSerializer_eq h with ⟨hn, _⟩ | ⟨cd', m, hcd', hbc, rfl⟩
            · rw [hcd] at hn; cases hn
            · rw [hcd] at hcd'; cases hcd'
              cases m with
              | none => simp
              | some m =>
                cases k with
                | false => rw [buildClass_incomplete (by simp)] at hbc; cases hbc
                | true =>
                  refine absurd ?_ (fails built m hb)
                  have : { cd with complete := cd.complete && true } = cd := by rw [hcomp]; cases cd; cases hcomp; rfl
                  rw [this] at hbc
                  exact hbc
          cases e with
          | statement d k => cases he; exact hset k hr
          | rebuild d k =>
            cases he
            simp only [Event.run, Event.cls] at hr hset hb ⊢
            split at hr
            · exact hset k hr
            · rw [← Except.ok.inj hr]; exact hb
        · rw [run_other he hr]; exact hb
  exact key es .empty rfl

/-- C57 (partial): a class that has an XML representation without discriminated unions (it is supported whatever classes have been
built) is built as soon as its forward references are resolved, whichever classes it refers to (itself, classes defined
later, classes that are not complete) and whatever has happened before.  Missing: discriminated unions, see
`C57_recursive_union` and `C57_counterexample`. -/
theorem C57_recursive_partial (classes : Classes) (hc : classes.Proper) (cls : String) (cd : ClassDef) (hcd : classes cls = some cd)
    (hcomp : cd.complete = true) (hp : cd.Proper) (hpl : cd.Plain) (r : Bool) (d : Dict String Schema)
    (hs : Strips [] cd.schema d (.model cls r)) (hd : PlainDefs d) (h : cd.Supported classes Built.empty.Keyed d) :
    ∃ N, ∀ n, N ≤ n → ∀ (before after : List Event) (e : Event), e.cls = cls → e.complete = true →
      (∀ e' ∈ after, ∀ k, e' ≠ .statement cls k) →
      ∃ m, history classes n (before ++ e :: after) .empty cls = some m := by
  obtain ⟨N, m, hm⟩ := (C28_class_accepted hc cls cd hcd hcomp hp hpl r d hs hd).2 h
  refine ⟨N, ?_⟩
  intro n hn before after e he hk hafter
  subst he
  refine C56_complete classes n before after e cd hcd hcomp hk ?_ hafter
  have hb : ∀ built, buildClass classes built n cd = .ok (some m) := fun built =>
    buildClass_keeps classes (built := .empty) (fun _ _ h => by cases h) n cd _ (buildClass_fuel classes .empty hn cd _ hm)
  have hset : ∀ built, ∃ b, setSerializer classes n built e.cls true = .ok b := by
    intro built
    have : { cd with complete := cd.complete && true } = cd := by rw [hcomp]; cases cd; cases hcomp; rfl
    simp only [setSerializer, hcd, this, hb]
    exact ⟨_, rfl⟩
  cases e with
  | statement c k => cases hk; exact hset _
  | rebuild c k =>
    cases hk
    simp only [Event.run]
    split
    · exact hset _
    · exact ⟨_, rfl⟩

end

namespace Def

/-- The classes of the program, in the order of their definition. -/
def inOrder : List Event := ["Address", "Dog", "Cat", "Person"].map fun c => .statement c true

/-- `Person` comes first, with forward references; it is rebuilt too early, and again when all classes are there. -/
def forward : List Event :=
  [.statement "Person" false, .rebuild "Person" false, .statement "Cat" true, .statement "Address" true,
   .statement "Dog" true, .rebuild "Person" true, .rebuild "Cat" true]

theorem inOrder_eq : history classes 9 inOrder .empty = fun x => if x = "Person" then built "Person" else
    if x = "Cat" then built "Cat" else if x = "Dog" then built "Dog" else if x = "Address" then built "Address" else none := by
  kernel_rfl

theorem forward_eq : history classes 9 forward .empty = fun x => if x = "Person" then built "Person" else
    if x = "Dog" then built "Dog" else if x = "Address" then built "Address" else if x = "Cat" then built "Cat" else
    if x = "Person" then none else none := by
  kernel_rfl

/-- Non-vacuity of `C56_stays`, `C56_complete`, `C56_order`, `C56_alike`: both programs build the four classes. -/
example : (history classes 9 inOrder .empty "Person").isSome ∧ (history classes 9 forward .empty "Person").isSome ∧
    (∃ b, (Event.rebuild "Person" true).run classes 9 (history classes 9 (forward.take 5) .empty) = .ok b) ∧
    ∀ c, (history classes 9 inOrder .empty c).isSome = (history classes 9 forward .empty c).isSome := by
  refine ⟨by kernel_rfl, by kernel_rfl, 
    ⟨((Event.rebuild "Person" true).run classes 9 (history classes 9 (forward.take 5) .empty)).toOption.getD .empty,
      by kernel_rfl⟩, ?_⟩
  intro c
  rw [inOrder_eq, forward_eq]
  simp only
  repeat' split
  all_goals first | rfl | (subst_vars; simp_all)

/-- Non-vacuity of `C56_incomplete`. -/
example : ∀ e ∈ forward.take 5, e.cls = "Person" → e.complete = false := by decide

/-- A class with a discriminated union that has the class itself among its members:
`class Branch(BaseXmlModel): kind: Literal['branch'] = attr(); next: Optional[Union[Dog, 'Branch']] = Field(discriminator='kind')`. -/
def branch : ClassDef where
  name := "Branch"
  schema := .definitions [("Branch", .model "Branch" false)] (.ref "Branch")
  body := .fields
    [{ name := "kind", schema := .prim "literal", infos := [.mk (some .attribute) none none none none none] },
     { name := "next", schema := .nullable (.tagged (some "kind") [(some "dog", .model "Dog" false), (some "branch", .ref "Branch")]) }] []

def recursive : Classes
  | "Dog" => some dog
  | "Branch" => some branch
  | _ => none

/-- Negation witness for C57 (classes may refer to themselves): whatever
is defined and rebuilt, in whatever order, reading and writing `Branch` is an `AssertionError`. -/
theorem C57_counterexample (n : Nat) (es : List Event) (env : Env) (henv : env.model = history recursive n es .empty)
    (eas : Bool) (k : Nat) (root : Node) (fl : Flags) (v : Val) :
    (fromXmlTree env eas k "Branch" root).1 = .crash .assertionError ∧ toXmlTree env k fl "Branch" v = .crash .assertionError := by
  have hn : env.model "Branch" = none := by
    rw [henv]
    have hst : Strips [("Branch", .model "Branch" false)] (.ref "Branch") [("Branch", .model "Branch" false)] (.model "Branch" false) :=
      .ref rfl (.done rfl)
    refine C57_recursive_union recursive ?_ "Branch" branch rfl rfl ?_ ?_ false [("Branch", .model "Branch" false)]
      (.definitions hst) ?_ _ [] rfl
      { name := "next", schema := .nullable (.tagged (some "kind") [(some "dog", .model "Dog" false), (some "branch", .ref "Branch")]) }
      (by simp) rfl _ _ (.nullable (.done rfl)) (some "branch", .ref "Branch") (by simp) false hst n es
    · intro c cd h
      unfold recursive at h
      split at h <;> cases h
      · exact ⟨by decide, fun m hm => by cases hm⟩
      · exact ⟨by decide, fun m hm => by cases hm⟩
    · refine ⟨by decide, fun m hm => (by cases hm), ?_⟩
      refine ⟨?_, fun c hc => by cases hc⟩
      intro f hf
      simp only [List.mem_cons, List.not_mem_nil, or_false] at hf
      rcases hf with rfl | rfl
      · refine ⟨by decide, fun i hi => ?_⟩
        simp only [List.mem_singleton] at hi
        subst hi
        exact infos_ok
      · exact ⟨by decide, fun i hi => by cases hi⟩
    · refine ⟨?_, fun c hc => by cases hc⟩
      intro f hf
      simp only [List.mem_cons, List.not_mem_nil, or_false] at hf
      rcases hf with rfl | rfl
      · exact .prim
      · refine .nullable (.tagged ?_)
        intro c hc
        simp only [List.mem_cons, List.not_mem_nil, or_false] at hc
        rcases hc with rfl | rfl
        · exact .model
        · exact .ref
    · intro r s h
      simp only [Dict.get?] at h
      split at h
      · cases h; exact .model
      · cases h
  constructor
  · simp [fromXmlTree, hn]
  · simp [toXmlTree, hn]

/-- The forward references of `Branch` can be resolved, and `Dog` is usable. -/
example : (history recursive 9 [.statement "Dog" true, .statement "Branch" true] .empty "Dog").isSome := by kernel_rfl

/-- `class Tree(BaseXmlModel, tag='tree'): name: str = attr(); children: List['Tree']; owner: Optional['Person']` -/
def tree : ClassDef where
  name := "Tree"
  params := { tag := some "tree" }
  schema := .definitions [("Tree", .model "Tree" false)] (.ref "Tree")
  body := .fields
    [{ name := "name", schema := .prim "str", infos := [.mk (some .attribute) none none none none none] },
     { name := "children", schema := .list (.ref "Tree") },
     { name := "owner", schema := .nullable (.model "Person" false) }] []

def treeClasses : Classes
  | "Tree" => some tree
  | c => classes c

theorem tree_proper : treeClasses.Proper := by
  intro c cd h
  unfold treeClasses at h
  split at h
  · cases h; exact ⟨by decide, fun m hm => by cases hm⟩
  · exact proper _ _ h

theorem tree_built : (buildClass treeClasses .empty 9 tree).toOption.bind id =
    some (((buildClass treeClasses .empty 9 tree).toOption.bind id).getD ⟨"", "", none, .fields [], none, false, false⟩) := by kernel_rfl

/-- Non-vacuity of `C57_recursive_partial`: `Tree` meets its hypotheses although `Person` is not there. -/
example : treeClasses.Proper ∧ tree.Proper ∧ tree.Plain ∧ ∃ d, Strips [] tree.schema d (.model "Tree" false) ∧ PlainDefs d ∧
    tree.Supported treeClasses Built.empty.Keyed d := by
  have hst : Strips [] tree.schema [("Tree", .model "Tree" false)] (.model "Tree" false) :=
    .definitions (.ref rfl (.done rfl))
  have hp : tree.Proper := by
    refine ⟨by decide, fun m hm => (by cases hm), ?_⟩
    refine ⟨?_, fun c hc => by cases hc⟩
    intro f hf
    simp only [List.mem_cons, List.not_mem_nil, or_false] at hf
    rcases hf with rfl | rfl | rfl
    · refine ⟨by decide, fun i hi => ?_⟩
      simp only [List.mem_singleton] at hi
      subst hi
      exact infos_ok
    · exact ⟨by decide, fun i hi => by cases hi⟩
    · exact ⟨by decide, fun i hi => by cases hi⟩
  have hpl : tree.Plain := by
    refine ⟨?_, fun c hc => by cases hc⟩
    intro f hf
    simp only [List.mem_cons, List.not_mem_nil, or_false] at hf
    rcases hf with rfl | rfl | rfl
    · exact .prim
    · exact .list .ref
    · exact .nullable .model
  have hd : PlainDefs [("Tree", .model "Tree" false)] := by
    intro r s h
    simp only [Dict.get?] at h
    split at h
    · cases h; exact .model
    · cases h
  refine ⟨tree_proper, hp, hpl, _, hst, hd, ?_⟩
  refine (C28_class_accepted tree_proper "Tree" tree rfl rfl hp hpl false _ hst hd).1 ⟨9, ?_⟩
  cases h : buildClass treeClasses .empty 9 tree with
  | error e => have := tree_built; rw [h] at this; cases this
  | ok m =>
    cases m with
    | none => have := tree_built; rw [h] at this; cases this
    | some m => exact ⟨m, rfl⟩

end Def

end PXml
