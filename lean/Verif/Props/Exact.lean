import Verif.Props.Reading
import Verif.Props.Writing
import Verif.Props.Hooks

/-!
# Exact versions of C17, C29 and C55

These properties hold with exceptions.  The theorems here say exactly what happens, exceptions included.
-/

namespace PXml

/-! ## C17 -/

/-- The kinds of field that write nothing for `None` with `exclude_none`: all but a dictionary in an element of its own and a tagged
union. -/
def Ser.SkipsNone : Ser → Bool
  | .mapElem _ _ _ | .tagged _ _ _ _ _ => false
  | .primUnion _ s => s.SkipsNone
  | _ => true

/-- The class of a sub-model field is built. -/
def Ser.HeadResolved (env : Env) : Ser → Prop
  | .proxy p => (env.model p.cls).isSome
  | .primUnion _ s => s.HeadResolved env
  | _ => True

theorem append_ne (el sub : Elem) : el.append sub ≠ el := by
  intro h
  have := congrArg (fun e => e.elements.length) h
  simp [Elem.append] at this

/-- C17, exactly: with `exclude_none` a field whose value is `None` writes nothing if and only if it is neither a dictionary in an element of
its own nor a tagged union.  (The JSON form of `None` is `None`.) -/
theorem C17_exact (env : Env) (n : Nat) (fl : Flags) (hfl : fl.excludeNone = true) (s : Ser) (hr : s.HeadResolved env) (el : Elem)
    (h : ser env n fl s el .none .none ≠ .diverge) : ser env n fl s el .none .none = .ok el ↔ s.SkipsNone = true := by
  induction n generalizing s with
  | zero => exact absurd rfl h
  | succ n ih =>
    simp only [ser] at h ⊢
    cases s with
    | mapElem a nm m =>
      simp only [Ser.SkipsNone, Bool.false_eq_true, iff_false, serStep, serAttrs, Val.isNone, if_true, Out.bind]
      split
      · simp [Val.len?]
      · intro h
        injection h with h
        exact append_ne _ _ h
    | tagged c d a m alts => simp [serStep, Ser.SkipsNone]
    | primUnion c inner => exact ih inner hr h
    | proxy p =>
      obtain ⟨m, hm⟩ := Option.isSome_iff_exists.1 hr
      simp [serStep, hm, hfl, Val.isNone, Ser.SkipsNone]
    | _ => simp [serStep, serText, serAttrs, hfl, Val.isNone, Ser.SkipsNone]

/-- C17, for a whole instance: with `exclude_none` the document is the one written by the class without the fields that are `None` and
neither a dictionary in an element of its own nor a tagged union. -/
theorem C17_fields (env : Env) (n : Nat) (fl : Flags) (hfl : fl.excludeNone = true) (fields : Dict String Val) (set : List String)
    (cls : String) (d : Dict String Val) (fs : List Field) (hserializer : ∀ f ∈ fs, f.serializer = none)
    (hr : ∀ f ∈ fs, f.ser.HeadResolved env) (hd : ∀ f ∈ fs, fields.get? f.name = some .none → d.get? f.name = some .none) (el : Elem)
    (hdiv : ∀ f ∈ fs, ∀ el, ser env n fl f.ser el .none .none ≠ .diverge) :
    serFields (ser env n fl) fl (.model cls fields set) fields set (.dict d) fs el =
      serFields (ser env n fl) fl (.model cls fields set) fields set (.dict d)
        (fs.filter fun f => !((match fields.get? f.name with | some .none => true | _ => false) && f.ser.SkipsNone)) el := by
  induction fs generalizing el with
  | nil => rfl
  | cons f fs ih =>
    have ih' := fun el => ih (fun f hf => hserializer f (by simp [hf])) (fun f hf => hr f (by simp [hf])) (fun f hf => hd f (by simp [hf])) el
      (fun f hf => hdiv f (by simp [hf]))
    by_cases hnone : fields.get? f.name = some .none ∧ f.ser.SkipsNone = true
    · rw [List.filter_cons_of_neg (by simp [hnone.1, hnone.2]), ← ih' el]
      conv => lhs; unfold serFields
      split
      · rfl
      · split
        · rfl
        · have h1 := hserializer f (by simp)
          simp only [h1, getAttr, hnone.1, Out.bind, getItem, hd f (by simp) hnone.1,
            (C17_exact env n fl hfl f.ser (hr f (by simp)) el (hdiv f (by simp) el)).2 hnone.2]
    · rw [List.filter_cons_of_pos (by
        cases hv : fields.get? f.name with
        | none => rfl
        | some v =>
          cases v <;> first | rfl | (simp only [hv, true_and, Bool.not_eq_true] at hnone; simp [hnone]))]
      conv => lhs; unfold serFields
      conv => rhs; unfold serFields
      split
      · exact ih' el
      · split
        · exact ih' el
        · congr 1
          funext el'
          exact ih' el'

/-- Non-vacuity of the exact C17: a person without nickname, mails and address. -/
example : ∀ f ∈ [({ name := "nick", ser := .elem "nick" none .strict false true } : Field),
      { name := "mails", ser := .homog "Person" false (.elem "mail" none .strict false false) },
      { name := "home", ser := .proxy { cls := "Address", name := "home" } }],
    f.ser.HeadResolved (Ex.env) ∧ f.ser.SkipsNone = true ∧ ser (Ex.env) 2 { excludeNone := true } f.ser { tag := "person" } .none .none ≠ .diverge := by
  intro f hf
  simp only [List.mem_cons, List.not_mem_nil, or_false] at hf
  rcases hf with rfl | rfl | rfl <;> exact ⟨by simp [Ser.HeadResolved, Ex.env, Ex.model], rfl, by intro h; cases h⟩

/-! ## C29 -/

/-- The text of the element itself, not nillable, possibly as a union of primitive types. -/
inductive Ser.PlainText : Ser → Prop
  | text : PlainText (.text false false)
  | primUnion {s : Ser} : PlainText s → PlainText (.primUnion false s)

theorem Ser.PlainText.read {env : Env} {s : Ser} (h : s.PlainText) (n : Nat) (loc : Loc) (st : St) :
    (deser env true n s loc st).1 = .diverge ∨ ∃ t, (deser env true n s loc st).1 = .ok (.str t) := by
  induction h generalizing n with
  | text => cases n with
    | zero => exact .inl rfl
    | succ n =>
      refine .inr ⟨st.el.text.getD "", ?_⟩
      have ht : textVal true st.el.text = .str (st.el.text.getD "") := by
        cases st.el.text with
        | none => rfl
        | some t => by_cases h : t = "" <;> simp [textVal, h]
      rw [← ht]
      rfl
  | primUnion _ ih => cases n with
    | zero => exact .inl rfl
    | succ n =>
      simp only [deser, deserStep, Bool.false_eq_true, if_false]
      exact ih n

theorem textItems_loop {env : Env} {s : Ser} (h : s.PlainText) (k : Nat) (loc : Loc) (fuel idx : Nat) (acc : List Val) (errs : Dict ErrKey VErr)
    (st : St) : (homogLoop (fun loc st => deser env true k s loc st) loc fuel idx acc errs st).1 = .diverge := by
  induction fuel generalizing idx acc errs st with
  | zero => rfl
  | succ fuel ih =>
    unfold homogLoop
    cases hd : deser env true k s (loc ++ [.idx idx]) st with
    | mk o st' =>
      rcases h.read (env := env) k (loc ++ [.idx idx]) st with h' | ⟨t, h'⟩
      · rw [hd] at h'
        simp only at h'
        subst h'
        rfl
      · rw [hd] at h'
        simp only at h'
        subst h'
        exact ih _ _ _ _

theorem textItems_diverge {env : Env} {s : Ser} (h : s.PlainText) (n : Nat) (title : Title) (loc : Loc) (st : St) :
    (deser env true n (.homog title false s) loc st).1 = .diverge := by
  cases n with
  | zero => rfl
  | succ n =>
    simp only [deser, deserStep, Bool.false_eq_true, if_false]
    cases hl : homogLoop (fun loc st => deser env true n s loc st) loc n 0 [] [] st with
    | mk o st' =>
      have := textItems_loop (env := env) h n loc n 0 [] [] st
      rw [hl] at this
      simp only at this
      subst this
      rfl

theorem deserFields_diverge {rec : Ser → Loc → St → Out Val × St} (pre : List Field) (f : Field) (post : List Field) (hv : f.validator = none)
    (hf : ∀ loc st, (rec f.ser loc st).1 = .diverge) (st : St) (hpre : ∀ o ∈ (runFields rec pre st).1, ∀ e, o ≠ .crash e)
    (res : Dict String Val) (errs : Dict ErrKey VErr) : (deserFields rec (pre ++ f :: post) res errs st).1 = .diverge := by
  induction pre generalizing st res errs with
  | nil =>
    simp only [List.nil_append, deserFields, hv]
    cases hd : rec f.ser [.name f.name] { st with sm := st.sm.set [.name f.name] st.el.line } with
    | mk o st' =>
      have := hf [.name f.name] { st with sm := st.sm.set [.name f.name] st.el.line }
      rw [hd] at this
      simp only at this
      subst this
      rfl
  | cons g pre ih =>
    simp only [runFields, List.mem_cons, forall_eq_or_imp] at hpre
    obtain ⟨h1, h2⟩ := hpre
    simp only [List.cons_append, deserFields]
    simp only [readField] at h1 h2
    cases hg : g.validator with
    | none =>
      simp only [hg] at h1 h2 ⊢
      cases hd : rec g.ser [.name g.name] { st with sm := st.sm.set [.name g.name] st.el.line } with
      | mk o st' =>
        rw [hd] at h1 h2
        cases o with
        | ok v => exact ih _ h2 _ _
        | verr e => exact ih _ h2 _ _
        | crash e => exact absurd rfl (h1 e)
        | diverge => rfl
    | some w =>
      simp only [hg] at h1 h2 ⊢
      cases hd : w st.el with
      | mk o el' =>
        rw [hd] at h1 h2
        cases o with
        | ok v => exact ih _ h2 _ _
        | verr e => exact ih _ h2 _ _
        | crash e => exact absurd rfl (h1 e)
        | diverge => rfl

/-- C29, the exception in general: with `empty_as_string` reading never ends for any class with a field that is a list of the texts of the
element itself, whatever the document, unless a field before it raises an exception that is no validation error. -/
theorem C29_never_ends (env : Env) (cls : String) (m : ModelSer) (pre post : List Field) (f : Field) (title : Title) (s : Ser)
    (hm : env.model cls = some m) (hb : m.body = .fields (pre ++ f :: post)) (hv : f.validator = none) (hf : f.ser = .homog title false s)
    (hs : s.PlainText) (root : Node) (htag : root.tag = m.elementName)
    (hpre : ∀ n, ∀ o ∈ (runFields (deser env true n) pre ⟨fromNative env.backend root, []⟩).1, ∀ e, o ≠ .crash e) :
    ∀ n, (fromXmlTree env true n cls root).1 = .diverge := by
  intro n
  simp only [fromXmlTree, hm, htag, if_true, deserModel, hb]
  cases hd : deserFields (deser env true n) (pre ++ f :: post) [] [] ⟨fromNative env.backend root, []⟩ with
  | mk o st =>
    have := deserFields_diverge (rec := deser env true n) pre f post hv (fun loc st => by rw [hf]; exact textItems_diverge hs n title loc st)
      ⟨fromNative env.backend root, []⟩ (hpre n) [] []
    rw [hd] at this
    simp only at this
    subst this
    rfl

/-- Non-vacuity: the class `Bad`, any document with its tag. -/
example (n : Nat) (text : Option String) : (fromXmlTree Ex.bad true n "Bad" (Ex.el "bad" text)).1 = .diverge :=
  C29_never_ends Ex.bad "Bad" _ [] [] _ _ _ rfl rfl rfl rfl (.primUnion .text) _ rfl (fun n o h => by simp [runFields] at h) n

/-! ## C55 -/

section
variable {F : Type}

/-- The method of that name, if it is decorated for the field. -/
def Mro.claimant (mro : Mro F) (claims : Member F → List String) (field name : String) : Option F :=
  match mro.getattr name with
  | some m => if m.truthy && (claims m).contains field then some m.func else none
  | none => none

theorem claimant_iff (mro : Mro F) (base : List String) (claims : Member F → List String) (k a : String) (f : F) (ha : a ∉ base) :
    mro.claimant claims k a = some f ↔ mro.Claims base claims k a f := by
  unfold Mro.claimant Mro.Claims
  cases mro.getattr a with
  | none => simp
  | some m =>
    simp only [ha, not_false_eq_true, true_and, Option.some.injEq, exists_eq_left']
    by_cases h1 : m.truthy = true <;> by_cases h2 : k ∈ claims m
    · simp only [h1, h2, List.contains_iff_mem, Bool.and_self, if_true, Option.some.injEq, true_and]
      simp [h2, eq_comm]
    · simp [h1, h2]
    · simp [h1]
    · simp [h1]

theorem claimStep_get? (mro : Mro F) (claims : Member F → List String) (k a : String) (d : Dict String F) :
    Dict.get? (claimStep mro claims a d) k = (mro.claimant claims k a).or (Dict.get? d k) := by
  unfold claimStep Mro.claimant
  cases mro.getattr a with
  | none => simp
  | some m =>
    simp only
    cases m.truthy with
    | false => simp
    | true =>
      simp only [if_true, Bool.true_and]
      generalize claims m = l
      induction l generalizing d with
      | nil => simp
      | cons x l ih =>
        rw [List.foldl_cons, ih, Dict.get?_set]
        by_cases hx : x = k
        · subst hx
          by_cases hl : x ∈ l <;> simp [hl]
        · have hx' : ¬ k = x := fun h => hx h.symm
          by_cases hl : k ∈ l <;> simp [hl, hx, hx']

theorem claimed_last (mro : Mro F) (claims : Member F → List String) (k : String) (order : List String) (d : Dict String F) :
    Dict.get? (claimed mro claims order d) k = ((order.filterMap (mro.claimant claims k)).getLast?).or (Dict.get? d k) := by
  induction order generalizing d with
  | nil => simp [claimed]
  | cons a order ih =>
    simp only [claimed]
    rw [ih, claimStep_get?]
    cases hc : mro.claimant claims k a with
    | none => simp [hc]
    | some f =>
      rw [List.filterMap_cons_some hc]
      cases hl : order.filterMap (mro.claimant claims k) with
      | nil => simp
      | cons y l => simp [List.getLast?_eq_some_getLast]

/-- C55, exactly: the validator of a field is the method decorated for it that comes last in the order in which Python enumerates the
attributes of the class; if there is none, the last `XmlFieldValidator` in the metadata of the field.  The same for serializers. -/
theorem C55_exact (mro : Mro F) (order : List String) (fields : List (String × List (Metadatum F))) (hf : Dict.WF fields) (k : String) :
    Dict.get? (collectValidators fields mro order) k =
      ((order.filterMap (mro.claimant Member.validates k)).getLast?).or ((Dict.get? fields k).bind (lastOf Metadatum.validator?)) ∧
    Dict.get? (collectSerializers fields mro order) k =
      ((order.filterMap (mro.claimant Member.serializes k)).getLast?).or ((Dict.get? fields k).bind (lastOf Metadatum.serializer?)) := by
  constructor
  · unfold collectValidators
    rw [claimed_last, annotated_get? _ fields hf]
    simp only [Dict.get?, Option.or_none]
    rfl
  · unfold collectSerializers
    rw [claimed_last, annotated_get? _ fields hf]
    simp only [Dict.get?, Option.or_none]
    rfl

/-- A case of the exact C55: of two methods decorated for `x` the one enumerated last counts. -/
example : Dict.get? (collectValidators [("x", [.validator 3])]
    [[("a", { func := 1, validates := ["x"] }), ("b", { func := 2, validates := ["x"] })]] ["b", "a"]) "x" = some 1 := by decide

end

end PXml
