import Verif.Props.Writing

/-!
# Writing with either backend: C38
-/

namespace PXml

open Elem

mutual
/-- The element without namespace maps and line numbers. -/
def Elem.bare : Elem → Elem
  | ⟨tag, _, text, tail, attrib, elements, next, _⟩ =>
    { tag := tag, text := text, tail := tail, attrib := attrib, elements := Elem.bareList elements, next := next }
def Elem.bareList : List Elem → List Elem
  | [] => []
  | e :: es => e.bare :: Elem.bareList es
end

theorem bareList_eq (l : List Elem) : bareList l = l.map bare := by
  induction l with
  | nil => rfl
  | cons e l ih => simp [bareList, ih]

theorem bare_eq (e : Elem) : e.bare = ⟨e.tag, none, e.text, e.tail, e.attrib, e.elements.map bare, e.next, -1⟩ := by
  cases e; simp [bare, bareList_eq]

theorem bare_tag (e : Elem) : e.bare.tag = e.tag := by rw [bare_eq]

theorem firstFrom_bare (t : String) (l : List Elem) (k : Nat) : firstFrom t (l.map bare) k = firstFrom t l k := by
  induction l generalizing k with
  | nil => rfl
  | cons c l ih => simp only [List.map_cons, firstFrom, bare_tag, ih]

theorem swap_bare (l : List Elem) (i j : Nat) : swap (l.map bare) i j = (swap l i j).map bare := by
  unfold swap
  simp only [List.getElem?_map]
  cases l[i]? <;> cases l[j]? <;> simp [List.map_set]

theorem search_bare (e : Elem) (t : String) (m : Mode) (step : Bool) :
    e.bare.search t m step = ((e.search t m step).1, (e.search t m step).2.bare) := by
  have hf : e.bare.firstMatch t = e.firstMatch t := by
    simp only [firstMatch, bare_eq, ← List.map_drop, firstFrom_bare]
  cases m with
  | strict =>
    simp only [search, strictSearch]
    rw [bare_eq]
    simp only [List.getElem?_map]
    cases e.elements[e.next]? with
    | none => simp [bare_eq]
    | some c =>
      simp only [Option.map_some, bare_tag]
      split
      · cases step <;> simp [bare_eq]
      · simp [bare_eq]
  | ordered =>
    simp only [search, orderedSearch, hf]
    cases e.firstMatch t with
    | none => simp
    | some i => cases step <;> simp [bare_eq]
  | unordered =>
    simp only [search, unorderedSearch, hf]
    cases e.firstMatch t with
    | none => simp
    | some i => rw [bare_eq]; simp only [swap_bare]; simp [bare_eq]

theorem findElement_bare (e : Elem) (t : String) (m : Mode) :
    e.bare.findElement t m = (e.findElement t m).map fun r => (r.1, r.2.bare) := by
  have hl : e.bare.lookBehind t = e.lookBehind t := by
    simp only [lookBehind, bare_eq, List.getElem?_map]
    split
    · rfl
    · cases e.elements[e.next - 1]? with
      | none => rfl
      | some c => simp [bare_eq]
  simp only [findElement, hl]
  cases e.lookBehind t with
  | error x => rfl
  | ok b =>
    cases b with
    | true => simp [Except.map, bind, Except.bind, bare_eq]
    | false => simp only [bind, Except.bind, search_bare, Except.map]; rfl

/-- The outcome without namespace maps and line numbers. -/
def Out.bare : Out Elem → Out Elem
  | .ok e => .ok e.bare
  | o => o

theorem bind_bare {o : Out Elem} {o' : Out Elem} (h : o.bare = o') {f g : Elem → Out Elem} (hf : ∀ e, (f e).bare = g e.bare) :
    (o.bind f).bare = o'.bind g := by
  subst h
  cases o with
  | ok e => exact hf e
  | _ => rfl

theorem append_bare (e c : Elem) : (e.append c).bare = e.bare.append c.bare := by simp [bare_eq, Elem.append]

theorem isEmpty_bare (e : Elem) : e.bare.isEmpty = e.isEmpty := by
  rw [bare_eq]
  simp [isEmpty]

theorem unlessEmpty_bare (fl : Flags) (e c : Elem) : (appendUnlessEmpty fl e c).bare = appendUnlessEmpty fl e.bare c.bare := by
  unfold appendUnlessEmpty
  rw [isEmpty_bare]
  split
  · rfl
  · exact append_bare _ _

theorem makeElement_bare (b : Backend) (t : String) (ns : Option NsMap) : (makeElement b t ns).bare = makeElement .std t ns := by
  rw [bare_eq]
  rfl

mutual
theorem fromNative_bare (b : Backend) (n : Node) : (fromNative b n).bare = fromNative .std n := by
  cases n with
  | elem tag attrib nsmap text tail cs line => simp [fromNative, bare, fromNativeList_bare b cs, sourceLine]
  | comment => rfl
  | pi => rfl
theorem fromNativeList_bare (b : Backend) (l : List Node) : bareList (fromNativeList b l) = fromNativeList .std l := by
  cases l with
  | nil => rfl
  | cons n l =>
    simp only [fromNativeList]
    split
    · exact fromNativeList_bare b l
    · simp only [bareList, fromNative_bare b n, fromNativeList_bare b l]
end

mutual
theorem toNative_bare (b : Backend) (e : Elem) : (toNative b e).dropPrefixes = toNative .std e.bare := by
  cases e with
  | mk tag nsmap text tail attrib elements next line =>
    simp only [toNative, bare, Node.dropPrefixes, toNativeList_bare b elements]
    rfl
theorem toNativeList_bare (b : Backend) (l : List Elem) :
    Node.dropPrefixesList (toNativeList b l) = toNativeList .std (bareList l) := by
  cases l with
  | nil => rfl
  | cons e l => simp only [toNativeList, bareList, Node.dropPrefixesList, toNative_bare b e, toNativeList_bare b l]
end

theorem serText_bare (env : Env) (nl : Bool) (fl : Flags) (e : Elem) (v enc : Val) :
    (serText env nl fl e v enc).bare = serText { env with backend := .std } nl fl e.bare v enc := by
  have henc : encodePrimitive { env with backend := .std } enc = encodePrimitive env enc := by cases enc <;> rfl
  unfold serText
  rw [henc]
  split
  · rfl
  · split <;> simp [bare_eq, setText, makeNil, setAttribute]

theorem serAttrs_bare (env : Env) (a : AttrsSer) (e : Elem) (v enc : Val) :
    (serAttrs env a e v enc).bare = serAttrs { env with backend := .std } a e.bare v enc := by
  have hstr : ∀ v, pyStr { env with backend := .std } v = pyStr env v := by intro v; cases v <;> rfl
  unfold serAttrs
  split
  · rfl
  · simp only [hstr]
    cases enc <;> simp [Out.bare, bare_eq, setAttributes]

theorem ascend_bare (b : Backend) (mode : Mode) (ns : Option NsMap) {f g : Elem → Out Elem} (hf : ∀ e, (f e).bare = g e.bare)
    (path : List String) (e : Elem) : (ascend b mode ns f path e).bare = ascend .std mode ns g path e.bare := by
  induction path generalizing e with
  | nil => exact hf e
  | cons t ts ih =>
    unfold ascend
    rw [findElement_bare]
    cases e.findElement t mode with
    | error x => rfl
    | ok r =>
      obtain ⟨o, el⟩ := r
      cases o with
      | none =>
        simp only [Except.map]
        refine bind_bare (by rw [ih, makeElement_bare]) fun c => ?_
        simp only [Out.bare, append_bare]
      | some i =>
        simp only [Except.map]
        rw [show el.bare.elements[i]? = (el.elements[i]?).map bare by rw [bare_eq]; simp]
        cases el.elements[i]? with
        | none => rfl
        | some c =>
          simp only [Option.map_some]
          refine bind_bare (ih c) fun c' => ?_
          simp only [Out.bare, setChild, bare_eq, List.map_set]

theorem serItems_bare {f g : Elem → Val → Val → Out Elem} (hf : ∀ e v enc, (f e v enc).bare = g e.bare v enc) (fl : Flags)
    (vs encs : List Val) (e : Elem) : (serItems f fl vs encs e).bare = serItems g fl vs encs e.bare := by
  induction vs generalizing encs e with
  | nil => rfl
  | cons v vs ih =>
    cases encs with
    | nil => rfl
    | cons enc encs =>
      unfold serItems
      split
      · exact ih _ _
      · exact bind_bare (hf _ _ _) fun e => ih _ _

theorem serTuple_bare {f g : Ser → Elem → Val → Val → Out Elem} (hf : ∀ s e v enc, (f s e v enc).bare = g s e.bare v enc)
    (ss : List Ser) (vs encs : List Val) (e : Elem) : (serTuple f ss vs encs e).bare = serTuple g ss vs encs e.bare := by
  induction ss generalizing vs encs e with
  | nil => rfl
  | cons s ss ih =>
    cases vs with
    | nil => rfl
    | cons v vs =>
      cases encs with
      | nil => rfl
      | cons enc encs =>
        unfold serTuple
        exact bind_bare (hf _ _ _ _) fun e => ih _ _ _

theorem bind_same {α : Type} (o : Out α) {f g : α → Out Elem} (hf : ∀ a, (f a).bare = g a) : (o.bind f).bare = o.bind g := by
  cases o with
  | ok a => exact hf a
  | _ => rfl

theorem serFields_bare {f g : Ser → Elem → Val → Val → Out Elem} (hf : ∀ s e v enc, (f s e v enc).bare = g s e.bare v enc)
    (fl : Flags) (self : Val) (fields : Dict String Val) (set : List String) (enc : Val) (fs : List Field)
    (hfs : ∀ x ∈ fs, x.serializer = none) (e : Elem) :
    (serFields f fl self fields set enc fs e).bare = serFields g fl self fields set enc fs e.bare := by
  induction fs generalizing e with
  | nil => rfl
  | cons x fs ih =>
    have ih := fun e => ih (fun y hy => hfs y (by simp [hy])) e
    unfold serFields
    rw [hfs x (by simp)]
    split
    · exact ih _
    · split
      · exact ih _
      · refine bind_bare ?_ ih
        exact bind_same _ fun v => bind_same _ fun y => hf _ _ _ _

theorem serModel_bare {f g : Flags → Ser → Elem → Val → Val → Out Elem} (hf : ∀ fl s e v enc, (f fl s e v enc).bare = g fl s e.bare v enc)
    (m : ModelSer) (hm : ∀ fs, m.body = .fields fs → ∀ x ∈ fs, x.serializer = none) (fl : Flags) (e : Elem) (v enc : Val) :
    (serModel f m fl e v enc).bare = serModel g m fl e.bare v enc := by
  unfold serModel
  cases v with
  | none => rfl
  | model cls fields set =>
    simp only
    cases hb : m.body with
    | fields fs => exact serFields_bare (hf _) _ _ _ _ _ _ (hm fs hb) _
    | root s =>
      simp only
      split
      · rfl
      · exact bind_same _ fun rv => hf _ _ _ _ _
  | _ => rfl

theorem ser_bare (env : Env) (hns : env.NoSerializers) (n : Nat) (fl : Flags) (s : Ser) (e : Elem) (v enc : Val) :
    (ser env n fl s e v enc).bare = ser { env with backend := .std } n fl s e.bare v enc := by
  induction n generalizing fl s e v enc with
  | zero => rfl
  | succ n ih =>
    change (serStep env (ser env n) fl s e v enc).bare =
      serStep { env with backend := .std } (ser { env with backend := .std } n) fl s e.bare v enc
    have henc : encodePrimitive { env with backend := .std } enc = encodePrimitive env enc := by cases enc <;> rfl
    cases s with
    | text c nl => simp only [serStep, Out.bare, serText_bare]
    | attr k c =>
      simp only [serStep, henc]
      split
      · rfl
      · simp [Out.bare, setAttribute, bare_eq]
    | elem nm ns m c nl =>
      simp only [serStep]
      split
      · rfl
      · simp only [Out.bare, unlessEmpty_bare, serText_bare, makeElement_bare]
    | attrs a => exact serAttrs_bare env a e v enc
    | mapElem a nm m =>
      simp only [serStep]
      split
      · split
        · rfl
        · rfl
        · refine bind_bare (by rw [serAttrs_bare, makeElement_bare]) fun c => ?_
          simp only [Out.bare, unlessEmpty_bare]
      · refine bind_bare (by rw [serAttrs_bare, makeElement_bare]) fun c => ?_
        simp only [Out.bare, append_bare]
    | raw nm m c =>
      cases v <;> simp [serStep, Out.bare, unlessEmpty_bare, fromNative_bare]
    | proxy p =>
      simp only [serStep]
      cases hm : env.model p.cls with
      | none => rfl
      | some m =>
        simp only
        split
        · rfl
        · split
          · simp only [Out.bare, append_bare]
            rw [show (makeElement env.backend p.name p.nsmap).makeNil.bare = (makeElement .std p.name p.nsmap).makeNil by
              rw [bare_eq]; rfl]
          · split
            · rfl
            · refine bind_bare ?_ fun c => ?_
              · rw [← makeElement_bare env.backend]
                exact serModel_bare (fun fl s e v enc => ih fl s e v enc) m (fun fs hb x hx => hns _ _ _ hm hb x hx) _ _ _ _
              · simp only [Out.bare, unlessEmpty_bare]
    | primUnion c inner => exact ih _ _ _ _ _
    | modelUnion t c alts =>
      cases v <;> simp only [serStep] <;> try rfl
      split
      · exact ih _ _ _ _ _
      · rfl
    | tagged c d a m alts =>
      simp only [serStep]
      split
      · split
        · split
          · rfl
          · split
            · exact ih _ _ _ _ _
            · rfl
        · rfl
        · rfl
        · rfl
      · rfl
    | wrap path ns m c inner =>
      simp only [serStep]
      split
      · rfl
      · split
        · rfl
        · exact ascend_bare _ _ _ (fun e => ih _ _ _ _ _) _ _
    | homog t c inner =>
      simp only [serStep]
      split
      · rfl
      · split
        · exact serItems_bare (fun e v enc => ih _ _ _ _ _) _ _ _ _
        · rfl
    | hetero t c inners =>
      simp only [serStep]
      split
      · rfl
      · split
        · split
          · rfl
          · split
            · rfl
            · exact serTuple_bare (fun s e v enc => ih fl s e v enc) _ _ _ _
        · rfl

/-- The outcome of writing without namespace prefix declarations. -/
def Out.dropPrefixes : Out Node → Out Node
  | .ok n => .ok n.dropPrefixes
  | o => o

theorem toXmlTree_bare (env : Env) (hns : env.NoSerializers) (n : Nat) (fl : Flags) (cls : String) (v : Val) :
    (toXmlTree env n fl cls v).dropPrefixes = (toXmlTree { env with backend := .std } n fl cls v).dropPrefixes := by
  have key : ∀ b, (toXmlTree { env with backend := b } n fl cls v).dropPrefixes =
      match env.model cls with
      | none => .crash .assertionError
      | some m => (serModel (ser { env with backend := .std } n) m fl ({ tag := m.elementName, nsmap := m.nsmap } : Elem).bare v
          (env.toJsonable v)).bind fun root => .ok (toNative .std root) := by
    intro b
    unfold toXmlTree
    cases hm : env.model cls with
    | none => rfl
    | some m =>
      simp only
      rw [← serModel_bare (f := ser { env with backend := b } n) (fun fl s e v enc => ser_bare { env with backend := b } hns n fl s e v enc)
        m (fun fs hb x hx => hns _ _ _ hm hb x hx)]
      cases serModel (ser { env with backend := b } n) m fl { tag := m.elementName, nsmap := m.nsmap } v (env.toJsonable v) with
      | ok e => simp only [Out.bind, Out.bare, Out.dropPrefixes, toNative_bare]
      | _ => rfl
  have h1 := key env.backend
  have h2 := key .std
  rw [show ({ env with backend := env.backend } : Env) = env from rfl] at h1
  rw [h1, h2]

/-- C38 (writing): both backends build the same tree, namespace prefix declarations left aside, or fail alike. -/
theorem C38_backends_write_alike (env : Env) (hns : env.NoSerializers) (n : Nat) (fl : Flags) (cls : String) (v : Val) :
    (toXmlTree { env with backend := .lxml } n fl cls v).dropPrefixes = (toXmlTree { env with backend := .std } n fl cls v).dropPrefixes :=
  toXmlTree_bare { env with backend := .lxml } hns n fl cls v

/-- Non-vacuity of C38 (writing): the person is written by both. -/
example : ∃ t, (toXmlTree (Ex.env .strict .lxml) 9 {} "Person" Ex.ann).dropPrefixes = .ok t ∧
    (toXmlTree (Ex.env .strict .std) 9 {} "Person" Ex.ann).dropPrefixes = .ok t := ⟨_, rfl, rfl⟩

end PXml
