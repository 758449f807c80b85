import Verif.SpecVocabulary
import Verif.Props.Declarations
import Verif.Props.Special

/-!
# The output has the structure that the classes declare: C76
-/

namespace PXml

open Elem

variable {V : Vocabulary} {At : String → String → Prop}

/-- `Node.Speaks` of the element under construction. -/
inductive Elem.Speaks (V : Vocabulary) : Elem → Prop
  | mk {e : Elem} : (∀ k ∈ Dict.keys (e.attrib.getD []), V.attr e.tag k) → (e.text ≠ none → V.text e.tag) → e.tail = none →
      (∀ c ∈ e.elements, ¬V.free e.tag → V.child e.tag c.tag) → (∀ c ∈ e.elements, ¬V.free e.tag → c.Speaks V) → e.Speaks V

theorem speaks_iff {e : Elem} : e.Speaks V ↔ (∀ k ∈ Dict.keys (e.attrib.getD []), V.attr e.tag k) ∧ (e.text ≠ none → V.text e.tag) ∧
    e.tail = none ∧ (∀ c ∈ e.elements, ¬V.free e.tag → V.child e.tag c.tag) ∧ (∀ c ∈ e.elements, ¬V.free e.tag → c.Speaks V) :=
  ⟨fun h => by cases h with | mk h1 h2 h3 h4 h5 => exact ⟨h1, h2, h3, h4, h5⟩, fun h => .mk h.1 h.2.1 h.2.2.1 h.2.2.2.1 h.2.2.2.2⟩

theorem speaks_make (b : Backend) (t : String) (ns : Option NsMap) : (makeElement b t ns).Speaks V := by
  rw [speaks_iff]; simp [makeElement, Dict.keys]

theorem speaks_append {e c : Elem} (h : e.Speaks V) (hd : ¬V.free e.tag → V.child e.tag c.tag) (hc : ¬V.free e.tag → c.Speaks V) :
    (e.append c).Speaks V := by
  rw [speaks_iff] at h ⊢
  obtain ⟨h1, h2, h3, h4, h5⟩ := h
  refine ⟨h1, h2, h3, fun x hx => ?_, fun x hx => ?_⟩ <;>
    simp only [Elem.append, List.mem_append, List.mem_singleton] at hx <;> rcases hx with hx | rfl
  · exact h4 x hx
  · exact hd
  · exact h5 x hx
  · exact hc

theorem speaks_text {e : Elem} {s : String} (h : e.Speaks V) (ht : V.text e.tag) : (e.setText s).Speaks V := by
  rw [speaks_iff] at h ⊢
  exact ⟨h.1, fun _ => ht, h.2.2⟩

theorem mem_keys_set {d : Dict String String} {k v x : String} (hx : x ∈ Dict.keys (Dict.set d k v)) : x ∈ Dict.keys d ∨ x = k := by
  rw [Dict.keys_set] at hx
  split at hx
  · exact .inl hx
  · simpa using hx

theorem mem_keys_update {l : List (String × String)} {d : Dict String String} {x : String} (hx : x ∈ Dict.keys (Dict.update d l)) :
    x ∈ Dict.keys d ∨ x ∈ l.map Prod.fst := by
  induction l generalizing d with
  | nil => exact .inl hx
  | cons a l ih =>
    rcases ih hx with h | h
    · rcases mem_keys_set h with h | rfl
      · exact .inl h
      · exact .inr (by simp)
    · exact .inr (by simp [h])

theorem speaks_attr {e : Elem} {k v : String} (h : e.Speaks V) (hk : V.attr e.tag k) : (e.setAttribute k v).Speaks V := by
  rw [speaks_iff] at h ⊢
  refine ⟨fun x hx => ?_, h.2⟩
  rcases mem_keys_set hx with hx | rfl
  · exact h.1 x hx
  · exact hk

/-- What is kept while writing. -/
def KeepsTo (V : Vocabulary) (e : Elem) (o : Out Elem) : Prop :=
  ∀ e', o = .ok e' → e.Speaks V → e'.Speaks V ∧ e'.tag = e.tag

theorem KeepsTo.id {e : Elem} : KeepsTo V e (.ok e) := by
  intro e' h hs; injection h with h; subst h; exact ⟨hs, rfl⟩

theorem KeepsTo.bind {e : Elem} {o : Out Elem} {f : Elem → Out Elem} (h : KeepsTo V e o) (hf : ∀ a, a.tag = e.tag → KeepsTo V a (f a)) :
    KeepsTo V e (o.bind f) := by
  intro e' h1 hs
  obtain ⟨a, h2, h3⟩ := bind_ok h1
  obtain ⟨ha, ht⟩ := h a h2 hs
  obtain ⟨hb, ht'⟩ := hf a ht e' h3 ha
  exact ⟨hb, ht'.trans ht⟩

theorem KeepsTo.pre {α : Type} {e : Elem} {o : Out α} {f : α → Out Elem} (hf : ∀ a, KeepsTo V e (f a)) : KeepsTo V e (o.bind f) := by
  intro e' h1 hs
  obtain ⟨a, _, h3⟩ := bind_ok h1
  exact hf a e' h3 hs

theorem KeepsTo.crash {e : Elem} {x : PyErr} : KeepsTo V e (.crash x) := by intro e' h; cases h

theorem KeepsTo.append {e c : Elem} (hd : V.child e.tag c.tag) (hc : c.Speaks V) : KeepsTo V e (.ok (e.append c)) := by
  intro x h hs; injection h with h; subst h
  exact ⟨speaks_append hs (fun _ => hd) fun _ => hc, rfl⟩

theorem KeepsTo.any {fl : Flags} {e c : Elem} (hd : V.free e.tag) : KeepsTo V e (.ok (appendUnlessEmpty fl e c)) := by
  intro x h hs; injection h with h; subst h
  unfold appendUnlessEmpty
  split
  · exact ⟨hs, rfl⟩
  · exact ⟨speaks_append hs (fun h => absurd hd h) fun h => absurd hd h, rfl⟩

theorem KeepsTo.unlessEmpty {fl : Flags} {e c : Elem} (hd : V.child e.tag c.tag) (hc : c.Speaks V) :
    KeepsTo V e (.ok (appendUnlessEmpty fl e c)) := by
  unfold appendUnlessEmpty
  split
  · exact .id
  · exact .append hd hc

/-- A sub-element is built first, then appended. -/
theorem KeepsTo.sub {e c : Elem} (hd : V.child e.tag c.tag) (hc : c.Speaks V) {o : Out Elem} (ho : KeepsTo V c o) {f : Elem → Out Elem}
    (hf : ∀ a : Elem, V.child e.tag a.tag → a.Speaks V → KeepsTo V e (f a)) : KeepsTo V e (o.bind f) := by
  intro e' h1 hs
  obtain ⟨a, h2, h3⟩ := bind_ok h1
  obtain ⟨h4, h5⟩ := ho a h2 hc
  exact hf a (by rw [h5]; exact hd) h4 e' h3 hs

theorem serText_keeps (env : Env) (nl : Bool) (fl : Flags) (e : Elem) (v enc : Val) (h1 : V.text e.tag)
    (h2 : nl = true → V.attr e.tag nilAttr) : KeepsTo V e (.ok (serText env nl fl e v enc)) := by
  intro e' he hs
  injection he with he
  subst he
  unfold serText
  split
  · exact ⟨hs, rfl⟩
  · split
    · rename_i h
      simp only [Bool.and_eq_true] at h
      exact ⟨speaks_text (speaks_attr hs (h2 h.1)) h1, rfl⟩
    · exact ⟨speaks_text hs h1, rfl⟩

theorem serAttrs_keeps (env : Env) (a : AttrsSer) (e : Elem) (v enc : Val) (h : ∀ k, V.attr e.tag (QName.uri ⟨k, a.space⟩)) :
    KeepsTo V e (serAttrs env a e v enc) := by
  cases hv : v.isNone with
  | true => unfold serAttrs; rw [hv]; exact .id
  | false =>
    rw [serAttrs_space env a e v enc hv]
    split
    · intro e' he hs
      injection he with he
      subst he
      refine ⟨?_, rfl⟩
      rw [speaks_iff] at hs ⊢
      refine ⟨fun x hx => ?_, hs.2⟩
      rcases mem_keys_update hx with hx | hx
      · cases hx
      · simp only [List.map_map, List.mem_map] at hx
        obtain ⟨kv, -, rfl⟩ := hx
        exact h kv.1
    · exact .crash

/-- What a search leaves alone, too. -/
theorem search_rest {e : Elem} {t : String} {m : Mode} {b : Bool} : (e.search t m b).2.attrib = e.attrib ∧ (e.search t m b).2.text = e.text ∧
    (e.search t m b).2.tail = e.tail := by
  cases m with
  | strict =>
    simp only [search, strictSearch]
    split
    · split
      · cases b <;> exact ⟨rfl, rfl, rfl⟩
      · exact ⟨rfl, rfl, rfl⟩
    · exact ⟨rfl, rfl, rfl⟩
  | ordered =>
    simp only [search, orderedSearch]
    split
    · cases b <;> exact ⟨rfl, rfl, rfl⟩
    · exact ⟨rfl, rfl, rfl⟩
  | unordered =>
    simp only [search, unorderedSearch]
    split <;> exact ⟨rfl, rfl, rfl⟩

theorem findElement_rest {e e' : Elem} {t : String} {m : Mode} {o : Option Nat} (hf : e.findElement t m = .ok (o, e')) :
    e'.attrib = e.attrib ∧ e'.text = e.text ∧ e'.tail = e.tail := by
  unfold findElement at hf
  cases hl : e.lookBehind t with
  | error x => rw [hl] at hf; cases hf
  | ok b =>
    rw [hl] at hf
    simp only [bind, Except.bind] at hf
    split at hf
    · injection hf with hf; injection hf with _ hf; subst hf; exact ⟨rfl, rfl, rfl⟩
    · injection hf with hf
      have := search_rest (e := e) (t := t) (m := m) (b := true)
      rw [hf] at this
      exact this

theorem ascend_keeps (b : Backend) (mode : Mode) (ns : Option NsMap) {f : Elem → Out Elem} (path : List String) (e : Elem)
    (hf : ∀ c, c.tag = path.getLast?.getD e.tag → KeepsTo V c (f c)) (hp : V.Path e.tag path) : KeepsTo V e (ascend b mode ns f path e) := by
  induction path generalizing e with
  | nil => exact hf e rfl
  | cons t ts ih =>
    have ih : ∀ c : Elem, c.tag = t → KeepsTo V c (ascend b mode ns f ts c) := by
      intro c hc
      refine ih c (fun x hx => hf x ?_) (by rw [hc]; exact hp.2)
      rw [hx, hc, List.getLast?_cons]
      rfl
    unfold ascend
    intro e' h hs
    cases hfe : e.findElement t mode with
    | error x => rw [hfe] at h; cases h
    | ok r =>
      obtain ⟨o, el⟩ := r
      obtain ⟨hel, htag, -⟩ := findElement_same hfe
      have hrest := findElement_rest hfe
      have hel : el.Speaks V := by
        rw [speaks_iff] at hs ⊢
        rw [hrest.1, hrest.2.1, hrest.2.2, htag]
        exact ⟨hs.1, hs.2.1, hs.2.2.1, fun c hc => hs.2.2.2.1 c (hel c hc), fun c hc => hs.2.2.2.2 c (hel c hc)⟩
      rw [hfe] at h
      cases o with
      | none =>
        simp only at h
        obtain ⟨c, h2, h3⟩ := bind_ok h
        injection h3 with h3; subst h3
        obtain ⟨hc, hct⟩ := ih _ rfl c h2 (speaks_make _ _ _)
        exact ⟨speaks_append hel (fun _ => by rw [hct, htag]; exact hp.1) fun _ => hc, htag⟩
      | some i =>
        simp only at h
        obtain ⟨_, c0, hc0, ht0⟩ := findElement_index hfe
        rw [hc0] at h
        simp only at h
        obtain ⟨c, h2, h3⟩ := bind_ok h
        injection h3 with h3; subst h3
        obtain ⟨s1, s2, s3, s4, s5⟩ := speaks_iff.1 hel
        have hmem := List.mem_of_getElem? hc0
        refine ⟨speaks_iff.2 ⟨s1, s2, s3, ?_, ?_⟩, htag⟩
        · intro x hx hfree
          rcases List.mem_or_eq_of_mem_set hx with hx | rfl
          · exact s4 x hx hfree
          · rw [(ih _ ht0 x h2 (s5 c0 hmem hfree)).2]; exact s4 c0 hmem hfree
        · intro x hx hfree
          rcases List.mem_or_eq_of_mem_set hx with hx | rfl
          · exact s5 x hx hfree
          · exact (ih _ ht0 x h2 (s5 c0 hmem hfree)).1

theorem serItems_keeps {f : Elem → Val → Val → Out Elem} (fl : Flags) (vs encs : List Val) (e : Elem)
    (hf : ∀ c v enc, c.tag = e.tag → KeepsTo V c (f c v enc)) : KeepsTo V e (serItems f fl vs encs e) := by
  induction vs generalizing encs e with
  | nil => exact .id
  | cons v vs ih =>
    cases encs with
    | nil => exact .id
    | cons enc encs =>
      unfold serItems
      split
      · exact ih _ _ hf
      · exact (hf _ _ _ rfl).bind fun c hc => ih _ _ fun x v enc hx => hf x v enc (hx.trans hc)

theorem serTuple_keeps {f : Ser → Elem → Val → Val → Out Elem} (ss : List Ser) (vs encs : List Val) (e : Elem)
    (hf : ∀ s ∈ ss, ∀ c v enc, c.tag = e.tag → KeepsTo V c (f s c v enc)) : KeepsTo V e (serTuple f ss vs encs e) := by
  induction ss generalizing vs encs e with
  | nil => exact .id
  | cons s ss ih =>
    cases vs with
    | nil => exact .id
    | cons v vs =>
      cases encs with
      | nil => exact .id
      | cons enc encs =>
        unfold serTuple
        exact (hf s (by simp) _ _ _ rfl).bind fun c hc => ih _ _ _ fun s hs x v enc hx => hf s (by simp [hs]) x v enc (hx.trans hc)

theorem serFields_keeps {f : Ser → Elem → Val → Val → Out Elem} (fl : Flags) (self : Val) (fields : Dict String Val)
    (set : List String) (enc : Val) (fs : List Field) (hfs : ∀ x ∈ fs, x.serializer = none) (e : Elem)
    (hf : ∀ x ∈ fs, ∀ c v enc, c.tag = e.tag → KeepsTo V c (f x.ser c v enc)) : KeepsTo V e (serFields f fl self fields set enc fs e) := by
  induction fs generalizing e with
  | nil => exact .id
  | cons x fs ih =>
    have ih := fun (c : Elem) (hc : c.tag = e.tag) => ih (fun y hy => hfs y (by simp [hy])) c
      (fun y hy z v enc hz => hf y (by simp [hy]) z v enc (hz.trans hc))
    unfold serFields
    rw [hfs x (by simp)]
    split
    · exact ih _ rfl
    · split
      · exact ih _ rfl
      · exact KeepsTo.bind (KeepsTo.pre fun v => KeepsTo.pre fun y => hf x (by simp) _ _ _ rfl) ih

theorem serModel_keeps {f : Flags → Ser → Elem → Val → Val → Out Elem} (e : Elem)
    (hf : ∀ fl s c v enc, c.tag = e.tag → s.DeclaredIn V At e.tag → KeepsTo V c (f fl s c v enc))
    (m : ModelSer) (hm : ∀ fs, m.body = .fields fs → ∀ x ∈ fs, x.serializer = none) (he : m.DeclaredIn V At e.tag)
    (fl : Flags) (v enc : Val) : KeepsTo V e (serModel f m fl e v enc) := by
  unfold serModel
  cases v with
  | none => exact .id
  | model cls fields set =>
    simp only
    cases hb : m.body with
    | fields fs =>
      simp only [ModelSer.DeclaredIn, hb] at he
      exact serFields_keeps _ _ _ _ _ _ (hm fs hb) _ fun x hx c v enc hc => hf _ _ _ _ _ hc (he x hx)
    | root s =>
      simp only [ModelSer.DeclaredIn, hb] at he
      simp only
      split
      · exact .id
      · exact .pre fun rv => hf _ _ _ _ _ rfl he
  | _ => exact .crash

theorem allDeclaredIn {t : String} : ∀ {ss : List Ser}, Ser.AllDeclaredIn V At t ss → ∀ s ∈ ss, s.DeclaredIn V At t
  | [], _, _, h => by cases h
  | _ :: _, h, s, hs => by
    rcases List.mem_cons.1 hs with rfl | hs
    · exact h.1
    · exact allDeclaredIn h.2 s hs

theorem ser_keeps (env : Env) (hns : env.NoSerializers) (hE : env.DeclaredIn V At) (n : Nat) (fl : Flags) (s : Ser) (e : Elem) (v enc : Val)
    (hs : s.DeclaredIn V At e.tag) : KeepsTo V e (ser env n fl s e v enc) := by
  induction n generalizing fl s e v enc with
  | zero => intro e' h; cases h
  | succ n ih =>
    change KeepsTo V e (serStep env (ser env n) fl s e v enc)
    cases s with
    | text c nl =>
      simp only [Ser.DeclaredIn] at hs
      exact serText_keeps _ _ _ _ _ _ hs.1 hs.2
    | attr k c =>
      simp only [Ser.DeclaredIn] at hs
      simp only [serStep]
      split
      · exact .id
      · intro e' he h
        injection he with he
        subst he
        exact ⟨speaks_attr h hs, rfl⟩
    | elem nm ns m c nl =>
      simp only [Ser.DeclaredIn] at hs
      simp only [serStep]
      split
      · exact .id
      · obtain ⟨h1, h2⟩ := (serText_keeps (V := V) env nl fl (makeElement env.backend nm ns) v enc hs.2.1 hs.2.2) _ rfl (speaks_make _ _ _)
        exact .unlessEmpty (by rw [h2]; exact hs.1) h1
    | attrs a =>
      simp only [Ser.DeclaredIn] at hs
      exact serAttrs_keeps _ _ _ _ _ hs
    | mapElem a nm m =>
      simp only [Ser.DeclaredIn] at hs
      have hc : ∀ v enc, KeepsTo V (makeElement env.backend nm a.nsmap) (serAttrs env a (makeElement env.backend nm a.nsmap) v enc) :=
        fun v enc => serAttrs_keeps _ _ _ _ _ hs.2
      simp only [serStep]
      split
      · split
        · exact .crash
        · exact .id
        · exact .sub hs.1 (speaks_make _ _ _) (hc _ _) fun a h1 h2 => .unlessEmpty h1 h2
      · exact .sub hs.1 (speaks_make _ _ _) (hc _ _) fun a h1 h2 => .append h1 h2
    | raw nm m c =>
      simp only [Ser.DeclaredIn] at hs
      cases v <;> simp only [serStep] <;> first | exact .id | exact .crash | exact .any hs
    | proxy p =>
      simp only [Ser.DeclaredIn] at hs
      obtain ⟨h1, h2, h3⟩ := hs
      simp only [serStep]
      cases hm : env.model p.cls with
      | none => exact .crash
      | some m =>
        simp only
        split
        · exact .id
        · split
          · rename_i h
            simp only [Bool.and_eq_true] at h
            exact .append h1 (speaks_attr (speaks_make env.backend p.name p.nsmap) (h2 h.1))
          · split
            · exact .id
            · refine .sub (c := makeElement env.backend p.name p.nsmap) h1 (speaks_make _ _ _) ?_ fun a h1 h2 => .unlessEmpty h1 h2
              exact serModel_keeps (At := At) _ (fun fl s c v enc hc h => ih fl s c v enc (by rw [hc]; exact h)) m
                (fun fs hb x hx => hns _ _ _ hm hb x hx) (hE _ _ _ h3 hm) fl _ _
    | primUnion c inner =>
      simp only [Ser.DeclaredIn] at hs
      exact ih _ _ _ _ _ hs
    | modelUnion t c alts =>
      simp only [Ser.DeclaredIn] at hs
      cases v <;> simp only [serStep] <;> try exact .id
      split
      · rename_i p hp
        exact ih _ _ _ _ _ (by simp only [Ser.DeclaredIn]; exact hs p (List.mem_of_find?_eq_some hp))
      · exact .id
    | tagged c d a m alts =>
      simp only [Ser.DeclaredIn] at hs
      simp only [serStep]
      split
      · split
        · split
          · exact .id
          · split
            · rename_i p hp
              exact ih _ _ _ _ _ (by simp only [Ser.DeclaredIn]; exact hs (_, p) (Dict.mem_of_get? hp))
            · exact .crash
        · exact .id
        · exact .id
        · exact .crash
      · exact .crash
    | wrap path ns m c inner =>
      simp only [Ser.DeclaredIn] at hs
      simp only [serStep]
      split
      · exact .id
      · split
        · exact .id
        · exact ascend_keeps _ _ _ _ _ (fun c hc => ih _ _ _ _ _ (by rw [hc]; exact hs.2)) hs.1
    | homog t c inner =>
      simp only [Ser.DeclaredIn] at hs
      simp only [serStep]
      split
      · exact .id
      · split
        · exact serItems_keeps _ _ _ _ fun c v enc hc => ih _ _ _ _ _ (by rw [hc]; exact hs)
        · exact .crash
    | hetero t c inners =>
      simp only [Ser.DeclaredIn] at hs
      simp only [serStep]
      split
      · exact .id
      · split
        · split
          · exact .id
          · split
            · exact .crash
            · exact serTuple_keeps _ _ _ _ fun s hx c v enc hc => ih _ _ _ _ _ (by rw [hc]; exact allDeclaredIn hs s hx)
        · exact .crash

mutual
theorem speaks_native (b : Backend) (e : Elem) (h : e.Speaks V) : (toNative b e).Speaks V ∧ (toNative b e).tag = e.tag := by
  cases e with
  | mk tag nsmap text tail attrib elements next line =>
    rw [speaks_iff] at h
    obtain ⟨h1, h2, h3, h4, h5⟩ := h
    simp only [toNative, Node.Speaks, Node.tag, and_true]
    exact ⟨h1, h2, h3, speaks_native_list b tag elements (fun c hc hf => ⟨h4 c hc hf, h5 c hc hf⟩)⟩
theorem speaks_native_list (b : Backend) (t : String) (l : List Elem) (h : ∀ c ∈ l, ¬V.free t → V.child t c.tag ∧ c.Speaks V) :
    Node.SpeakIn V t (toNativeList b l) := by
  cases l with
  | nil => simp [toNativeList, Node.SpeakIn]
  | cons e l =>
    simp only [toNativeList, Node.SpeakIn]
    refine ⟨fun hf => ?_, speaks_native_list b t l fun c hc => h c (by simp [hc])⟩
    obtain ⟨hd, hs⟩ := h e (by simp) hf
    obtain ⟨h1, h2⟩ := speaks_native b e hs
    exact ⟨by rw [h2]; exact hd, h1⟩
end

/-- C76: whatever is written, and with whatever flags, is in the vocabulary of the classes: the root element is that of the class; every
element, attribute and text in the document stands where a field declares it; nothing follows the elements.  Only the content of raw
elements is arbitrary. -/
theorem C76_vocabulary (env : Env) (hns : env.NoSerializers) (V : Vocabulary) (At : String → String → Prop) (hE : env.DeclaredIn V At)
    (n : Nat) (fl : Flags) (cls : String) (v : Val) (m : ModelSer) (hm : env.model cls = some m) (hat : At cls m.elementName) (root : Node)
    (h : toXmlTree env n fl cls v = .ok root) : root.tag = m.elementName ∧ root.Speaks V := by
  unfold toXmlTree at h
  rw [hm] at h
  simp only at h
  obtain ⟨e, h1, h2⟩ := bind_ok h
  injection h2 with h2; subst h2
  obtain ⟨h3, h4⟩ := serModel_keeps (At := At) { tag := m.elementName, nsmap := m.nsmap }
    (fun fl s c v enc hc h => ser_keeps env hns hE n fl s c v enc (by rw [hc]; exact h)) m
    (fun fs hb x hx => hns _ _ _ hm hb x hx) (hE _ _ _ hat hm) fl v (env.toJsonable v) e h1 (by rw [speaks_iff]; simp [Dict.keys])
  obtain ⟨h5, h6⟩ := speaks_native env.backend e h3
  exact ⟨h6.trans h4, h5⟩

namespace Ex

/-- `<doc><x>text</x><w><y>text</y></w></doc>` -/
def nsWords : Vocabulary where
  attr _ _ := False
  child t c := (t = "{urn:a}doc" ∧ (c = "{urn:a}x" ∨ c = "{urn:b}w")) ∨ (t = "{urn:b}w" ∧ c = "{urn:b}y")
  text t := t = "{urn:a}x" ∨ t = "{urn:b}y"

theorem nsDeclared (b : Backend) : (nsEnv b).DeclaredIn nsWords fun cls t => cls = "Doc" ∧ t = "{urn:a}doc" := by
  rintro cls t m ⟨rfl, rfl⟩ hm
  simp only [nsEnv, if_true, Option.some.injEq] at hm
  subst hm
  simp [ModelSer.DeclaredIn, nsDoc, Ser.DeclaredIn, nsWords, Vocabulary.Path]

/-- Non-vacuity: all documents of the class, with either library, and a document that is written. -/
example (b : Backend) (n : Nat) (fl : Flags) (v : Val) (root : Node) (h : toXmlTree (nsEnv b) n fl "Doc" v = .ok root) :
    root.tag = "{urn:a}doc" ∧ root.Speaks nsWords :=
  C76_vocabulary (nsEnv b) (nsNoSerializers b) nsWords _ (nsDeclared b) n fl "Doc" v nsDoc rfl ⟨rfl, rfl⟩ root h

example : toXmlTree (nsEnv .lxml) 9 {} "Doc" nsVal = .ok nsTree := nsWritten

/-- Not everything is in the vocabulary: no attribute is. -/
example (k s : String) : ¬(Node.elem "{urn:a}doc" [(k, s)] [] none none [] none).Speaks nsWords := by
  simp [Node.Speaks, Dict.keys, nsWords]

end Ex

end PXml
