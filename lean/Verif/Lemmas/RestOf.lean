import Verif.SpecPlace
import Verif.Lemmas.FieldOrder
import Verif.Lemmas.SimEq
import Verif.Props.Order

/-! Where the values of fields come from. -/

namespace PXml

open Elem

/-- The element is what is left of the node: parts of it may have been taken, but the children that have not been visited are untouched. -/
inductive Elem.RestOf (b : Backend) : Node → Elem → Prop
  | mk {node : Node} {e : Elem} (pick : Elem → Node) : e.tag = node.tag → (e.text = none ∨ e.text = node.rootText) →
      (∀ kv ∈ e.attrib.getD [], kv ∈ node.rootAttrs) →
      (∀ c ∈ e.unread, ∃ k ∈ node.children, k.isComment = false ∧ c = fromNative b k) →
      (∀ c ∈ e.elements, pick c ∈ node.children ∧ (pick c).isComment = false) → (∀ c ∈ e.elements, RestOf b (pick c) c) →
      RestOf b node e

namespace Elem.RestOf
variable {b : Backend} {node : Node} {e : Elem}

theorem intro (h1 : e.tag = node.tag) (h2 : e.text = none ∨ e.text = node.rootText) (h3 : ∀ kv ∈ e.attrib.getD [], kv ∈ node.rootAttrs)
    (h4 : ∀ c ∈ e.unread, ∃ k ∈ node.children, k.isComment = false ∧ c = fromNative b k)
    (h5 : ∀ c ∈ e.elements, ∃ k ∈ node.children, k.isComment = false ∧ RestOf b k c) : RestOf b node e := by
  classical
  refine .mk (fun c => if h : ∃ k ∈ node.children, k.isComment = false ∧ RestOf b k c then h.choose else node) h1 h2 h3 h4 ?_ ?_
  · intro c hc
    have h := h5 c hc
    simp only [h, dif_pos]
    exact ⟨h.choose_spec.1, h.choose_spec.2.1⟩
  · intro c hc
    have h := h5 c hc
    simp only [h, dif_pos]
    exact h.choose_spec.2.2

theorem tag (h : RestOf b node e) : e.tag = node.tag := by cases h; assumption
theorem text (h : RestOf b node e) : e.text = none ∨ e.text = node.rootText := by cases h; assumption
theorem attrs (h : RestOf b node e) : ∀ kv ∈ e.attrib.getD [], kv ∈ node.rootAttrs := by cases h; assumption
theorem fresh (h : RestOf b node e) : ∀ c ∈ e.unread, ∃ k ∈ node.children, k.isComment = false ∧ c = fromNative b k := by
  cases h; assumption
theorem kids (h : RestOf b node e) : ∀ c ∈ e.elements, ∃ k ∈ node.children, k.isComment = false ∧ RestOf b k c := by
  cases h with
  | mk pick _ _ _ _ h5 h6 => exact fun c hc => ⟨pick c, (h5 c hc).1, (h5 c hc).2, h6 c hc⟩

/-- The document before anything is taken from it. -/
theorem ofNode (b : Backend) (node : Node) : RestOf b node (fromNative b node) := by
  have h : ∀ n, ∀ node : Node, sizeOf node ≤ n → RestOf b node (fromNative b node) := by
    intro n
    induction n with
    | zero => intro node h; cases node <;> simp at h
    | succ n ih =>
      intro node hn
      cases node with
      | elem tag attrib nsmap text tail cs line =>
        have hk : ∀ c ∈ (fromNative b (.elem tag attrib nsmap text tail cs line)).elements,
            ∃ k ∈ cs, k.isComment = false ∧ c = fromNative b k := by
          intro c hc
          simp only [fromNative, fromNativeList_eq, List.mem_map, List.mem_filter, Bool.not_eq_true'] at hc
          obtain ⟨k, ⟨h1, h2⟩, rfl⟩ := hc
          exact ⟨k, h1, h2, rfl⟩
        refine intro rfl (.inr rfl) (fun kv h => h) ?_ ?_
        · intro c hc
          exact hk c (List.mem_of_mem_drop hc)
        · intro c hc
          obtain ⟨k, h1, h2, rfl⟩ := hk c hc
          refine ⟨k, h1, h2, ih k ?_⟩
          have := List.sizeOf_lt_of_mem h1
          simp at hn
          omega
      | comment text tail => exact intro rfl (.inr rfl) (by simp [fromNative]) (by simp [fromNative, unread]) (by simp [fromNative])
      | pi text tail => exact intro rfl (.inr rfl) (by simp [fromNative]) (by simp [fromNative, unread]) (by simp [fromNative])
  exact h _ node (Nat.le_refl _)

theorem popText (h : RestOf b node e) : RestOf b node e.popText.2 := intro h.tag (.inl rfl) h.attrs h.fresh h.kids

theorem erase_mem {k : String} {d : Dict String String} {kv : String × String} (h : kv ∈ d.erase k) : kv ∈ d := by
  induction d with
  | nil => cases h
  | cons x d ih =>
    obtain ⟨a, v⟩ := x
    simp only [Dict.erase] at h
    split at h
    · exact List.mem_cons_of_mem _ h
    · rcases List.mem_cons.1 h with h | h
      · exact h ▸ List.mem_cons_self
      · exact List.mem_cons_of_mem _ (ih h)

theorem popAttrib (h : RestOf b node e) (k : String) : RestOf b node (e.popAttrib k).2 := by
  unfold Elem.popAttrib
  split
  · exact intro h.tag h.text (fun kv hkv => h.attrs kv (erase_mem hkv)) h.fresh h.kids
  · exact h

theorem popAttributes (h : RestOf b node e) : RestOf b node e.popAttributes.2 :=
  intro h.tag h.text (by simp [Elem.popAttributes]) h.fresh h.kids

theorem stepForward (h : RestOf b node e) : RestOf b node e.stepForward := by
  refine intro h.tag h.text h.attrs ?_ h.kids
  intro c hc
  refine h.fresh c ?_
  simp only [unread, Elem.stepForward, ← List.drop_drop] at hc
  simp only [unread]
  have : (e.elements.drop e.next).drop 1 = e.elements.drop (e.next + 1) := by rw [List.drop_drop]
  exact List.mem_of_mem_drop (i := 1) (this ▸ by simpa [List.drop_drop] using hc)

/-- Putting back a child that has been visited. -/
theorem setChild (h : RestOf b node e) {i : Nat} (hi : i < e.next) {k : Node} (hk : k ∈ node.children) (hc : k.isComment = false) {c' : Elem}
    (h' : RestOf b k c') : RestOf b node (e.setChild i c') := by
  refine intro h.tag h.text h.attrs ?_ ?_
  · intro c hc
    refine h.fresh c ?_
    simp only [unread, Elem.setChild] at hc ⊢
    rwa [List.drop_set_of_lt hi] at hc
  · intro c hc
    rcases List.mem_or_eq_of_mem_set hc with hc | rfl
    · exact h.kids c hc
    · exact ⟨k, hk, by assumption, h'⟩

/-- A search finds an untouched child. -/
theorem search (h : RestOf b node e) {t : String} {mode : Mode} {step : Bool} {o : Option Nat} {e' : Elem}
    (hs : e.search t mode step = (o, e')) :
    RestOf b node e' ∧ (step = true → ∀ i, o = some i → i < e'.next ∧ ∃ k ∈ node.children, k.isComment = false ∧ k.tag = t ∧
      e'.elements[i]? = some (fromNative b k)) := by
  have same : ∀ (l : List Elem) (n : Nat), l.Perm e.elements → (∀ c ∈ l.drop n, c ∈ e.unread) →
      RestOf b node { e with elements := l, next := n } := by
    intro l n hl hd
    exact intro h.tag h.text h.attrs (fun c hc => h.fresh c (hd c hc)) (fun c hc => h.kids c (hl.mem_iff.1 hc))
  have ofFresh : ∀ c ∈ e.unread, c.tag = t → ∃ k ∈ node.children, k.isComment = false ∧ k.tag = t ∧ c = fromNative b k := by
    intro c hc ht
    obtain ⟨k, h1, h2, rfl⟩ := h.fresh c hc
    exact ⟨k, h1, h2, by rw [← ht, fromNative_tag], rfl⟩
  cases mode with
  | strict =>
    simp only [Elem.search, strictSearch] at hs
    split at hs
    · rename_i c hc
      have hu : c ∈ e.unread := List.mem_of_getElem? (i := 0) (by simp only [unread, List.getElem?_drop, Nat.add_zero]; exact hc)
      split at hs
      · rename_i ht
        simp only [Prod.mk.injEq] at hs
        obtain ⟨rfl, rfl⟩ := hs
        refine ⟨?_, ?_⟩
        · split
          · exact same e.elements (e.next + 1) (.refl _) fun c hc => by
              have : e.elements.drop (e.next + 1) = (e.elements.drop e.next).drop 1 := by rw [List.drop_drop]
              rw [this] at hc
              exact List.mem_of_mem_drop hc
          · exact h
        · intro hstep i hi
          cases hi
          simp only [hstep, if_true]
          obtain ⟨k, h1, h2, h3, h4⟩ := ofFresh c hu ht
          exact ⟨by omega, k, h1, h2, h3, h4 ▸ hc⟩
      · cases hs; exact ⟨h, nofun⟩
    · cases hs; exact ⟨h, nofun⟩
  | ordered =>
    simp only [Elem.search, orderedSearch] at hs
    split at hs
    · rename_i i hm
      simp only [Prod.mk.injEq] at hs
      obtain ⟨rfl, rfl⟩ := hs
      obtain ⟨h3, ⟨c, h1, h2⟩, _⟩ := firstMatch_some hm
      have hu : c ∈ e.unread := List.mem_of_getElem? (i := i - e.next) (by simp only [unread, List.getElem?_drop]; rw [← h1]; congr 1; omega)
      refine ⟨?_, ?_⟩
      · split
        · exact same e.elements (i + 1) (.refl _) fun c hc => by
            have : e.elements.drop (i + 1) = (e.elements.drop e.next).drop (i + 1 - e.next) := by rw [List.drop_drop]; congr 1; omega
            rw [this] at hc
            exact List.mem_of_mem_drop hc
        · exact h
      · intro hstep j hj
        cases hj
        simp only [hstep, if_true]
        obtain ⟨k, g1, g2, g3, g4⟩ := ofFresh c hu h2
        exact ⟨by omega, k, g1, g2, g3, g4 ▸ h1⟩
    · cases hs; exact ⟨h, nofun⟩
  | unordered =>
    cases o with
    | none => obtain ⟨rfl, _⟩ := unordered_none hs; exact ⟨h, nofun⟩
    | some i =>
      have hf : e.next ≤ e.elements.length := by
        simp only [Elem.search, unorderedSearch] at hs
        split at hs
        · rename_i j hm
          obtain ⟨h3, ⟨c, h1, h2⟩, _⟩ := firstMatch_some hm
          have := (List.getElem?_eq_some_iff.1 h1).1
          omega
        · cases hs
      obtain ⟨c, rest, h1, h2, rfl, rfl⟩ := unordered_some hf hs
      have hl : (e.seen ++ c :: rest).Perm e.elements := by
        have : e.seen ++ e.unread = e.elements := List.take_append_drop _ _
        rw [← this]
        exact List.Perm.append_left _ h2.symm
      have h6 : e.seen.length = e.next := by simp only [seen, List.length_take]; omega
      refine ⟨same _ _ hl ?_, ?_⟩
      · intro x hx
        have hx : x ∈ c :: rest := by
          split at hx
          · rw [List.drop_append, List.drop_of_length_le (by omega), h6, Nat.add_sub_cancel_left] at hx
            exact List.mem_cons_of_mem _ hx
          · rw [List.drop_append, List.drop_of_length_le (by omega), h6, Nat.sub_self] at hx
            exact hx
        exact h2.mem_iff.2 hx
      · intro hstep i hi
        cases hi
        obtain ⟨k, g1, g2, g3, g4⟩ := ofFresh c (h2.mem_iff.2 List.mem_cons_self) h1
        refine ⟨by simp only [hstep, if_true]; omega, k, g1, g2, g3, ?_⟩
        rw [← g4]
        simp only
        rw [List.getElem?_append_right (by omega), h6, Nat.sub_self]
        rfl

/-- The step of a wrapper: a child that may have been visited before. -/
theorem find (h : RestOf b node e) {t : String} {mode : Mode} {o : Option Nat} {e' : Elem} (hs : e.findElement t mode = .ok (o, e')) :
    RestOf b node e' ∧ ∀ i, o = some i → i < e'.next ∧ ∃ k ∈ node.children, k.isComment = false ∧ k.tag = t ∧
      ∃ c, e'.elements[i]? = some c ∧ RestOf b k c := by
  unfold findElement at hs
  cases hl : e.lookBehind t with
  | error x => rw [hl] at hs; cases hs
  | ok x =>
    rw [hl] at hs
    cases x with
    | true =>
      simp only [bind, Except.bind, if_true] at hs
      cases hs
      refine ⟨h, ?_⟩
      rintro i hi
      cases hi
      unfold lookBehind at hl
      split at hl
      · cases hl
      · split at hl
        · rename_i hne c hc
          simp only [Except.ok.injEq, decide_eq_true_eq] at hl
          obtain ⟨k, h1, h2, h3⟩ := h.kids c (List.mem_of_getElem? hc)
          exact ⟨by omega, k, h1, h2, by rw [← h3.tag]; exact hl, c, hc, h3⟩
        · cases hl
    | false =>
      simp only [bind, Except.bind, Bool.false_eq_true, if_false, Except.ok.injEq] at hs
      obtain ⟨h1, h2⟩ := h.search hs
      refine ⟨h1, fun i hi => ?_⟩
      obtain ⟨a, k, c1, c2, c3, c4⟩ := h2 rfl i hi
      exact ⟨a, k, c1, c2, c3, _, c4, ofNode b k⟩

end Elem.RestOf

/-- Another tag for the element. -/
def St.retag (t : String) (st : St) : St := ⟨{ st.el with tag := t }, st.sm⟩

/-- The function pays no attention to the tag of the element. -/
def TagBlind {α : Type} (t : String) (f : St → Out α × St) : Prop := ∀ st, f (st.retag t) = ((f st).1, (f st).2.retag t)

section
variable {t : String}

theorem search_retag (e : Elem) (u : String) (m : Mode) (step : Bool) :
    ({ e with tag := t } : Elem).search u m step = ((e.search u m step).1, { (e.search u m step).2 with tag := t }) := by
  cases m with
  | strict =>
    simp only [search, strictSearch]
    split
    · split
      · split <;> rfl
      · rfl
    · rfl
  | ordered =>
    simp only [search, orderedSearch, firstMatch]
    split
    · split <;> rfl
    · rfl
  | unordered =>
    simp only [search, unorderedSearch, firstMatch]
    split <;> rfl

theorem popAttrib_retag (e : Elem) (k : String) :
    ({ e with tag := t } : Elem).popAttrib k = ((e.popAttrib k).1, { (e.popAttrib k).2 with tag := t }) := by
  unfold Elem.popAttrib
  simp only
  split <;> rfl

theorem onChild_retag {α : Type} (st : St) (i : Nat) (f : St → Out α × St) :
    onChild (st.retag t) i f = ((onChild st i f).1, (onChild st i f).2.retag t) := by
  unfold onChild St.retag
  simp only
  split <;> rfl

theorem popChild_retag {f : St → Out Val × St} (u : String) (m : Mode) : TagBlind t (fun st => match st.el.popElement u m with
    | (none, el) => (.ok .none, { st with el := el })
    | (some i, el) => onChild { st with el := el } i f) := by
  intro st
  simp only [popElement, St.retag]
  rw [search_retag]
  cases st.el.search u m true with
  | mk o e' =>
    cases o with
    | none => rfl
    | some i => exact onChild_retag ⟨e', st.sm⟩ i f

theorem deserText_retag (eas c nl : Bool) : TagBlind t (deserText eas c nl) := by
  intro st
  unfold deserText
  cases c with
  | true => rfl
  | false =>
    simp only [Bool.false_eq_true, if_false]
    cases nl with
    | false => rfl
    | true =>
      simp only [if_true, isNil, St.retag, popAttrib_retag]
      cases decide ((st.el.popAttrib nilAttr).1 = some "true") <;> rfl

theorem deserAttrs_retag (a : AttrsSer) : TagBlind t (deserAttrs a) := by
  intro st
  unfold deserAttrs
  split
  · rfl
  · simp only [popAttributes, St.retag]
    cases st.el.attrib <;> rfl

theorem descend_retag {f : St → Out Val × St} (hf : TagBlind t f) (m : Mode) (path : List String) : TagBlind t (descend m f path) := by
  cases path with
  | nil => exact hf
  | cons u us =>
    intro st
    simp only [descend]
    have hl : (st.retag t).el.lookBehind u = st.el.lookBehind u := rfl
    simp only [findElement, hl]
    cases st.el.lookBehind u with
    | error x => rfl
    | ok x =>
      cases x with
      | true =>
        simp only [bind, Except.bind, if_true]
        exact onChild_retag ⟨st.el, st.sm⟩ _ _
      | false =>
        simp only [bind, Except.bind, Bool.false_eq_true, if_false]
        have hs : (st.retag t).el.search u m true = _ := search_retag st.el u m true
        rw [hs]
        cases st.el.search u m true with
        | mk o e' =>
          cases o with
          | none => rfl
          | some i => exact onChild_retag ⟨e', st.sm⟩ i _

theorem homogLoop_retag {f : Loc → St → Out Val × St} (hf : ∀ l, TagBlind t (f l)) (loc : Loc) (n idx : Nat) (acc : List Val)
    (errs : Dict ErrKey VErr) : TagBlind t (homogLoop f loc n idx acc errs) := by
  induction n generalizing idx acc errs with
  | zero => intro st; rfl
  | succ n ih =>
    intro st
    unfold homogLoop
    rw [hf]
    cases f (loc ++ [.idx idx]) st with
    | mk o st' =>
      cases o with
      | ok v =>
        simp only
        split
        · rfl
        · exact ih _ _ _ st'
      | verr e => exact ih _ _ _ st'
      | crash e => rfl
      | diverge => rfl

theorem heteroLoop_retag {f : Ser → Loc → St → Out Val × St} (hf : ∀ s l, TagBlind t (f s l)) (loc : Loc) (ss : List Ser) (idx : Nat)
    (acc : List Val) (errs : Dict ErrKey VErr) : TagBlind t (heteroLoop f loc ss idx acc errs) := by
  induction ss generalizing idx acc errs with
  | nil => intro st; rfl
  | cons s ss ih =>
    intro st
    unfold heteroLoop
    rw [hf]
    cases f s (loc ++ [.idx idx]) st with
    | mk o st' =>
      cases o with
      | ok v => exact ih _ _ _ st'
      | verr e => exact ih _ _ _ st'
      | crash e => rfl
      | diverge => rfl

theorem unionLoop_retag {f : Proxy → St → Out Val × St} (hf : ∀ p, TagBlind t (f p)) (title : Title) (ps : List Proxy)
    (errs : Dict ErrKey VErr) : TagBlind t (unionLoop f title ps errs) := by
  induction ps generalizing errs with
  | nil =>
    intro st
    unfold unionLoop
    split <;> rfl
  | cons p ps ih =>
    intro st
    unfold unionLoop
    have h : f p ⟨(st.retag t).el.createSnapshot, (st.retag t).sm⟩ = _ := hf p ⟨st.el.createSnapshot, st.sm⟩
    rw [h]
    cases f p ⟨st.el.createSnapshot, st.sm⟩ with
    | mk o st' =>
      cases o with
      | ok v =>
        simp only
        split
        · exact ih _ ⟨st.el, st'.sm⟩
        · rfl
      | verr e => exact ih _ ⟨st.el, st'.sm⟩
      | crash e => rfl
      | diverge => rfl

theorem taggedLoop_retag {f : Proxy → St → Out Val × St} (hf : ∀ p, TagBlind t (f p)) (loc : Loc) (a : String) (m : Mode)
    (alts : List (String × Proxy)) : TagBlind t (taggedLoop f loc a m alts) := by
  induction alts with
  | nil => intro st; rfl
  | cons p alts ih =>
    intro st
    obtain ⟨tag, p⟩ := p
    unfold taggedLoop
    have hs : (st.retag t).el.search p.name m false = _ := search_retag st.el p.name m false
    rw [hs]
    cases st.el.search p.name m false with
    | mk o e' =>
      cases o with
      | none => exact ih ⟨e', st.sm⟩
      | some i =>
        simp only
        cases e'.elements[i]? with
        | none => rfl
        | some c =>
          simp only
          split
          · exact hf p ⟨e', st.sm.set loc c.line⟩
          · exact ih ⟨e', st.sm⟩

theorem deser_retag (env : Env) (eas : Bool) (n : Nat) (s : Ser) (loc : Loc) : TagBlind t (deser env eas n s loc) := by
  induction n generalizing s loc with
  | zero => intro st; rfl
  | succ n ih =>
    intro st
    change deserStep env eas (deser env eas n) n s loc _ = ((deserStep env eas (deser env eas n) n s loc st).1,
      (deserStep env eas (deser env eas n) n s loc st).2.retag t)
    unfold deserStep
    cases s with
    | text c nl => exact deserText_retag eas c nl st
    | attr nm c =>
      simp only
      split
      · rfl
      · simp only [St.retag, popAttrib_retag]
        cases st.el.popAttrib nm with
        | mk o e' => cases o <;> rfl
    | elem nm ns m c nl =>
      simp only
      split
      · rfl
      · exact popChild_retag nm m st
    | attrs a => exact deserAttrs_retag a st
    | mapElem a nm m =>
      simp only
      split
      · rfl
      · exact popChild_retag nm m st
    | raw nm m c =>
      simp only
      split
      · rfl
      · have hs : (st.retag t).el.search nm m true = _ := search_retag st.el nm m true
        simp only [popElementRemove, popElement]
        rw [hs]
        cases st.el.search nm m true with
        | mk o e' =>
          cases o with
          | none => rfl
          | some i =>
            simp only
            cases e'.elements[i]? <;> rfl
    | proxy p =>
      simp only
      split
      · rfl
      · split
        · rfl
        · exact popChild_retag p.name p.mode st
    | primUnion c s =>
      simp only
      split
      · rfl
      · exact ih s loc st
    | modelUnion title c alts =>
      simp only
      split
      · rfl
      · exact unionLoop_retag (fun p => ih (.proxy p) loc) title alts [] st
    | tagged c d a m alts =>
      simp only
      split
      · rfl
      · exact taggedLoop_retag (fun p => ih (.proxy p) loc) loc a m alts st
    | wrap path ns m c s =>
      simp only
      split
      · rfl
      · refine descend_retag (f := fun c => deser env eas n s loc { c with sm := c.sm.set loc c.el.line }) ?_ m path st
        intro st
        exact ih s loc ⟨st.el, st.sm.set loc st.el.line⟩
    | homog title c s =>
      simp only
      split
      · rfl
      · rw [homogLoop_retag (fun l => ih s l) loc n 0 [] [] st]
        cases homogLoop (fun loc st => deser env eas n s loc st) loc n 0 [] [] st with
        | mk o st' => cases o <;> rfl
    | hetero title c ss =>
      simp only
      split
      · rfl
      · rw [heteroLoop_retag (fun s l => ih s l) loc ss 0 [] [] st]
        cases heteroLoop (deser env eas n) loc ss 0 [] [] st with
        | mk o st' => cases o <;> rfl

theorem deserFields_retag {env : Env} {eas : Bool} {n : Nat} (fs : List Field) (hno : ∀ f ∈ fs, f.validator = none) (res : Dict String Val)
    (errs : Dict ErrKey VErr) : TagBlind t (deserFields (deser env eas n) fs res errs) := by
  induction fs generalizing res errs with
  | nil => intro st; rfl
  | cons f fs ih =>
    have ih := ih fun g hg => hno g (List.mem_cons_of_mem _ hg)
    intro st
    unfold deserFields
    simp only [hno f List.mem_cons_self]
    have h : deser env eas n f.ser [.name f.name] ⟨(st.retag t).el, (st.retag t).sm.set [.name f.name] (st.retag t).el.line⟩ = _ :=
      deser_retag env eas n f.ser [.name f.name] ⟨st.el, st.sm.set [.name f.name] st.el.line⟩
    rw [h]
    cases deser env eas n f.ser [.name f.name] ⟨st.el, st.sm.set [.name f.name] st.el.line⟩ with
    | mk o st' =>
      cases o with
      | ok v => exact ih _ _ st'
      | verr e => exact ih _ _ st'
      | crash e => rfl
      | diverge => rfl

theorem checkExtra_tag (title : Title) (e : Elem) : checkExtra title { e with tag := t } = checkExtra title e := by
  cases e; unfold checkExtra; simp only [getUnbound]; rfl

theorem deserModel_retag {env : Env} (hno : env.NoValidators) {eas : Bool} {n : Nat} (cls : String) (m : ModelSer)
    (hm : env.model cls = some m) (loc : Loc) : TagBlind t (deserModel env (deser env eas n) cls m loc) := by
  intro st
  have hval : ∀ d (st : St), validateModel env cls m d (st.retag t) = validateModel env cls m d st := by
    intro d st
    unfold validateModel
    simp only [St.retag, checkExtra_tag]
  unfold deserModel
  cases hb : m.body with
  | fields fs =>
    simp only
    rw [deserFields_retag fs (hno cls m fs hm hb) [] [] st]
    cases deserFields (deser env eas n) fs [] [] st with
    | mk o st' =>
      cases o with
      | ok r =>
        simp only [hval]
        split <;> rfl
      | verr e => rfl
      | crash e => rfl
      | diverge => rfl
  | root s =>
    simp only
    rw [deser_retag env eas n s loc st]
    cases deser env eas n s loc st with
    | mk o st' => cases o <;> simp only [hval]

end

end PXml
