import Verif.SpecConc

/-! Programs do not depend on the addresses of the objects they create. -/

namespace PXml
namespace Conc

open Heap (Addr Obj NodeObj HVal Cell Store)

/-- The objects created so far in two runs of one thread. -/
abbrev World := List (Addr × Addr)

/-- Lists of the same length with related items. -/
inductive Pairs {α β : Type} (r : α → β → Prop) : List α → List β → Prop
  | nil : Pairs r [] []
  | cons {a : α} {b : β} {as : List α} {bs : List β} : r a b → Pairs r as bs → Pairs r (a :: as) (b :: bs)

/-- Both absent, or related. -/
inductive Opt {α β : Type} (r : α → β → Prop) : Option α → Option β → Prop
  | none : Opt r none none
  | some {a : α} {b : β} : r a b → Opt r (some a) (some b)

/-- Corresponding objects, created by the thread. -/
def Own (ρ : World) (a b : Addr) : Prop := (a, b) ∈ ρ

/-- Corresponding objects: created by the thread, or one that existed before (the address is below `R`). -/
def Known (R : Nat) (ρ : World) (a b : Addr) : Prop := (a, b) ∈ ρ ∨ (a = b ∧ a < R)

structure ObjRel (ρ : World) (o o' : Obj) : Prop where
  tag : o.tag = o'.tag
  nsmap : o.nsmap = o'.nsmap
  text : o.text = o'.text
  tail : o.tail = o'.tail
  attrib : Opt (Own ρ) o.attrib o'.attrib
  elements : Own ρ o.elements o'.elements
  next : o.next = o'.next
  line : o.line = o'.line

inductive NodeRel (R : Nat) (ρ : World) : NodeObj → NodeObj → Prop
  | elem {tag : String} {da da' : Addr} {nsmap : NsMap} {text tail : Option String} {as as' : List Addr} {line : Option Int} :
      Known R ρ da da' → Pairs (Known R ρ) as as' →
      NodeRel R ρ (.elem tag da nsmap text tail as line) (.elem tag da' nsmap text tail as' line)
  | comment {text tail : Option String} : NodeRel R ρ (.comment text tail) (.comment text tail)
  | pi {text tail : Option String} : NodeRel R ρ (.pi text tail) (.pi text tail)

/-- Corresponding contents of objects created by the thread. -/
inductive CellRel (R : Nat) (ρ : World) : Cell → Cell → Prop
  | obj {o o' : Obj} : ObjRel ρ o o' → CellRel R ρ (.obj o) (.obj o')
  | dict {d : Dict String String} : CellRel R ρ (.dict d) (.dict d)
  | list {as as' : List Addr} : Pairs (Own ρ) as as' → CellRel R ρ (.list as) (.list as')
  | node {n n' : NodeObj} : NodeRel R ρ n n' → CellRel R ρ (.node n) (.node n')

/-- Two runs of one thread do corresponding things. -/
inductive PRel {α β : Type} (R : Nat) (Q : World → α → β → Prop) : World → Prog α → Prog β → Prop
  | ret {ρ : World} {x : α} {y : β} : Q ρ x y → PRel R Q ρ (.ret x) (.ret y)
  | own {ρ : World} {a a' : Addr} {k : Option Cell → Prog α} {k' : Option Cell → Prog β} : Own ρ a a' →
      (∀ c c', CellRel R ρ c c' → PRel R Q ρ (k (some c)) (k' (some c'))) → PRel R Q ρ (.load a k) (.load a' k')
  | shared {ρ : World} {a : Addr} {k : Option Cell → Prog α} {k' : Option Cell → Prog β} : a < R →
      (∀ c : Cell, c.Below R → PRel R Q ρ (k (some c)) (k' (some c))) → PRel R Q ρ (.load a k) (.load a k')
  | store {ρ : World} {a a' : Addr} {c c' : Cell} {k : Prog α} {k' : Prog β} : Own ρ a a' → CellRel R ρ c c' →
      PRel R Q ρ k k' → PRel R Q ρ (.store a c k) (.store a' c' k')
  | alloc {ρ : World} {c c' : Cell} {k : Addr → Prog α} {k' : Addr → Prog β} : CellRel R ρ c c' →
      (∀ a a', PRel R Q ((a, a') :: ρ) (k a) (k' a')) → PRel R Q ρ (.alloc c k) (.alloc c' k')

section
variable {α β γ δ : Type} {R : Nat} {ρ ρ' : World}

theorem PRel.bind {Q : World → α → β → Prop} {Q' : World → γ → δ → Prop} {p : Prog α} {p' : Prog β} {f : α → Prog γ}
    {f' : β → Prog δ} (h : PRel R Q ρ p p') (hf : ∀ ρ' x y, ρ ⊆ ρ' → Q ρ' x y → PRel R Q' ρ' (f x) (f' y)) :
    PRel R Q' ρ (p >>= f) (p' >>= f') := by
  change PRel R Q' ρ (p.bind f) (p'.bind f')
  induction h with
  | ret hq => exact hf _ _ _ (fun _ h => h) hq
  | own ho _ ih => exact .own ho fun c c' hc => ih c c' hc hf
  | shared ho _ ih => exact .shared ho fun c hc => ih c hc hf
  | store ho hc _ ih => exact .store ho hc (ih hf)
  | alloc hc _ ih =>
    exact .alloc hc fun a a' => ih a a' fun ρ' x y hs hq => hf ρ' x y (fun _ h => hs (List.mem_cons_of_mem _ h)) hq

theorem PRel.mono {Q Q' : World → α → β → Prop} {p : Prog α} {p' : Prog β} (h : PRel R Q ρ p p')
    (hq : ∀ ρ' x y, ρ ⊆ ρ' → Q ρ' x y → Q' ρ' x y) : PRel R Q' ρ p p' := by
  induction h with
  | ret h => exact .ret (hq _ _ _ (fun _ h => h) h)
  | own ho _ ih => exact .own ho fun c c' hc => ih c c' hc hq
  | shared ho _ ih => exact .shared ho fun c hc => ih c hc hq
  | store ho hc _ ih => exact .store ho hc (ih hq)
  | alloc hc _ ih =>
    exact .alloc hc fun a a' => ih a a' fun ρ' x y hs h => hq ρ' x y (fun _ h => hs (List.mem_cons_of_mem _ h)) h

theorem PRel.pure {Q : World → α → β → Prop} {x : α} {y : β} (h : Q ρ x y) :
    PRel R Q ρ (Pure.pure x : Prog α) (Pure.pure y : Prog β) := .ret h

/-- Both return the same. -/
abbrev Same {α : Type} : World → α → α → Prop := fun _ x y => x = y

/-- Both return. -/
abbrev Any {α β : Type} : World → α → β → Prop := fun _ _ _ => True

theorem PRel.same {x : α} : PRel R Same ρ (Pure.pure x : Prog α) (Pure.pure x) := .ret rfl

theorem Own.mono {a b : Addr} (h : Own ρ a b) (hs : ρ ⊆ ρ') : Own ρ' a b := hs h

theorem Known.mono {a b : Addr} (h : Known R ρ a b) (hs : ρ ⊆ ρ') : Known R ρ' a b := h.imp (fun h => hs h) id

theorem Own.known {a b : Addr} (h : Own ρ a b) : Known R ρ a b := .inl h

theorem Pairs.imp {r r' : α → β → Prop} (hr : ∀ a b, r a b → r' a b) {as : List α} {bs : List β} (h : Pairs r as bs) :
    Pairs r' as bs := by
  induction h with
  | nil => exact .nil
  | cons h1 _ ih => exact .cons (hr _ _ h1) ih

theorem Opt.imp {r r' : α → β → Prop} (hr : ∀ a b, r a b → r' a b) {a : Option α} {b : Option β} (h : Opt r a b) : Opt r' a b := by
  cases h with
  | none => exact .none
  | some h => exact .some (hr _ _ h)

theorem Opt.split {r : α → β → Prop} {a : Option α} {b : Option β} (h : Opt r a b) :
    (a = Option.none ∧ b = Option.none) ∨ ∃ x y, a = Option.some x ∧ b = Option.some y ∧ r x y := by
  cases h with
  | none => exact .inl ⟨rfl, rfl⟩
  | some h => exact .inr ⟨_, _, rfl, rfl, h⟩

theorem Pairs.get? {r : α → β → Prop} {as : List α} {bs : List β} (h : Pairs r as bs) (i : Nat) : Opt r as[i]? bs[i]? := by
  induction h generalizing i with
  | nil => exact .none
  | cons h1 _ ih => cases i with | zero => exact .some h1 | succ i => exact ih i

theorem Pairs.drop {r : α → β → Prop} {as : List α} {bs : List β} (h : Pairs r as bs) (i : Nat) : Pairs r (as.drop i) (bs.drop i) := by
  induction h generalizing i with
  | nil => simp; exact .nil
  | cons h1 h2 ih => cases i with | zero => exact .cons h1 h2 | succ i => exact ih i

theorem Pairs.append {r : α → β → Prop} {as as' : List α} {bs bs' : List β} (h : Pairs r as bs) (h' : Pairs r as' bs') :
    Pairs r (as ++ as') (bs ++ bs') := by
  induction h with
  | nil => exact h'
  | cons h1 _ ih => exact .cons h1 ih

theorem Pairs.set {r : α → β → Prop} {as : List α} {bs : List β} (h : Pairs r as bs) (i : Nat) {a : α} {b : β} (hr : r a b) :
    Pairs r (as.set i a) (bs.set i b) := by
  induction h generalizing i with
  | nil => exact .nil
  | cons h1 h2 ih => cases i with | zero => exact .cons hr h2 | succ i => exact .cons h1 (ih i)

theorem Pairs.length_eq {r : α → β → Prop} {as : List α} {bs : List β} (h : Pairs r as bs) : as.length = bs.length := by
  induction h with
  | nil => rfl
  | cons _ _ ih => simp [ih]

theorem Pairs.isEmpty_eq {r : α → β → Prop} {as : List α} {bs : List β} (h : Pairs r as bs) : as.isEmpty = bs.isEmpty := by
  cases h <;> rfl

theorem Pairs.refl_of {r : α → α → Prop} {as : List α} (h : ∀ a ∈ as, r a a) : Pairs r as as := by
  induction as with
  | nil => exact .nil
  | cons a as ih => exact .cons (h a (by simp)) (ih fun b hb => h b (by simp [hb]))

theorem Pairs.swap {r : Addr → Addr → Prop} {as bs : List Addr} (h : Pairs r as bs) (i j : Nat) :
    Pairs r (Store.swap as i j) (Store.swap bs i j) := by
  unfold Store.swap
  have h1 := h.get? i
  have h2 := h.get? j
  revert h1 h2
  generalize as[i]? = x, bs[i]? = x', as[j]? = y, bs[j]? = y'
  intro h1 h2
  cases h1 with
  | none => exact h
  | some h1 =>
    cases h2 with
    | none => exact h
    | some h2 => exact (h.set i h2).set j h1

theorem ObjRel.mono {o o' : Obj} (h : ObjRel ρ o o') (hs : ρ ⊆ ρ') : ObjRel ρ' o o' :=
  ⟨h.tag, h.nsmap, h.text, h.tail, h.attrib.imp fun _ _ h => h.mono hs, h.elements.mono hs, h.next, h.line⟩

/-! ## Access to objects -/

theorem asObj_rel {c c' : Cell} (h : CellRel R ρ c c') : Opt (ObjRel ρ) (asObj (some c)) (asObj (some c')) := by
  cases h with
  | obj h => exact .some h
  | _ => exact .none

theorem asDict_rel {c c' : Cell} (h : CellRel R ρ c c') : asDict (some c) = asDict (some c') := by
  cases h <;> rfl

theorem asList_rel {c c' : Cell} (h : CellRel R ρ c c') : Opt (Pairs (Own ρ)) (asList (some c)) (asList (some c')) := by
  cases h with
  | list h => exact .some h
  | _ => exact .none

theorem load_own {a a' : Addr} (h : Own ρ a a') :
    PRel R (fun ρ' c c' => ρ' = ρ ∧ ∃ d d', c = some d ∧ c' = some d' ∧ CellRel R ρ d d') ρ (load a) (load a') :=
  .own h fun c c' hc => .ret ⟨rfl, c, c', rfl, rfl, hc⟩

theorem obj?_para {a a' : Addr} (h : Own ρ a a') :
    PRel R (fun ρ o o' => Opt (ObjRel ρ) o o') ρ (obj? a) (obj? a') :=
  .own h fun _ _ hc => .ret (asObj_rel hc)

theorem loadDict_para {a a' : Addr} (h : Own ρ a a') : PRel R (fun _ c c' => asDict c = asDict c') ρ (load a) (load a') :=
  .own h fun _ _ hc => .ret (asDict_rel hc)

theorem dictAt_para {a a' : Option Addr} (h : Opt (Own ρ) a a') : PRel R Same ρ (dictAt a) (dictAt a') := by
  cases h with
  | none => exact .same
  | some h =>
    refine .bind (loadDict_para h) ?_
    intro ρ' c c' _ hc
    rw [hc]
    exact .same

theorem kids_para {o o' : Obj} (h : ObjRel ρ o o') : PRel R (fun ρ as as' => Pairs (Own ρ) as as') ρ (kids o) (kids o') := by
  refine .own h.elements fun c c' hc => .ret ?_
  rcases (asList_rel hc).split with ⟨e1, e2⟩ | ⟨x, y, e1, e2, h⟩ <;> rw [e1, e2]
  · exact .nil
  · exact h

theorem tag?_para {a a' : Addr} (h : Own ρ a a') : PRel R Same ρ (tag? a) (tag? a') := by
  refine .bind (obj?_para h) ?_
  intro ρ' o o' _ ho
  cases ho with
  | none => exact .same
  | some ho => simp only [Option.map_some, ho.tag]; exact .same

theorem line_para {a a' : Addr} (h : Own ρ a a') : PRel R Same ρ (line a) (line a') := by
  refine .bind (obj?_para h) ?_
  intro ρ' o o' _ ho
  cases ho with
  | none => exact .same
  | some ho => simp only [Option.map_some, ho.line]; exact .same

theorem store_para {a a' : Addr} {c c' : Cell} (h : Own ρ a a') (hc : CellRel R ρ c c') :
    PRel R Any ρ (store a c) (store a' c') := .store h hc (.ret trivial)

theorem alloc_para {c c' : Cell} (hc : CellRel R ρ c c') : PRel R Own ρ (alloc c) (alloc c') :=
  .alloc hc fun _ _ => .ret (List.mem_cons_self ..)

theorem modify_para {a a' : Addr} {f f' : Obj → Obj} (h : Own ρ a a')
    (hf : ∀ ρ' o o', ρ ⊆ ρ' → ObjRel ρ' o o' → ObjRel ρ' (f o) (f' o')) : PRel R Any ρ (modify a f) (modify a' f') := by
  refine .bind (obj?_para h) ?_
  intro ρ' o o' hs ho
  cases ho with
  | none => exact .pure trivial
  | some ho => exact store_para (h.mono hs) (.obj (hf _ _ _ hs ho))

theorem init_para (tag : String) (nsmap : Option NsMap) (text tail : Option String) (attrib : Option (Dict String String))
    {as as' : List Addr} (has : Pairs (Own ρ) as as') (next : Nat) (ln : Int) :
    PRel R Own ρ (init tag nsmap text tail attrib as next ln) (init tag nsmap text tail attrib as' next ln) := by
  cases attrib with
  | none =>
    refine .bind (alloc_para (.list has)) ?_
    intro ρ1 la la' h1 hla
    exact alloc_para (.obj ⟨rfl, rfl, rfl, rfl, .none, hla, rfl, rfl⟩)
  | some d =>
    refine .bind (alloc_para .dict) ?_
    intro ρ0 da da' h0 hda
    refine .bind (alloc_para (.list (has.imp fun _ _ h => h.mono h0))) ?_
    intro ρ1 la la' h1 hla
    exact alloc_para (.obj ⟨rfl, rfl, rfl, rfl, .some (hda.mono h1), hla, rfl, rfl⟩)

theorem getAttrib_para {a a' : Addr} (h : Own ρ a a') (k : String) : PRel R Same ρ (getAttrib a k) (getAttrib a' k) := by
  refine .bind (obj?_para h) ?_
  intro ρ' o o' hs ho
  cases ho with
  | none => exact .same
  | some ho =>
    simp only [Option.bind_some]
    rcases ho.attrib.split with ⟨e1, e2⟩ | ⟨x, y, e1, e2, hd⟩
    · rw [e1, e2]; exact .same
    · rw [e1, e2]
      refine .bind (loadDict_para hd) ?_
      intro ρ' c c' _ hc
      rw [hc]
      exact .same

theorem popText_para {a a' : Addr} (h : Own ρ a a') : PRel R Same ρ (popText a) (popText a') := by
  refine .bind (obj?_para h) ?_
  intro ρ1 o o' hs ho
  refine .bind (modify_para (h.mono hs) fun ρ o o' _ ho => ⟨ho.tag, ho.nsmap, rfl, ho.tail, ho.attrib, ho.elements, ho.next, ho.line⟩) ?_
  intro ρ2 _ _ _ _
  cases ho with
  | none => exact .same
  | some ho => simp only [Option.bind_some, ho.text]; exact .same

theorem popTail_para {a a' : Addr} (h : Own ρ a a') : PRel R Same ρ (popTail a) (popTail a') := by
  refine .bind (obj?_para h) ?_
  intro ρ1 o o' hs ho
  refine .bind (modify_para (h.mono hs) fun ρ o o' _ ho => ⟨ho.tag, ho.nsmap, ho.text, rfl, ho.attrib, ho.elements, ho.next, ho.line⟩) ?_
  intro ρ2 _ _ _ _
  cases ho with
  | none => exact .same
  | some ho => simp only [Option.bind_some, ho.tail]; exact .same

theorem popAttrib_para {a a' : Addr} (h : Own ρ a a') (k : String) : PRel R Same ρ (popAttrib a k) (popAttrib a' k) := by
  refine .bind (obj?_para h) ?_
  intro ρ' o o' hs ho
  cases ho with
  | none => exact .same
  | some ho =>
    simp only [Option.bind_some]
    rcases ho.attrib.split with ⟨e1, e2⟩ | ⟨x, y, e1, e2, hd⟩
    · rw [e1, e2]; exact .same
    · rw [e1, e2]
      refine .bind (loadDict_para hd) ?_
      intro ρ'' c c' hs' hc
      rw [hc]
      cases asDict c' with
      | none => exact .same
      | some d =>
        simp only
        split
        · refine .bind (store_para (hd.mono hs') .dict) ?_
          intro _ _ _ _ _
          exact .same
        · exact .same

theorem popAttributes_para {a a' : Addr} (h : Own ρ a a') :
    PRel R (fun ρ => Opt (Own ρ)) ρ (popAttributes a) (popAttributes a') := by
  refine .bind (obj?_para h) ?_
  intro ρ1 o o' hs ho
  refine .bind (modify_para (h.mono hs) fun ρ o o' _ ho => ⟨ho.tag, ho.nsmap, ho.text, ho.tail, .none, ho.elements, ho.next, ho.line⟩) ?_
  intro ρ2 _ _ hs' _
  cases ho with
  | none => exact .pure .none
  | some ho => exact .pure (ho.attrib.imp fun _ _ h => h.mono hs')

theorem popElements_para {a a' : Addr} (h : Own ρ a a') :
    PRel R (fun ρ => Pairs (Own ρ)) ρ (popElements a) (popElements a') := by
  refine .bind (obj?_para h) ?_
  intro ρ1 o o' hs ho
  cases ho with
  | none => exact .pure .nil
  | some ho =>
    refine .bind (kids_para ho) ?_
    intro ρ2 as as' hs2 has
    refine .bind (alloc_para (.list .nil)) ?_
    intro ρ3 la la' hs3 hla
    refine .bind (modify_para (((h.mono hs).mono hs2).mono hs3) fun ρ o o' hs ho =>
      ⟨ho.tag, ho.nsmap, ho.text, ho.tail, ho.attrib, hla.mono hs, rfl, ho.line⟩) ?_
    intro ρ4 _ _ hs4 _
    exact .pure (has.imp fun _ _ h => (h.mono hs3).mono hs4)

theorem stepForward_para {a a' : Addr} (h : Own ρ a a') : PRel R Any ρ (stepForward a) (stepForward a') :=
  modify_para h fun _ _ _ _ ho => ⟨ho.tag, ho.nsmap, ho.text, ho.tail, ho.attrib, ho.elements, by simp [ho.next], ho.line⟩

theorem copyAll_para {f f' : Addr → Prog (Option Addr)} {r : World → Addr → Addr → Prop}
    (hr : ∀ ρ ρ' a b, ρ ⊆ ρ' → r ρ a b → r ρ' a b)
    (hf : ∀ ρ a a', r ρ a a' → PRel R (fun ρ => Opt (Own ρ)) ρ (f a) (f' a')) {as as' : List Addr} (h : Pairs (r ρ) as as') :
    PRel R (fun ρ => Opt (Pairs (Own ρ))) ρ (copyAll f as) (copyAll f' as') := by
  induction as generalizing as' ρ with
  | nil => cases h; exact .pure (.some .nil)
  | cons a as ih =>
    cases h with
    | cons h1 h2 =>
      refine .bind (hf _ _ _ h1) ?_
      intro ρ1 x y hs hxy
      cases hxy with
      | none => exact .pure .none
      | some hxy =>
        refine .bind (ih (h2.imp fun a b => hr _ _ a b hs)) ?_
        intro ρ2 u v hs2 huv
        cases huv with
        | none => exact .pure .none
        | some huv => exact .pure (.some (.cons (hxy.mono hs2) huv))

theorem copy_para (n : Nat) {a a' : Addr} (h : Own ρ a a') : PRel R (fun ρ => Opt (Own ρ)) ρ (copy n a) (copy n a') := by
  induction n generalizing ρ a a' with
  | zero => exact .pure .none
  | succ n ih =>
    refine .bind (obj?_para h) ?_
    intro ρ1 o o' hs ho
    cases ho with
    | none => exact .pure .none
    | some ho =>
      refine .bind (dictAt_para ho.attrib) ?_
      intro ρ2 d d' hs2 hd
      cases hd
      refine .bind (kids_para (ho.mono hs2)) ?_
      intro ρ3 as as' hs3 has
      refine .bind (copyAll_para (r := Own) (fun _ _ _ _ hs h => h.mono hs) (fun ρ a a' h => ih h) has) ?_
      intro ρ4 bs bs' hs4 hbs
      cases hbs with
      | none => exact .pure .none
      | some hbs =>
        simp only [ho.tag, ho.nsmap, ho.text, ho.tail, ho.next, ho.line]
        refine .bind (init_para _ _ _ _ _ hbs _ _) ?_
        intro ρ5 _ _ _ hx
        exact .pure (.some hx)

theorem applySnapshot_para {a a' s s' : Addr} (ha : Own ρ a a') (hs : Own ρ s s') :
    PRel R Any ρ (applySnapshot a s) (applySnapshot a' s') := by
  refine .bind (obj?_para hs) ?_
  intro ρ1 o o' h1 ho
  cases ho with
  | none => exact .pure trivial
  | some ho =>
    refine modify_para (ha.mono h1) fun ρ p p' h hp => ?_
    have ho := ho.mono h
    exact ⟨ho.tag, ho.nsmap, ho.text, ho.tail, ho.attrib, ho.elements, ho.next, hp.line⟩

/-- Both raise the same exception, or return related values. -/
inductive ExRel {α β : Type} (r : α → β → Prop) : Except PyErr α → Except PyErr β → Prop
  | error {e : PyErr} : ExRel r (.error e) (.error e)
  | ok {x : α} {y : β} : r x y → ExRel r (.ok x) (.ok y)

theorem lookBehind_para {a a' : Addr} (h : Own ρ a a') (tag : String) :
    PRel R (fun ρ => ExRel (Opt (Own ρ))) ρ (lookBehind a tag) (lookBehind a' tag) := by
  refine .bind (obj?_para h) ?_
  intro ρ1 o o' hs ho
  cases ho with
  | none => exact .pure (.ok .none)
  | @some o o' ho =>
    simp only [ho.next]
    split
    · exact .pure (.ok .none)
    · refine .bind (kids_para ho) ?_
      intro ρ2 as as' hs2 has
      rcases (has.get? (o'.next - 1)).split with ⟨e1, e2⟩ | ⟨x, y, e1, e2, hb⟩
      · rw [e1, e2]; exact .pure .error
      · rw [e1, e2]
        refine .bind (tag?_para hb) ?_
        intro ρ3 t t' hs3 ht
        cases ht
        split
        · exact .pure (.ok (.some (hb.mono hs3)))
        · exact .pure (.ok .none)

theorem firstFrom_para (tag : String) {as as' : List Addr} (h : Pairs (Own ρ) as as') (k : Nat) :
    PRel R Same ρ (firstFrom tag as k) (firstFrom tag as' k) := by
  induction as generalizing as' ρ k with
  | nil => cases h; exact .same
  | cons a as ih =>
    cases h with
    | cons h1 h2 =>
      refine .bind (tag?_para h1) ?_
      intro ρ' t t' hs ht
      cases ht
      split
      · exact .same
      · exact ih (h2.imp fun _ _ h => h.mono hs) _

theorem search_para {a a' : Addr} (h : Own ρ a a') (tag : String) (mode : Mode) (step : Bool) :
    PRel R (fun ρ => Opt (Own ρ)) ρ (search a tag mode step) (search a' tag mode step) := by
  refine .bind (obj?_para h) ?_
  intro ρ1 o o' hs ho
  have h := h.mono hs
  cases ho with
  | none => exact .pure .none
  | @some o o' ho =>
    refine .bind (kids_para ho) ?_
    intro ρ2 as as' hs2 has
    have h := h.mono hs2
    have ho := ho.mono hs2
    simp only [ho.next]
    cases mode with
    | strict =>
      simp only
      rcases (has.get? o'.next).split with ⟨e1, e2⟩ | ⟨x, y, e1, e2, hb⟩
      · rw [e1, e2]; exact .pure .none
      · rw [e1, e2]
        refine .bind (tag?_para hb) ?_
        intro ρ3 t t' hs3 ht
        cases ht
        split
        · cases step
          · exact .pure (.some (hb.mono hs3))
          · refine .bind (stepForward_para (h.mono hs3)) ?_
            intro ρ4 _ _ hs4 _
            exact .pure (.some ((hb.mono hs3).mono hs4))
        · exact .pure .none
    | ordered =>
      refine .bind (firstFrom_para tag (has.drop _) _) ?_
      intro ρ3 i i' hs3 hi
      cases hi
      cases i with
      | none => exact .pure .none
      | some i =>
        cases step
        · exact .pure ((has.get? i).imp fun _ _ h => h.mono hs3)
        · refine .bind (modify_para (f := fun o => { o with next := i + 1 }) (f' := fun o => { o with next := i + 1 }) (h.mono hs3)
            fun _ _ _ _ ho => ⟨ho.tag, ho.nsmap, ho.text, ho.tail, ho.attrib, ho.elements, rfl, ho.line⟩) ?_
          intro ρ4 _ _ hs4 _
          exact .pure ((has.get? i).imp fun _ _ h => (h.mono hs3).mono hs4)
    | unordered =>
      refine .bind (firstFrom_para tag (has.drop _) _) ?_
      intro ρ3 i i' hs3 hi
      cases hi
      cases i with
      | none => exact .pure .none
      | some i =>
        refine .bind (store_para (ho.elements.mono hs3) (.list ((has.imp fun _ _ h => h.mono hs3).swap _ _))) ?_
        intro ρ4 _ _ hs4 _
        cases step
        · exact .pure ((has.get? i).imp fun _ _ h => (h.mono hs3).mono hs4)
        · refine .bind (stepForward_para ((h.mono hs3).mono hs4)) ?_
          intro ρ5 _ _ hs5 _
          exact .pure ((has.get? i).imp fun _ _ h => ((h.mono hs3).mono hs4).mono hs5)

theorem findElement_para {a a' : Addr} (h : Own ρ a a') (tag : String) (mode : Mode) :
    PRel R (fun ρ => ExRel (Opt (Own ρ))) ρ (findElement a tag mode) (findElement a' tag mode) := by
  refine .bind (lookBehind_para h tag) ?_
  intro ρ1 x y hs hxy
  cases hxy with
  | error => exact .pure .error
  | ok hxy =>
    cases hxy with
    | some hb => exact .pure (.ok (.some hb))
    | none =>
      refine .bind (search_para (h.mono hs) tag mode true) ?_
      intro ρ2 x y _ hxy
      exact .pure (.ok hxy)

theorem popElementRemove_para {a a' : Addr} (h : Own ρ a a') (tag : String) (mode : Mode) :
    PRel R (fun ρ => Opt (Own ρ)) ρ (popElementRemove a tag mode) (popElementRemove a' tag mode) := by
  refine .bind (search_para h tag mode true) ?_
  intro ρ1 b b' hs hb
  cases hb with
  | none => exact .pure .none
  | some hb =>
    refine .bind (obj?_para hb) ?_
    intro ρ2 o o' hs2 ho
    cases ho with
    | none => exact .pure .none
    | some ho =>
      refine .bind (popText_para (hb.mono hs2)) ?_
      intro ρ3 t t' hs3 ht
      cases ht
      refine .bind (popTail_para ((hb.mono hs2).mono hs3)) ?_
      intro ρ4 t2 t2' hs4 ht
      cases ht
      refine .bind (popAttributes_para (((hb.mono hs2).mono hs3).mono hs4)) ?_
      intro ρ5 da da' hs5 hda
      refine .bind (popElements_para ((((hb.mono hs2).mono hs3).mono hs4).mono hs5)) ?_
      intro ρ6 bs bs' hs6 hbs
      refine .bind (dictAt_para (hda.imp fun _ _ h => h.mono hs6)) ?_
      intro ρ7 d d' hs7 hd
      cases hd
      simp only [ho.tag, ho.nsmap, ho.line]
      refine .bind (init_para _ _ _ _ _ (hbs.imp fun _ _ h => h.mono hs7) _ _) ?_
      intro ρ8 _ _ _ hx
      exact .pure (.some hx)

theorem isNil_para {a a' : Addr} (h : Own ρ a a') : PRel R Same ρ (isNil a) (isNil a') := by
  refine .bind (popAttrib_para h _) ?_
  intro ρ' v v' _ hv
  cases hv
  exact .same

theorem readAll_para {f f' : Addr → Prog (Option Elem)} (hf : ∀ ρ a a', Own ρ a a' → PRel R Same ρ (f a) (f' a'))
    {as as' : List Addr} (h : Pairs (Own ρ) as as') : PRel R Same ρ (readAll f as) (readAll f' as') := by
  induction as generalizing as' ρ with
  | nil => cases h; exact .same
  | cons a as ih =>
    cases h with
    | cons h1 h2 =>
      refine .bind (hf _ _ _ h1) ?_
      intro ρ1 x y hs hxy
      cases hxy
      cases x with
      | none => exact .same
      | some x =>
        refine .bind (ih (h2.imp fun _ _ h => h.mono hs)) ?_
        intro ρ2 u v hs2 huv
        cases huv
        cases u with
        | none => exact .same
        | some u => exact .same

theorem tree?_para (n : Nat) {a a' : Addr} (h : Own ρ a a') : PRel R Same ρ (tree? n a) (tree? n a') := by
  induction n generalizing ρ a a' with
  | zero => exact .same
  | succ n ih =>
    refine .bind (obj?_para h) ?_
    intro ρ1 o o' hs ho
    cases ho with
    | none => exact .same
    | some ho =>
      refine .bind (kids_para ho) ?_
      intro ρ2 as as' hs2 has
      refine .bind (readAll_para (fun ρ a a' h => ih h) has) ?_
      intro ρ3 es es' hs3 hes
      cases hes
      cases es with
      | none => exact .same
      | some es =>
        refine .bind (dictAt_para (((ho.mono hs2).mono hs3).attrib)) ?_
        intro ρ4 d d' hs4 hd
        cases hd
        simp only [ho.tag, ho.nsmap, ho.text, ho.tail, ho.next, ho.line]
        exact .same

mutual
theorem put_para {ρ : World} : (e : Elem) → PRel R Own ρ (put e) (put e)
  | ⟨tag, nsmap, text, tail, attrib, elements, next, line⟩ => by
    unfold put
    refine .bind (putAll_para elements) ?_
    intro ρ' bs bs' _ hbs
    exact init_para _ _ _ _ _ hbs _ _
theorem putAll_para {ρ : World} : (es : List Elem) → PRel R (fun ρ => Pairs (Own ρ)) ρ (putAll es) (putAll es)
  | [] => by unfold putAll; exact .pure .nil
  | e :: es => by
    unfold putAll
    refine .bind (put_para e) ?_
    intro ρ1 b b' _ hb
    refine .bind (putAll_para es) ?_
    intro ρ2 bs bs' hs hbs
    exact .pure (.cons (hb.mono hs) hbs)
end

/-- Native nodes as seen by corresponding runs. -/
theorem loadNode_para {a a' : Addr} (h : Known R ρ a a') :
    PRel R (fun ρ c c' => Opt (NodeRel R ρ) (asNode c) (asNode c')) ρ (load a) (load a') := by
  rcases h with h | ⟨rfl, h⟩
  · refine .own h fun c c' hc => .ret ?_
    cases hc with
    | node h => exact .some h
    | _ => exact .none
  · refine .shared h fun c hc => .ret ?_
    cases c with
    | node n =>
      refine .some ?_
      cases n with
      | elem tag da nsmap text tail as line => exact .elem (.inr ⟨rfl, hc.1⟩) (.refl_of fun a ha => .inr ⟨rfl, hc.2 a ha⟩)
      | comment => exact .comment
      | pi => exact .pi
    | _ => exact .none

theorem loadDict_known {a a' : Addr} (h : Known R ρ a a') :
    PRel R (fun _ c c' => asDict c = asDict c') ρ (load a) (load a') := by
  rcases h with h | ⟨rfl, h⟩
  · exact loadDict_para h
  · exact .shared h fun c hc => .ret rfl

theorem noComments_para {as as' : List Addr} (h : Pairs (Known R ρ) as as') :
    PRel R (fun ρ => Pairs (Known R ρ)) ρ (noComments as) (noComments as') := by
  induction as generalizing as' ρ with
  | nil => cases h; exact .pure .nil
  | cons a as ih =>
    cases h with
    | @cons _ b _ bs h1 h2 =>
      refine .bind (loadNode_para h1) ?_
      intro ρ1 c c' hs hc
      have h2 := h2.imp fun _ _ (h : Known R ρ _ _) => h.mono hs
      have hkeep : PRel R (fun ρ => Pairs (Known R ρ)) ρ1 (noComments as >>= fun r => Pure.pure (a :: r))
          (noComments bs >>= fun r => Pure.pure (b :: r)) := by
        refine .bind (ih h2) ?_
        intro ρ2 x y hs2 hxy
        exact .pure (.cons ((h1.mono hs).mono hs2) hxy)
      revert hc
      generalize asNode c = x, asNode c' = y
      intro hc
      cases hc with
      | none => exact hkeep
      | some hn =>
        cases hn with
        | elem => exact hkeep
        | comment => exact ih h2
        | pi => exact hkeep

theorem fromNative_para (b : Backend) (n : Nat) {a a' : Addr} (h : Known R ρ a a') :
    PRel R (fun ρ => Opt (Own ρ)) ρ (fromNative b n a) (fromNative b n a') := by
  induction n generalizing ρ a a' with
  | zero => exact .pure .none
  | succ n ih =>
    refine .bind (loadNode_para h) ?_
    intro ρ1 c c' hs hc
    revert hc
    generalize asNode c = x, asNode c' = y
    intro hc
    cases hc with
    | none => exact .pure .none
    | some hn =>
      cases hn with
      | elem hda has =>
        refine .bind (noComments_para has) ?_
        intro ρ2 cs cs' hs2 hcs
        refine .bind (loadDict_known (hda.mono hs2)) ?_
        intro ρ3 d d' hs3 hd
        rw [hd]
        refine .bind (copyAll_para (r := Known R) (fun _ _ _ _ hs h => h.mono hs) (fun ρ a a' h => ih h)
          (hcs.imp fun _ _ h => h.mono hs3)) ?_
        intro ρ4 bs bs' hs4 hbs
        cases hbs with
        | none => exact .pure .none
        | some hbs =>
          refine .bind (init_para _ _ _ _ _ hbs _ _) ?_
          intro ρ5 _ _ _ hx
          exact .pure (.some hx)
      | comment =>
        refine .bind (init_para _ _ _ _ _ .nil _ _) ?_
        intro ρ5 _ _ _ hx
        exact .pure (.some hx)
      | pi =>
        refine .bind (init_para _ _ _ _ _ .nil _ _) ?_
        intro ρ5 _ _ _ hx
        exact .pure (.some hx)

theorem nodeTag_para {a a' : Addr} (h : Known R ρ a a') : PRel R Same ρ (nodeTag a) (nodeTag a') := by
  refine .bind (loadNode_para h) ?_
  intro ρ1 c c' hs hc
  revert hc
  generalize asNode c = x, asNode c' = y
  intro hc
  cases hc with
  | none => exact .same
  | some hn => cases hn <;> exact .same

end

end Conc
end PXml
