import Verif.ConcWrite

/-! A thread that runs alone does what `Verif/Heap.lean` and `Verif/HeapWrite.lean` do. -/

namespace PXml
namespace Conc

open Heap (Addr Obj NodeObj HVal Cell Store)

variable {α β : Type} {h : Store}

@[simp] theorem run_pure (x : α) : (Pure.pure x : Prog α).run h = (x, h) := rfl

@[simp] theorem run_bind (p : Prog α) (f : α → Prog β) : (p >>= f).run h = (f (p.run h).1).run (p.run h).2 := by
  change (p.bind f).run h = _
  induction p generalizing h with
  | ret x => rfl
  | load a k ih => exact ih _
  | store a c k ih => exact ih
  | alloc c k ih => exact ih _

@[simp] theorem run_load (a : Addr) : (load a).run h = (h[a]?, h) := rfl
@[simp] theorem run_store (a : Addr) (c : Cell) : (store a c).run h = ((), h.set a c) := rfl
@[simp] theorem run_alloc (c : Cell) : (alloc c).run h = h.alloc c := rfl

@[simp] theorem asObj_eq (a : Addr) : asObj h[a]? = h.obj? a := rfl
@[simp] theorem asDict_eq (a : Addr) : asDict h[a]? = h.dict? a := rfl
@[simp] theorem asList_eq (a : Addr) : asList h[a]? = h.list? a := rfl
@[simp] theorem asNode_eq (a : Addr) : asNode h[a]? = h.node? a := rfl

@[simp] theorem run_obj? (a : Addr) : (obj? a).run h = (h.obj? a, h) := rfl

@[simp] theorem run_dictAt (da : Option Addr) : (dictAt da).run h = (da.map fun da => (h.dict? da).getD [], h) := by
  cases da <;> rfl

@[simp] theorem run_kids (o : Obj) : (kids o).run h = (h.kids o, h) := rfl
@[simp] theorem run_tag? (a : Addr) : (tag? a).run h = (h.tag? a, h) := rfl
@[simp] theorem run_line (a : Addr) : (line a).run h = (h.line a, h) := rfl

@[simp] theorem run_modify (a : Addr) (f : Obj → Obj) : (modify a f).run h = ((), h.modify a f) := by
  simp only [modify, run_bind, run_obj?, Store.modify]
  cases h.obj? a <;> rfl

@[simp] theorem run_init (tag : String) (nsmap : Option NsMap) (text tail : Option String) (attrib : Option (Dict String String))
    (elements : List Addr) (next : Nat) (line : Int) :
    (init tag nsmap text tail attrib elements next line).run h = h.init tag nsmap text tail attrib elements next line := by
  cases attrib <;> rfl

@[simp] theorem run_getAttrib (a : Addr) (k : String) : (getAttrib a k).run h = (h.getAttrib a k, h) := by
  simp only [getAttrib, run_bind, run_obj?, Store.getAttrib]
  cases (h.obj? a).bind Obj.attrib <;> rfl

@[simp] theorem run_popText (a : Addr) : (popText a).run h = h.popText a := by simp [popText, Store.popText]
@[simp] theorem run_popTail (a : Addr) : (popTail a).run h = h.popTail a := by simp [popTail, Store.popTail]

@[simp] theorem run_popAttrib (a : Addr) (k : String) : (popAttrib a k).run h = h.popAttrib a k := by
  simp only [popAttrib, run_bind, run_obj?, Store.popAttrib]
  cases (h.obj? a).bind Obj.attrib with
  | none => rfl
  | some da =>
    simp only [run_bind, run_load, asDict_eq]
    cases h.dict? da with
    | none => rfl
    | some d => simp only; split <;> rfl

@[simp] theorem run_popAttributes (a : Addr) : (popAttributes a).run h = h.popAttributes a := by simp [popAttributes, Store.popAttributes]

@[simp] theorem run_popElements (a : Addr) : (popElements a).run h = h.popElements a := by
  simp only [popElements, run_bind, run_obj?, Store.popElements]
  cases h.obj? a with
  | none => rfl
  | some o => simp [Store.alloc]

@[simp] theorem run_stepForward (a : Addr) : (stepForward a).run h = ((), h.stepForward a) := by simp [stepForward, Store.stepForward]

@[simp] theorem run_applySnapshot (a s : Addr) : (applySnapshot a s).run h = ((), h.applySnapshot a s) := by
  simp only [applySnapshot, run_bind, run_obj?, Store.applySnapshot]
  cases h.obj? s with
  | none => rfl
  | some o => simp

@[simp] theorem run_lookBehind (a : Addr) (tag : String) : (lookBehind a tag).run h = (h.lookBehind a tag, h) := by
  simp only [lookBehind, run_bind, run_obj?, Store.lookBehind]
  cases h.obj? a with
  | none => rfl
  | some o =>
    simp only
    split
    · rfl
    · simp only [run_bind, run_kids]
      cases (h.kids o)[o.next - 1]? with
      | none => rfl
      | some b =>
        simp only [run_bind, run_tag?]
        by_cases hb : h.tag? b = some tag <;> simp [hb]

@[simp] theorem run_firstFrom (tag : String) (as : List Addr) (k : Nat) : (firstFrom tag as k).run h = (h.firstFrom tag as k, h) := by
  induction as generalizing k with
  | nil => rfl
  | cons a as ih =>
    simp only [firstFrom, run_bind, run_tag?, Store.firstFrom]
    by_cases hb : h.tag? a = some tag
    · simp [hb]
    · simp only [hb, if_false]
      exact ih _

@[simp] theorem run_search (a : Addr) (tag : String) (mode : Mode) (step : Bool) :
    (search a tag mode step).run h = h.search a tag mode step := by
  simp only [search, run_bind, run_obj?, Store.search]
  cases h.obj? a with
  | none => rfl
  | some o =>
    simp only [run_bind, run_kids]
    cases mode with
    | strict =>
      simp only
      cases (h.kids o)[o.next]? with
      | none => rfl
      | some b =>
        simp only [run_bind, run_tag?]
        by_cases hb : h.tag? b = some tag <;> cases step <;> simp [hb]
    | ordered =>
      simp only [run_bind, run_firstFrom]
      cases h.firstFrom tag ((h.kids o).drop o.next) o.next with
      | none => rfl
      | some i => cases step <;> simp
    | unordered =>
      simp only [run_bind, run_firstFrom]
      cases h.firstFrom tag ((h.kids o).drop o.next) o.next with
      | none => rfl
      | some i => cases step <;> simp

theorem run_findElement (a : Addr) (tag : String) (mode : Mode) :
    (findElement a tag mode).run h = match h.findElement a tag mode with
      | .error e => (.error e, h)
      | .ok (b, h') => (.ok b, h') := by
  simp only [findElement, run_bind, run_lookBehind, Store.findElement]
  rcases h.lookBehind a tag with e | _ | b <;> simp

@[simp] theorem run_popElementRemove (a : Addr) (tag : String) (mode : Mode) :
    (popElementRemove a tag mode).run h = h.popElementRemove a tag mode := by
  simp only [popElementRemove, run_bind, run_search, Store.popElementRemove]
  generalize h.search a tag mode true = q
  obtain ⟨_ | b, h1⟩ := q
  · rfl
  · simp only [run_bind, run_obj?]
    cases h1.obj? b with
    | none => rfl
    | some o => simp

@[simp] theorem run_isNil (a : Addr) : (isNil a).run h = h.isNil a := by
  simp [isNil, Store.isNil]

mutual
theorem run_put (h : Store) : (e : Elem) → (put e).run h = h.put e
  | ⟨tag, nsmap, text, tail, attrib, elements, next, line⟩ => by
    unfold put Store.put
    simp only [run_bind, run_init, run_putAll h elements]
theorem run_putAll (h : Store) : (es : List Elem) → (putAll es).run h = h.putAll es
  | [] => by unfold putAll Store.putAll; rfl
  | e :: es => by
    unfold putAll Store.putAll
    simp only [run_bind, run_put h e, run_putAll _ es, run_pure]
end

@[simp] theorem run_noComments (as : List Addr) : (noComments as).run h = (as.filter fun c => !h.isComment c, h) := by
  induction as with
  | nil => rfl
  | cons a as ih =>
    simp only [noComments, run_bind, run_load, asNode_eq, List.filter_cons, Store.isComment]
    cases h.node? a with
    | none => simp only [run_bind, ih]; rfl
    | some n => cases n <;> simp [ih, Store.isComment]

@[simp] theorem run_nodeTag (a : Addr) : (nodeTag a).run h = (h.nodeTag a, h) := by
  simp only [nodeTag, run_bind, run_load, asNode_eq, Store.nodeTag]
  cases h.node? a with
  | none => rfl
  | some n => cases n <;> rfl

/-! ## Bounded recursion -/

theorem run_copyAll {f : Addr → Prog (Option Addr)} {g : Store → Addr → Option (Addr × Store)}
    (hf : ∀ h a b h', g h a = some (b, h') → (f a).run h = (some b, h')) {as : List Addr} {bs : List Addr} {h' : Store}
    (hg : Store.copyAll g as h = some (bs, h')) : (copyAll f as).run h = (some bs, h') := by
  induction as generalizing h bs with
  | nil => cases hg; rfl
  | cons a as ih =>
    simp only [Store.copyAll] at hg
    cases h1 : g h a with
    | none => simp [h1] at hg
    | some q =>
      obtain ⟨b, h1'⟩ := q
      simp only [h1] at hg
      cases h2 : Store.copyAll g as h1' with
      | none => simp [h2] at hg
      | some q =>
        obtain ⟨bs', h2'⟩ := q
        simp only [h2] at hg
        cases hg
        simp [copyAll, hf _ _ _ _ h1, ih h2]

theorem run_copy {n k : Nat} (hk : n ≤ k) {a b : Addr} {h' : Store} (hc : Store.copy n h a = some (b, h')) :
    (copy k a).run h = (some b, h') := by
  induction n generalizing k h a b h' with
  | zero => simp [Store.copy] at hc
  | succ n ih =>
    cases k with
    | zero => omega
    | succ k =>
      simp only [Store.copy] at hc
      simp only [copy, run_bind, run_obj?]
      cases ho : h.obj? a with
      | none => simp [ho] at hc
      | some o =>
        simp only [ho] at hc
        cases h1 : Store.copyAll (Store.copy n) (h.kids o) h with
        | none => simp [h1] at hc
        | some q =>
          obtain ⟨bs, h1'⟩ := q
          simp only [h1] at hc
          have := run_copyAll (f := copy k) (fun h a b h' hc => ih (Nat.le_of_succ_le_succ hk) hc) h1
          simp only [Option.some.injEq] at hc
          simp [this, hc]

theorem run_readAll {f : Addr → Prog (Option Elem)} {g : Addr → Option Elem}
    (hf : ∀ a e, g a = some e → (f a).run h = (some e, h)) {as : List Addr} {es : List Elem}
    (hg : Store.readAll g as = some es) : (readAll f as).run h = (some es, h) := by
  induction as generalizing es with
  | nil => cases hg; rfl
  | cons a as ih =>
    simp only [Store.readAll] at hg
    cases h1 : g a with
    | none => simp [h1] at hg
    | some e =>
      simp only [h1] at hg
      cases h2 : Store.readAll g as with
      | none => simp [h2] at hg
      | some es' =>
        simp only [h2] at hg
        cases hg
        simp [readAll, hf _ _ h1, ih h2]

theorem run_tree? {n k : Nat} (hk : n ≤ k) {a : Addr} {e : Elem} (hc : Store.read n h a = some e) :
    (tree? k a).run h = (some e, h) := by
  induction n generalizing k a e with
  | zero => simp [Store.read] at hc
  | succ n ih =>
    cases k with
    | zero => omega
    | succ k =>
      simp only [Store.read] at hc
      simp only [tree?, run_bind, run_obj?]
      cases ho : h.obj? a with
      | none => simp [ho] at hc
      | some o =>
        simp only [ho] at hc
        cases h1 : Store.readAll (Store.read n h) (h.kids o) with
        | none => simp [h1] at hc
        | some es =>
          simp only [h1] at hc
          have := run_readAll (h := h) (f := tree? k) (fun a e hc => ih (Nat.le_of_succ_le_succ hk) hc) h1
          cases hc
          simp [this]

theorem run_fromNative {bk : Backend} {n k : Nat} (hk : n ≤ k) {a b : Addr} {h' : Store}
    (hc : Store.fromNative bk n h a = some (b, h')) : (fromNative bk k a).run h = (some b, h') := by
  induction n generalizing k h a b h' with
  | zero => simp [Store.fromNative] at hc
  | succ n ih =>
    cases k with
    | zero => omega
    | succ k =>
      simp only [Store.fromNative] at hc
      simp only [fromNative, run_bind, run_load, asNode_eq]
      cases ho : h.node? a with
      | none => simp [ho] at hc
      | some nd =>
        simp only [ho] at hc
        cases nd with
        | elem tag attrib nsmap text tail children line =>
          simp only at hc
          cases h1 : Store.copyAll (Store.fromNative bk n) (children.filter fun c => !h.isComment c) h with
          | none => simp [h1] at hc
          | some q =>
            obtain ⟨bs, h1'⟩ := q
            simp only [h1, Option.some.injEq] at hc
            have := run_copyAll (f := fromNative bk k) (fun h a b h' hc => ih (Nat.le_of_succ_le_succ hk) hc) h1
            simp [this, hc]
        | comment text tail => simp only [Option.some.injEq] at hc; simp [hc]
        | pi text tail => simp only [Option.some.injEq] at hc; simp [hc]

end Conc
end PXml
