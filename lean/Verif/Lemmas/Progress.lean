import Verif.Lemmas.Mono
import Verif.Lemmas.NoCrash

/-!
# Progress and termination of reading

A measure of what is left to read in an element.  No step of the reader increases it, and every serializer that
returns a value other than `None`, or a validation error, decreases it.  This bounds the loop that reads lists; the
recursion into sub-models is bounded by the size of the tree.
-/

namespace PXml
namespace Elem

mutual
/-- What is left to read. -/
def left : Elem → Nat
  | ⟨_, _, text, _, attrib, elements, next, _⟩ =>
    (elements.length - next) + (if truthy text then 1 else 0) + (attrib.getD []).length + (if attrib.isSome then 1 else 0)
      + leftList elements
def leftList : List Elem → Nat
  | [] => 0
  | c :: cs => left c + leftList cs
end

mutual
/-- Number of elements of the tree. -/
def size : Elem → Nat
  | ⟨_, _, _, _, _, elements, _, _⟩ => sizeList elements + 1
def sizeList : List Elem → Nat
  | [] => 0
  | c :: cs => size c + sizeList cs
end

theorem leftList_eq (l : List Elem) : leftList l = (l.map left).sum := by
  induction l with
  | nil => rfl
  | cons c l ih => simp [leftList, ih]

theorem left_eq (e : Elem) : e.left = (e.elements.length - e.next) + (if truthy e.text then 1 else 0)
    + (e.attrib.getD []).length + (if e.attrib.isSome then 1 else 0) + (e.elements.map left).sum := by
  cases e; simp [left, leftList_eq]

theorem sizeList_eq (l : List Elem) : sizeList l = (l.map size).sum := by
  induction l with
  | nil => rfl
  | cons c l ih => simp [sizeList, ih]

theorem size_eq (e : Elem) : e.size = (e.elements.map size).sum + 1 := by
  cases e; simp [size, sizeList_eq]

theorem sum_set {l : List Elem} {i : Nat} {c c' : Elem} (f : Elem → Nat) (hc : l[i]? = some c) :
    ((l.set i c').map f).sum + f c = (l.map f).sum + f c' := by
  induction l generalizing i with
  | nil => simp at hc
  | cons x l ih =>
    cases i with
    | zero => simp at hc; subst hc; simp; omega
    | succ i => simp at hc; have := ih hc; simp only [List.set_cons_succ, List.map_cons, List.sum_cons]; omega

theorem sum_perm {l l' : List Elem} (f : Elem → Nat) (h : l.Perm l') : (l.map f).sum = (l'.map f).sum :=
  (h.map f).sum_nat

theorem sum_mem {l : List Elem} {c : Elem} (f : Elem → Nat) (h : c ∈ l) : f c ≤ (l.map f).sum := by
  induction l with
  | nil => simp at h
  | cons x l ih =>
    rcases List.mem_cons.1 h with rfl | h
    · simp
    · have := ih h; simp; omega

theorem left_rel : ElemRel (fun e e' => e'.left ≤ e.left) where
  refl e := Nat.le_refl _
  trans h1 h2 := Nat.le_trans h2 h1
  popText e := by simp only [popText, left_eq, truthy]; simp
  popAttrib e k := by
    unfold popAttrib
    split
    · rename_i h
      have hs : e.attrib.isSome = true := by
        cases ha : e.attrib with
        | none => rw [ha] at h; simp [truthyMap] at h
        | some d => rfl
      have := Dict.length_erase_le (e.attrib.getD []) k
      simp only [left_eq, Option.getD_some, hs, Option.isSome_some, if_true]
      omega
    · exact Nat.le_refl _
  popAttributes e := by simp only [popAttributes, left_eq]; simp; split <;> omega
  search e tag mode step := by
    obtain ⟨l, n, h1, h2, h3, _⟩ := search_spec e tag mode step
    rw [h1]
    simp only [left_eq, h2.length_eq, sum_perm left h2]
    omega
  child e i c c' hc h := by
    simp only [setChild, left_eq e, left_eq { e with elements := _ }, List.length_set]
    have := sum_set (c' := c') left hc
    omega
  stepForward e _ := by simp only [stepForward, left_eq e, left_eq { e with next := _ }]; omega
  applySnapshot e s h := by simpa [applySnapshot, left_eq] using h
  hollow e i c hc := by
    simp only [setChild, left_eq e, left_eq { e with elements := _ }, List.length_set]
    have := sum_set (c' := c.hollow) left hc
    have : c.hollow.left = 0 := by simp [left_eq, hollow, truthy]
    omega

theorem size_rel : ElemRel (fun e e' => e'.size ≤ e.size) where
  refl e := Nat.le_refl _
  trans h1 h2 := Nat.le_trans h2 h1
  popText e := by simp only [popText, size_eq]; simp
  popAttrib e k := by
    unfold popAttrib
    split
    · simp [size_eq]
    · exact Nat.le_refl _
  popAttributes e := by simp [popAttributes, size_eq]
  search e tag mode step := by
    obtain ⟨l, n, h1, h2, _⟩ := search_spec e tag mode step
    rw [h1]
    simp only [size_eq, sum_perm size h2]
    omega
  child e i c c' hc h := by
    simp only [setChild, size_eq e, size_eq { e with elements := _ }]
    have := sum_set (c' := c') size hc
    omega
  stepForward e _ := by simp [stepForward, size_eq e, size_eq { e with next := _ }]
  applySnapshot e s h := by simpa [applySnapshot, size_eq] using h
  hollow e i c hc := by
    simp only [setChild, size_eq e, size_eq { e with elements := _ }]
    have := sum_set (c' := c.hollow) size hc
    have h1 : c.hollow.size = 1 := by simp [size_eq, hollow]
    have h2 := size_eq c
    omega

theorem size_child {e c : Elem} (h : c ∈ e.elements) : c.size < e.size := by
  have := sum_mem size h
  rw [size_eq e]; omega

/-- A successful search makes progress. -/
theorem search_progress {e : Elem} {tag : String} {mode : Mode} {i : Nat} {e' : Elem}
    (h : e.search tag mode true = (some i, e')) : e'.left < e.left := by
  have hlt := search_hit_lt h
  obtain ⟨l, n, h1, h2, h3, h4⟩ := search_spec e tag mode true
  have hn : e.next < n := by
    rw [h] at h1
    simp only at h1
    cases mode with
    | strict =>
      simp only [search, strictSearch] at h
      split at h
      · split at h
        · cases h; injection h1 with _ _ _ _ _ _ h1 _; omega
        · cases h
      · cases h
    | ordered =>
      simp only [search, orderedSearch] at h
      split at h
      · rename_i i hm
        have := (firstMatch_some hm).1
        cases h; injection h1 with _ _ _ _ _ _ h1 _; omega
      · cases h
    | unordered =>
      simp only [search, unorderedSearch] at h
      split at h
      · cases h; injection h1 with _ _ _ _ _ _ h1 _; simp at h1; omega
      · cases h
  rw [h] at h1
  simp only at h1
  rw [h1]
  simp only [left_eq, h2.length_eq, sum_perm left h2]
  omega

end Elem

open Elem

/-- Text content is not read, or empty text is not turned into a value: reading it twice does not succeed twice. -/
def Ser.Progressive (eas : Bool) : Ser → Prop
  | .text computed _ => computed = true ∨ eas = false
  | _ => True

/-- The outcome delivers something: a value or a validation error. -/
def Out.delivers : Out Val → Bool
  | .ok v => !v.isNone
  | .verr _ => true
  | _ => false

/-- Custom validators neither grow nor rewind the element. -/
def Env.ValidatorsShrink (env : Env) : Prop :=
  ∀ cls m fs, env.model cls = some m → m.body = .fields fs → ∀ f ∈ fs, ∀ v, f.validator = some v →
    ∀ e : Elem, (v e).1.isDiv = false ∧ (v e).2.left ≤ e.left ∧ (v e).2.size ≤ e.size

section
variable {env : Env} (hv : env.ValidatorsShrink)
include hv

theorem deser_left (eas : Bool) (n : Nat) (s : Ser) (loc : Loc) (st : St) :
    (deser env eas n s loc st).2.el.left ≤ st.el.left :=
  deser_rel left_rel env (fun cls m fs h1 h2 f hf v hfv e => (hv cls m fs h1 h2 f hf v hfv e).2.1) eas n s loc st

theorem deser_size (eas : Bool) (n : Nat) (s : Ser) (loc : Loc) (st : St) :
    (deser env eas n s loc st).2.el.size ≤ st.el.size :=
  deser_rel size_rel env (fun cls m fs h1 h2 f hf v hfv e => (hv cls m fs h1 h2 f hf v hfv e).2.2) eas n s loc st

end

theorem onChild_left {α : Type} {f : St → Out α × St} (h : ∀ st, (f st).2.el.left ≤ st.el.left) (st : St) (i : Nat) :
    (onChild st i f).2.el.left ≤ st.el.left := onChild_rel left_rel h st i

theorem descend_progress {f : St → Out Val × St}
    (hp : ∀ st, (f st).1.delivers = true → (f st).2.el.left < st.el.left) (mode : Mode) (path : List String) (st : St)
    (hd : (descend mode f path st).1.delivers = true) : (descend mode f path st).2.el.left < st.el.left := by
  induction path generalizing st with
  | nil => exact hp st hd
  | cons t ts ih =>
    unfold descend at hd ⊢
    split
    · rename_i e he; rw [he] at hd; simp [Out.delivers] at hd
    · rename_i el he; rw [he] at hd; simp [Out.delivers, Val.isNone] at hd
    · rename_i i el he
      rw [he] at hd
      have hle := left_rel.findElement he
      simp only at hd hle
      refine Nat.lt_of_lt_of_le ?_ hle
      unfold onChild at hd ⊢
      cases hc : el.elements[i]? with
      | none => rw [hc] at hd; simp [Out.delivers] at hd
      | some c =>
        rw [hc] at hd
        simp only at hd ⊢
        have := ih ⟨c, st.sm⟩ hd
        simp only at this
        simp only [setChild, left_eq el, left_eq { el with elements := _ }, List.length_set]
        have h2 := sum_set (c' := (descend mode f ts ⟨c, st.sm⟩).2.el) left hc
        omega

theorem homogLoop_progress {f : Loc → St → Out Val × St} (h : ∀ l st, (f l st).2.el.left ≤ st.el.left)
    (hp : ∀ l st, (f l st).1.delivers = true → (f l st).2.el.left < st.el.left) (loc : Loc) (n idx : Nat)
    (acc : List Val) (errs : Dict ErrKey VErr) (st : St) :
    (homogLoop f loc n idx acc errs st).2.el.left ≤ st.el.left ∧
    (∀ r st', homogLoop f loc n idx acc errs st = (.ok r, st') → st'.el.left < st.el.left ∨ r = (acc, errs)) ∧
    (∀ e st', homogLoop f loc n idx acc errs st ≠ (.verr e, st')) := by
  induction n generalizing idx acc errs st with
  | zero =>
    refine ⟨Nat.le_refl _, ?_, ?_⟩
    · intro r st' hr; unfold homogLoop at hr; cases hr
    · intro e st' hr; unfold homogLoop at hr; cases hr
  | succ n ih =>
    unfold homogLoop
    have hs := h (loc ++ [.idx idx]) st
    have hps := hp (loc ++ [.idx idx]) st
    cases hr : f (loc ++ [.idx idx]) st with
    | mk o st1 =>
      rw [hr] at hs hps
      cases o with
      | ok v =>
        simp only
        split
        · refine ⟨hs, ?_, ?_⟩
          · intro r st' hr; cases hr; exact .inr rfl
          · intro e st' hr; cases hr
        · rename_i hv
          have hlt := hps (by simpa [Out.delivers] using hv)
          obtain ⟨h1, h2, h3⟩ := ih (idx + 1) (acc ++ [v]) errs st1
          simp only at hlt
          refine ⟨by omega, ?_, h3⟩
          intro r st' hr
          have h4 := h1
          rw [hr] at h4
          simp only at h4
          left; omega
      | verr e =>
        have hlt := hps rfl
        obtain ⟨h1, h2, h3⟩ := ih (idx + 1) acc (errs ++ [(some (.idx idx), e)]) st1
        simp only at hlt ⊢
        refine ⟨by omega, ?_, h3⟩
        intro r st' hr
        have h4 := h1
        rw [hr] at h4
        simp only at h4
        left; omega
      | crash e =>
        refine ⟨hs, ?_, ?_⟩
        · intro r st' hr; cases hr
        · intro e st' hr; cases hr
      | diverge =>
        refine ⟨hs, ?_, ?_⟩
        · intro r st' hr; cases hr
        · intro e st' hr; cases hr

theorem heteroLoop_progress {f : Ser → Loc → St → Out Val × St} (h : ∀ s l st, (f s l st).2.el.left ≤ st.el.left)
    (loc : Loc) (ss : List Ser)
    (hp : ∀ s ∈ ss, ∀ l st, (f s l st).1.delivers = true → (f s l st).2.el.left < st.el.left) (idx : Nat)
    (acc : List Val) (errs : Dict ErrKey VErr) (st : St) :
    (heteroLoop f loc ss idx acc errs st).2.el.left ≤ st.el.left ∧
    (∀ r st', heteroLoop f loc ss idx acc errs st = (.ok r, st') →
      st'.el.left < st.el.left ∨ (r.2 = errs ∧ ∃ ns, r.1 = acc ++ ns ∧ ns.all Val.isNone = true)) ∧
    (∀ e st', heteroLoop f loc ss idx acc errs st ≠ (.verr e, st')) := by
  induction ss generalizing idx acc errs st with
  | nil =>
    refine ⟨Nat.le_refl _, ?_, ?_⟩
    · intro r st' hr; unfold heteroLoop at hr; cases hr; exact .inr ⟨rfl, [], by simp⟩
    · intro e st' hr; unfold heteroLoop at hr; cases hr
  | cons s ss ih =>
    have ih := ih (fun t ht => hp t (by simp [ht]))
    unfold heteroLoop
    have hs := h s (loc ++ [.idx idx]) st
    have hps := hp s (by simp) (loc ++ [.idx idx]) st
    cases hr : f s (loc ++ [.idx idx]) st with
    | mk o st1 =>
      rw [hr] at hs hps
      cases o with
      | ok v =>
        obtain ⟨h1, h2, h3⟩ := ih (idx + 1) (acc ++ [v]) errs st1
        simp only at hs ⊢
        refine ⟨by omega, ?_, h3⟩
        intro r st' hr
        have h4 := h1
        rw [hr] at h4
        simp only at h4
        by_cases hv : v.isNone = true
        · rcases h2 r st' hr with h5 | ⟨h5, ns, h6, h7⟩
          · left; omega
          · right; exact ⟨h5, v :: ns, by simp [h6], by simp [hv, h7]⟩
        · have hlt := hps (by simpa [Out.delivers] using hv)
          simp only at hlt
          left; omega
      | verr e =>
        have hlt := hps rfl
        obtain ⟨h1, h2, h3⟩ := ih (idx + 1) acc (errs ++ [(some (.idx idx), e)]) st1
        simp only at hlt ⊢
        refine ⟨by omega, ?_, h3⟩
        intro r st' hr
        have h4 := h1
        rw [hr] at h4
        simp only at h4
        left; omega
      | crash e =>
        refine ⟨hs, ?_, ?_⟩
        · intro r st' hr; cases hr
        · intro e st' hr; cases hr
      | diverge =>
        refine ⟨hs, ?_, ?_⟩
        · intro r st' hr; cases hr
        · intro e st' hr; cases hr

theorem unionLoop_progress {f : Proxy → St → Out Val × St}
    (hp : ∀ p st, (f p st).1.delivers = true → (f p st).2.el.left < st.el.left)
    (hv : ∀ p st e st', f p st = (.verr e, st') → st.el.next < st.el.elements.length) (title : Title)
    (ps : List Proxy) (errs : Dict ErrKey VErr) (st : St)
    (he : errs ≠ [] → st.el.next < st.el.elements.length)
    (hd : (unionLoop f title ps errs st).1.delivers = true) :
    (unionLoop f title ps errs st).2.el.left < st.el.left := by
  induction ps generalizing errs st with
  | nil =>
    unfold unionLoop at hd ⊢
    split
    · rename_i h; rw [if_pos h] at hd; simp [Out.delivers, Val.isNone] at hd
    · rename_i hne
      have := he (by simpa using hne)
      simp only [stepForward, left_eq st.el, left_eq { st.el with next := _ }]
      omega
  | cons p ps ih =>
    unfold unionLoop at hd ⊢
    have hps := hp p ⟨st.el.createSnapshot, st.sm⟩
    cases hr : f p ⟨st.el.createSnapshot, st.sm⟩ with
    | mk o st' =>
      rw [hr] at hps hd
      cases o with
      | ok v =>
        simp only at hd ⊢
        split
        · rename_i h; rw [if_pos h] at hd; exact ih _ { st with sm := st'.sm } he hd
        · rename_i h
          have := hps (by simpa [Out.delivers] using h)
          simpa [applySnapshot, left_eq, createSnapshot] using this
      | verr e =>
        exact ih _ { st with sm := st'.sm } (fun _ => hv p ⟨st.el.createSnapshot, st.sm⟩ _ _ hr) hd
      | crash e => simp [Out.delivers] at hd
      | diverge => simp [Out.delivers] at hd

theorem taggedLoop_progress {f : Proxy → St → Out Val × St}
    (hp : ∀ p st, (f p st).1.delivers = true → (f p st).2.el.left < st.el.left) (loc : Loc) (a : String)
    (mode : Mode) (ps : List (String × Proxy)) (st : St)
    (hd : (taggedLoop f loc a mode ps st).1.delivers = true) :
    (taggedLoop f loc a mode ps st).2.el.left < st.el.left := by
  induction ps generalizing st with
  | nil => simp [taggedLoop, Out.delivers, Val.isNone] at hd
  | cons p ps ih =>
    obtain ⟨tag, p⟩ := p
    unfold taggedLoop at hd ⊢
    have hs := left_rel.search st.el p.name mode false
    split
    · rename_i i el hse
      rw [hse] at hs hd
      simp only at hs hd
      cases hc : el.elements[i]? with
      | none => rw [hc] at hd; simp [Out.delivers] at hd
      | some c =>
        rw [hc] at hd
        simp only at hd ⊢
        split
        · rename_i ht
          rw [if_pos ht] at hd
          exact Nat.lt_of_lt_of_le (hp p ⟨el, _⟩ hd) hs
        · rename_i ht
          rw [if_neg ht] at hd
          exact Nat.lt_of_lt_of_le (ih { st with el := el } hd) hs
    · rename_i el hse
      rw [hse] at hs hd
      exact Nat.lt_of_lt_of_le (ih { st with el := el } hd) hs

/-- Every value other than `None` and every validation error costs content. -/
theorem deser_progress {env : Env} (hv : env.ValidatorsShrink) (eas : Bool) (n : Nat) (s : Ser)
    (hs : s.Everywhere (Ser.Progressive eas)) (loc : Loc) (st : St)
    (hd : (deser env eas n s loc st).1.delivers = true) : (deser env eas n s loc st).2.el.left < st.el.left := by
  induction n generalizing s loc st with
  | zero => simp [deser, Out.delivers] at hd
  | succ n ih =>
    have hp : ∀ p st e st', deser env eas n (.proxy p) loc st = (.verr e, st') →
        st.el.next < st.el.elements.length := fun p st e st' h => deser_proxy_verr h
    have hl := fun s loc st => deser_left hv eas n s loc st
    have hprox : ∀ p st, (deser env eas n (.proxy p) loc st).1.delivers = true →
        (deser env eas n (.proxy p) loc st).2.el.left < st.el.left :=
      fun p st h => ih (.proxy p) ⟨trivial, by simp [Ser.subs]⟩ loc st h
    have hmod : ∀ cls m, env.model cls = some m → ∀ loc st,
        (deserModel env (deser env eas n) cls m loc st).2.el.left ≤ st.el.left := fun cls m hm loc st =>
      deserModel_env_rel left_rel env (fun cls m fs h1 h2 f hf v hfv e => (hv cls m fs h1 h2 f hf v hfv e).2.1) eas n
        cls m hm loc st
    change (deserStep env eas (deser env eas n) n s loc st).1.delivers = true at hd
    change (deserStep env eas (deser env eas n) n s loc st).2.el.left < st.el.left
    generalize deser env eas n = F at ih hp hd hl hprox hmod ⊢
    unfold deserStep at hd ⊢
    obtain ⟨hs1, hs2⟩ := hs
    cases s with
    | text c nl =>
      simp only [Ser.Progressive] at hs1
      simp only at hd ⊢
      unfold deserText at hd ⊢
      split
      · rename_i h; rw [if_pos h] at hd; simp [Out.delivers, Val.isNone] at hd
      · rename_i h
        rw [if_neg h] at hd
        have heas : eas = false := by rcases hs1 with h1 | h1; exact absurd h1 h; exact h1
        subst heas
        have hnil : (if nl = true then st.el.isNil else (false, st.el)).2.left ≤ st.el.left := by
          split
          · exact left_rel.isNil st.el
          · exact Nat.le_refl _
        generalize hq : (if nl = true then st.el.isNil else (false, st.el)) = q at hd hnil ⊢
        obtain ⟨b, el⟩ := q
        cases b with
        | true => simp [Out.delivers, Val.isNone] at hd
        | false =>
          simp only [popText] at hd hnil ⊢
          have ht : truthy el.text = true := by
            cases ht : el.text with
            | none => rw [ht] at hd; simp [textVal, Out.delivers, Val.isNone] at hd
            | some t =>
              rw [ht] at hd
              by_cases h0 : t = ""
              · simp [textVal, Out.delivers, Val.isNone, h0] at hd
              · simp [truthy, h0]
          refine Nat.lt_of_lt_of_le ?_ hnil
          rw [left_eq el, left_eq { el with text := none }]
          simp only [ht, if_true]
          simp [truthy]
    | attr nm c =>
      simp only at hd ⊢
      split
      · rename_i h; rw [if_pos h] at hd; simp [Out.delivers, Val.isNone] at hd
      · rename_i h
        rw [if_neg h] at hd
        unfold popAttrib at hd ⊢
        by_cases ht : truthyMap st.el.attrib = true
        · rw [if_pos ht] at hd ⊢
          cases hg : (st.el.attrib.getD []).get? nm with
          | none => rw [hg] at hd; simp [Out.delivers, Val.isNone] at hd
          | some v =>
            have hsome : st.el.attrib.isSome = true := by
              cases ha : st.el.attrib with
              | none => rw [ha] at ht; simp [truthyMap] at ht
              | some d => rfl
            have := Dict.length_erase hg
            simp only [left_eq, Option.getD_some, hsome, Option.isSome_some, if_true]
            omega
        · rw [if_neg ht] at hd; simp [Out.delivers, Val.isNone] at hd
    | elem nm ns m c nl =>
      simp only at hd ⊢
      split
      · rename_i h; rw [if_pos h] at hd; simp [Out.delivers, Val.isNone] at hd
      · rename_i h
        rw [if_neg h] at hd
        split
        · rename_i el he; rw [he] at hd; simp [Out.delivers, Val.isNone] at hd
        · rename_i i el he
          exact Nat.lt_of_le_of_lt
            (onChild_left (fun c' => deserText_rel left_rel eas c nl ⟨c'.el, c'.sm.set loc c'.el.line⟩) ⟨el, st.sm⟩ i)
            (search_progress he)
    | attrs a =>
      simp only at hd ⊢
      unfold deserAttrs at hd ⊢
      split
      · rename_i h; rw [if_pos h] at hd; simp [Out.delivers, Val.isNone] at hd
      · rename_i h
        rw [if_neg h] at hd
        unfold popAttributes at hd ⊢
        cases ha : st.el.attrib with
        | none => rw [ha] at hd; simp [Out.delivers, Val.isNone] at hd
        | some d =>
          simp only [left_eq, ha]
          simp
          omega
    | mapElem a nm m =>
      simp only at hd ⊢
      split
      · rename_i h; rw [if_pos h] at hd; simp [Out.delivers, Val.isNone] at hd
      · rename_i h
        rw [if_neg h] at hd
        split
        · rename_i el he; rw [he] at hd; simp [Out.delivers, Val.isNone] at hd
        · rename_i i el he
          exact Nat.lt_of_le_of_lt
            (onChild_left (fun c' => deserAttrs_rel left_rel a ⟨c'.el, c'.sm.set loc c'.el.line⟩) ⟨el, st.sm⟩ i)
            (search_progress he)
    | raw nm m c =>
      simp only at hd ⊢
      split
      · rename_i h; rw [if_pos h] at hd; simp [Out.delivers, Val.isNone] at hd
      · rename_i h
        rw [if_neg h] at hd
        unfold popElementRemove popElement at hd ⊢
        cases hse : st.el.search nm m true with
        | mk o el =>
          rw [hse] at hd
          cases o with
          | none => simp [Out.delivers, Val.isNone] at hd
          | some i =>
            simp only at hd ⊢
            cases hc : el.elements[i]? with
            | none => rw [hc] at hd; simp [Out.delivers, Val.isNone] at hd
            | some c => exact Nat.lt_of_le_of_lt (left_rel.hollow _ _ c hc) (search_progress hse)
    | proxy p =>
      simp only at hd ⊢
      cases hm : env.model p.cls with
      | none => rw [hm] at hd; simp [Out.delivers] at hd
      | some m =>
        rw [hm] at hd
        simp only at hd ⊢
        split
        · rename_i h; rw [if_pos h] at hd; simp [Out.delivers, Val.isNone] at hd
        · rename_i h
          rw [if_neg h] at hd
          split
          · rename_i el he; rw [he] at hd; simp [Out.delivers, Val.isNone] at hd
          · rename_i i el he
            refine Nat.lt_of_le_of_lt (onChild_left (fun c => ?_) ⟨el, st.sm⟩ i) (search_progress he)
            have hn := left_rel.isNil c.el
            cases hnil : c.el.isNil with
            | mk b el' =>
              rw [hnil] at hn
              cases b with
              | true => exact hn
              | false => exact Nat.le_trans (hmod p.cls m hm loc ⟨el', _⟩) hn
    | primUnion c inner =>
      simp only at hd ⊢
      split
      · rename_i h; rw [if_pos h] at hd; simp [Out.delivers, Val.isNone] at hd
      · rename_i h; rw [if_neg h] at hd
        exact ih inner (hs2 _ (by simp [Ser.subs])) loc st hd
    | modelUnion t c alts =>
      simp only at hd ⊢
      split
      · rename_i h; rw [if_pos h] at hd; simp [Out.delivers, Val.isNone] at hd
      · rename_i h; rw [if_neg h] at hd
        exact unionLoop_progress hprox hp t alts [] st (by simp) hd
    | tagged c d a m alts =>
      simp only at hd ⊢
      split
      · rename_i h; rw [if_pos h] at hd; simp [Out.delivers, Val.isNone] at hd
      · rename_i h; rw [if_neg h] at hd
        exact taggedLoop_progress hprox loc a m alts st hd
    | wrap path ns m c inner =>
      simp only at hd ⊢
      split
      · rename_i h; rw [if_pos h] at hd; simp [Out.delivers, Val.isNone] at hd
      · rename_i h; rw [if_neg h] at hd
        exact descend_progress
          (fun c => ih inner (hs2 _ (by simp [Ser.subs])) loc ⟨c.el, c.sm.set loc c.el.line⟩) m path st hd
    | homog t c inner =>
      simp only at hd ⊢
      split
      · rename_i h; rw [if_pos h] at hd; simp [Out.delivers, Val.isNone] at hd
      · rename_i h; rw [if_neg h] at hd
        obtain ⟨h1, h2, h3⟩ := homogLoop_progress (fun l => hl inner l)
          (fun l => ih inner (hs2 _ (by simp [Ser.subs])) l) loc n 0 [] [] st
        generalize hr : homogLoop (fun loc st => F inner loc st) loc n 0 [] [] st = q at hd h1 h2 h3 ⊢
        obtain ⟨o, st'⟩ := q
        cases o with
        | ok r =>
          rcases h2 r st' rfl with h4 | rfl
          · exact h4
          · simp [homogFinish, Out.delivers, Val.isNone] at hd
        | verr e => exact absurd rfl (h3 e st')
        | crash e => simp [Out.delivers] at hd
        | diverge => simp [Out.delivers] at hd
    | hetero t c inners =>
      simp only at hd ⊢
      split
      · rename_i h; rw [if_pos h] at hd; simp [Out.delivers, Val.isNone] at hd
      · rename_i h; rw [if_neg h] at hd
        obtain ⟨h1, h2, h3⟩ := heteroLoop_progress hl loc inners
          (fun s hs l => ih s (hs2 _ (by simpa [Ser.subs] using hs)) l) 0 [] [] st
        generalize hr : heteroLoop F loc inners 0 [] [] st = q at hd h1 h2 h3 ⊢
        obtain ⟨o, st'⟩ := q
        cases o with
        | ok r =>
          rcases h2 r st' rfl with h4 | ⟨h4, ns, h5, h6⟩
          · exact h4
          · obtain ⟨r1, r2⟩ := r
            simp only [List.nil_append] at h4 h5
            subst h4 h5
            simp [heteroFinish, Out.delivers, Val.isNone, h6] at hd
        | verr e => exact absurd rfl (h3 e st')
        | crash e => simp [Out.delivers] at hd
        | diverge => simp [Out.delivers] at hd

end PXml
