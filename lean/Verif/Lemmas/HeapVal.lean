import Verif.HeapWrite
import Verif.Lemmas.Heap

/-! Values in the store. -/

namespace PXml
namespace Heap

section
variable {h h' : Store} {a : Addr} {v : HVal} {w : Val}

theorem IsVal.grow (r : IsVal h v w) (g : Grow h h') : IsVal h' v w := by
  induction r with
  | none => exact .none
  | str s => exact .str s
  | bool b => exact .bool b
  | int i => exact .int i
  | «opaque» r l => exact .opaque r l
  | undef => exact .undef
  | list h1 h2 _ ih => exact .list ((g.get (lt_of_some h1)).trans h1) h2 ih
  | dict h1 h2 _ ih => exact .dict ((g.get (lt_of_some h1)).trans h1) h2 ih
  | model h1 h2 _ ih => exact .model ((g.get (lt_of_some h1)).trans h1) h2 ih
  | raw ht => exact .raw (ht.grow g)

theorem IsVal.isNone (r : IsVal h v w) : v.isNone = w.isNone := by cases r <;> rfl

theorem IsVal.lt (r : IsVal h (.ref a) w) : a < h.length := by
  cases r with
  | list h1 => exact lt_of_some h1
  | dict h1 => exact lt_of_some h1
  | model h1 => exact lt_of_some h1
  | raw ht => exact ht.lt

theorem length_of_keys {d : List (String × HVal)} {d' : List (String × Val)} (hk : d.map Prod.fst = d'.map Prod.fst) :
    d.length = d'.length := by
  have := congrArg List.length hk
  simpa using this

theorem IsVal.len? (r : IsVal h v w) : h.len? v = w.len? := by
  cases r with
  | none => rfl
  | str s => rfl
  | bool b => rfl
  | int i => rfl
  | «opaque» r l => rfl
  | undef => rfl
  | list h1 h2 => simp [Store.len?, Store.cell?, h1, Val.len?, h2]
  | dict h1 h2 => simp [Store.len?, Store.cell?, h1, Val.len?, length_of_keys h2]
  | model h1 => simp [Store.len?, Store.cell?, h1, Val.len?]
  | raw ht =>
    cases ht with
    | elem h1 _ h3 => simp [Store.len?, Store.cell?, h1, Val.len?, h3]
    | comment h1 => simp [Store.len?, Store.cell?, h1, Val.len?]
    | pi h1 => simp [Store.len?, Store.cell?, h1, Val.len?]

/-- The items of a list in the store are those of the value. -/
theorem IsVal.items? (r : IsVal h v w) :
    (∃ vs ws, h.items? v = some vs ∧ w = .list ws ∧ vs.length = ws.length ∧
      ∀ (i : Nat) (v : HVal) (w : Val), vs[i]? = some v → ws[i]? = some w → IsVal h v w) ∨
    h.items? v = Option.none ∧ ∀ ws, w ≠ .list ws := by
  cases r with
  | list h1 h2 h3 => exact .inl ⟨_, _, by simp [Store.items?, Store.cell?, h1], rfl, h2, h3⟩
  | dict h1 => exact .inr ⟨by simp [Store.items?, Store.cell?, h1], by simp⟩
  | model h1 => exact .inr ⟨by simp [Store.items?, Store.cell?, h1], by simp⟩
  | raw ht =>
    obtain ⟨n, h1⟩ := ht.node?
    exact .inr ⟨by simp [Store.items?, Store.cell?, h1], by simp⟩
  | _ => exact .inr ⟨rfl, by simp⟩

/-- The fields of an instance in the store are those of the value. -/
theorem IsVal.inst? (r : IsVal h v w) :
    (∃ cls d d' set, h.inst? v = some (cls, d, set) ∧ w = .model cls d' set ∧ d.map Prod.fst = d'.map Prod.fst ∧
      ∀ (i : Nat) (v : HVal) (w : Val), (d.map Prod.snd)[i]? = some v → (d'.map Prod.snd)[i]? = some w → IsVal h v w) ∨
    h.inst? v = Option.none ∧ ∀ cls d set, w ≠ .model cls d set := by
  cases r with
  | model h1 h2 h3 => exact .inl ⟨_, _, _, _, by simp [Store.inst?, Store.cell?, h1], rfl, h2, h3⟩
  | dict h1 => exact .inr ⟨by simp [Store.inst?, Store.cell?, h1], by simp⟩
  | list h1 => exact .inr ⟨by simp [Store.inst?, Store.cell?, h1], by simp⟩
  | raw ht =>
    obtain ⟨n, h1⟩ := ht.node?
    exact .inr ⟨by simp [Store.inst?, Store.cell?, h1], by simp⟩
  | _ => exact .inr ⟨rfl, by simp⟩

theorem get?_related {P : HVal → Val → Prop} (k : String) : ∀ (d : List (String × HVal)) (d' : List (String × Val)),
    d.map Prod.fst = d'.map Prod.fst →
    (∀ (i : Nat) (v : HVal) (w : Val), (d.map Prod.snd)[i]? = some v → (d'.map Prod.snd)[i]? = some w → P v w) →
    (∃ v w, Dict.get? d k = some v ∧ Dict.get? d' k = some w ∧ P v w) ∨ Dict.get? d k = Option.none ∧ Dict.get? d' k = Option.none
  | [], [], _, _ => .inr ⟨rfl, rfl⟩
  | [], _ :: _, hk, _ => by cases hk
  | _ :: _, [], hk, _ => by cases hk
  | (k1, v) :: d, (k2, w) :: d', hk, hv => by
    simp only [List.map_cons, List.cons.injEq] at hk
    obtain ⟨rfl, hk⟩ := hk
    simp only [Dict.get?]
    by_cases h : k1 = k
    · simp only [h, if_true]
      exact .inl ⟨v, w, rfl, rfl, hv 0 v w rfl rfl⟩
    · simp only [h, if_false]
      exact get?_related k d d' hk fun i v w h1 h2 => hv (i + 1) v w (by simpa using h1) (by simpa using h2)

/-! ## Reading values -/

theorem nodesAll_ok {f : Addr → Option Node} : ∀ (as : List Addr) (ts : List Node), as.length = ts.length →
    (∀ (i : Nat) (b : Addr) (t : Node), as[i]? = some b → ts[i]? = some t → f b = some t) → Store.nodesAll f as = some ts
  | [], [], _, _ => rfl
  | [], _ :: _, hl, _ => by cases hl
  | _ :: _, [], hl, _ => by cases hl
  | b :: as, t :: ts, hl, hk => by
    simp only [Store.nodesAll, hk 0 b t rfl rfl,
      nodesAll_ok as ts (Nat.succ.inj hl) fun i b c hb hc => hk (i + 1) b c (by simpa using hb) (by simpa using hc)]

theorem nodes_ok {t : Node} (r : IsNode h t a) :
    ∃ L : List Nat, L.Nodup ∧ (∀ x ∈ L, ∃ t', IsNode h t' x ∧ sizeOf t' ≤ sizeOf t) ∧
      ∀ n, L.length ≤ n → Store.nodes n h a = some t := by
  induction r with
  | @comment text tail a h1 =>
    refine ⟨[a], by simp, fun x hx => ?_, fun n hn => ?_⟩
    · rw [List.mem_singleton.1 hx]; exact ⟨_, .comment h1, Nat.le_refl _⟩
    · cases n with
      | zero => simp at hn
      | succ n => simp only [Store.nodes, Store.node?, h1]
  | @pi text tail a h1 =>
    refine ⟨[a], by simp, fun x hx => ?_, fun n hn => ?_⟩
    · rw [List.mem_singleton.1 hx]; exact ⟨_, .pi h1, Nat.le_refl _⟩
    · cases n with
      | zero => simp at hn
      | succ n => simp only [Store.nodes, Store.node?, h1]
  | @elem tag d nsmap text tail children line a da as h1 h2 h3 h4 ih =>
    have hsize : ∀ (i : Nat) (c : Node), children[i]? = some c → sizeOf c < sizeOf (Node.elem tag d nsmap text tail children line) := by
      intro i c hc
      have := List.sizeOf_lt_of_mem (List.mem_of_getElem? hc)
      simp only [Node.elem.sizeOf_spec]
      omega
    obtain ⟨L, hn, hm, hr⟩ := bound_all (P := fun x => ∃ t', IsNode h t' x ∧ sizeOf t' < sizeOf (Node.elem tag d nsmap text tail children line))
      (Q := fun n b c => Store.nodes n h b = some c) as children h3
      fun i b c hb hc => by
        obtain ⟨L, hn, hm, hr⟩ := ih i b c hb hc
        refine ⟨L, hn, fun x hx => ?_, hr⟩
        obtain ⟨t', ht, hs⟩ := hm x hx
        exact ⟨t', ht, Nat.lt_of_le_of_lt hs (hsize i c hc)⟩
    have hnode : IsNode h (Node.elem tag d nsmap text tail children line) a := .elem h1 h2 h3 h4
    refine ⟨a :: L, List.nodup_cons.2 ⟨?_, hn⟩, ?_, ?_⟩
    · intro ha
      obtain ⟨t', ht, hs⟩ := hm a ha
      rw [ht.unique hnode] at hs
      exact Nat.lt_irrefl _ hs
    · intro x hx
      rcases List.mem_cons.1 hx with rfl | hx
      · exact ⟨_, hnode, Nat.le_refl _⟩
      · obtain ⟨t', ht, hs⟩ := hm x hx
        exact ⟨t', ht, Nat.le_of_lt hs⟩
    · intro n hle
      cases n with
      | zero => simp at hle
      | succ n =>
        have hle' : L.length ≤ n := by simpa using hle
        simp only [Store.nodes, Store.node?, h1, nodesAll_ok as children h3 (hr n hle'), Store.dict?, h2, Option.getD_some]

/-- Reading a native tree. -/
theorem IsNode.read {t : Node} (r : IsNode h t a) : Store.nodes h.length h a = some t := by
  obtain ⟨L, h1, h2, h3⟩ := nodes_ok r
  refine h3 _ (nodup_bound _ L h1 fun x hx => ?_)
  obtain ⟨t', ht, _⟩ := h2 x hx
  exact ht.lt

theorem ext_related {α : Type} {P : α → Val → Prop} {vs : List α} {ws ws' : List Val} (h1 : vs.length = ws.length)
    (h2 : vs.length = ws'.length)
    (hk : ∀ (i : Nat) (v : α) (w : Val), vs[i]? = some v → ws[i]? = some w → ∀ w', P v w' → w = w')
    (hk' : ∀ (i : Nat) (v : α) (w : Val), vs[i]? = some v → ws'[i]? = some w → P v w) : ws = ws' := by
  apply List.ext_getElem?
  intro i
  cases hc : ws[i]? with
  | none =>
    rw [List.getElem?_eq_none_iff] at hc
    rw [eq_comm, List.getElem?_eq_none_iff]; omega
  | some c =>
    have hlt := (List.getElem?_eq_some_iff.1 hc).1
    have hlt' : i < ws'.length := by omega
    have hlt'' : i < vs.length := by omega
    have hb := List.getElem?_eq_getElem hlt''
    have hc' := List.getElem?_eq_getElem hlt'
    rw [hc', hk i _ c hb hc _ (hk' i _ _ hb hc')]

theorem eq_of_parts {d d' : List (String × Val)} (h1 : d.map Prod.fst = d'.map Prod.fst) (h2 : d.map Prod.snd = d'.map Prod.snd) :
    d = d' := by
  induction d generalizing d' with
  | nil => cases d' with
    | nil => rfl
    | cons x d' => cases h1
  | cons x d ih => cases d' with
    | nil => cases h1
    | cons y d' =>
      simp only [List.map_cons, List.cons.injEq] at h1 h2
      rw [ih h1.2 h2.2, Prod.ext h1.1 h2.1]

/-- There is only one value at an address. -/
theorem IsVal.unique {w' : Val} (r : IsVal h v w) (r' : IsVal h v w') : w = w' := by
  induction r generalizing w' with
  | none => cases r'; rfl
  | str s => cases r'; rfl
  | bool b => cases r'; rfl
  | int i => cases r'; rfl
  | «opaque» r l => cases r'; rfl
  | undef => cases r'; rfl
  | list h1 h2 _ ih =>
    cases r' with
    | list h1' h2' h3' =>
      rw [h1] at h1'; cases h1'
      rw [ext_related (P := IsVal h) h2 h2' (fun i v w hv hw w' => ih i v w hv hw) h3']
    | dict h1' => rw [h1] at h1'; cases h1'
    | model h1' => rw [h1] at h1'; cases h1'
    | raw ht => obtain ⟨n, h1'⟩ := ht.node?; rw [h1] at h1'; cases h1'
  | dict h1 h2 _ ih =>
    cases r' with
    | list h1' => rw [h1] at h1'; cases h1'
    | dict h1' h2' h3' =>
      rw [h1] at h1'; cases h1'
      rw [eq_of_parts (h2.symm.trans h2') (ext_related (P := IsVal h) (by simpa using length_of_keys h2)
        (by simpa using length_of_keys h2') (fun i v w hv hw w' => ih i v w hv hw) h3')]
    | model h1' => rw [h1] at h1'; cases h1'
    | raw ht => obtain ⟨n, h1'⟩ := ht.node?; rw [h1] at h1'; cases h1'
  | model h1 h2 _ ih =>
    cases r' with
    | list h1' => rw [h1] at h1'; cases h1'
    | dict h1' => rw [h1] at h1'; cases h1'
    | model h1' h2' h3' =>
      rw [h1] at h1'; cases h1'
      rw [eq_of_parts (h2.symm.trans h2') (ext_related (P := IsVal h) (by simpa using length_of_keys h2)
        (by simpa using length_of_keys h2') (fun i v w hv hw w' => ih i v w hv hw) h3')]
    | raw ht => obtain ⟨n, h1'⟩ := ht.node?; rw [h1] at h1'; cases h1'
  | raw ht =>
    obtain ⟨n, h1⟩ := ht.node?
    cases r' with
    | list h1' => rw [h1] at h1'; cases h1'
    | dict h1' => rw [h1] at h1'; cases h1'
    | model h1' => rw [h1] at h1'; cases h1'
    | raw ht' => rw [ht.unique ht']

theorem valuesAll_ok {f : HVal → Option Val} : ∀ (vs : List HVal) (ws : List Val), vs.length = ws.length →
    (∀ (i : Nat) (v : HVal) (w : Val), vs[i]? = some v → ws[i]? = some w → f v = some w) → Store.valuesAll f vs = some ws
  | [], [], _, _ => rfl
  | [], _ :: _, hl, _ => by cases hl
  | _ :: _, [], hl, _ => by cases hl
  | b :: as, t :: ts, hl, hk => by
    simp only [Store.valuesAll, hk 0 b t rfl rfl,
      valuesAll_ok as ts (Nat.succ.inj hl) fun i b c hb hc => hk (i + 1) b c (by simpa using hb) (by simpa using hc)]

theorem fieldsAll_ok {f : HVal → Option Val} {d : List (String × HVal)} {d' : List (String × Val)} (hk : d.map Prod.fst = d'.map Prod.fst)
    (hv : ∀ (i : Nat) (v : HVal) (w : Val), (d.map Prod.snd)[i]? = some v → (d'.map Prod.snd)[i]? = some w → f v = some w) :
    Store.fieldsAll f d = some d' := by
  rw [Store.fieldsAll, valuesAll_ok _ _ (by simpa using length_of_keys hk) hv, Option.map_some, hk]
  congr 1
  clear hk hv
  induction d' with
  | nil => rfl
  | cons x d' ih => simp [ih]

theorem deref_ok (r : IsVal h v w) :
    ∃ L : List Nat, L.Nodup ∧ (∀ x ∈ L, ∃ w', IsVal h (.ref x) w' ∧ sizeOf w' ≤ sizeOf w) ∧
      ∀ n, L.length ≤ n → Store.deref n h v = some w := by
  have imm : ∀ v w, HVal.imm? v = some w → ∃ L : List Nat, L.Nodup ∧ (∀ x ∈ L, ∃ w', IsVal h (.ref x) w' ∧ sizeOf w' ≤ sizeOf w) ∧
      ∀ n, L.length ≤ n → Store.deref n h v = some w := by
    intro v w hv
    refine ⟨[], by simp, by simp, fun n _ => ?_⟩
    cases n with
    | zero => exact hv
    | succ n => cases v <;> first | exact hv | cases hv
  -- a compound value, from its parts
  have parts : ∀ (a : Addr) (w : Val) (vs : List HVal) (ws : List Val), IsVal h (.ref a) w → vs.length = ws.length →
      (∀ w' ∈ ws, sizeOf w' < sizeOf w) →
      (∀ (i : Nat) (v : HVal) (w : Val), vs[i]? = some v → ws[i]? = some w →
        ∃ L : List Nat, L.Nodup ∧ (∀ x ∈ L, ∃ w', IsVal h (.ref x) w' ∧ sizeOf w' ≤ sizeOf w) ∧
          ∀ n, L.length ≤ n → Store.deref n h v = some w) →
      (∀ n, (∀ (i : Nat) (v : HVal) (w : Val), vs[i]? = some v → ws[i]? = some w → Store.deref n h v = some w) →
        Store.deref (n + 1) h (.ref a) = some w) →
      ∃ L : List Nat, L.Nodup ∧ (∀ x ∈ L, ∃ w', IsVal h (.ref x) w' ∧ sizeOf w' ≤ sizeOf w) ∧
        ∀ n, L.length ≤ n → Store.deref n h (.ref a) = some w := by
    intro a w vs ws ra hl hsize hk hstep
    obtain ⟨L, hn, hm, hr⟩ := bound_all (P := fun x => ∃ w', IsVal h (.ref x) w' ∧ sizeOf w' < sizeOf w)
      (Q := fun n v w => Store.deref n h v = some w) vs ws hl
      fun i b c hb hc => by
        obtain ⟨L, hn, hm, hr⟩ := hk i b c hb hc
        refine ⟨L, hn, fun x hx => ?_, hr⟩
        obtain ⟨t', ht, hs⟩ := hm x hx
        exact ⟨t', ht, Nat.lt_of_le_of_lt hs (hsize c (List.mem_of_getElem? hc))⟩
    refine ⟨a :: L, List.nodup_cons.2 ⟨?_, hn⟩, ?_, ?_⟩
    · intro ha
      obtain ⟨t', ht, hs⟩ := hm a ha
      rw [ht.unique ra] at hs
      exact Nat.lt_irrefl _ hs
    · intro x hx
      rcases List.mem_cons.1 hx with rfl | hx
      · exact ⟨_, ra, Nat.le_refl _⟩
      · obtain ⟨t', ht, hs⟩ := hm x hx
        exact ⟨t', ht, Nat.le_of_lt hs⟩
    · intro n hle
      cases n with
      | zero => simp at hle
      | succ n => exact hstep n (hr n (by simpa using hle))
  have hsnd : ∀ (d' : List (String × Val)) w', w' ∈ d'.map Prod.snd → sizeOf w' < sizeOf d' := by
    intro d' w' hw
    obtain ⟨⟨k, w⟩, hm, rfl⟩ := List.mem_map.1 hw
    have := List.sizeOf_lt_of_mem hm
    simp only [Prod.mk.sizeOf_spec] at this
    simp only
    omega
  induction r with
  | none => exact imm _ _ rfl
  | str s => exact imm _ _ rfl
  | bool b => exact imm _ _ rfl
  | int i => exact imm _ _ rfl
  | «opaque» r l => exact imm _ _ rfl
  | undef => exact imm _ _ rfl
  | @list a vs ws h1 h2 h3 ih =>
    refine parts a _ vs ws (.list h1 h2 h3) h2 (fun w' hw => ?_) ih fun n hn => ?_
    · have := List.sizeOf_lt_of_mem hw
      simp only [Val.list.sizeOf_spec]; omega
    · simp only [Store.deref, h1, valuesAll_ok vs ws h2 hn, Option.map_some]
  | @dict a d d' h1 h2 h3 ih =>
    refine parts a _ (d.map Prod.snd) (d'.map Prod.snd) (.dict h1 h2 h3) (by simpa using length_of_keys h2) (fun w' hw => ?_) ih fun n hn => ?_
    · have := hsnd d' w' hw
      simp only [Val.dict.sizeOf_spec]; omega
    · simp only [Store.deref, h1, fieldsAll_ok h2 hn, Option.map_some]
  | @model a cls d d' set h1 h2 h3 ih =>
    refine parts a _ (d.map Prod.snd) (d'.map Prod.snd) (.model h1 h2 h3) (by simpa using length_of_keys h2) (fun w' hw => ?_) ih fun n hn => ?_
    · have := hsnd d' w' hw
      simp only [Val.model.sizeOf_spec]; omega
    · simp only [Store.deref, h1, fieldsAll_ok h2 hn, Option.map_some]
  | @raw a t ht =>
    refine parts a _ [] [] (.raw ht) rfl (by simp) (by simp) fun n _ => ?_
    obtain ⟨m, h1⟩ := ht.node?
    simp only [Store.deref, h1, ht.read, Option.map_some]

/-- Reading a value. -/
theorem IsVal.read (r : IsVal h v w) : h.value? v = some w := by
  obtain ⟨L, h1, h2, h3⟩ := deref_ok r
  refine h3 _ (nodup_bound _ L h1 fun x hx => ?_)
  obtain ⟨t', ht, _⟩ := h2 x hx
  exact ht.lt

/-! ## Writing a native tree -/

/-- New nodes refer to new objects only. -/
def ClosedNew (h h' : Store) : Prop :=
  ∀ (a : Addr) (tag : String) (da : Addr) (nsmap : NsMap) (text tail : Option String) (as : List Addr) (line : Option Int),
    h.length ≤ a → h'[a]? = some (.node (.elem tag da nsmap text tail as line)) → h.length ≤ da ∧ ∀ b ∈ as, h.length ≤ b

theorem ClosedNew.parts {root : Addr} (c : ClosedNew h h') (hr : h.length ≤ root) {x : Addr} (p : Part h' root x) : h.length ≤ x := by
  induction p with
  | root => exact hr
  | attrib _ ha ih => exact (c _ _ _ _ _ _ _ _ ih ha).1
  | child _ ha hb ih => exact (c _ _ _ _ _ _ _ _ ih ha).2 _ hb

/-- Native trees made of new objects only. -/
structure NewNodes (h : Store) (ts : List Node) (bs : List Addr) (h' : Store) : Prop where
  grow : Grow h h'
  len : bs.length = ts.length
  node : ∀ (i : Nat) (b : Addr) (t : Node), bs[i]? = some b → ts[i]? = some t → IsNode h' t b
  new : ∀ b ∈ bs, h.length ≤ b
  closed : ClosedNew h h'

/-- A native tree made of new objects only. -/
structure NewNode (h : Store) (t : Node) (b : Addr) (h' : Store) : Prop where
  grow : Grow h h'
  node : IsNode h' t b
  new : h.length ≤ b
  closed : ClosedNew h h'

theorem ClosedNew.alloc {h1 : Store} (c : ClosedNew h h1) (x : Cell)
    (hx : ∀ tag da nsmap text tail as line, x = .node (.elem tag da nsmap text tail as line) → h.length ≤ da ∧ ∀ b ∈ as, h.length ≤ b) :
    ClosedNew h (h1 ++ [x]) := by
  intro a tag da nsmap text tail as line ha hc
  by_cases hlt : a < h1.length
  · rw [get_append hlt] at hc
    exact c a _ _ _ _ _ _ _ ha hc
  · have hlen := lt_of_some hc
    simp only [List.length_append, List.length_singleton] at hlen
    have : a = h1.length := Nat.le_antisymm (Nat.le_of_lt_succ hlen) (Nat.not_lt.1 hlt)
    subst this
    rw [get_new] at hc
    exact hx _ _ _ _ _ _ _ (Option.some.inj hc)

theorem ClosedNew.refl : ClosedNew h h := fun _ _ _ _ _ _ _ _ ha hc => absurd (lt_of_some hc) (Nat.not_lt.2 ha)

theorem ClosedNew.trans {h1 h2 : Store} (c : ClosedNew h h1) (g : Grow h h1) (c' : ClosedNew h1 h2) (g' : Grow h1 h2) :
    ClosedNew h h2 := by
  intro a tag da nsmap text tail as line ha hc
  by_cases hlt : a < h1.length
  · rw [g'.get hlt] at hc
    exact c a _ _ _ _ _ _ _ ha hc
  · obtain ⟨h3, h4⟩ := c' a _ _ _ _ _ _ _ (Nat.not_lt.1 hlt) hc
    exact ⟨Nat.le_trans g.le h3, fun b hb => Nat.le_trans g.le (h4 b hb)⟩

mutual
theorem putNode_new (h : Store) : ∀ t : Node, NewNode h t (h.putNode t).1 (h.putNode t).2
  | .elem tag attrib nsmap text tail children line => by
    simp only [Store.putNode, Store.alloc]
    have n := putNodes_new (h ++ [.dict attrib]) children
    have g1 : Grow h (h ++ [.dict attrib]) := grow_append _
    have g2 : Grow h (Store.putNodes (h ++ [.dict attrib]) children).2 := g1.trans n.grow
    have c2 : ClosedNew h (Store.putNodes (h ++ [.dict attrib]) children).2 :=
      ClosedNew.trans (ClosedNew.alloc .refl _ (by simp)) g1 n.closed n.grow
    have g3 := g2.trans (grow_append [Cell.node (.elem tag h.length nsmap text tail
      (Store.putNodes (h ++ [.dict attrib]) children).1 line)])
    refine ⟨g3, .elem (get_new _) ?_ n.len ?_, g2.le, c2.alloc _ ?_⟩
    · have hlt : h.length < (h ++ [Cell.dict attrib]).length := by simp
      rw [get_append (Nat.lt_of_lt_of_le hlt n.grow.le), n.grow.get hlt]
      exact get_new _
    · exact fun i b c hb hc => (n.node i b c hb hc).grow (grow_append _)
    · intro tag da nsmap text tail as line heq
      cases heq
      exact ⟨Nat.le_refl _, fun b hb => Nat.le_trans g1.le (n.new b hb)⟩
  | .comment text tail => by
    simp only [Store.putNode, Store.alloc]
    exact ⟨grow_append _, .comment (get_new _), Nat.le_refl _, ClosedNew.alloc .refl _ (by simp)⟩
  | .pi text tail => by
    simp only [Store.putNode, Store.alloc]
    exact ⟨grow_append _, .pi (get_new _), Nat.le_refl _, ClosedNew.alloc .refl _ (by simp)⟩
theorem putNodes_new (h : Store) : ∀ ts : List Node, NewNodes h ts (h.putNodes ts).1 (h.putNodes ts).2
  | [] => by
    simp only [Store.putNodes]
    exact ⟨.refl, rfl, by simp, by simp, .refl⟩
  | t :: ts => by
    simp only [Store.putNodes]
    have n1 := putNode_new h t
    have n2 := putNodes_new (h.putNode t).2 ts
    refine ⟨n1.grow.trans n2.grow, by simp [n2.len], ?_, ?_, n1.closed.trans n1.grow n2.closed n2.grow⟩
    · intro i b c hb hc
      cases i with
      | zero => cases hb; cases hc; exact n1.node.grow n2.grow
      | succ i => exact n2.node i b c (by simpa using hb) (by simpa using hc)
    · intro b hb
      rcases List.mem_cons.1 hb with rfl | hb
      · exact n1.new
      · exact Nat.le_trans n1.grow.le (n2.new b hb)
end

end
end Heap
end PXml
