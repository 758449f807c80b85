import Verif.Lemmas.ParaDeser

/-! Writing does not depend on the addresses of the objects it creates. -/

namespace PXml
namespace Conc

open Heap (Addr Obj NodeObj HVal Cell Store)

variable {R : Nat} {ρ : World}

theorem cell?_para {v : HVal} (hv : v.Below R) :
    PRel R (fun _ c c' => c = c' ∧ ∀ d, c = some d → d.Below R) ρ (cell? v) (cell? v) := by
  cases v with
  | ref a => exact .shared hv fun c hc => .ret ⟨rfl, fun d hd => by cases hd; exact hc⟩
  | _ => exact .pure ⟨rfl, fun d hd => by cases hd⟩

theorem items?_para {v : HVal} (hv : v.Below R) :
    PRel R (fun _ x y => x = y ∧ ∀ vs, x = some vs → ∀ w ∈ vs, w.Below R) ρ (items? v) (items? v) := by
  refine .bind (cell?_para hv) ?_
  rintro ρ1 c _ _ ⟨rfl, hc⟩
  cases c with
  | none => exact .pure ⟨rfl, fun _ h => by cases h⟩
  | some c =>
    cases c with
    | pyList vs => exact .pure ⟨rfl, fun _ h => by cases h; exact hc _ rfl⟩
    | _ => exact .pure ⟨rfl, fun _ h => by cases h⟩

theorem inst?_para {v : HVal} (hv : v.Below R) :
    PRel R (fun _ x y => x = y ∧ ∀ cls fs set, x = some (cls, fs, set) → ∀ w ∈ fs, w.2.Below R) ρ (inst? v) (inst? v) := by
  refine .bind (cell?_para hv) ?_
  rintro ρ1 c _ _ ⟨rfl, hc⟩
  cases c with
  | none => exact .pure ⟨rfl, fun _ _ _ h => by cases h⟩
  | some c =>
    cases c with
    | inst cls fs set => exact .pure ⟨rfl, fun _ _ _ h => by cases h; exact hc _ rfl⟩
    | _ => exact .pure ⟨rfl, fun _ _ _ h => by cases h⟩

theorem len?_para {v : HVal} (hv : v.Below R) : PRel R Same ρ (len? v) (len? v) := by
  have key : PRel R Same ρ (cell? v >>= fun c => match c with
    | some (.pyList vs) => Pure.pure (some vs.length)
    | some (.pyDict d) => Pure.pure (some d.length)
    | some (.node (.elem _ _ _ _ _ cs _)) => Pure.pure (some cs.length)
    | some (.node _) => Pure.pure (some 0)
    | _ => (Pure.pure none : Prog (Option Nat))) (cell? v >>= fun c => match c with
    | some (.pyList vs) => Pure.pure (some vs.length)
    | some (.pyDict d) => Pure.pure (some d.length)
    | some (.node (.elem _ _ _ _ _ cs _)) => Pure.pure (some cs.length)
    | some (.node _) => Pure.pure (some 0)
    | _ => (Pure.pure none : Prog (Option Nat))) := by
    refine .bind (cell?_para hv) ?_
    rintro ρ1 c _ _ ⟨rfl, _⟩
    split <;> exact .same
  cases v with
  | str s => exact .same
  | «opaque» _ l => exact .same
  | _ => exact key

theorem mapAll_para {α β : Type} {f f' : α → Prog (Option β)} {r : World → α → α → Prop}
    (hr : ∀ ρ ρ' a b, ρ ⊆ ρ' → r ρ a b → r ρ' a b) (hf : ∀ ρ a a', r ρ a a' → PRel R Same ρ (f a) (f' a')) {as as' : List α}
    (h : Pairs (r ρ) as as') : PRel R Same ρ (mapAll f as) (mapAll f' as') := by
  induction as generalizing as' ρ with
  | nil => cases h; exact .same
  | cons a as ih =>
    cases h with
    | cons h1 h2 =>
      refine .bind (hf _ _ _ h1) ?_
      intro ρ1 x y hs hxy
      cases hxy
      cases x with
      | none => exact .same
      | some x =>
        refine .bind (ih (h2.imp fun a b => hr _ _ a b hs)) ?_
        intro ρ2 u v hs2 huv
        cases huv
        cases u <;> exact .same

theorem nodes_para (n : Nat) {a a' : Addr} (h : Known R ρ a a') : PRel R Same ρ (nodes n a) (nodes n a') := by
  induction n generalizing ρ a a' with
  | zero => exact .same
  | succ n ih =>
    refine .bind (loadNode_para h) ?_
    intro ρ1 c c' hs hc
    revert hc
    generalize asNode c = x, asNode c' = y
    intro hc
    cases hc with
    | none => exact .same
    | some hn =>
      cases hn with
      | elem hda has =>
        refine .bind (mapAll_para (r := Known R) (fun _ _ _ _ hs h => h.mono hs) (fun ρ a a' h => ih h) has) ?_
        intro ρ2 ts ts' h2 hts
        cases hts
        cases ts with
        | none => exact .same
        | some ts =>
          refine .bind (loadDict_known (hda.mono h2)) ?_
          intro ρ3 d d' h3 hd
          rw [hd]
          exact .same
      | comment => exact .same
      | pi => exact .same

/-- Equal values that refer to objects that existed before. -/
def EqBelow (R : Nat) (_ : World) (v w : HVal) : Prop := v = w ∧ v.Below R

theorem mapVals_para {f : HVal → Prog (Option Val)} (hf : ∀ ρ v, v.Below R → PRel R Same ρ (f v) (f v)) {vs : List HVal}
    (h : ∀ v ∈ vs, v.Below R) : PRel R Same ρ (mapAll f vs) (mapAll f vs) :=
  mapAll_para (r := EqBelow R) (fun _ _ _ _ _ h => h) (fun ρ a a' h => by cases h.1; exact hf ρ a h.2)
    (.refl_of fun v hv => ⟨rfl, h v hv⟩)

theorem fieldsAll_para {f : HVal → Prog (Option Val)} (hf : ∀ ρ v, v.Below R → PRel R Same ρ (f v) (f v))
    {d : List (String × HVal)} (h : ∀ v ∈ d, v.2.Below R) : PRel R Same ρ (fieldsAll f d) (fieldsAll f d) := by
  refine .bind (mapVals_para hf (vs := d.map Prod.snd) ?_) ?_
  · intro v hv
    obtain ⟨p, hp, rfl⟩ := List.mem_map.mp hv
    exact h p hp
  · intro ρ1 x y _ hx
    cases hx
    exact .same

theorem deref_para (k n : Nat) {v : HVal} (hv : v.Below R) : PRel R Same ρ (deref k n v) (deref k n v) := by
  induction n generalizing ρ v with
  | zero => exact .same
  | succ n ih =>
    cases v with
    | ref a =>
      refine .bind (p := load a) (p' := load a) (Q := fun _ c c' => c = c' ∧ ∀ d, c = some d → d.Below R)
        (.shared hv fun c hc => .ret ⟨rfl, fun d hd => by cases hd; exact hc⟩) ?_
      rintro ρ1 c _ _ ⟨rfl, hc⟩
      cases c with
      | none => exact .same
      | some c =>
        have hc := hc c rfl
        cases c with
        | pyList vs =>
          refine .bind (mapVals_para (fun ρ v h => ih h) hc) ?_
          intro ρ2 x y _ hx
          cases hx
          exact .same
        | pyDict d =>
          refine .bind (fieldsAll_para (fun ρ v h => ih h) hc) ?_
          intro ρ2 x y _ hx
          cases hx
          exact .same
        | inst cls fs set =>
          refine .bind (fieldsAll_para (fun ρ v h => ih h) hc) ?_
          intro ρ2 x y _ hx
          cases hx
          exact .same
        | node n =>
          refine .bind (nodes_para k (.inr ⟨rfl, hv⟩)) ?_
          intro ρ2 x y _ hx
          cases hx
          exact .same
        | _ => exact .same
    | _ => exact .same

theorem isEmpty_para {a a' : Addr} (h : Own ρ a a') : PRel R Same ρ (isEmpty a) (isEmpty a') := by
  refine .bind (obj?_para h) ?_
  intro ρ1 o o' h1 ho
  cases ho with
  | none => exact .same
  | some ho =>
    refine .bind (dictAt_para ho.attrib) ?_
    intro ρ2 d d' h2 hd
    cases hd
    refine .bind (kids_para (ho.mono h2)) ?_
    intro ρ3 as as' h3 has
    rw [ho.text, ho.tail, has.isEmpty_eq]
    exact .same

theorem setText_para {a a' : Addr} (h : Own ρ a a') (t : String) : PRel R Any ρ (setText a t) (setText a' t) :=
  modify_para h fun _ _ _ _ ho => ⟨ho.tag, ho.nsmap, rfl, ho.tail, ho.attrib, ho.elements, ho.next, ho.line⟩

theorem setAttribute_para {a a' : Addr} (h : Own ρ a a') (k v : String) :
    PRel R Any ρ (setAttribute a k v) (setAttribute a' k v) := by
  refine .bind (obj?_para h) ?_
  intro ρ1 o o' h1 ho
  have fresh : PRel R Any ρ1 (alloc (.dict (Dict.set [] k v)) >>= fun da => modify a fun o => { o with attrib := some da })
      (alloc (.dict (Dict.set [] k v)) >>= fun da => modify a' fun o => { o with attrib := some da }) := by
    refine .bind (alloc_para .dict) ?_
    intro ρ2 da da' h2 hd
    exact modify_para ((h.mono h1).mono h2) fun _ _ _ hs ho =>
      ⟨ho.tag, ho.nsmap, ho.text, ho.tail, .some (hd.mono hs), ho.elements, ho.next, ho.line⟩
  cases ho with
  | none => exact fresh
  | some ho =>
    simp only [Option.bind_some]
    rcases ho.attrib.split with ⟨e1, e2⟩ | ⟨x, y, e1, e2, hd⟩
    · rw [e1, e2]; exact fresh
    · rw [e1, e2]
      refine .bind (loadDict_para hd) ?_
      intro ρ2 c c' h2 hc
      rw [hc]
      exact store_para (hd.mono h2) .dict

theorem setAttributes_para {a a' : Addr} (h : Own ρ a a') (d : Dict String String) :
    PRel R Any ρ (setAttributes a d) (setAttributes a' d) := by
  refine .bind (alloc_para .dict) ?_
  intro ρ2 da da' h2 hd
  exact modify_para (h.mono h2) fun _ _ _ hs ho =>
    ⟨ho.tag, ho.nsmap, ho.text, ho.tail, .some (hd.mono hs), ho.elements, ho.next, ho.line⟩

theorem append_para {a a' b b' : Addr} (h : Own ρ a a') (hb : Own ρ b b') : PRel R Any ρ (append a b) (append a' b') := by
  refine .bind (obj?_para h) ?_
  intro ρ1 o o' h1 ho
  cases ho with
  | none => exact .pure trivial
  | some ho =>
    refine .bind (kids_para ho) ?_
    intro ρ2 as as' h2 has
    refine .bind (store_para ((ho.mono h2).elements) (.list (has.append (.cons ((hb.mono h1).mono h2) .nil)))) ?_
    intro ρ3 _ _ h3 _
    exact stepForward_para (((h.mono h1).mono h2).mono h3)

theorem makeElement_para (b : Backend) (tag : String) (nsmap : Option NsMap) :
    PRel R Own ρ (makeElement b tag nsmap) (makeElement b tag nsmap) := init_para _ _ _ _ _ .nil _ _

mutual
theorem putNode_para {ρ : World} : (t : Node) → PRel R Own ρ (putNode t) (putNode t)
  | .elem tag attrib nsmap text tail children line => by
    unfold putNode
    refine .bind (alloc_para .dict) ?_
    intro ρ1 da da' h1 hd
    refine .bind (putNodes_para children) ?_
    intro ρ2 bs bs' h2 hbs
    exact alloc_para (.node (.elem (hd.mono h2).known (hbs.imp fun _ _ h => h.known)))
  | .comment text tail => by unfold putNode; exact alloc_para (.node .comment)
  | .pi text tail => by unfold putNode; exact alloc_para (.node .pi)
theorem putNodes_para {ρ : World} : (ts : List Node) → PRel R (fun ρ => Pairs (Own ρ)) ρ (putNodes ts) (putNodes ts)
  | [] => by unfold putNodes; exact .pure .nil
  | t :: ts => by
    unfold putNodes
    refine .bind (putNode_para t) ?_
    intro ρ1 b b' h1 hb
    refine .bind (putNodes_para ts) ?_
    intro ρ2 bs bs' h2 hbs
    exact .pure (.cons (hb.mono h2) hbs)
end

theorem andThen_para {r r' f f' : Prog (Out Unit)} (hr : PRel R Same ρ r r') (hf : ∀ ρ', ρ ⊆ ρ' → PRel R Same ρ' f f') :
    PRel R Same ρ (andThen r f) (andThen r' f') := by
  refine .bind hr ?_
  intro ρ1 x y h1 hx
  cases hx
  cases x with
  | ok _ => exact hf _ h1
  | _ => exact .same

/-- A program that returns nothing, and then something fixed. -/
theorem done_para {α : Type} {p p' : Prog Unit} {x : α} (h : PRel R Any ρ p p') :
    PRel R Same ρ (p >>= fun _ => Pure.pure x) (p' >>= fun _ => Pure.pure x) := by
  refine .bind h ?_
  intro _ _ _ _ _
  exact .same

theorem serText_para (env : Env) (nillable : Bool) (fl : Flags) {a a' : Addr} (h : Own ρ a a') (v : HVal) (enc : Val) :
    PRel R Any ρ (serText env nillable fl a v enc) (serText env nillable fl a' v enc) := by
  unfold serText
  split
  · exact .pure trivial
  · cases hb : nillable && v.isNone with
    | false => exact setText_para h _
    | true =>
      refine .bind (setAttribute_para h _ _) ?_
      intro ρ1 _ _ h1 _
      exact setText_para (h.mono h1) _

theorem serAttrs_para (env : Env) (s : AttrsSer) {a a' : Addr} (h : Own ρ a a') (v : HVal) (enc : Val) :
    PRel R Same ρ (serAttrs env s a v enc) (serAttrs env s a' v enc) := by
  unfold serAttrs
  split
  · exact .same
  · cases enc with
    | dict d => exact done_para (setAttributes_para h _)
    | _ => exact .same

theorem appendUnlessEmpty_para (fl : Flags) {a a' b b' : Addr} (h : Own ρ a a') (hb : Own ρ b b') :
    PRel R Any ρ (appendUnlessEmpty fl a b) (appendUnlessEmpty fl a' b') := by
  refine .bind (isEmpty_para hb) ?_
  intro ρ1 x y h1 hx
  cases hx
  split
  · exact .pure trivial
  · exact append_para (h.mono h1) (hb.mono h1)

theorem ascend_para (b : Backend) (mode : Mode) (nsmap : Option NsMap) {f f' : Addr → Prog (Out Unit)}
    (hf : ∀ ρ a a', Own ρ a a' → PRel R Same ρ (f a) (f' a')) (path : List String) {a a' : Addr} (h : Own ρ a a') :
    PRel R Same ρ (ascend b mode nsmap f path a) (ascend b mode nsmap f' path a') := by
  induction path generalizing ρ a a' with
  | nil => exact hf _ _ _ h
  | cons t ts ih =>
    refine .bind (findElement_para h t mode) ?_
    intro ρ1 x y h1 hx
    cases hx with
    | error => exact .same
    | ok hx =>
      cases hx with
      | some hc => exact ih hc
      | none =>
        refine .bind (makeElement_para b t nsmap) ?_
        intro ρ2 c c' h2 hc
        refine .bind (append_para ((h.mono h1).mono h2) hc) ?_
        intro ρ3 _ _ h3 _
        exact ih (hc.mono h3)

theorem serItems_para {rec rec' : HVal → Val → Prog (Out Unit)} (fl : Flags)
    (hrec : ∀ ρ', ρ ⊆ ρ' → ∀ v enc, v.Below R → PRel R Same ρ' (rec v enc) (rec' v enc)) (vs : List HVal) (encs : List Val)
    (hv : ∀ v ∈ vs, v.Below R) : PRel R Same ρ (serItems rec fl vs encs) (serItems rec' fl vs encs) := by
  induction vs generalizing ρ encs with
  | nil => exact .same
  | cons v vs ih =>
    have hvs : ∀ w ∈ vs, w.Below R := fun w hw => hv w (List.mem_cons_of_mem _ hw)
    cases encs with
    | nil => exact .same
    | cons enc encs =>
      unfold serItems
      split
      · exact ih hrec encs hvs
      · exact andThen_para (hrec ρ (fun _ h => h) v enc (hv v (List.mem_cons_self ..))) fun ρ' hs =>
          ih (fun ρ'' hs' => hrec ρ'' fun _ h => hs' (hs h)) encs hvs

theorem serTuple_para {rec rec' : Ser → HVal → Val → Prog (Out Unit)}
    (hrec : ∀ ρ', ρ ⊆ ρ' → ∀ s v enc, v.Below R → PRel R Same ρ' (rec s v enc) (rec' s v enc)) (ss : List Ser) (vs : List HVal)
    (encs : List Val) (hv : ∀ v ∈ vs, v.Below R) : PRel R Same ρ (serTuple rec ss vs encs) (serTuple rec' ss vs encs) := by
  induction vs generalizing ρ ss encs with
  | nil => cases ss <;> exact .same
  | cons v vs ih =>
    have hvs : ∀ w ∈ vs, w.Below R := fun w hw => hv w (List.mem_cons_of_mem _ hw)
    cases ss with
    | nil => exact .same
    | cons s ss =>
      cases encs with
      | nil => exact .same
      | cons enc encs =>
        exact andThen_para (hrec ρ (fun _ h => h) s v enc (hv v (List.mem_cons_self ..))) fun ρ' hs =>
          ih (fun ρ'' hs' => hrec ρ'' fun _ h => hs' (hs h)) ss encs hvs

theorem runSerializer_para (k : Nat) (g : Val → Elem → Val → Out Elem) {self v : HVal} (hself : self.Below R) (hv : v.Below R)
    {a a' : Addr} (h : Own ρ a a') : PRel R Same ρ (runSerializer k g self a v) (runSerializer k g self a' v) := by
  refine .bind (tree?_para k h) ?_
  intro ρ1 e e' h1 he
  cases he
  refine .bind (deref_para k k hself) ?_
  intro ρ2 s s' h2 hs
  cases hs
  refine .bind (deref_para k k hv) ?_
  intro ρ3 w w' h3 hw
  cases hw
  have h := ((h.mono h1).mono h2).mono h3
  cases e with
  | none => exact .same
  | some e =>
    cases s with
    | none => exact .same
    | some s =>
      cases w with
      | none => exact .same
      | some w =>
        simp only
        cases g s e w with
        | ok e' => exact done_para (assign_para h e')
        | _ => exact .same

theorem get?_below {d : Dict String HVal} (hd : ∀ w ∈ d, w.2.Below R) {k : String} {v : HVal} (h : d.get? k = some v) :
    v.Below R := by
  induction d with
  | nil => simp [Dict.get?] at h
  | cons p d ih =>
    obtain ⟨k', w⟩ := p
    simp only [Dict.get?] at h
    split at h
    · cases h; exact hd (k', v) (List.mem_cons_self ..)
    · exact ih (fun w hw => hd w (List.mem_cons_of_mem _ hw)) h

theorem serFields_para (k : Nat) {rec rec' : Ser → HVal → Val → Prog (Out Unit)} (fl : Flags) {self : HVal} (hself : self.Below R)
    (hrec : ∀ ρ', ρ ⊆ ρ' → ∀ s v enc, v.Below R → PRel R Same ρ' (rec s v enc) (rec' s v enc)) {fields : Dict String HVal}
    (hf : ∀ w ∈ fields, w.2.Below R) (fieldsSet : List String) (enc : Val) {a a' : Addr} (h : Own ρ a a') (fs : List Field) :
    PRel R Same ρ (serFields k rec fl self fields fieldsSet enc a fs) (serFields k rec' fl self fields fieldsSet enc a' fs) := by
  induction fs generalizing ρ with
  | nil => exact .same
  | cons f fs ih =>
    unfold serFields
    split
    · exact ih hrec h
    · split
      · exact ih hrec h
      · refine andThen_para ?_ fun ρ' hs => ih (fun ρ'' hs' => hrec ρ'' fun _ h => hs' (hs h)) (h.mono hs)
        cases hg : fields.get? f.name with
        | none => exact .same
        | some v =>
          have hv := get?_below hf hg
          simp only
          cases f.serializer with
          | some g => exact runSerializer_para k g hself hv h
          | none =>
            simp only
            cases getItem enc f.name with
            | ok e => exact hrec ρ (fun _ h => h) _ _ _ hv
            | _ => exact .same

theorem serModel_para (k : Nat) {rec : Flags → Ser → Addr → HVal → Val → Prog (Out Unit)}
    (hrec : ∀ ρ fl s a a' v enc, Own ρ a a' → v.Below R → PRel R Same ρ (rec fl s a v enc) (rec fl s a' v enc))
    (m : ModelSer) (fl : Flags) {a a' : Addr} (h : Own ρ a a') {v : HVal} (hv : v.Below R) (enc : Val) :
    PRel R Same ρ (serModel k rec m fl a v enc) (serModel k rec m fl a' v enc) := by
  unfold serModel
  split
  · exact .same
  · refine .bind (inst?_para hv) ?_
    rintro ρ1 x _ h1 ⟨rfl, hx⟩
    cases x with
    | none => exact .same
    | some x =>
      obtain ⟨cls, fields, fieldsSet⟩ := x
      have hf := hx _ _ _ rfl
      have h := h.mono h1
      simp only
      cases m.body with
      | fields fs => exact serFields_para k _ hv (fun ρ' hs s v enc hv => hrec _ _ _ _ _ _ _ (h.mono hs) hv) hf fieldsSet enc h fs
      | root s =>
        simp only
        split
        · exact .same
        · cases hg : Dict.get? fields "root" with
          | none => exact .same
          | some rv => exact hrec _ _ _ _ _ _ _ h (get?_below hf hg)

theorem ser_para (k : Nat) (env : Env) (n : Nat) (fl : Flags) (s : Ser) {a a' : Addr} (h : Own ρ a a') {v : HVal} (hv : v.Below R)
    (enc : Val) : PRel R Same ρ (ser k env n fl s a v enc) (ser k env n fl s a' v enc) := by
  induction n generalizing ρ fl s a a' v enc with
  | zero => exact .same
  | succ n ih =>
    change PRel R Same ρ (serStep k env (ser k env n) fl s a v enc) (serStep k env (ser k env n) fl s a' v enc)
    generalize ser k env n = rec at ih ⊢
    cases s with
    | text computed nillable => exact done_para (serText_para env nillable fl h v enc)
    | attr name computed =>
      simp only [serStep]
      split
      · exact .same
      · exact done_para (setAttribute_para h _ _)
    | elem name nsmap mode computed nillable =>
      simp only [serStep]
      split
      · exact .same
      · refine .bind (makeElement_para _ _ _) ?_
        intro ρ1 b b' h1 hb
        refine .bind (serText_para env nillable fl hb v enc) ?_
        intro ρ2 _ _ h2 _
        exact done_para (appendUnlessEmpty_para fl ((h.mono h1).mono h2) (hb.mono h2))
    | attrs s => exact serAttrs_para env s h v enc
    | mapElem s name mode =>
      simp only [serStep]
      split
      · refine .bind (len?_para hv) ?_
        intro ρ1 x y h1 hx
        cases hx
        rcases x with _ | _ | _
        · exact .same
        · exact .same
        · refine .bind (makeElement_para _ _ _) ?_
          intro ρ2 b b' h2 hb
          refine andThen_para (serAttrs_para env s hb v enc) fun ρ3 h3 => ?_
          exact done_para (appendUnlessEmpty_para fl (((h.mono h1).mono h2).mono h3) (hb.mono h3))
      · refine .bind (makeElement_para _ _ _) ?_
        intro ρ2 b b' h2 hb
        refine andThen_para (serAttrs_para env s hb v enc) fun ρ3 h3 => ?_
        exact done_para (append_para ((h.mono h2).mono h3) (hb.mono h3))
    | raw name mode computed =>
      cases v with
      | ref r =>
        refine .bind (fromNative_para env.backend k (.inr ⟨rfl, hv⟩)) ?_
        intro ρ1 x y h1 hx
        cases hx with
        | none => exact .same
        | some hb => exact done_para (appendUnlessEmpty_para fl (h.mono h1) hb)
      | _ => exact .same
    | proxy p =>
      simp only [serStep]
      cases env.model p.cls with
      | none => exact .same
      | some m =>
        simp only
        split
        · exact .same
        · split
          · refine .bind (makeElement_para _ _ _) ?_
            intro ρ1 b b' h1 hb
            refine .bind (setAttribute_para hb _ _) ?_
            intro ρ2 _ _ h2 _
            exact done_para (append_para ((h.mono h1).mono h2) (hb.mono h2))
          · split
            · exact .same
            · refine .bind (makeElement_para _ _ _) ?_
              intro ρ1 b b' h1 hb
              refine andThen_para (serModel_para k (fun ρ fl s a a' v enc h hv => ih fl s h hv enc) m fl hb hv enc) fun ρ2 h2 => ?_
              exact done_para (appendUnlessEmpty_para fl ((h.mono h1).mono h2) (hb.mono h2))
    | primUnion computed inner => exact ih fl inner h hv enc
    | modelUnion title computed alts =>
      refine .bind (inst?_para hv) ?_
      rintro ρ1 x _ h1 ⟨rfl, hx⟩
      cases x with
      | none => exact .same
      | some x =>
        obtain ⟨cls, fields, fieldsSet⟩ := x
        simp only
        cases alts.find? (fun p => p.cls = cls) with
        | none => exact .same
        | some p => exact ih fl _ (h.mono h1) hv enc
    | tagged computed discr attrName mode alts =>
      simp only [serStep]
      split
      · split
        · split
          · exact .same
          · split
            · exact ih fl _ h hv _
            · exact .same
        · exact .same
        · exact .same
        · exact .same
      · exact .same
    | wrap path nsmap mode computed inner =>
      simp only [serStep]
      split
      · exact .same
      · refine .bind (len?_para hv) ?_
        intro ρ1 x y h1 hx
        cases hx
        split
        · exact .same
        · exact ascend_para _ _ _ (fun ρ a a' h => ih fl inner h hv enc) path (h.mono h1)
    | homog title computed inner =>
      simp only [serStep]
      split
      · exact .same
      · refine .bind (items?_para hv) ?_
        rintro ρ1 x _ h1 ⟨rfl, hx⟩
        split
        · exact serItems_para fl (fun ρ' hs v enc hv => ih fl inner ((h.mono h1).mono hs) hv enc) _ _ (hx _ rfl)
        · exact .same
    | hetero title computed inners =>
      simp only [serStep]
      split
      · exact .same
      · refine .bind (items?_para hv) ?_
        rintro ρ1 x _ h1 ⟨rfl, hx⟩
        split
        · split
          · exact .same
          · split
            · exact .same
            · exact serTuple_para (fun ρ' hs s v enc hv => ih fl s ((h.mono h1).mono hs) hv enc) _ _ _ (hx _ rfl)
        · exact .same

/-- Both raise the same exception, or return corresponding objects. -/
inductive OutRel {α β : Type} (r : α → β → Prop) : Out α → Out β → Prop
  | ok {x : α} {y : β} : r x y → OutRel r (.ok x) (.ok y)
  | verr {e : VErr} : OutRel r (.verr e) (.verr e)
  | crash {e : PyErr} : OutRel r (.crash e) (.crash e)
  | diverge : OutRel r .diverge .diverge

theorem toXmlTree_para (k : Nat) (env : Env) (n : Nat) (fl : Flags) (cls : String) {v : HVal} (hv : v.Below R) :
    PRel R (fun ρ => OutRel (Own ρ)) ρ (toXmlTree k env n fl cls v) (toXmlTree k env n fl cls v) := by
  unfold toXmlTree
  cases env.model cls with
  | none => exact .pure .crash
  | some m =>
    refine .bind (init_para _ _ _ _ _ .nil _ _) ?_
    intro ρ1 a a' h1 ha
    refine .bind (deref_para k k hv) ?_
    intro ρ2 x y h2 hx
    cases hx
    cases x with
    | none => exact .pure .crash
    | some w =>
      refine .bind (serModel_para k (fun ρ fl s a a' v enc h hv => ser_para k env n fl s h hv enc) m fl (ha.mono h2) hv _) ?_
      intro ρ3 x y h3 hx
      cases hx
      cases x with
      | ok _ =>
        refine .bind (tree?_para k ((ha.mono h2).mono h3)) ?_
        intro ρ4 x y h4 hx
        cases hx
        cases x with
        | none => exact .pure .crash
        | some e =>
          refine .bind (putNode_para _) ?_
          intro ρ5 b b' _ hb
          exact .pure (.ok hb)
      | verr e => exact .pure .verr
      | crash e => exact .pure .crash
      | diverge => exact .pure .diverge

end Conc
end PXml
