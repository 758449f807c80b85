import Verif.Lemmas.Items
import Verif.Lemmas.Pieces
import Verif.Example
import Verif.Props.Reading

/-!
# Errors of models: unread data (C13), aggregation (C14)
-/

namespace PXml

open Elem

theorem subtree_cons (e : Elem) (path : List String) : e.subtree path = (path, e) :: subtreeList path e.elements := by
  cases e; simp [subtree]

theorem getUnbound_eq (e : Elem) (path : List (String × Int)) : e.getUnbound path =
    unboundText path e.text ++ unboundText path e.tail ++ (e.attrib.getD []).map (fun kv => ⟨path, some kv.1, kv.2⟩)
      ++ getUnboundList path e.elements := by
  cases e; simp [getUnbound]

/-- The errors for one element. -/
def ownLeftovers (pd : List String × Elem) : List LineErr :=
  (nonBlank pd.2.text).map (forbidden pd.1 pd.2.line none) ++ (nonBlank pd.2.tail).map (forbidden pd.1 pd.2.line none)
    ++ (pd.2.attrib.getD []).map fun kv => forbidden pd.1 pd.2.line (some kv.1) kv.2

theorem unbound_errs (root : Elem) (e : Elem) (path : List (String × Int))
    (hl : (match path.getLast? with | some tl => tl.2 | none => root.line) = e.line) :
    (e.getUnbound path).map (extraErr root) = (e.subtree (path.map Prod.fst)).flatMap ownLeftovers := by
  induction e using Elem.induct generalizing path with
  | h e ih =>
    rw [getUnbound_eq, subtree_cons, List.flatMap_cons]
    simp only [List.map_append]
    congr 1
    · simp only [ownLeftovers]
      have ht : ∀ t, (unboundText path t).map (extraErr root) =
          (nonBlank t).map (forbidden (path.map Prod.fst) e.line none) := by
        intro t
        cases t with
        | none => rfl
        | some t =>
          simp only [unboundText, nonBlank]
          split
          · rfl
          · simp only [List.map_cons, List.map_nil, extraErr, forbidden, List.map_map, Function.comp_def, Option.toList_none,
              List.filter_nil, List.append_nil]
            rw [← hl]
            rfl
      rw [ht, ht]
      congr 1
      simp only [List.map_map]
      apply List.map_congr_left
      intro kv _
      simp only [Function.comp_apply, extraErr, forbidden, List.map_map, Option.toList_some]
      rw [← hl]
      by_cases h : kv.1 = "" <;> simp [h, Function.comp_def] <;> rfl
    · have key : ∀ l : List Elem, (∀ c ∈ l, c ∈ e.elements) →
          (getUnboundList path l).map (extraErr root) = (subtreeList (path.map Prod.fst) l).flatMap ownLeftovers := by
        intro l
        induction l with
        | nil => intro _; simp [getUnboundList, subtreeList]
        | cons c l ihl =>
          intro hsub
          simp only [getUnboundList, subtreeList, List.map_append, List.flatMap_append]
          rw [ihl fun x hx => hsub x (by simp [hx])]
          rw [ih c (hsub c (by simp)) (path ++ [(c.tag, c.line)]) (by simp)]
          simp
      exact key _ fun _ h => h

theorem checkExtra_eq (title : Title) (e : Elem) :
    checkExtra title e = if e.leftovers = [] then none else some ⟨title, e.leftovers⟩ := by
  have h := unbound_errs e e [] rfl
  have h2 : (e.getUnbound []).map (extraErr e) = e.leftovers := h
  unfold checkExtra
  split
  · rename_i hu
    rw [hu] at h2
    rw [← h2]; rfl
  · rename_i us hu
    have : e.leftovers ≠ [] := by
      rw [← h2]
      simpa using hu
    rw [if_neg this, h2]

/-! ## C14 -/

/-- The errors gathered by the loop over the fields. -/
def fieldErrs (fs : List Field) (outs : List (Out Val)) : Dict ErrKey VErr :=
  (fs.zip outs).filterMap fun fo => match fo.2 with | .verr e => some (some (.name fo.1.name), e) | _ => none

theorem runFields_length (read : Ser → Loc → St → Out Val × St) (fs : List Field) (st : St) :
    (runFields read fs st).1.length = fs.length := by
  induction fs generalizing st with
  | nil => rfl
  | cons f fs ih => simp [runFields, ih]

theorem deserFields_run (read : Ser → Loc → St → Out Val × St) (fs : List Field) (hnd : (fs.map Field.name).Nodup)
    (res : Dict String Val) (errs : Dict ErrKey VErr) (hk : ∀ kv ∈ errs, ∀ f ∈ fs, kv.1 ≠ some (.name f.name)) (st : St)
    (h : ∀ o ∈ (runFields read fs st).1, o.Returns) :
    deserFields read fs res errs st =
      (.ok (res.update ((fs.zip (runFields read fs st).1).filterMap fun fo =>
          match fo.2 with | .ok v => if v.isNone then none else some (fo.1.alias.getD fo.1.name, v) | _ => none),
        errs ++ fieldErrs fs (runFields read fs st).1), (runFields read fs st).2) := by
  induction fs generalizing res errs st with
  | nil => simp [deserFields, runFields, fieldErrs, Dict.update]
  | cons f fs ih =>
    simp only [List.map_cons, List.nodup_cons] at hnd
    simp only [runFields, List.mem_cons, forall_eq_or_imp] at h
    obtain ⟨h1, h2⟩ := h
    have hk' : ∀ kv ∈ errs, ∀ g ∈ fs, kv.1 ≠ some (.name g.name) := fun kv hkv g hg => hk kv hkv g (by simp [hg])
    rw [deserFields_cons]
    simp only [runFields]
    generalize readField read f st = r at h1 h2 ⊢
    obtain ⟨o, st'⟩ := r
    simp only at h1 h2 ⊢
    rcases h1 with ⟨v, rfl⟩ | ⟨e, rfl⟩
    · simp only
      rw [ih hnd.2 _ _ hk' _ h2]
      simp only [List.zip_cons_cons, List.filterMap_cons, fieldErrs]
      cases v.isNone <;> simp [Dict.update]
    · simp only
      rw [dict_set_new errs _ _ (fun kv hkv => hk kv hkv f (by simp)), ih hnd.2 _ _ ?_ _ h2]
      · simp [fieldErrs]
      · intro kv hkv g hg
        simp only [List.mem_append, List.mem_singleton] at hkv
        rcases hkv with hkv | rfl
        · exact hk' kv hkv g hg
        · simp only [ne_eq, Option.some.injEq, LocPart.name.injEq]
          intro heq
          exact hnd.1 (heq ▸ List.mem_map_of_mem hg)

theorem fieldErrs_into (title : Title) (fs : List Field) (outs : List (Out Val)) :
    intoValidationError title (fieldErrs fs outs) = ⟨title, fieldErrors fs outs⟩ := by
  simp only [intoValidationError, fieldErrs, fieldErrors, VErr.mk.injEq, true_and]
  generalize fs.zip outs = l
  induction l with
  | nil => rfl
  | cons x l ih =>
    obtain ⟨f, o⟩ := x
    cases o <;> first | exact ih | skip
    exact congrArg _ ih

theorem fieldErrs_nil (fs : List Field) (outs : List (Out Val)) (hl : outs.length = fs.length) :
    fieldErrs fs outs = [] ↔ failures outs = [] := by
  induction fs generalizing outs with
  | nil => cases outs <;> simp_all [fieldErrs, failures]
  | cons f fs ih =>
    cases outs with
    | nil => simp at hl
    | cons o outs =>
      have := ih outs (by simpa using hl)
      simp only [fieldErrs, failures] at this ⊢
      cases o <;> simp_all

section
variable (env : Env) (read : Ser → Loc → St → Out Val × St) (cls : String) (m : ModelSer) (fs : List Field) (loc : Loc)
  (st : St)

/-- C14: reading a model reads all its fields, one after the other, whether they fail or not.  If some fail, the raised
error consists of all errors of all failing fields, in field order, each below the name of its field, and of nothing else. -/
theorem C14_aggregates (hb : m.body = .fields fs) (hnd : (fs.map Field.name).Nodup)
    (h : ∀ o ∈ (runFields read fs st).1, o.Returns) (hf : failures (runFields read fs st).1 ≠ []) :
    deserModel env read cls m loc st =
      (.verr ⟨⟨m.name, m.hideInput⟩, fieldErrors fs (runFields read fs st).1⟩, (runFields read fs st).2) := by
  simp only [deserModel, hb, deserFields_run read fs hnd [] [] (by simp) st h, List.nil_append]
  have : fieldErrs fs (runFields read fs st).1 ≠ [] := fun h =>
    hf ((fieldErrs_nil fs _ (runFields_length read fs st)).1 h)
  rw [if_neg (by simpa [List.isEmpty_iff] using this), fieldErrs_into, ModelSer.title]

/-- C14: if no field fails, the values found are handed to validation. -/
theorem C14_no_failure (hb : m.body = .fields fs) (hnd : (fs.map Field.name).Nodup)
    (h : ∀ o ∈ (runFields read fs st).1, o.Returns) (hf : failures (runFields read fs st).1 = []) :
    deserModel env read cls m loc st =
      (validateModel env cls m (.dict (fieldData fs (runFields read fs st).1)) (runFields read fs st).2,
        (runFields read fs st).2) := by
  simp only [deserModel, hb, deserFields_run read fs hnd [] [] (by simp) st h, List.nil_append]
  have := (fieldErrs_nil fs _ (runFields_length read fs st)).2 hf
  rw [this]
  rfl

/-- C13: with `extra='forbid'`, if anything is left unread after all fields were read successfully (non-blank text or tail,
or an attribute, at any depth), reading fails with exactly one `extra_forbidden` error for each such piece of data, with
its path and line. -/
theorem C13_reports_leftovers (hb : m.body = .fields fs) (hnd : (fs.map Field.name).Nodup) (hforbid : m.extraForbid = true)
    (h : ∀ o ∈ (runFields read fs st).1, o.Returns) (hf : failures (runFields read fs st).1 = [])
    (hl : (runFields read fs st).2.el.leftovers ≠ []) :
    (deserModel env read cls m loc st).1 = .verr ⟨⟨m.name, m.hideInput⟩, (runFields read fs st).2.el.leftovers⟩ := by
  rw [C14_no_failure env read cls m fs loc st hb hnd h hf]
  simp only [validateModel, hforbid, if_true, checkExtra_eq, if_neg hl, ModelSer.title]

/-- C13: and only then: if nothing is left, the verdict is that of pydantic's validation of the field data. -/
theorem C13_nothing_else (hb : m.body = .fields fs) (hnd : (fs.map Field.name).Nodup)
    (h : ∀ o ∈ (runFields read fs st).1, o.Returns) (hf : failures (runFields read fs st).1 = [])
    (hl : (runFields read fs st).2.el.leftovers = [] ∨ m.extraForbid = false) :
    (deserModel env read cls m loc st).1 =
      match env.validate cls (.dict (fieldData fs (runFields read fs st).1)) with
      | .ok (fs', set) => .ok (.model cls fs' set)
      | .error e => .verr (setSourceline m.hideInput (runFields read fs st).2.sm e) := by
  rw [C14_no_failure env read cls m fs loc st hb hnd h hf]
  unfold validateModel
  simp only
  have : (if m.extraForbid = true then checkExtra m.title (runFields read fs st).2.el else none) = none := by
    rcases hl with hl | hl
    · simp [checkExtra_eq, hl]
    · simp [hl]
  rw [this]
  rfl
end

theorem leftovers_nil_content (e : Elem) (h : e.leftovers = []) :
    ∀ p ∈ e.content, (∃ s, p = .text s ∧ strip s = "") ∨ ∃ s, p = .tail s ∧ strip s = "" := by
  have key : ∀ (e : Elem) path, (e.subtree path).flatMap ownLeftovers = [] →
      ∀ p ∈ e.content, (∃ s, p = .text s ∧ strip s = "") ∨ ∃ s, p = .tail s ∧ strip s = "" := by
    intro e
    induction e using Elem.induct with
    | h e ih =>
      intro path h p hp
      rw [subtree_cons, List.flatMap_cons, List.append_eq_nil_iff] at h
      obtain ⟨h1, h2⟩ := h
      simp only [ownLeftovers, List.append_eq_nil_iff, List.map_eq_nil_iff] at h1
      obtain ⟨⟨h3, h4⟩, h5⟩ := h1
      rw [content_eq, List.mem_append] at hp
      rcases hp with hp | hp
      · simp only [own, h5, List.map_nil, List.append_nil, List.mem_append, List.mem_map, Option.mem_toList] at hp
        have hblank : ∀ t s, nonBlank t = [] → t = some s → strip s = "" := by
          rintro t s ht rfl
          simp only [nonBlank] at ht
          split at ht
          · assumption
          · cases ht
        rcases hp with ⟨s, hs, rfl⟩ | ⟨s, hs, rfl⟩
        · exact .inl ⟨s, rfl, hblank _ s h3 hs⟩
        · exact .inr ⟨s, rfl, hblank _ s h4 hs⟩
      · obtain ⟨c, hc, hp⟩ := List.mem_flatMap.1 hp
        have : ∀ l : List Elem, c ∈ l → (subtreeList path l).flatMap ownLeftovers = [] →
            (c.subtree (path ++ [c.tag])).flatMap ownLeftovers = [] := by
          intro l
          induction l with
          | nil => intro h; simp at h
          | cons d l ihl =>
            intro hm hz
            simp only [subtreeList, List.flatMap_append, List.append_eq_nil_iff] at hz
            rcases List.mem_cons.1 hm with rfl | hm
            · exact hz.1
            · exact ihl hm hz.2
        exact ih c hc _ (this _ hc h2) p hp
  exact key e [] h

/-- C13: if a class with `extra='forbid'` accepts a document, nothing is left of it but blank text: every attribute and every
non-blank text or tail, at any depth, was taken (`C06_content_conserved`) by some field. -/
theorem C13_accepts_only_if_read (env : Env) (eas : Bool) (n : Nat) (cls : String) (m : ModelSer) (root : Node) (v : Val)
    (e : Elem) (hm : env.model cls = some m) (hforbid : m.extraForbid = true)
    (h : fromXmlTree env eas n cls root = (.ok v, e)) :
    ∀ p ∈ e.content, (∃ s, p = .text s ∧ strip s = "") ∨ ∃ s, p = .tail s ∧ strip s = "" := by
  have hvm : ∀ d (st : St), validateModel env cls m d st = .ok v → st.el.leftovers = [] := by
    intro d st he
    unfold validateModel at he
    rw [hforbid] at he
    simp only [if_true, checkExtra_eq] at he
    split at he
    · cases he
    · rename_i hx
      split at hx
      · assumption
      · cases hx
  unfold fromXmlTree at h
  simp only [hm] at h
  split at h
  · apply leftovers_nil_content
    obtain ⟨h1, h2⟩ := Prod.mk.inj h
    subst h2
    unfold deserModel at h1 ⊢
    split at h1
    · rename_i fs hb
      cases hf : deserFields (deser env eas n) fs [] [] ⟨fromNative env.backend root, []⟩ with
      | mk o st' =>
        rw [hf] at h1
        cases o with
        | ok r =>
          simp only at h1 ⊢
          split at h1
          · rename_i hr
            rw [if_pos hr]
            exact hvm _ _ h1
          · cases h1
        | verr x => cases h1
        | crash x => cases h1
        | diverge => cases h1
    · rename_i s hb
      cases hf : deser env eas n s [] ⟨fromNative env.backend root, []⟩ with
      | mk o st' =>
        rw [hf] at h1
        cases o with
        | ok r => exact hvm _ _ h1
        | verr x => cases h1
        | crash x => cases h1
        | diverge => cases h1
  · cases h

theorem dropWhile_split (p : Char → Bool) (l : List Char) :
    ∃ pre, l = pre ++ l.dropWhile p ∧ (∀ c ∈ pre, p c = true) ∧ ∀ c, (l.dropWhile p).head? = some c → p c = false := by
  induction l with
  | nil => exact ⟨[], rfl, by simp, by simp⟩
  | cons a l ih =>
    obtain ⟨pre, h1, h2, h3⟩ := ih
    by_cases ha : p a = true
    · refine ⟨a :: pre, ?_, ?_, ?_⟩
      · simp only [List.dropWhile_cons, ha, if_true, List.cons_append]; rw [← h1]
      · intro c hc; rcases List.mem_cons.1 hc with rfl | hc
        · exact ha
        · exact h2 c hc
      · simp only [List.dropWhile_cons, ha, if_true]; exact h3
    · refine ⟨[], ?_, by simp, ?_⟩
      · simp [ha]
      · simp only [List.dropWhile_cons, ha]
        intro c hc; simp at hc; subst hc; simpa using ha

theorem split_unique (p : Char → Bool) (pre pre' t t' : List Char) (h : pre ++ t = pre' ++ t') (hp : ∀ c ∈ pre, p c = true)
    (hp' : ∀ c ∈ pre', p c = true) (ht : ∀ c, t.head? = some c → p c = false) (ht' : ∀ c, t'.head? = some c → p c = false) :
    pre = pre' ∧ t = t' := by
  induction pre generalizing pre' with
  | nil =>
    cases pre' with
    | nil => exact ⟨rfl, by simpa using h⟩
    | cons a q =>
      simp only [List.nil_append, List.cons_append] at h
      have := ht a (by rw [h]; rfl)
      rw [hp' a (by simp)] at this; cases this
  | cons a q ih =>
    cases pre' with
    | nil =>
      simp only [List.nil_append, List.cons_append] at h
      have := ht' a (by rw [← h]; rfl)
      rw [hp a (by simp)] at this; cases this
    | cons b r =>
      simp only [List.cons_append, List.cons.injEq] at h
      obtain ⟨rfl, h⟩ := h
      obtain ⟨rfl, rfl⟩ := ih r h (fun c hc => hp c (by simp [hc])) (fun c hc => hp' c (by simp [hc]))
      exact ⟨rfl, rfl⟩

theorem isSpace_iff (c : Char) : isSpace c = true ↔ WhiteSpace c := by
  simp only [isSpace, WhiteSpace, List.mem_cons, List.not_mem_nil, or_false, Bool.or_eq_true, Bool.and_eq_true, decide_eq_true_eq]
  omega

theorem isSpace_false (c : Char) : isSpace c = false ↔ ¬WhiteSpace c := by
  rw [← isSpace_iff]; simp

theorem stripped_iff (s t : String) : Stripped s t ↔
    ∃ pre post, s = pre ++ t ++ post ∧ (∀ c ∈ pre.toList ++ post.toList, isSpace c = true) ∧
      (∀ c, t.toList.head? = some c ∨ t.toList.getLast? = some c → isSpace c = false) := by
  simp only [Stripped, isSpace_iff, isSpace_false]

theorem strip_stripped (s : String) : Stripped s (strip s) := by
  rw [stripped_iff]
  obtain ⟨pre, h1, h2, h3⟩ := dropWhile_split isSpace s.toList
  obtain ⟨post, h4, h5, h6⟩ := dropWhile_split isSpace (s.toList.dropWhile isSpace).reverse
  have h7 : s.toList.dropWhile isSpace
      = ((s.toList.dropWhile isSpace).reverse.dropWhile isSpace).reverse ++ post.reverse := by
    rw [← List.reverse_append, ← h4, List.reverse_reverse]
  refine ⟨String.ofList pre, String.ofList post.reverse, ?_, ?_, ?_⟩
  · apply String.toList_injective
    simp only [String.toList_append, String.toList_ofList, strip]
    rw [List.append_assoc, ← h7]
    exact h1
  · simp only [String.toList_ofList, List.mem_append, List.mem_reverse]
    rintro c (h | h)
    · exact h2 c h
    · exact h5 c h
  · simp only [strip, String.toList_ofList, List.getLast?_reverse]
    rintro c (h | h)
    · refine h3 c ?_
      rw [h7]
      cases hl : ((s.toList.dropWhile isSpace).reverse.dropWhile isSpace).reverse with
      | nil => rw [hl] at h; cases h
      | cons a l => rw [hl] at h; simpa using h
    · exact h6 c h

theorem stripped_unique (s t t' : String) (h : Stripped s t) (h' : Stripped s t') : t = t' := by
  rw [stripped_iff] at h h'
  obtain ⟨pre, post, h1, h2, h3⟩ := h
  obtain ⟨pre', post', h1', h2', h3'⟩ := h'
  have e : pre.toList ++ (t.toList ++ post.toList) = pre'.toList ++ (t'.toList ++ post'.toList) := by
    have := h1.symm.trans h1'
    have := congrArg String.toList this
    simpa only [String.toList_append, List.append_assoc] using this
  have blank : ∀ (p q p' q' : List Char) (u : List Char), p ++ q = p' ++ (u ++ q') → (∀ c ∈ p ++ q, isSpace c = true) →
      (∀ c, u.head? = some c ∨ u.getLast? = some c → isSpace c = false) → u = [] := by
    intro p q p' q' u hu hs hh
    cases u with
    | nil => rfl
    | cons a u =>
      have := hh a (.inl rfl)
      rw [hs a (by rw [hu]; simp)] at this; cases this
  apply String.toList_injective
  by_cases ht : t.toList = []
  · rw [ht] at e ⊢
    exact (blank _ _ _ _ _ e h2 h3').symm
  by_cases ht' : t'.toList = []
  · rw [ht'] at e ⊢
    exact blank _ _ _ _ _ e.symm h2' h3
  have head : ∀ (u q : List Char), u ≠ [] → (u ++ q).head? = u.head? := by
    intro u q hu; cases u with
    | nil => exact absurd rfl hu
    | cons a u => rfl
  obtain ⟨_, e2⟩ := split_unique isSpace _ _ _ _ e (fun c hc => h2 c (by simp [hc])) (fun c hc => h2' c (by simp [hc]))
    (fun c hc => h3 c (.inl (by rw [head _ _ ht] at hc; exact hc))) (fun c hc => h3' c (.inl (by rw [head _ _ ht'] at hc; exact hc)))
  have e3 : post.toList.reverse ++ t.toList.reverse = post'.toList.reverse ++ t'.toList.reverse := by
    rw [← List.reverse_append, ← List.reverse_append, e2]
  obtain ⟨_, e4⟩ := split_unique isSpace _ _ _ _ e3 (fun c hc => h2 c (by simp at hc; simp [hc])) (fun c hc => h2' c (by simp at hc; simp [hc]))
    (fun c hc => h3 c (.inr (by simpa using hc))) (fun c hc => h3' c (.inr (by simpa using hc)))
  simpa using e4

/-- C13: the value reported for text is the text without the white space around it, and nothing else; text of white space only
is not reported. -/
theorem C13_stripped (s t : String) :
    (nonBlank (some s) = [t] ↔ Stripped s t ∧ t ≠ "") ∧ (nonBlank (some s) = [] ↔ Stripped s "") := by
  have hs := strip_stripped s
  simp only [nonBlank]
  by_cases h : strip s = ""
  · simp only [h, if_true]
    rw [h] at hs
    constructor
    · constructor
      · intro h; cases h
      · rintro ⟨h1, h2⟩; exact absurd (stripped_unique _ _ _ h1 hs) h2
    · exact ⟨fun _ => hs, fun _ => trivial⟩
  · simp only [h, if_false, List.cons.injEq, and_true]
    refine ⟨⟨fun h1 => ?_, fun ⟨h1, h2⟩ => stripped_unique _ _ _ hs h1⟩, fun h => (by cases h), fun h1 => absurd (stripped_unique _ _ _ hs h1) h⟩
    subst h1
    exact ⟨hs, h⟩

example : nonBlank (some " \n a b\t") = ["a b"] := by kernel_rfl

/-- C69: blank text, which has no influence, is text of white space only. -/
theorem C69_blank (s : String) : dropBlank (some s) = none ↔ ∀ c ∈ s.toList, WhiteSpace c := by
  have hs := strip_stripped s
  have h0 : dropBlank (some s) = none ↔ strip s = "" := by by_cases h : strip s = "" <;> simp [dropBlank, h]
  rw [h0]
  constructor
  · intro h c hc
    rw [h] at hs
    obtain ⟨pre, post, h1, h2, -⟩ := hs
    refine h2 c ?_
    rw [h1] at hc
    simpa using hc
  · intro h
    exact stripped_unique s _ _ hs ⟨s, "", by simp, by simpa using h, by simp⟩

example : dropBlank (some "\r\n\t ") = none ∧ dropBlank (some " .") = some " ." := ⟨rfl, rfl⟩

section
variable (env : Env) (eas : Bool) (n : Nat) (cls : String) (m : ModelSer) (fs : List Field) (root : Node)

/-- C14 for a whole document: `from_xml_tree` raises one error with all errors of all failing fields. -/
theorem C14_from_xml (hm : env.model cls = some m) (hb : m.body = .fields fs) (hnd : (fs.map Field.name).Nodup)
    (htag : root.tag = m.elementName) :
    let run := runFields (deser env eas n) fs ⟨fromNative env.backend root, []⟩
    (∀ o ∈ run.1, o.Returns) → failures run.1 ≠ [] →
    (fromXmlTree env eas n cls root).1 = .verr ⟨⟨m.name, m.hideInput⟩, fieldErrors fs run.1⟩ := by
  intro run h hf
  simp only [fromXmlTree, hm, htag, if_true, C14_aggregates env (deser env eas n) cls m fs [] _ hb hnd h hf]
  rfl

/-- C13 for a whole document: if the fields of a class with `extra='forbid'` read it without errors, `from_xml_tree` either
reports exactly the data left over, or nothing is left over and it is pydantic's verdict. -/
theorem C13_from_xml (hm : env.model cls = some m) (hb : m.body = .fields fs) (hnd : (fs.map Field.name).Nodup)
    (hforbid : m.extraForbid = true) (htag : root.tag = m.elementName) :
    let run := runFields (deser env eas n) fs ⟨fromNative env.backend root, []⟩
    (∀ o ∈ run.1, o.Returns) → failures run.1 = [] →
    (fromXmlTree env eas n cls root).1 =
      if run.2.el.leftovers = [] then
        match env.validate cls (.dict (fieldData fs run.1)) with
        | .ok (fs', set) => .ok (.model cls fs' set)
        | .error e => .verr (setSourceline m.hideInput run.2.sm e)
      else .verr ⟨⟨m.name, m.hideInput⟩, run.2.el.leftovers⟩ := by
  intro run h hf
  simp only [fromXmlTree, hm, htag, if_true]
  split
  · rename_i hl
    exact C13_nothing_else env (deser env eas n) cls m fs [] _ hb hnd h hf (.inl hl)
  · rename_i hl
    exact C13_reports_leftovers env (deser env eas n) cls m fs [] _ hb hnd hforbid h hf hl
end

namespace Ex

/-- The example classes, all with `extra='forbid'`. -/
def forbidEnv (b : Backend := .lxml) : Env :=
  { env .ordered b with model := fun cls => (model .ordered cls).map fun m => { m with extraForbid := true } }

/-- Two dogs without names. -/
def namelessDoc : Node :=
  el "owner" none [el "pet" none [] [("kind", "dog")] (some 2), el "pet" none [] [] (some 3)]

/-- Non-vacuity of C14: both fields of the owner fail, and all five errors are reported, those of the second field below the
names of the alternatives. -/
example : (fromXmlTree env false 9 "Owner" namelessDoc).1 = .verr ⟨"Owner", [
    ⟨"missing", "Field required", [.name "pet", .name "name"], .dict [("kind", .str "dog")], some 2⟩,
    ⟨"missing", "Field required", [.name "any", .name "Dog", .name "kind"], .dict [], some 3⟩,
    ⟨"missing", "Field required", [.name "any", .name "Dog", .name "name"], .dict [], some 3⟩,
    ⟨"missing", "Field required", [.name "any", .name "Cat", .name "kind"], .dict [], some 3⟩,
    ⟨"missing", "Field required", [.name "any", .name "Cat", .name "lives"], .dict [], some 3⟩]⟩ := by
  rfl

theorem returns_of_all {outs : List (Out Val)}
    (h : outs.all (fun o => match o with | .ok _ => true | .verr _ => true | _ => false) = true) :
    ∀ o ∈ outs, o.Returns := by
  intro o ho
  have := List.all_eq_true.1 h o ho
  cases o with
  | ok v => exact .inl ⟨v, rfl⟩
  | verr e => exact .inr ⟨e, rfl⟩
  | crash e => simp at this
  | diverge => simp at this

/-- The fields of the owner. -/
def ownerFields : List Field := match owner.body with | .fields fs => fs | .root _ => []

/-- The hypotheses of C14 hold of this document. -/
example : (ownerFields.map Field.name).Nodup ∧
    (∀ o ∈ (runFields (deser env false 9) ownerFields ⟨fromNative .lxml namelessDoc, []⟩).1, o.Returns) ∧
    failures (runFields (deser env false 9) ownerFields ⟨fromNative .lxml namelessDoc, []⟩).1 ≠ [] := by
  refine ⟨by decide, returns_of_all (by kernel_rfl), fun h => ?_⟩
  have h' : (failures (runFields (deser env false 9) ownerFields ⟨fromNative .lxml namelessDoc, []⟩).1).isEmpty = false := by
    kernel_rfl
  simp [h] at h'

/-- A person document with an unknown attribute, unknown text and an unknown element. -/
def extraDoc : Node :=
  el "person" (some " hi ") [
    el "name" (some "Ann") [] [("lang", "en")] (some 2),
    el "home" none [el "floor" (some "3") [] [] (some 4)] [("zip", "0815")] (some 3),
    el "blank" (some "  ") [] [] (some 5)]
    [("id", "7")] (some 1)

/-- The fields of the person, in ordered mode. -/
def personFields : List Field := match (person .ordered).body with | .fields fs => fs | .root _ => []

/-- Non-vacuity of C13 for a class that forbids extra data where a nested class does not: exactly the unread data is
reported, at any depth, with paths and lines; the blank element is not. -/
def outerForbidEnv : Env :=
  { env .ordered with model := fun cls =>
      (model .ordered cls).map fun m => if cls = "Person" then { m with extraForbid := true } else m }

example : (fromXmlTree outerForbidEnv false 9 "Person" extraDoc).1 = .verr ⟨"Person", [
    ⟨"extra_forbidden", "Extra inputs are not permitted", [], .str "hi", some 1⟩,
    ⟨"extra_forbidden", "Extra inputs are not permitted", [.name "name", .name "@lang"], .str "en", some 2⟩,
    ⟨"extra_forbidden", "Extra inputs are not permitted", [.name "home", .name "floor"], .str "3", some 4⟩]⟩ := by
  kernel_rfl

/-- The hypotheses of C13 hold of this document. -/
example : (personFields.map Field.name).Nodup ∧
    (∀ o ∈ (runFields (deser outerForbidEnv false 9) personFields ⟨fromNative .lxml extraDoc, []⟩).1, o.Returns) ∧
    failures (runFields (deser outerForbidEnv false 9) personFields ⟨fromNative .lxml extraDoc, []⟩).1 = [] := by
  exact ⟨by decide, returns_of_all (by kernel_rfl), List.isEmpty_iff.1 (by kernel_rfl)⟩

/-- Non-vacuity of `C13_accepts_only_if_read`: the complete person document is accepted by the classes with
`extra='forbid'`. -/
example : (fromXmlTree forbidEnv false 9 "Person" personDoc).1 = .ok ann := by kernel_rfl

end Ex

/-- Unknown *elements* are not forbidden as such: a document with an unknown element that carries no text and no attributes
(itself or in its descendants) is accepted by a class with `extra='forbid'`. -/
theorem C45_counterexample : ∃ (env : Env) (cls : String) (m : ModelSer) (attrib : Dict String String) (v : Val),
    env.model cls = some m ∧ m.extraForbid = true ∧ m.body = .fields [
      { name := "zip", ser := .attr "zip" false }, { name := "street", ser := .text false false }] ∧
    (fromXmlTree env false 9 cls (.elem m.elementName attrib [] none none [.elem "unknown" [] [] none none
      [.elem "nested" [] [] none none [] none] none] none)).1 = .ok v :=
  ⟨Ex.forbidEnv, "Address", { Ex.address with extraForbid := true }, [("zip", "1")],
    .model "Address" [("zip", .str "1"), ("street", .none)] ["zip"], rfl, rfl, rfl, by kernel_rfl⟩

end PXml
