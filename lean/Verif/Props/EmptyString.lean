import Verif.Lemmas.EmptyString
import Verif.Example
import Verif.Tactic

/-!
# C105: `empty_as_string` matters for empty texts only

Specification: `SpecEmptyString.lean`.
-/

namespace PXml

open Elem

/-- C105: let `T` and `N` be the names of the elements that the classes read texts from, with `N` for nillable ones and for sub-models.  If in the document
none of these elements is without text, unless its name is in `N` and it has `xsi:nil="true"`, it is read alike with and without `empty_as_string`: the same instance, the same validation error or the same other exception.  No class may have custom validators or read
the text of its element, or of a wrapper element, after a field that takes the same text. -/
theorem C105_only_empty_texts (T N : String → Bool) (env : Env) (hno : env.NoValidators) (hr : env.ReadsTextsOf T N) (n : Nat) (cls : String)
    (hroot : ∀ m, env.model cls = some m → ∀ path ∈ m.textPaths, ends T m.elementName path = true) (doc : Node) (hdoc : doc.Texted T N) :
    fromXmlTree env true n cls doc = fromXmlTree env false n cls doc := by
  unfold fromXmlTree
  cases hm : env.model cls with
  | none => rfl
  | some m =>
    simp only
    split
    · rename_i ht
      rw [(EmptyString.deserModel_agree hno hr (fun s hs l => EmptyString.deser_agree hno hr n doc hdoc s hs l) hm [] _
        (RestOf.ofNode env.backend doc) fun path hp => EmptyString.intact_fresh env.backend path doc hdoc (ht ▸ hroot m hm path hp)).1]
    · rfl

namespace Ex

/-- The elements of the example that texts are read from. -/
def texty (t : String) : Bool := ["name", "mail", "phone", "lives", "Address"].contains t

/-- Those that may be nil: a nillable field and a sub-model. -/
def nilly (t : String) : Bool := ["nick", "home"].contains t

theorem env_readsTexts (mode : Mode) : (env mode).ReadsTextsOf texty nilly := by
  have hT : ∀ m, (env mode).model "Tree" = some m → ∀ path ∈ m.textPaths, ends texty "tree" path = true ∨ path = [] ∧ nilly "tree" = true := by
    rintro m h1 path h2
    cases h1
    cases h2
  have hD : ∀ m, (env mode).model "Dog" = some m → ∀ path ∈ m.textPaths, ends texty "pet" path = true ∨ path = [] ∧ nilly "pet" = true := by
    rintro m h1 path h2
    cases h1
    cases h2
  have hC : ∀ m, (env mode).model "Cat" = some m → ∀ path ∈ m.textPaths, ends texty "pet" path = true ∨ path = [] ∧ nilly "pet" = true := by
    rintro m h1 path h2
    cases h1
    cases h2
  have hA : ∀ m, (env mode).model "Address" = some m → ∀ path ∈ m.textPaths, ends texty "home" path = true ∨ path = [] ∧ nilly "home" = true := by
    rintro m h1 path h2
    cases h1
    cases List.mem_singleton.1 h2
    exact .inr ⟨rfl, by kernel_rfl⟩
  have t1 : texty "name" = true := by kernel_rfl
  have t2 : nilly "nick" = true := by kernel_rfl
  have t3 : texty "mail" = true := by kernel_rfl
  have t4 : texty "phone" = true := by kernel_rfl
  have t6 : texty "lives" = true := by kernel_rfl
  apply model_cases (P := fun _ m => m.ReadsTextsOf (env mode) texty nilly) <;>
    refine ⟨?_, by simp [Ser.textPath, Ser.LeavesText]⟩ <;>
    simp only [List.forall_mem_cons, Ser.ReadsTextsOf, Ser.textPath, Ser.everywhere_text, Ser.everywhere_attr, Ser.everywhere_elem, Ser.everywhere_homog,
      Ser.everywhere_wrap, Ser.everywhere_proxy, Ser.everywhere_mapElem, Ser.everywhere_tagged, Ser.everywhere_modelUnion, t1, t2, t3, t4, t6] <;>
    simp
  · exact hA
  · exact hT
  · exact ⟨hD, hC⟩

/-- A person document with containers and a dictionary without text, and with a nil element `nick`. -/
def textedPerson (name : Option String) : Node :=
  el "person" none [
    el "name" name,
    el "nick" none [] [(nilAttr, "true")],
    el "mail" (some "a@x"),
    el "mail" (some "b@x"),
    el "contact" none [el "phones" none [el "phone" (some "123")]],
    el "home" (some "Main St") [] [("zip", "0815")],
    el "extra" none [] [("k", "v"), ("l", "w")]]
    [("id", "7")]

theorem texted_el {T N : String → Bool} {tag : String} {text : Option String} {children : List Node} {attrib : Dict String String}
    (h : T tag = true → truthy text = true)
    (hn : N tag = true → truthy text = true ∨ (el tag text children attrib).Nil) (hc : ∀ k ∈ children, k.Texted T N) :
    (el tag text children attrib).Texted T N := .mk h hn hc

theorem textedPerson_texted : (textedPerson (some "Ann")).Texted texty nilly := by
  have leaf : ∀ (tag s : String) (attrib : Dict String String), truthy (some s) = true → (el tag (some s) [] attrib).Texted texty nilly :=
    fun tag s a h => texted_el (fun _ => h) (fun _ => .inl h) (by simp)
  have none_ : ∀ (tag : String) (cs : List Node) (attrib : Dict String String), texty tag = false → nilly tag = false → (∀ k ∈ cs, k.Texted texty nilly) →
      (el tag none cs attrib).Texted texty nilly := fun tag cs a h h2 hc =>
    texted_el (fun h' => by rw [h] at h'; cases h') (fun h' => by rw [h2] at h'; cases h') hc
  have hx : texty "nick" = false := by kernel_rfl
  have hnil : Dict.get? [(nilAttr, "true")] nilAttr = some "true" := by kernel_rfl
  refine none_ _ _ _ (by kernel_rfl) (by kernel_rfl) ?_
  simp only [List.forall_mem_cons]
  refine ⟨leaf _ _ _ (by kernel_rfl), texted_el (fun h => absurd h (hx ▸ Bool.false_ne_true)) (fun _ => .inr hnil) (by simp), leaf _ _ _ (by kernel_rfl), leaf _ _ _ (by kernel_rfl), none_ _ _ _ (by kernel_rfl) (by kernel_rfl) ?_, leaf _ _ _ (by kernel_rfl),
    none_ _ _ _ (by kernel_rfl) (by kernel_rfl) (by simp), by simp⟩
  simp only [List.forall_mem_cons]
  refine ⟨none_ _ _ _ (by kernel_rfl) (by kernel_rfl) ?_, by simp⟩
  simp only [List.forall_mem_cons]
  exact ⟨leaf _ _ _ (by kernel_rfl), by simp⟩

/-- Non-vacuity of `C105_only_empty_texts`: the document with containers without text is read alike, in every search mode … -/
example (mode : Mode) : fromXmlTree (env mode) true 9 "Person" (textedPerson (some "Ann")) =
    fromXmlTree (env mode) false 9 "Person" (textedPerson (some "Ann")) :=
  C105_only_empty_texts texty nilly (env mode) noValidators (env_readsTexts mode) 9 "Person" (by rintro m h1 path h2; cases h1; cases h2) _ textedPerson_texted

/-- … namely as an instance. -/
example : ((fromXmlTree env false 9 "Person" (textedPerson (some "Ann"))).1.strings) =
    ["7", "Ann", "a@x", "b@x", "123", "0815", "Main St", "v", "w"] := by kernel_rfl

/-- A class with its own text, the text of a wrapper and, below the same wrapper, an element. -/
def wrapTexts : Env :=
  { env with model := fun c => if c = "W" then some { name := "W", elementName := "w", body := .fields [
    { name := "own", ser := .text false false }, { name := "a", ser := .wrap ["x", "y"] none .strict false (.text false false) },
    { name := "b", ser := .wrap ["x"] none .strict false (.elem "z" none .strict false false) }] } else none
             validate := fun _ d => match d with | .dict fs => .ok (fs, []) | _ => .ok ([], []) }

def wrapTexty (t : String) : Bool := ["w", "y", "z"].contains t

theorem wrapTexts_reads : wrapTexts.ReadsTextsOf wrapTexty fun _ => false := by
  have tz : wrapTexty "z" = true := by kernel_rfl
  intro cls m hm
  simp only [wrapTexts] at hm
  split at hm
  · cases hm
    refine ⟨?_, by simp [Ser.textPath, Ser.LeavesText]⟩
    simp only [List.forall_mem_cons, Ser.ReadsTextsOf, Ser.textPath, Ser.everywhere_text, Ser.everywhere_elem, Ser.everywhere_wrap, tz]
    simp
  · cases hm

/-- Non-vacuity for the texts of wrappers: the wrapper `x` itself is without text. -/
example : fromXmlTree wrapTexts true 9 "W" (el "w" (some "o") [el "x" none [el "y" (some "1"), el "z" (some "2")]]) =
    fromXmlTree wrapTexts false 9 "W" (el "w" (some "o") [el "x" none [el "y" (some "1"), el "z" (some "2")]]) := by
  refine C105_only_empty_texts wrapTexty (fun _ => false) wrapTexts ?_ wrapTexts_reads 9 "W" ?_ _ ?_
  · intro cls m fs hm hb
    simp only [wrapTexts] at hm
    split at hm
    · cases hm
      injection hb with hb
      subst hb
      simp
    · cases hm
  · intro m hm path hp
    have h1 : ends wrapTexty "w" [] = true := by kernel_rfl
    have h2 : ends wrapTexty "w" ["x", "y"] = true := by kernel_rfl
    cases hm
    simp only [ModelSer.textPaths, Ser.textPath, List.filterMap_cons, List.filterMap_nil, Option.map_some, List.append_nil, Option.map_none, List.mem_cons,
      List.not_mem_nil, or_false] at hp
    rcases hp with rfl | rfl
    · exact h1
    · exact h2
  · have leaf : ∀ (tag s : String), truthy (some s) = true → (el tag (some s)).Texted wrapTexty fun _ => false := fun tag s h => texted_el (fun _ => h) (fun _ => .inl h) (by simp)
    refine texted_el (fun _ => by kernel_rfl) (by simp) ?_
    simp only [List.forall_mem_cons]
    refine ⟨texted_el (fun h => ?_) (by simp) ?_, by simp⟩
    · have hx : wrapTexty "x" = false := by kernel_rfl
      rw [hx] at h
      cases h
    · simp only [List.forall_mem_cons]
      exact ⟨leaf _ _ (by kernel_rfl), leaf _ _ (by kernel_rfl), by simp⟩

/-- It is read as an instance. -/
example : (fromXmlTree wrapTexts false 9 "W" (el "w" (some "o") [el "x" none [el "y" (some "1"), el "z" (some "2")]])).1.strings = ["o", "1", "2"] := by
  kernel_rfl

/-- The condition on the document is needed: with an empty `name` there is a difference. -/
example : (fromXmlTree env true 9 "Person" (textedPerson none)).1 ≠ (fromXmlTree env false 9 "Person" (textedPerson none)).1 := by
  intro h
  have h1 : (fromXmlTree env true 9 "Person" (textedPerson none)).1.strings = ["7", "", "a@x", "b@x", "123", "0815", "Main St", "v", "w"] := by kernel_rfl
  have h2 : (fromXmlTree env false 9 "Person" (textedPerson none)).1.strings = [] := by kernel_rfl
  rw [h, h2] at h1
  cases h1

/-- The condition on the class is needed: the second of two fields that are the text of one element finds it empty. -/
example : (deserFields (deser env true 9) [{ name := "a", ser := .text false false }, { name := "b", ser := .text false false }] [] []
      ⟨fromNative .lxml (el "x" (some "t")), []⟩).1 = .ok ([("a", .str "t"), ("b", .str "")], []) ∧
    (deserFields (deser env false 9) [{ name := "a", ser := .text false false }, { name := "b", ser := .text false false }] [] []
      ⟨fromNative .lxml (el "x" (some "t")), []⟩).1 = .ok ([("a", .str "t")], []) := ⟨by kernel_rfl, by kernel_rfl⟩

end Ex

end PXml
