import Verif.Lemmas.HiddenCompile
import Verif.Props.Declared
import Verif.Props.Unions

/-!
# C77: `hide_input_in_errors` decides what the text of an error shows, and nothing else

Specification: `SpecHidden.lean`.
-/

namespace PXml

/-! ## The setting of the class that is read -/

/-- C77: a `ValidationError` of `from_xml_tree` hides its inputs exactly if the class that is read does — whatever the classes of the
sub-models, and whatever pydantic put into the error. -/
theorem C77_flag (env : Env) (eas : Bool) (n : Nat) (cls : String) (root : Node) (m : ModelSer) (e : VErr)
    (hm : env.model cls = some m) (h : (fromXmlTree env eas n cls root).1 = .verr e) : e.title.hide = m.hideInput := by
  have hvm : ∀ d st e, validateModel env cls m d st = .verr e → e.title.hide = m.hideInput := by
    intro d st e he
    unfold validateModel at he
    split at he
    · rename_i e' hx
      injection he with he
      subst he
      split at hx
      · unfold checkExtra at hx
        split at hx
        · cases hx
        · injection hx with hx; subst hx; rfl
      · cases hx
    · split at he
      · cases he
      · injection he with he
        subst he
        rfl
  unfold fromXmlTree at h
  simp only [hm] at h
  split at h
  · unfold deserModel at h
    split at h
    · generalize hf : deserFields (deser env eas n) _ [] [] _ = r at h
      obtain ⟨o, st'⟩ := r
      cases o with
      | ok r =>
        simp only at h
        split at h
        · exact hvm _ _ _ h
        · injection h with h; subst h; rfl
      | verr x => exact absurd (by rw [hf]) (deserFields_ne_verr (deser env eas n) _ [] [] _ x)
      | crash x => cases h
      | diverge => cases h
    · generalize hf : deser env eas n _ [] _ = r at h
      obtain ⟨o, st'⟩ := r
      cases o with
      | ok r => exact hvm _ _ _ h
      | verr x => injection h with h; subst h; rfl
      | crash x => cases h
      | diverge => cases h
  · cases h

/-- C77: the same of the classes of a program, whatever statements define and rebuild them: the text of an error of `from_xml_tree`
shows no input if the class has `hide_input_in_errors=True`, and the input of every line if it has not. -/
theorem C77_program {classes : Classes} (hst : classes.Standard) (k : Nat) (es : List Event) (env : Env)
    (hmodel : env.model = history classes k es .empty) (eas : Bool) (n : Nat) (cls : String) (root : Node) (e : VErr)
    (h : (fromXmlTree env eas n cls root).1 = .verr e) :
    ∃ cd, classes cls = some cd ∧ (cd.hideInput = some true → e.shown = []) ∧
      (cd.hideInput ≠ some true → e.shown = e.errs.map LineErr.input) := by
  cases hm : env.model cls with
  | none =>
    unfold fromXmlTree at h
    simp only [hm] at h
    cases h
  | some m =>
    obtain ⟨cd, r, d, h1, -, h3, -⟩ := C75_program hst k es cls m (by rw [← hmodel]; exact hm)
    have hf := C77_flag env eas n cls root m e hm h
    rw [h3.hideInput] at hf
    refine ⟨cd, h1, fun hh => ?_, fun hh => ?_⟩
    · simp only [VErr.shown, hf, hh, Option.getD_some, if_true]
    · have : cd.hideInput.getD false = false := by
        cases hc : cd.hideInput with
        | none => rfl
        | some b =>
          cases b with
          | false => rfl
          | true => exact absurd hc hh
      simp only [VErr.shown, hf, this, Bool.false_eq_true, if_false]

/-! ## Nothing else -/

/-- C77: a document is accepted or not whatever `hide_input_in_errors` is, and gives the same instance, the same lines of the error —
with their inputs — and leaves the same in the element. -/
theorem C77_read (env env' : Env) (he : env.SameBut env') (eas : Bool) (n : Nat) (cls : String) (root : Node) :
    (fromXmlTree env eas n cls root).1.SameBut (fromXmlTree env' eas n cls root).1 ∧
      (fromXmlTree env eas n cls root).2 = (fromXmlTree env' eas n cls root).2 := by
  unfold fromXmlTree
  simp only [he.backend]
  have := he.model cls
  revert this
  cases env.model cls with
  | none => cases env'.model cls with
    | none => exact fun _ => ⟨rfl, rfl⟩
    | some m => intro h; cases h
  | some m => cases env'.model cls with
    | none => intro h; cases h
    | some m' =>
      intro hm
      have hel : m'.elementName = m.elementName := by rw [hm.2]
      simp only [hel]
      split
      · have := Hidden.deserModel_same he hm cls (Hidden.deser_same he eas n) [] ⟨fromNative env'.backend root, []⟩
        revert this
        generalize deserModel env (deser env eas n) cls m [] ⟨fromNative env'.backend root, []⟩ = x
        generalize deserModel env' (deser env' eas n) cls m' [] ⟨fromNative env'.backend root, []⟩ = y
        intro h
        cases h with
        | ok h => exact ⟨by simp only [Out.SameBut, h], rfl⟩
        | verr h => exact ⟨h, rfl⟩
        | crash => exact ⟨rfl, rfl⟩
        | diverge => exact ⟨rfl, rfl⟩
      · exact ⟨rfl, rfl⟩

/-- C77: what is written does not depend on `hide_input_in_errors`. -/
theorem C77_write (env env' : Env) (he : env.SameBut env') (n : Nat) (fl : Flags) (cls : String) (v : Val) :
    toXmlTree env n fl cls v = toXmlTree env' n fl cls v := by
  unfold toXmlTree
  simp only [he.backend, he.toJsonable]
  have := he.model cls
  revert this
  cases env.model cls with
  | none => cases env'.model cls with
    | none => intro _; rfl
    | some m => intro h; cases h
  | some m => cases env'.model cls with
    | none => intro h; cases h
    | some m' =>
      intro hm
      have h1 : m'.elementName = m.elementName := by rw [hm.2]
      have h2 : m'.nsmap = m.nsmap := by rw [hm.2]
      simp only [h1, h2, Hidden.serModel_same hm (Hidden.ser_same he n)]

/-- C77: the settings of the classes of a program make no difference but that: every class statement and every `model_rebuild` is
accepted or fails as it did, and the classes that are complete then are the same but for the setting. -/
theorem C77_definitions (classes : Classes) (h : String → Option Bool) (k : Nat) (es : List Event) (cls : String) :
    match history classes k es .empty cls, history (classes.hiding h) k es .empty cls with
    | some m, some m' => m.SameBut m'
    | o, o' => o = o' :=
  Hidden.history_hid (Hidden.tableSame_hiding classes h) k es (fun _ => rfl) cls

/-- C77: the same of a statement that fails: the exception is the same. -/
theorem C77_rejected (classes : Classes) (h : String → Option Bool) (k : Nat) (es : List Event) (e : Event) (err : DefErr) :
    e.run classes k (history classes k es .empty) = .error err ↔
      e.run (classes.hiding h) k (history (classes.hiding h) k es .empty) = .error err := by
  have := Hidden.run_hid (Hidden.tableSame_hiding classes h) (Hidden.history_hid (Hidden.tableSame_hiding classes h) k es
    (built := .empty) (built' := .empty) (fun _ => rfl)) k e
  revert this
  generalize e.run classes k (history classes k es .empty) = x
  generalize e.run (classes.hiding h) k (history (classes.hiding h) k es .empty) = y
  intro hxy
  cases hxy with
  | error => exact Iff.rfl
  | ok _ => exact ⟨fun h => (by cases h), fun h => (by cases h)⟩

/-! ## Non-vacuity -/

namespace HideEx

/-- `class Secret(BaseXmlModel): pin: int = element()` with `hide_input_in_errors=True`. -/
def secret : ClassDef where
  name := "Secret"
  schema := .model "Secret" false
  hideInput := some true
  body := .fields [{ name := "pin", schema := .prim "int", infos := [.mk (some .element) none none none none none] }] []

/-- `class Safe(BaseXmlModel): items: List[Secret]`, with the setting `h`. -/
def safe (h : Option Bool) : ClassDef where
  name := "Safe"
  schema := .model "Safe" false
  hideInput := h
  body := .fields [{ name := "items", schema := .list (.model "Secret" false) }] []

def classes (h : Option Bool) : Classes
  | "Secret" => some secret
  | "Safe" => some (safe h)
  | _ => none

def program : List Event := [.statement "Secret" true, .statement "Safe" true]

/-- No `pin` is a number. -/
def env (h : Option Bool) : Env :=
  { Ex.env .ordered with
    model := history (classes h) 9 program .empty
    validate := fun cls d => match cls, d with
      | "Secret", .dict [("pin", v)] => .error ⟨⟨cls, true⟩, [⟨"int_parsing", "not a number", [.name "pin"], v, none⟩]⟩
      | _, .dict fs => .ok (fs, fs.map Prod.fst)
      | cls, d => .error ⟨cls, [⟨"model_type", "not a mapping", [], d, none⟩]⟩ }

def doc : Node :=
  .elem "Safe" [] [] none none [.elem "items" [] [] none none [.elem "pin" [] [] (some "0o17") none [] (some 3)] (some 2)] (some 1)

theorem classes_standard (h : Option Bool) : (classes h).Standard := by
  intro c cd hc
  unfold classes at hc
  split at hc <;> cases hc
  · refine ⟨⟨by decide, (fun m hm => by cases hm), ?_, by simp⟩, ⟨?_, by simp⟩, false, [], .done rfl, fun r s h => by cases h⟩
    · intro f hf
      simp only [List.mem_singleton] at hf
      subst hf
      exact ⟨by decide, Def.infos_all⟩
    · intro f hf
      simp only [List.mem_singleton] at hf
      subst hf
      exact .prim
  · refine ⟨⟨by simp [safe], (fun m hm => by cases hm), ?_, by simp⟩, ⟨?_, by simp⟩, false, [], .done rfl, fun r s h => by cases h⟩
    · intro f hf
      simp only [List.mem_singleton] at hf
      subst hf
      exact ⟨by decide, by simp⟩
    · intro f hf
      simp only [List.mem_singleton] at hf
      subst hf
      exact .list .model

/-- The error of the document. -/
def err (h : Bool) : VErr :=
  ⟨⟨"Safe", h⟩, [⟨"int_parsing", "not a number", [.name "items", .idx 0, .name "pin"], .str "0o17", some 3⟩]⟩

theorem read (h : Option Bool) : (fromXmlTree (env h) false 9 "Safe" doc).1 = .verr (err (h.getD false)) := by
  cases h with
  | none => kernel_rfl
  | some b => cases b <;> kernel_rfl

/-- Non-vacuity of `C77_program`: if `Safe` hides its inputs, the text of the error does not show the pin; if it does not, the text shows
it although `Secret` hides its own. -/
example : (err true).shown = [] ∧ (err false).shown = [.str "0o17"] := by
  obtain ⟨cd, h1, h2, -⟩ := C77_program (classes_standard (some true)) 9 program (env (some true)) rfl false 9 "Safe" doc _ (read (some true))
  obtain ⟨cd', h1', -, h3⟩ := C77_program (classes_standard none) 9 program (env none) rfl false 9 "Safe" doc _ (read none)
  cases h1
  cases h1'
  exact ⟨h2 rfl, h3 (by simp [safe])⟩

theorem sameBut (h h' : Option Bool) : (env h).SameBut (env h') where
  backend := rfl
  toJsonable := rfl
  reprOf := rfl
  validate cls data := by
    show match (env h).validate cls data, (env h).validate cls data with
      | .error e, .error e' => e.SameBut e'
      | r, r' => r = r'
    cases (env h).validate cls data with
    | error e => exact ⟨rfl, rfl⟩
    | ok r => rfl
  model cls := Hidden.history_hid (classes := classes h) (classes' := classes h')
    (fun c => by
      unfold classes
      split
      · exact ⟨some true, rfl⟩
      · exact ⟨h', rfl⟩
      · exact ⟨none, rfl⟩) 9 program (fun _ => rfl) cls

/-- Non-vacuity of `C77_read`: the errors of both are the same but for what their text shows. -/
example : (Out.verr (err true) : Out Val).SameBut (.verr (err false)) := by
  have := (C77_read _ _ (sameBut (some true) none) false 9 "Safe" doc).1
  rwa [read, read] at this

/-- Non-vacuity of `C77_definitions`: both classes are complete. -/
example : (history (classes none) 9 program .empty "Safe").isSome = true ∧
    (history (classes none) 9 program .empty "Secret").isSome = true := ⟨by kernel_rfl, by kernel_rfl⟩

/-- Non-vacuity of `C77_rejected`: `items: List[Any]` has no name and is rejected, whatever the setting. -/
example (h : String → Option Bool) :
    let bad : Classes := fun _ => some { name := "Bad", schema := .model "Bad" false, body := .fields [{ name := "items", schema := .list (.prim "str") }] [] }
    Event.run (bad.hiding h) 9 (history (bad.hiding h) 9 [] .empty) (.statement "Bad" true) =
      .error (.fieldError "entity name is not provided") :=
  (C77_rejected _ h 9 [] (.statement "Bad" true) _).1 (by kernel_rfl)

end HideEx

end PXml
