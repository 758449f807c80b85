import Verif.SpecCompile

/-!
# Specification of `hide_input_in_errors`

The input of every line of a `ValidationError` is always in `error.errors()`; the setting decides whether the text of the error shows
it.
-/

namespace PXml

/-- The inputs that the text of an error (`str(error)`, and hence every traceback and log) shows: none if the error was made with
`hide_input`, else the input of every line (`pydantic_core._pydantic_core.ValidationError.__str__`). -/
def VErr.shown (e : VErr) : List Val := if e.title.hide then [] else e.errs.map LineErr.input

/-- The errors are the same but for `hide_input`. -/
def VErr.SameBut (e e' : VErr) : Prop := e.title.text = e'.title.text ∧ e.errs = e'.errs

/-- The outcomes are the same but for `hide_input` of the error. -/
def Out.SameBut {α : Type} : Out α → Out α → Prop
  | .verr e, .verr e' => e.SameBut e'
  | o, o' => o = o'

/-- The serializers are the same but for `hide_input_in_errors` in collections and unions. -/
inductive Ser.SameBut : Ser → Ser → Prop
  | refl {s : Ser} : SameBut s s
  | primUnion {c : Bool} {s s' : Ser} : SameBut s s' → SameBut (.primUnion c s) (.primUnion c s')
  | modelUnion {t : String} {b b' c : Bool} {alts : List Proxy} : SameBut (.modelUnion ⟨t, b⟩ c alts) (.modelUnion ⟨t, b'⟩ c alts)
  | wrap {path : List String} {nsmap : Option NsMap} {mode : Mode} {c : Bool} {s s' : Ser} : SameBut s s' →
      SameBut (.wrap path nsmap mode c s) (.wrap path nsmap mode c s')
  | homog {t : String} {b b' c : Bool} {s s' : Ser} : SameBut s s' → SameBut (.homog ⟨t, b⟩ c s) (.homog ⟨t, b'⟩ c s')
  | hetero {t : String} {b b' c : Bool} {rows : List (Ser × Ser)} : (∀ r ∈ rows, SameBut r.1 r.2) →
      SameBut (.hetero ⟨t, b⟩ c (rows.map Prod.fst)) (.hetero ⟨t, b'⟩ c (rows.map Prod.snd))

/-- The same for fields: custom functions, aliases and exclusion are the same. -/
def Field.SameBut (f f' : Field) : Prop := f.ser.SameBut f'.ser ∧ f' = { f with ser := f'.ser }

/-- The same for what a class consists of. -/
inductive Body.SameBut : Body → Body → Prop
  | fields {fs fs' : List Field} : Each Field.SameBut fs fs' → SameBut (.fields fs) (.fields fs')
  | root {s s' : Ser} : s.SameBut s' → SameBut (.root s) (.root s')

/-- The same for classes. -/
def ModelSer.SameBut (m m' : ModelSer) : Prop :=
  m.body.SameBut m'.body ∧ m' = { m with body := m'.body, hideInput := m'.hideInput }

/-- Two environments that are the same but for `hide_input_in_errors`: of their classes, and hence of what pydantic raises for
them. -/
structure Env.SameBut (env env' : Env) : Prop where
  backend : env.backend = env'.backend
  toJsonable : env.toJsonable = env'.toJsonable
  reprOf : env.reprOf = env'.reprOf
  validate : ∀ cls data, match env.validate cls data, env'.validate cls data with
    | .error e, .error e' => e.SameBut e'
    | r, r' => r = r'
  model : ∀ cls, match env.model cls, env'.model cls with
    | some m, some m' => m.SameBut m'
    | o, o' => o = o'

/-- The same classes, with other settings of `hide_input_in_errors`. -/
def Classes.hiding (classes : Classes) (h : String → Option Bool) : Classes := fun c =>
  (classes c).map fun cd => { cd with hideInput := h c }

end PXml
