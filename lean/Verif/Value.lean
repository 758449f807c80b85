import Verif.Native

/-!
# Python values, errors, locations, outcomes
-/

namespace PXml

/-- One step of a pydantic error location. -/
inductive LocPart where
  | name (s : String)
  | idx (i : Nat)
deriving DecidableEq, Repr

/-- `Location`, typedefs.py:4. -/
abbrev Loc := List LocPart

/-- The `sourcemap` dictionary handed through `deserialize`. -/
abbrev SMap := Dict Loc Int

/-- Python values, as far as the serializers can tell them apart.  The same type is used for the values of model
fields, for their JSON encoding, and for the data handed to pydantic's validation.

* `str`, `bool`, `int`: primitives;
* `opaque repr len`: any other primitive (float, date, Decimal, bytes, ...): `repr` is `str(value)`, `len` is its
  length if it has one (`isinstance(value, Sized)`);
* `list`: list, tuple, set, frozenset, named tuple;
* `dict`: mapping with string keys;
* `model cls fields fieldsSet`: an instance of the model class `cls` (for a root model the only field is `root`);
* `raw`: a native element;
* `undef`: `PydanticUndefined`. -/
inductive Val where
  | none
  | str (s : String)
  | bool (b : Bool)
  | int (i : Int)
  | opaque (repr : String) (len : Option Nat)
  | list (items : List Val)
  | dict (items : List (String × Val))
  | model (cls : String) (fields : List (String × Val)) (fieldsSet : List String)
  | raw (node : Node)
  | undef
deriving Repr, Inhabited

/-- `value is None` -/
def Val.isNone : Val → Bool
  | .none => true
  | _ => false

/-- `len(value)` if `isinstance(value, Sized)`.  (A native element has a length too, its number of children.) -/
def Val.len? : Val → Option Nat
  | .str s => some s.length
  | .opaque _ l => l
  | .list xs => some xs.length
  | .dict d => some d.length
  | .raw (.elem _ _ _ _ _ cs _) => some cs.length
  | .raw _ => some 0
  | _ => Option.none

/-- One line error of a pydantic `ValidationError`.  `line` is the `sourceline` put into the message by
`set_validation_error_sourceline` or `_check_extra`. -/
structure LineErr where
  ty : String
  msg : String
  loc : Loc
  input : Val
  line : Option Int
deriving Repr

/-- The heading of a `ValidationError`: its `title`, and `hide_input`, whether the text of the error leaves the inputs
out (`ValidationError.from_exception_data`, utils.py:125-130, 156-160, factories/model.py:51-56). -/
structure Title where
  text : String
  hide : Bool := false
deriving DecidableEq, Repr

/-- A plain title: the inputs are shown, as is pydantic's default. -/
instance : Coe String Title := ⟨fun s => { text := s }⟩

/-- `pydantic.ValidationError` -/
structure VErr where
  title : Title
  errs : List LineErr
deriving Repr

/-- Outcome of a call: a value, a pydantic `ValidationError`, another exception, or non-termination (out of fuel). -/
inductive Out (α : Type) where
  | ok (a : α)
  | verr (e : VErr)
  | crash (e : PyErr)
  | diverge
deriving Repr

namespace Out
def bind {α β : Type} : Out α → (α → Out β) → Out β
  | ok a, f => f a
  | verr e, _ => verr e
  | crash e, _ => crash e
  | diverge, _ => diverge

instance : Monad Out where
  pure := ok
  bind := bind
end Out

/-- Key of the error maps of `into_validation_error`: `None`, a name, or an index. -/
abbrev ErrKey := Option LocPart

/-- `into_validation_error`, utils.py:108-130: the errors of all entries in order, located under their key. -/
def intoValidationError (title : Title) (errors : Dict ErrKey VErr) : VErr :=
  { title := title,
    errs := errors.flatMap fun (k, e) =>
      e.errs.map fun l => match k with | some p => { l with loc := p :: l.loc } | none => l }

/-- The loop utils.py:140-142 on the reversed location (`loc[:-1]` drops the last step): the line of the longest
prefix that has a known line. -/
def lineForRev (sm : SMap) : List LocPart → Int
  | [] => -1
  | p :: ps =>
    match sm.get? (p :: ps).reverse with
    | some l => if l = -1 then lineForRev sm ps else l
    | none => lineForRev sm ps

/-- utils.py:140-142.  (`sourcemap.get(loc, sourceline)` keeps the previous value, which is -1 inside the loop.) -/
def lineFor (sm : SMap) (loc : Loc) : Int := lineForRev sm loc.reverse

/-- `set_validation_error_sourceline`, utils.py:133-160: the title is kept, `hide_input` is the caller's. -/
def setSourceline (hide : Bool) (sm : SMap) (e : VErr) : VErr :=
  { title := { e.title with hide := hide }
    errs := e.errs.map fun l => { l with line := some (lineFor sm l.loc) } }

/-- The extra_forbidden error of one unbound entry, factories/model.py:36-49. -/
def extraErr (root : Elem) (u : Elem.Unbound) : LineErr :=
  { ty := "extra_forbidden", msg := "Extra inputs are not permitted",
    loc := u.path.map (fun tl => LocPart.name tl.1)
      ++ (match u.attr with | some a => if a = "" then [] else [LocPart.name ("@" ++ a)] | none => []),
    input := .str u.value,
    line := some (match u.path.getLast? with | some tl => tl.2 | none => root.line) }

/-- `_check_extra`, factories/model.py:31-56. -/
def checkExtra (title : Title) (e : Elem) : Option VErr :=
  match e.getUnbound [] with
  | [] => none
  | us => some { title := title, errs := us.map (extraErr e) }

end PXml
