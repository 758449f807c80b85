import Verif.Compile
import Verif.Serializer

/-!
# Specification of reading and writing while classes are defined

In one thread a document is read, or an instance written, while other threads execute class statements and `model_rebuild`. The only thing of a class that
these change and that reading and writing look at is its serializer (`__xml_serializer__`), which a sub-model looks up each time it is met. So every lookup may see
another state of the program: that after any of the histories in `P`.
-/

namespace PXml

/-- The environment with the classes as they are after the events. -/
def Env.after (env : Env) (classes : Classes) (k : Nat) (es : List Event) : Env :=
  { env with model := history classes k es fun _ => none }

/-- Every outcome that reading with the serializer can have if each lookup of a class sees the program after some history in `P`.  The outcomes of the parts are
given by an arbitrary function `rec`.  (Simplified: within one serializer the same part read twice from the same state has the same outcome.) -/
inductive Reads (env : Env) (classes : Classes) (k : Nat) (P : List Event → Prop) (eas : Bool) : Nat → Ser → Loc → St → Out Val × St → Prop
  | fuel (s : Ser) (loc : Loc) (st : St) : Reads env classes k P eas 0 s loc st (.diverge, st)
  | step (n : Nat) (es : List Event) (rec : Ser → Loc → St → Out Val × St) (s : Ser) (loc : Loc) (st : St) : P es →
    (∀ s loc st, Reads env classes k P eas n s loc st (rec s loc st)) →
    Reads env classes k P eas (n + 1) s loc st (deserStep (env.after classes k es) eas rec n s loc st)

/-- The same for `from_xml_tree`, model.py:249-281. -/
def readWith (env : Env) (rec : Ser → Loc → St → Out Val × St) (cls : String) (root : Node) : Out Val :=
  match env.model cls with
  | none => .crash .assertionError
  | some m => if root.tag = m.elementName then (deserModel env rec cls m [] ⟨fromNative env.backend root, []⟩).1 else .crash .parsingError

/-- The possible outcomes of `cls.from_xml_tree(root)`. -/
def ReadsTree (env : Env) (classes : Classes) (k : Nat) (P : List Event → Prop) (eas : Bool) (n : Nat) (cls : String) (root : Node) (out : Out Val) : Prop :=
  ∃ es rec, P es ∧ (∀ s loc st, Reads env classes k P eas n s loc st (rec s loc st)) ∧ out = readWith (env.after classes k es) rec cls root

/-- Every outcome that writing with the serializer can have. -/
inductive Writes (env : Env) (classes : Classes) (k : Nat) (P : List Event → Prop) : Nat → Flags → Ser → Elem → Val → Val → Out Elem → Prop
  | fuel (fl : Flags) (s : Ser) (el : Elem) (v enc : Val) : Writes env classes k P 0 fl s el v enc .diverge
  | step (n : Nat) (es : List Event) (rec : Flags → Ser → Elem → Val → Val → Out Elem) (fl : Flags) (s : Ser) (el : Elem) (v enc : Val) : P es →
    (∀ fl s el v enc, Writes env classes k P n fl s el v enc (rec fl s el v enc)) →
    Writes env classes k P (n + 1) fl s el v enc (serStep (env.after classes k es) rec fl s el v enc)

/-- The same for `to_xml_tree`, model.py:307-333. -/
def writeWith (env : Env) (rec : Flags → Ser → Elem → Val → Val → Out Elem) (fl : Flags) (cls : String) (v : Val) : Out Node :=
  match env.model cls with
  | none => .crash .assertionError
  | some m =>
    (serModel rec m fl { tag := m.elementName, nsmap := m.nsmap } v (env.toJsonable v)).bind fun root => .ok (toNative env.backend root)

/-- The possible outcomes of writing an instance of `cls`. -/
def WritesTree (env : Env) (classes : Classes) (k : Nat) (P : List Event → Prop) (n : Nat) (fl : Flags) (cls : String) (v : Val) (out : Out Node) : Prop :=
  ∃ es rec, P es ∧ (∀ fl s el v enc, Writes env classes k P n fl s el v enc (rec fl s el v enc)) ∧ out = writeWith (env.after classes k es) rec fl cls v

/-- The histories of a program in which the events `before` have happened, and since then others; none of these is the statement of a class that was usable
already. -/
def Since (classes : Classes) (k : Nat) (before : List Event) (es : List Event) : Prop :=
  ∃ later, es = before ++ later ∧ ∀ c complete, .statement c complete ∈ later → history classes k before (fun _ => none) c = none

end PXml
