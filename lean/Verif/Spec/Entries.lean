import Verif.Model.Types
/-
Specification of what a node's entry list means: which values are its positional
arguments and which values belong to a property name. Independent of the lookup
loops of the model.
-/

namespace Kdl.Spec

/-- The entry is a positional argument. -/
def IsArg (e : Entry) : Prop := e.name = none

instance (e : Entry) : Decidable (IsArg e) := inferInstanceAs (Decidable (e.name = none))

/-- The entry is a property called `k`. -/
def IsProp (k : Str) (e : Entry) : Prop := e.name.map Ident.value = some k

instance (k : Str) (e : Entry) : Decidable (IsProp k e) :=
  inferInstanceAs (Decidable (e.name.map Ident.value = some k))

/-- The positional arguments, in order. -/
def args (es : List Entry) : List Entry := es.filter fun e => IsArg e

/-- The entries that are properties, in order. -/
def props (es : List Entry) : List Entry := es.filter fun e => ¬ IsArg e

/-- The properties called `k`, in order. -/
def propsOf (k : Str) (es : List Entry) : List Entry := es.filter fun e => IsProp k e

/-- What a property lookup should return: the last one wins. -/
def lookupProp (k : Str) (es : List Entry) : Option Value := (propsOf k es).getLast?.map Entry.value

/-- What an argument lookup should return: the `i`-th one. -/
def lookupArg (i : Nat) (es : List Entry) : Option Value := (args es)[i]?.map Entry.value

end Kdl.Spec
