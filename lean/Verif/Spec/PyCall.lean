/-
Vocabulary for Python calls: a call changes the interpreter's state and returns a value or raises.
-/
namespace Pnumpy.Spec.Py

/-- Exceptions that matter here. `other`: any other class. -/
inductive Exc where
  | typeError
  | nameError
  | attributeError
  | other (n : Nat)
deriving DecidableEq

/-- How a call ends. -/
inductive Out (V : Type) where
  | ret (v : V)
  | raise (e : Exc)
deriving DecidableEq

/-- A call: from the state of the interpreter to its end and the new state. -/
abbrev Call (S V : Type) := S → Out V × S

/-- First one call, then one that depends on its value. -/
def Call.andThen {S V W : Type} (c : Call S V) (k : V → Call S W) : Call S W := fun s =>
  match c s with
  | (.ret v, s') => k v s'
  | (.raise e, s') => (.raise e, s')

/-- An object passed to `argsort`, `argmin`, `argmax` or `searchsorted`; `A`: the remaining arguments, `R`: arrays.
`method name`: the attribute of that name if there is one; `arrayWrap`: the attribute `__array_wrap__`; `asArray`: `np.asarray`. -/
structure Obj (S V A R : Type) where
  method : String → Option (A → Call S V)
  arrayWrap : Option (V → Call S V)
  asArray : Call S R

/-- numpy's own wrapper, as documented: the object's method if it has one; if it has none, or if the method does not take these
arguments (TypeError), the method of the object converted to an array, its result (as an array) passed through `__array_wrap__`. `toArr`: `np.asarray` of a result
that is not an array. -/
def npWrapfunc {S V A R : Type} (arrMethod : R → String → A → Call S V) (toArr : V → Call S V) (o : Obj S V A R) (name : String) (a : A) : Call S V :=
  let fallback : Call S V := o.asArray.andThen fun r => (arrMethod r name a).andThen fun v =>
    match o.arrayWrap with
    | some w => (toArr v).andThen w
    | none => fun s => (.ret v, s)
  match o.method name with
  | none => fallback
  | some m => fun s => match m a s with
    | (.raise .typeError, s') => fallback s'
    | x => x

end Pnumpy.Spec.Py
