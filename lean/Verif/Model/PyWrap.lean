import Verif.Spec.PyCall
/-
`pnumpy.argsort`, `argmin`, `argmax`, `searchsorted`: src/pnumpy/sort.py 17-44, 403, 475, 549, 637.
Simplifications: reading the attribute `__array_wrap__` has no effect and fails only with AttributeError; what is not modelled of an
object is part of the interpreter's state `S`.
-/
namespace Pnumpy.PyWrap
open Spec.Py

variable {S V A R : Type}

/-- `_wrapit` (sort.py:17-27). With `__array_wrap__` the name `mu` is evaluated; the module does not define it. -/
def wrapit (arrMethod : R → String → A → Call S V) (o : Obj S V A R) (name : String) (a : A) : Call S V :=
  o.asArray.andThen fun r => (arrMethod r name a).andThen fun v =>
    match o.arrayWrap with
    | some _ => fun s => (.raise .nameError, s)
    | none => fun s => (.ret v, s)

/-- `_wrapfunc` (sort.py:30-44). -/
def wrapfunc (arrMethod : R → String → A → Call S V) (o : Obj S V A R) (name : String) (a : A) : Call S V :=
  match o.method name with
  | none => wrapit arrMethod o name a
  | some m => fun s => match m a s with
    | (.ret v, s') => (.ret v, s')
    | (.raise .typeError, s') => wrapit arrMethod o name a s'
    | (.raise e, s') => (.raise e, s')

/-- The four functions (sort.py:403, 475, 549, 637). -/
inductive Fn where
  | argsort
  | argmax
  | argmin
  | searchsorted

/-- The method each of them calls (sort.py:403, 475, 549, 637). -/
def Fn.name : Fn → String
  | .argsort => "argsort"
  | .argmax => "argmax"
  | .argmin => "argmin"
  | .searchsorted => "searchsorted"

/-- `pnumpy.<fn>(o, ...)` (sort.py:403, 475, 549, 637). -/
def call (arrMethod : R → String → A → Call S V) (f : Fn) (o : Obj S V A R) (a : A) : Call S V := wrapfunc arrMethod o f.name a

end Pnumpy.PyWrap
