import Verif.Model.WorkerLimit
import Verif.Spec.LedgerCalls
/- What a user expects of `atop_setworkers` and `atop_info` (C99). Histories list the newest call first. -/
namespace Pnumpy.Spec
open Pnumpy.Hooks (Cfg Hook)
open Pnumpy.WorkerLimit (LCall)

/-- pnumpy enabled: the last of atop_enable/atop_disable was enable (initially enabled). -/
def lEnabled : List LCall → Bool
  | [] => true
  | .call .atopEnable :: _ => true
  | .call .atopDisable :: _ => false
  | _ :: older => lEnabled older

/-- pnumpy took over the loop listed under this name and dtype number. -/
def Replaced (c : Cfg) (name : String) (d : Nat) : Prop := c.avx2 = true ∧ ∃ h ∈ c.hooks, WorkerLimit.nameOf h.1.op = some name ∧ h.2 = d

/-- The worker limit of function `name` for the element type of `d`: the last accepted `atop_setworkers` for that name and element type after
initialisation, or the default. Accepted: pnumpy enabled, the loop replaced, 0 ≤ k < 64. -/
noncomputable def lastLimit (c : Cfg) (dflt : Int) (name : String) (d : Nat) : List LCall → Int
  | [] => dflt
  | .setWorkers n d' k :: older =>
      open Classical in
      if n = name ∧ sameType d' d ∧ Replaced c n d' ∧ LCall.call .doInit ∈ older ∧ lEnabled older = true ∧ 0 ≤ k ∧ k < 64 then k
      else lastLimit c dflt name d older
  | _ :: older => lastLimit c dflt name d older

/-- The default: 7 for the trigonometric and exponential functions, 3 for the others. -/
def dfltLimit (name : String) : Int :=
  if name ∈ ["sin", "cos", "tan", "arcsin", "arccos", "arctan", "sinh", "cosh", "tanh", "arcsinh", "arccosh", "arctanh", "cbrt", "exp", "exp2", "expm1",
    "log", "log2", "log10", "log1p"] then 7 else 3

end Pnumpy.Spec
