import Verif.Spec.Settings
/-
The worker limits of `atop_setworkers`, with long and long long (and unsigned long and unsigned long long) sharing one.
-/
namespace Pnumpy.Spec

/-- numpy's type numbers 7 (long) and 9 (long long), 8 (unsigned long) and 10 (unsigned long long) share one limit. -/
def SharesLimit (d d' : Nat) : Prop := d = d' ∨ (d = 7 ∧ d' = 9) ∨ (d = 9 ∧ d' = 7) ∨ (d = 8 ∧ d' = 10) ∨ (d = 10 ∧ d' = 8)

instance : DecidableRel SharesLimit := fun d d' => by unfold SharesLimit; infer_instance

/-- The limit of one function and type: the last accepted `atop_setworkers` for this function and this type or the one that shares
its limit. -/
def sharedWorkers (hooked : String → Nat → Bool) (dflt : Int) (name : String) (dtype : Nat) : List SetCall → Int
  | [] => dflt
  | .atopSetWorkers n d k :: older =>
      if n = name ∧ SharesLimit d dtype ∧ hooked n d ∧ atopOn older ∧ 0 ≤ k ∧ k < 64 then k
      else sharedWorkers hooked dflt name dtype older
  | _ :: older => sharedWorkers hooked dflt name dtype older

end Pnumpy.Spec
