import Verif.Model.FutexWork
/-
Fair runs of an element-wise call with its wake-up.
-/
namespace Pnumpy.FutexWork
open Pnumpy.Futex (Worker Act)

/-- A run in which the caller and every worker keep being scheduled and the futex wakes as it must. -/
structure Fair (k : Cfg) (w : Nat → Worker) (σ : Nat → Act) : Prop where
  caller : ∀ t, ∃ t', t ≤ t' ∧ ∃ S, σ t' = .caller S ∧ ((trace k w σ t').phase = .wake → Legal k (trace k w σ t') S)
  worker : ∀ c, 1 ≤ c → c ≤ k.workers → ∀ t, ∃ t', t ≤ t' ∧ σ t' = .worker c

end Pnumpy.FutexWork
