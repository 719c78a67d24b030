import Verif.Model.OtherOs
/-
The runs considered in C111.
-/
namespace Pnumpy.OtherOs
open Pnumpy.Futex (Worker)

/-- The caller and every worker keep being scheduled; `Sleep` ends (Windows without `WaitOnAddress`). -/
structure Fair (k : Cfg) (w : Nat → Worker) (σ : Nat → Act) : Prop where
  caller : ∀ t, ∃ t', t ≤ t' ∧ σ t' = .caller
  worker : ∀ c, 1 ≤ c → c ≤ k.workers → ∀ t, ∃ t', t ≤ t' ∧ σ t' = .worker c
  sleep : k.os = .windows7 → ∀ c, 1 ≤ c → c ≤ k.workers → ∀ t, ∃ t', t ≤ t' ∧ σ t' = .spurious c

/-- When the first pool is woken, one of the threads 1 to 3 that may take part is not on its way to sleep. -/
def NotLost (k : Cfg) (w : Nat → Worker) (σ : Nat → Act) : Prop :=
  ∀ t, σ t = .caller → (trace k w σ t).phase = 1 →
    ∃ c, 1 ≤ c ∧ c ≤ 3 ∧ c ≤ k.g.wakeup ∧ c ≤ k.workers ∧ (trace k w σ t).worker c ≠ .wait false

end Pnumpy.OtherOs
