import Verif.Spec.SettingsShared
import Verif.Props.Settings
/-
C35: the limits of `atop_setworkers` exactly, and exactly when they are those of separate variables.
-/
namespace Pnumpy.Props
open Pnumpy.Spec Pnumpy.Settings

private theorem atype_eq {d d' : Nat} (hd : d < 13) (hd' : d' < 13) : atype d = atype d' ↔ SharesLimit d d' := by
  have : ∀ d : Fin 13, ∀ d' : Fin 13, (atype d = atype d' ↔ SharesLimit d d') := by decide
  exact this ⟨d, hd⟩ ⟨d', hd'⟩

private theorem step_atop (c : Cfg) (h : List SetCall) : (run c h).atop = atopOn h := by
  induction h with
  | nil => simp [run, init, atopOn, lastSet]
  | cons x t ih =>
    simp only [run, atopOn, lastSet] at *
    cases x <;> simp only [step] <;> (try split_ifs) <;> simp_all

private theorem run_shared (c : Cfg) (hh : ∀ n d, c.hooked n d → d < 13) (n : String) (d : Nat) (hd : d < 13) (h : List SetCall) :
    (run c h).maxThreads n (atype d) = sharedWorkers c.hooked (c.dflt n) n d h := by
  induction h with
  | nil => simp [run, init, sharedWorkers]
  | cons x t ih =>
    have hat := step_atop c t
    cases x
    case atopSetWorkers n' d' k =>
      simp only [run, step, sharedWorkers, hat]
      by_cases h1 : atopOn t <;> simp only [h1, if_true, if_false, Bool.false_eq_true, false_and, and_false, ih]
      by_cases h2 : c.hooked n' d' <;> simp only [h2, if_true, if_false, Bool.false_eq_true, false_and, and_false, ih]
      by_cases h3 : 0 ≤ k ∧ k < 64
      · rw [if_pos h3]
        show (if n = n' ∧ atype d = atype d' then k else (run c t).maxThreads n (atype d)) = _
        have e := atype_eq hd (hh n' d' h2)
        have e2 : SharesLimit d' d ↔ SharesLimit d d' := by unfold SharesLimit; omega
        by_cases h4 : n = n' ∧ atype d = atype d'
        · rw [if_pos h4, if_pos ⟨h4.1.symm, e2.2 (e.1 h4.2), trivial, trivial, h3⟩]
        · rw [if_neg h4, if_neg (fun hh => h4 ⟨hh.1.symm, e.2 (e2.1 hh.2.1)⟩), ih]
      · rw [if_neg h3, if_neg (fun hh => h3 ⟨hh.2.2.2.2.1, hh.2.2.2.2.2⟩)]
        exact ih
    all_goals (simp only [run, step, sharedWorkers]; (try split_ifs) <;> exact ih)

/-- **C35 (part), every machine and every history**: `atop_setworkers` returns the last limit set for this function and this type *or the
type it shares its limit with* (only types up to double are hooked); so it is right if and only if that is the last limit set
for the type itself. -/
theorem C35_shared_limit_partial (c : Cfg) (hh : ∀ n d, c.hooked n d → d < 13) (h : List SetCall) (n : String) (d : Nat) (k : Int)
    (ha : atopOn h = true) (hd : c.hooked n d = true) (hk : 0 ≤ k ∧ k < 64) :
    returns c h (.atopSetWorkers n d k) = .int (sharedWorkers c.hooked (c.dflt n) n d h) ∧
    (returns c h (.atopSetWorkers n d k) = expected c.W c.hooked c.dflt h (.atopSetWorkers n d k) ↔
      sharedWorkers c.hooked (c.dflt n) n d h = funcWorkers c.hooked (c.dflt n) n d h) := by
  have h1 : returns c h (.atopSetWorkers n d k) = .int (sharedWorkers c.hooked (c.dflt n) n d h) := by
    simp only [returns, step, step_atop, ha, hd, if_true, if_pos hk]
    rw [run_shared c hh n d (hh n d hd)]
  refine ⟨h1, ?_⟩
  rw [h1]
  simp only [expected, ha, hd, hk, and_self, if_true, Ret.int.injEq]

/-- Case: the limit of long set after that of long long. -/
def cfgTwins : Cfg := { W := 8, hooked := fun n d => n == "add" && decide (d < 13), dflt := fun _ => 3 }
example : returns cfgTwins [.atopSetWorkers "add" 7 6, .atopSetWorkers "add" 9 5] (.atopSetWorkers "add" 9 1) = .int 6 := by
  refine ((C35_shared_limit_partial cfgTwins (fun n d h => ?_) _ "add" 9 1 (by decide) (by decide) (by decide)).1).trans (by decide)
  simp only [cfgTwins, Bool.and_eq_true, decide_eq_true_eq] at h
  exact h.2

end Pnumpy.Props
