import Verif.Model.Settings
import Verif.Model.Hooks
import Mathlib.Tactic.SplitIfs
/-
C35: the settings are variables.
-/
namespace Pnumpy.Props
open Pnumpy.Spec Pnumpy.Settings

private theorem run_wake (c : Cfg) (hW : 2 ≤ c.W ∧ c.W ≤ 15) (h : List SetCall) :
    (run c h).wake = workersNow c.W h := by
  induction h with
  | nil => simp only [run, init, workersNow, lastSet, clampInt]; split_ifs <;> omega
  | cons x t ih =>
    simp only [run, workersNow, lastSet] at *
    cases x <;> simp only [step, ih]
    · simp only [clampWake, clampInt]; split_ifs <;> omega
    all_goals (try split_ifs) <;> simp_all

private theorem run_flags (c : Cfg) (h : List SetCall) :
    (!(run c h).noThreading) = threadsOn h ∧ (run c h).atop = atopOn h ∧ (run c h).ledger = ledgerOn h ∧ (run c h).recycler = recyclerOn h := by
  induction h with
  | nil => simp [run, init, threadsOn, atopOn, ledgerOn, recyclerOn, lastSet]
  | cons x t ih =>
    simp only [run, threadsOn, atopOn, ledgerOn, recyclerOn, lastSet] at *
    cases x <;> simp only [step] <;> (try split_ifs) <;> simp_all

private theorem run_zigzag (c : Cfg) (h : List SetCall) :
    ((run c h).zigzag = 0 ∧ zigzagOn h = false) ∨ (((run c h).zigzag = 3 ∨ (run c h).zigzag = 2) ∧ zigzagOn h = true) := by
  induction h with
  | nil => left; simp [run, init, zigzagOn]
  | cons x t ih =>
    by_cases hx : x = .zigzag
    · subst hx
      rcases ih with ⟨h1, h2⟩ | ⟨h1, h2⟩
      · right
        simp only [run, step, h1, zigzagOn, List.count_cons_self] at *
        simp at h2 ⊢; omega
      · left
        have hne : (run c t).zigzag ≠ 0 := by rcases h1 with h | h <;> rw [h] <;> decide
        simp only [run, step, if_neg hne, zigzagOn, List.count_cons_self] at *
        simp at h2 ⊢; omega
    · have hc : zigzagOn (x :: t) = zigzagOn t := by
        simp only [zigzagOn, List.count_cons]
        rw [if_neg (by simpa using hx)]; simp
      rw [hc]
      cases x <;> simp only [run, step] <;> (try split_ifs) <;> (try exact ih)
      · exact absurd rfl hx
      · exact absurd rfl hx
      · rename_i hz
        rcases ih with ⟨h1, h2⟩ | ⟨h1, h2⟩
        · exact absurd h1 hz
        · right; refine ⟨?_, h2⟩
          rcases h1 with h | h <;> rw [h] <;> decide

private theorem run_max (c : Cfg) (n : String) (d : Nat)
    (halias : ∀ d', c.hooked n d' → c.hooked n d → atype d' = atype d → d' = d) (hd : c.hooked n d) (h : List SetCall) :
    (run c h).maxThreads n (atype d) = funcWorkers c.hooked (c.dflt n) n d h := by
  induction h with
  | nil => simp [run, init, funcWorkers]
  | cons x t ih =>
    have hat := (run_flags c t).2.1
    cases x
    case atopSetWorkers n' d' k =>
      simp only [run, step, funcWorkers, hat]
      by_cases h1 : atopOn t <;> simp only [h1, if_true, if_false, Bool.false_eq_true, false_and, and_false, ih]
      by_cases h2 : c.hooked n' d' <;> simp only [h2, if_true, if_false, Bool.false_eq_true, false_and, and_false, ih]
      by_cases h3 : 0 ≤ k ∧ k < 64
      · rw [if_pos h3]
        by_cases h4 : n' = n ∧ d' = d
        · rw [if_pos ⟨h4.1, h4.2, trivial, trivial, h3⟩]
          simp [h4.1, h4.2]
        · rw [if_neg (fun hh => h4 ⟨hh.1, hh.2.1⟩)]
          show (if n = n' ∧ atype d = atype d' then k else (run c t).maxThreads n (atype d)) = _
          rw [if_neg, ih]
          rintro ⟨e1, e2⟩
          subst e1
          exact h4 ⟨rfl, halias d' h2 hd e2.symm⟩
      · rw [if_neg h3, if_neg (fun hh => h3 ⟨hh.2.2.2.2.1, hh.2.2.2.2.2⟩)]
        exact ih
    all_goals (simp only [run, step, funcWorkers]; (try split_ifs) <;> exact ih)

/-- C35: after every sequence of calls, on a machine with 2 to 15 worker threads, each settings
function returns what a plain variable would: `thread_setworkers` clamps and returns the previous value,
`thread_getworkers` the current one, `thread_zigzag` alternates, the enable/disable/isenabled triples
agree, and `atop_setworkers` returns the previous limit of that function and dtype — for dtypes that do
not share their table entry with another hooked one. -/
theorem C35_settings_partial (c : Cfg) (hW : 2 ≤ c.W ∧ c.W ≤ 15) (h : List SetCall) (call : SetCall)
    (halias : ∀ n d k, call = .atopSetWorkers n d k → ∀ d', c.hooked n d' → c.hooked n d → atype d' = atype d → d' = d) :
    returns c h call = expected c.W c.hooked c.dflt h call := by
  have hf := run_flags c h
  have hz := run_zigzag c h
  cases call <;> simp only [returns, step, expected, run_wake c hW, hf]
  · rcases hz with ⟨h1, h2⟩ | ⟨h1, h2⟩
    · rw [if_pos h1, h2]; rfl
    · have hne : (run c h).zigzag ≠ 0 := by rcases h1 with h | h <;> rw [h] <;> decide
      rw [if_neg hne, h2]; rfl
  · rename_i n d k
    by_cases h1 : atopOn h <;> by_cases h2 : c.hooked n d <;> by_cases h3 : 0 ≤ k ∧ k < 64 <;>
      simp only [h1, h2, h3, if_true, if_false, and_self, and_true, true_and, and_false, false_and, Bool.false_eq_true]
    rw [run_max c n d (fun d' h' _ he => halias n d k rfl d' h' h2 he) h2]

/-- The worker count after any history lies in the supported range and the last call decides it. -/
theorem C35_workers_in_range (c : Cfg) (hW : 2 ≤ c.W ∧ c.W ≤ 15) (h : List SetCall) :
    1 ≤ (run c h).wake ∧ (run c h).wake ≤ c.W - 1 ∧ ∀ k, (run c (.setWorkers k :: h)).wake = clampInt 1 (c.W - 1) k := by
  have h1 : ∀ h, (run c h).wake = workersNow c.W h := run_wake c hW
  refine ⟨?_, ?_, fun k => ?_⟩
  · rw [h1]; clear h1
    induction h with
    | nil => simp only [workersNow, lastSet, clampInt]; omega
    | cons x t ih => cases x <;> simp only [workersNow, lastSet, clampInt] at * <;> omega
  · rw [h1]; clear h1
    induction h with
    | nil => simp only [workersNow, lastSet, clampInt]; omega
    | cons x t ih => cases x <;> simp only [workersNow, lastSet, clampInt] at * <;> omega
  · rw [h1]; rfl

/-- A configuration: 8 worker threads, `add` hooked for int32, int64 and float64. -/
def cfg8 : Cfg := { W := 8, hooked := fun n d => n == "add" && (d == 5 || d == 7 || d == 12), dflt := fun _ => 3 }

example : (2 ≤ cfg8.W ∧ cfg8.W ≤ 15) ∧
    (∀ n d k, SetCall.atopSetWorkers "add" 7 5 = .atopSetWorkers n d k → ∀ d', cfg8.hooked n d' → cfg8.hooked n d → atype d' = atype d → d' = d) ∧
    returns cfg8 [.operation, .setWorkers 20, .zigzag] .getWorkers = .int 7 ∧
    returns cfg8 [.operation, .zigzag] .zigzag = .bool false ∧
    returns cfg8 [.atopSetWorkers "add" 7 5] (.atopSetWorkers "add" 7 9) = .int 5 := by
  refine ⟨by decide, ?_, by decide, by decide, by decide⟩
  intro n d k e d' h' h he
  cases e
  simp [cfg8] at h'
  rcases h' with (rfl | rfl) | rfl <;> simp_all [atype]

/-- C35 is false on a machine with one worker thread: the clamp leaves 0 workers, although the function
insists on at least one. -/
theorem C35_one_worker_violated (c : Cfg) (hW : c.W = 1) (h : List SetCall) (k : Int) :
    returns c (.setWorkers k :: h) .getWorkers = .int 0 ∧ expected c.W c.hooked c.dflt (.setWorkers k :: h) .getWorkers ≠ .int 0 := by
  constructor
  · simp only [returns, run, step, clampWake, hW]
    congr 1
    split_ifs <;> omega
  · simp only [expected, workersNow, lastSet, clampInt, hW]
    intro hh; injection hh with hh; omega

/-- C35 is false for `atop_setworkers` of long and long long (and the unsigned ones): both use the same
table entry, so setting the limit of one changes the other. -/
theorem C35_longlong_violated (c : Cfg) (n : String) (h7 : c.hooked n 7) (h9 : c.hooked n 9) (hd : c.dflt n ≠ 5) :
    returns c [.atopSetWorkers n 9 5] (.atopSetWorkers n 7 6) = .int 5 ∧
      expected c.W c.hooked c.dflt [.atopSetWorkers n 9 5] (.atopSetWorkers n 7 6) ≠ .int 5 := by
  constructor
  · simp [returns, run, step, init, h7, h9, atype]
  · simp only [expected, atopOn, lastSet, h7, funcWorkers]
    simp [hd]

example : ({ W := 8, hooked := fun _ d => d ≤ 12, dflt := fun _ => 3 } : Cfg).hooked "add" 9 = true := by decide

/-- C35 is false for the ledger when another Python thread calls `ledger_disable` while an operation
runs: the operation switches the ledger back on, whatever happened before it. -/
theorem C35_ledger_race_violated (flag : Bool) :
    ([.start, .disable, .finish] : List LedgerEv).foldl ledgerEv flag = true ∧
    ([.start, .finish, .disable] : List LedgerEv).foldl ledgerEv flag = false := ⟨rfl, rfl⟩

/-- The types that share a worker count: two hooked types share one exactly when the hooks identify them, which happens for long/long long only. -/
theorem C35_shared_counts : (∀ d : Fin 13, (Settings.atype d : Int) = Hooks.atype d) ∧
    ∀ d d' : Fin 13, d < d' → (Settings.atype d = Settings.atype d' ↔ (d = 7 ∧ d' = 9) ∨ (d = 8 ∧ d' = 10)) := by decide

/-- Case: asking for the worker count after a change. -/
example := C35_settings_partial cfg8 (by decide) [.operation, .setWorkers 20, .zigzag] .getWorkers (by simp)

end Pnumpy.Props
