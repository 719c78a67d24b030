import Verif.Proofs.Ring
/-
Property C05: workers touch a call's work item only after it has been published.
-/
namespace Pnumpy.Props
open Pnumpy.Ring

/-- **C05**, the full property: whenever a worker executes a slot, the call it belongs to has been
published and the slot describes that very call. -/
def OnlyPublished (l : List Act) : Prop :=
  ∀ r ∈ (exec l).runs, r.pub = true ∧ r.call = r.main

/-- **C05 is violated**: there is an interleaving (of 1025 consecutive threaded calls) in which a
worker that was woken for call 1024 executes, while call 1025 is being prepared, a slot that
still describes call 1, which returned long ago (its argument block lived on a dead stack frame). -/
theorem C05_violated : ∃ l, ¬ OnlyPublished l ∧
    ∃ r ∈ (exec l).runs, r.pub = false ∧ r.call = 1 ∧ r.main = 1025 := by
  refine ⟨calls 1023 ++ [.caller, .caller, .caller, .worker 1, .worker 1, .caller, .caller, .worker 1], ?_⟩
  have e : exec (calls 1023 ++ [.caller, .caller, .caller, .worker 1, .worker 1, .caller, .caller, .worker 1])
      = ([.caller, .caller, .caller, .worker 1, .worker 1, .caller, .caller, .worker 1] : List Act).foldl step
        (afterCalls 1023) := by
    rw [← exec_calls 1023 (by decide)]; simp only [exec, List.foldl_append]
  have hr : (exec (calls 1023 ++ [.caller, .caller, .caller, .worker 1, .worker 1, .caller, .caller, .worker 1])).runs
      = [{ call := 1, main := 1025, pub := false, epoch := 1023, doneNow := 1024 }] := by
    rw [e]; decide
  constructor
  · intro h
    have := h { call := 1, main := 1025, pub := false, epoch := 1023, doneNow := 1024 } (by rw [hr]; simp)
    simp at this
  · exact ⟨_, by rw [hr]; exact List.mem_singleton.mpr rfl, rfl, rfl, rfl⟩

/-- **C05, partial**: a worker whose loop iteration began after the latest completed call (i.e. it
was not delayed across the end of a call: `epoch = doneNow`) executes only a published slot that
describes the current call.  Missing from the full property: workers delayed between reading
`Pool.WorkIndex` and reading `MainWorkIndex` while one call ends and the next begins, for which it
is false (`C05_violated`). -/
theorem C05_only_published_partial (l : List Act) :
    ∀ r ∈ (exec l).runs, r.epoch = r.doneNow → r.pub = true ∧ r.call = r.main ∧ 0 < r.main :=
  (inv_exec l).runs

/-- Non-vacuity: a prompt worker executes call 1 (and its run has `epoch = doneNow`). -/
example : (exec [.caller, .caller, .caller, .worker 1, .worker 1, .worker 1]).runs =
    [{ call := 1, main := 1, pub := true, epoch := 0, doneNow := 0 }] := by decide

end Pnumpy.Props
