import Verif.Proofs.Futex
import Verif.Props.Work
/-
Property C42: a parallel sort returns on every machine configuration.
-/
namespace Pnumpy.Props
open Pnumpy.Futex
open Pnumpy.Work (upd)

/-- **C42, partial** (Linux): with at least one worker thread, at least one to be woken, and at least two to be woken if there are several, an operation in index
mode (parallel sort, partitioned sort, record conversion; `n` tasks) returns and has executed every task exactly once: for
every state in which earlier calls left the workers, every choice the futex makes and every schedule in which the caller and
the worker threads keep running.  Missing: fewer woken workers, for which it is false (`C42_one_woken_violated`,
`C04_index_hangs_without_worker`). -/
theorem C42_returns_partial (n wakeup workers : Nat) (hT : 1 ≤ wakeup) (hW : 1 ≤ workers) (hE : 2 ≤ wakeup ∨ workers = 1) (w : Nat → Worker) (hw : Before w)
    (σ : Nat → Act) (hf : Fair { workers, g := { n, skip0 := true, wakeup } } w σ) :
    ∃ t, (trace { workers, g := { n, skip0 := true, wakeup } } w σ t).item.pc 0 = .returned ∧
      List.Perm (trace { workers, g := { n, skip0 := true, wakeup } } w σ t).item.log (List.range n) := by
  obtain ⟨t, ht⟩ := returns hw hf ⟨hT, hW, hE⟩
  refine ⟨t, ht, ?_⟩
  have key : ∀ t, ∃ sched, (trace { workers, g := { n, skip0 := true, wakeup } } w σ t).item =
      Counter.exec { n, skip0 := true, wakeup } sched := by
    intro t
    induction t with
    | zero => exact ⟨[], rfl⟩
    | succ t ih =>
      obtain ⟨l, e⟩ := ih
      exact ⟨l ++ [_], by simp only [trace, step_item, e, Counter.exec, List.foldl_append, List.foldl_cons, List.foldl_nil]; rfl⟩
  obtain ⟨sched, e⟩ := key t
  rw [e] at ht ⊢
  exact (C04_tasks_exactly_once _ sched).2.2 ht

/-- **C42 is violated**: when one worker is to be woken (a machine with two worker threads, or `thread_setworkers(1)`) and two
or more sleep, the futex may wake a worker that is not allowed to take part; the operation then never returns, whatever
happens (until worker 1 wakes up spuriously). -/
theorem C42_one_woken_violated (n workers : Nat) (hn : 0 < n) (hW : 2 ≤ workers) :
    Legal { workers, g := { n, skip0 := true, wakeup := 1 } }
      (exec { workers, g := { n, skip0 := true, wakeup := 1 } } (fun _ => .asleep) [.caller fun _ => false]) (fun c => c == 2) ∧
    ∀ l : List Act, Act.spurious 1 ∉ l →
      (exec { workers, g := { n, skip0 := true, wakeup := 1 } } (fun _ => .asleep)
        ([.caller fun _ => false, .caller fun c => c == 2] ++ l)).item.pc 0 ≠ .returned := by
  generalize hk : ({ workers, g := { n, skip0 := true, wakeup := 1 } } : Cfg) = k
  have kw : k.workers = workers := by rw [← hk]
  have kT : k.g.wakeup = 1 := by rw [← hk]
  have ks : k.g.skip0 = true := by rw [← hk]
  have kn : k.g.n = n := by rw [← hk]
  have hleg : Legal k { phase := .wake, worker := fun _ => .asleep, item := Counter.init } (fun c => c == 2) := by
    refine ⟨?_, ?_, ?_⟩
    · intro c hc
      have : c = 2 := by simpa using hc
      subst this
      exact ⟨by omega, by omega, rfl, by simp [notified]⟩
    · by_cases h3 : 3 ≤ workers
      · have : sleepers0 k { phase := .wake, worker := fun _ => .asleep, item := Counter.init } = [1, 2, 3] := by
          simp [sleepers0, kw, List.filter, show 1 ≤ workers by omega, hW, h3]
        rw [this, kT]; rfl
      · have : sleepers0 k { phase := .wake, worker := fun _ => .asleep, item := Counter.init } = [1, 2] := by
          simp [sleepers0, kw, List.filter, show 1 ≤ workers by omega, hW, h3]
        rw [this, kT]; rfl
    · intro c h4 _ _ hnot
      have : 1 ≤ c / 4 := by omega
      simp [notified, kT] at hnot; omega
  have e1 : exec k (fun _ => .asleep) [.caller fun _ => false] =
      { phase := .wake, worker := fun _ => .asleep, item := Counter.init } := rfl
  have e2 : exec k (fun _ => .asleep) [.caller fun _ => false, .caller fun c => c == 2] =
      { phase := .work, worker := fun c => if c == 2 then .top else .asleep, item := Counter.init } := by
    show step k (exec k (fun _ => .asleep) [.caller fun _ => false]) (.caller fun c => c == 2) = _
    rw [e1]; simp only [step, if_pos hleg]
  rw [e1]
  refine ⟨hleg, fun l hl => ?_⟩
  have key : ∀ (l : List Act) (s : St), Act.spurious 1 ∉ l → s.phase = .work → s.worker 1 = .asleep →
      (∀ c, s.worker c ≠ .work) → s.item.completed = 0 →
      ((s.item.next = 0 ∧ s.item.pc 0 = .fetch false) ∨ (∃ d, s.item.pc 0 = .ret d) ∨ s.item.pc 0 = .wait) →
      (l.foldl (step k) s).item.pc 0 ≠ .returned := by
    intro l
    induction l with
    | nil =>
      intro s _ _ _ _ _ h5
      simp only [List.foldl_nil]
      rcases h5 with ⟨_, h⟩ | ⟨_, h⟩ | h <;> rw [h] <;> simp
    | cons a l ih =>
      intro s hns h1 h2 h3 h4 h5
      have hns' : Act.spurious 1 ∉ l := fun h => hns (List.mem_cons_of_mem _ h)
      have hna : a ≠ .spurious 1 := fun h => hns (h ▸ List.mem_cons_self)
      rw [List.foldl_cons]
      cases a with
      | caller S =>
        have hs : step k s (.caller S) = { s with item := Counter.step k.g s.item (.go 0) } := by simp only [step, h1]
        rw [hs]
        refine ih _ hns' h1 h2 h3 ?_ ?_
        all_goals rcases h5 with ⟨hx, h⟩ | ⟨d, h⟩ | h
        all_goals simp only [Counter.step, Nat.not_lt_zero, if_false, h]
        · exact h4
        · exact h4
        · simp [h4, kn, hn]
        · right; left; exact ⟨false, by simp [hx, Counter.Cfg.task, ks, upd]⟩
        · right; right; simp [upd]
        · right; right; simp [h4, kn, hn, h]
      | spurious c =>
        by_cases hc : c ≠ 0 ∧ s.worker c = .asleep
        · have hc1 : (1 : Nat) ≠ c := fun e => hna (e ▸ rfl)
          have hs : step k s (.spurious c) = { s with worker := upd s.worker c .top } := by simp only [step, if_pos hc]
          rw [hs]
          refine ih _ hns' h1 (by simp [upd, hc1, h2]) ?_ h4 h5
          intro d; by_cases e : d = c <;> simp [upd, e, h3]
        · have hs : step k s (.spurious c) = s := by simp only [step, if_neg hc]
          rw [hs]; exact ih s hns' h1 h2 h3 h4 h5
      | worker c =>
        by_cases hc : c = 0 ∨ k.workers < c
        · have hs : step k s (.worker c) = s := by simp only [step, if_pos hc]
          rw [hs]; exact ih s hns' h1 h2 h3 h4 h5
        have setw : ∀ v : Worker, c ≠ 1 → v ≠ .work →
            (l.foldl (step k) { s with worker := upd s.worker c v }).item.pc 0 ≠ .returned := by
          intro v hc1 hv
          refine ih _ hns' h1 (by simp [upd, Ne.symm hc1, h2]) ?_ h4 h5
          intro d; by_cases e : d = c
          · subst e; simpa [upd] using hv
          · simp [upd, e, h3]
        by_cases hc1 : c = 1
        · subst hc1
          have hs : step k s (.worker 1) = s := by simp only [step, if_neg hc, h2]
          rw [hs]; exact ih s hns' h1 h2 h3 h4 h5
        have hcT : ¬ c ≤ k.g.wakeup := by omega
        cases hw : s.worker c with
        | asleep =>
          have hs : step k s (.worker c) = s := by simp only [step, if_neg hc, hw]
          rw [hs]; exact ih s hns' h1 h2 h3 h4 h5
        | work => exact absurd hw (h3 c)
        | wait f => simp only [step, if_neg hc, hw]; exact setw _ hc1 (by split <;> simp)
        | top =>
          by_cases hf : fresh k s c = true
          · simp only [step, if_neg hc, hw, if_pos hf, if_neg hcT]; exact setw _ hc1 (by simp)
          · simp only [step, if_neg hc, hw, if_neg hf]; exact setw _ hc1 (by simp)
  have := key l { phase := .work, worker := fun c => if c == 2 then .top else .asleep, item := Counter.init } hl
    rfl rfl (fun c => by simp only; split <;> simp) rfl (Or.inl ⟨rfl, rfl⟩)
  rw [← e2] at this
  simpa only [exec, List.foldl_append] using this

/-- Non-vacuity of `C42_returns_partial`: three sleeping workers, two to be woken; the futex wakes 2 and 3, then everybody
runs in turn. -/
def turns (t : Nat) : Act :=
  if t = 0 then .caller fun _ => false
  else if t = 1 then .caller fun c => c == 2 || c == 3
  else if t % 4 = 0 then .caller fun _ => false else .worker (t % 4)

theorem turns_fair : Fair { workers := 3, g := { n := 8, skip0 := true, wakeup := 2 } } (fun _ => .asleep) turns := by
  have hleg : Legal { workers := 3, g := { n := 8, skip0 := true, wakeup := 2 } }
      (trace { workers := 3, g := { n := 8, skip0 := true, wakeup := 2 } } (fun _ => .asleep) turns 1) (fun c => c == 2 || c == 3) := by
    refine ⟨?_, rfl, ?_⟩
    · intro c hc
      have : c = 2 ∨ c = 3 := by simpa using hc
      rcases this with rfl | rfl <;> exact ⟨by decide, by decide, rfl, rfl⟩
    · intro c h4 h3; simp only at h3; omega
  have h2 : (trace { workers := 3, g := { n := 8, skip0 := true, wakeup := 2 } } (fun _ => .asleep) turns 2).phase = .work := by
    show (step _ (trace _ _ turns 1) (turns 1)).phase = _
    have : (trace { workers := 3, g := { n := 8, skip0 := true, wakeup := 2 } } (fun _ => .asleep) turns 1).phase = .wake := rfl
    simp only [turns, step, this, Nat.one_ne_zero, if_false, if_true, if_pos hleg]
  refine ⟨?_, ?_⟩
  · intro t
    refine ⟨4 * t + 4, by omega, fun _ => false, ?_, ?_⟩
    · simp [turns]
    · intro hp
      have := phase_work_from h2 (4 * t + 2)
      rw [show 2 + (4 * t + 2) = 4 * t + 4 by omega, hp] at this
      simp at this
  · intro c h1 h3 t
    simp only at h3
    refine ⟨4 * t + 4 + c, by omega, ?_⟩
    have : (4 * t + 4 + c) % 4 = c := by omega
    simp only [turns, this]
    rw [if_neg (by omega), if_neg (by omega), if_neg (by omega)]

/-- Case: that schedule. -/
example := C42_returns_partial 8 2 3 (by decide) (by decide) (by decide) (fun _ => .asleep) (fun _ => Or.inr (Or.inr rfl)) turns turns_fair

end Pnumpy.Props
