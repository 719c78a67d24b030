import Verif.Proofs.FillTasks
import Verif.Props.SortAlone
import Mathlib.Data.Nat.Pairing
/-
Property theorems C112: the item of a parallel sort is written field by field while workers may look at it.
-/
namespace Pnumpy.Props
open Pnumpy.FillTasks
open Pnumpy.Work (upd)
open Pnumpy.Callers (upd_same upd_ne)

/-- **C112**: whatever the ring's memory held before, and with any number of threads sorting at the same time: if no worker looks at an
item while it is written, and fewer than 1024 sorts are started during one, then when a sort comes to its end each of its parts has been
sorted exactly once, and no worker is still at one. -/
theorem C112_sorts_partial (mem : Nat → Slot) (l : List Act) (hq : Quiet mem l) (t i : Nat) (j : Job)
    (h : (exec mem l).thread t = .finish i j) :
    List.Perm ((exec mem l).parts i) (List.range j.n) ∧ ∀ w, w ≠ 0 → ¬ (exec mem l).busy i w := by
  obtain ⟨l', own, hs, hc⟩ := sim_exec mem l hq
  have ho := hs.fin t i j h
  obtain ⟨_, st, a1, _, a3, a4, _⟩ := hs.live _ _ _ ho
  have e : i % RING = i % 1024 := rfl
  obtain ⟨st', b1, b2⟩ := C40_concurrent_tasks_partial l' hc t i j.cfg (by rw [hs.thread, h]; rfl)
  rw [e, b1] at a1
  injection a1 with _ e2
  subst e2
  refine ⟨by rw [a4]; exact b2, fun w w0 ⟨k, b, hb⟩ => ?_⟩
  obtain ⟨i', j', c1, _, c2, _⟩ := hs.inside w k i (.run b) hb
  have := c2 (by simp)
  subst this
  obtain ⟨hk, st2, d1, _, d3, _⟩ := hs.live _ _ _ c1
  rw [← hk] at c1
  rw [ho] at c1
  cases c1
  rw [← hk, e, b1] at d1
  injection d1 with _ e3
  subst e3
  have hp := d3 w w0
  rw [hb] at hp
  simp only [Seen, if_true] at hp
  have hp : st'.pc w = .run b := hp
  have reach := (Callers.inv_exec False l' fun c => c.elim).reach (i % 1024)
  rw [b1] at reach
  obtain ⟨sched, rfl⟩ := reach
  have inv := Counter.inv_exec j.cfg sched
  have hlt := Counter.Inv.claimed_lt (inv.runClaimed w b hp)
  exact inv.runNotLog w b hp (b2.mem_iff.2 (List.mem_range.2 hlt))

/-! ### A worker that looks too early -/

/-- **C112**: under the same conditions, a sort for which workers may be woken, while no other thread sorts, comes to an end if the
workers and the sorting thread keep running. -/
theorem C112_ends_partial (mem : Nat → Slot) (σ : Nat → Act) (hq : QuietRun mem σ)
    (hworkers : ∀ w m, w ≠ 0 → ∃ m', m ≤ m' ∧ σ m' = .worker w) (t : Nat) (hthread : ∀ m, ∃ m', m ≤ m' ∧ σ m' = .thread t)
    (m : Nat) (j : Job) (hwake : 1 ≤ j.maxWakeup) (h : (FillTasks.states mem σ m).thread t = .want j)
    (halone : ∀ m', m ≤ m' → (FillTasks.states mem σ m').thread t ≠ .idle → ∀ t', t' ≠ t → (FillTasks.states mem σ m').thread t' = .idle) :
    ∃ m', m ≤ m' ∧ (FillTasks.states mem σ m').thread t = .idle := by
  have idle : ∀ m' t, (FillTasks.follow mem σ m').thread t = .idle ↔ (FillTasks.states mem σ m').thread t = .idle := by
    intro m' t
    obtain ⟨own, h⟩ := (FillTasks.sim_states mem σ hq m').1
    rw [h.thread]
    cases e' : (FillTasks.states mem σ m').thread t <;> simp [thr]
  have hw1 : 1 ≤ j.wakeup := by
    simp only [Job.wakeup]; split
    · exact hwake
    · omega
  obtain ⟨m', h1, h2⟩ := C94_sort_ends_partial (simRun mem σ) (fun n => by
      rw [follow_states]
      obtain ⟨own, h⟩ := (FillTasks.sim_states mem σ hq n).1
      exact h.calm (hq.2 n))
    (by
      intro n t' i j' _ hf w hw
      rw [follow_states] at hf hw
      obtain ⟨own, h⟩ := (FillTasks.sim_states mem σ hq n).1
      rw [h.thread] at hf
      rw [h.worker] at hw
      cases e : (FillTasks.states mem σ n).thread t' <;> rw [e] at hf <;> simp only [thr] at hf <;> (try cases hf)
      have hown := (h.writing t' i (by rw [e]; rfl)).1
      cases e' : (FillTasks.states mem σ n).worker w <;> rw [e'] at hw <;> simp only [wrk] at hw <;> cases hw
      obtain ⟨_, _, e3, _⟩ := h.inside w _ _ _ e'
      have e4 : i % Callers.RING = i % FillTasks.RING := rfl
      rw [e4, hown] at e3; cases e3)
    (fun w n w0 => worker_counts mem σ hq w w0 (fun m => hworkers w m w0) n) t (FillTasks.thread_counts mem σ hq t hthread) m j.n j.wakeup hw1
    (by
      rw [follow_states]
      obtain ⟨own, hs⟩ := (FillTasks.sim_states mem σ hq m).1
      rw [hs.thread, h]; rfl)
    (by
      intro m' hm hne t' ht'
      rw [follow_states] at hne ⊢
      rw [idle]
      exact halone m' hm (fun e => hne ((idle m' t).2 e)) t' ht')
  rw [follow_states, idle] at h2
  exact ⟨m', h1, h2⟩


private def threadSteps (n : Nat) : List Act := List.replicate n (.thread 1)
private def workerSteps (w n : Nat) : List Act := List.replicate n (.worker w)

/-- Memory that holds only zeros. -/
def zeroRing : Nat → Slot := fun _ => ⟨0, 0, 0, 0, 0, 0, 0⟩

/-- A sort as it comes: eight parts, eleven worker threads. -/
def eightParts : Job := ⟨8, 11⟩

/-- Thread 1 sorts an array; worker 1 sorts the parts; before the sort ends, the workers 1 and 2 see that there is (still) work. -/
def firstSort : List Act :=
  [.start 1 eightParts] ++ threadSteps 14 ++ workerSteps 1 39 ++ workerSteps 1 2 ++ workerSteps 2 2 ++ threadSteps 3

/-- Thread 1 sorts another array. Its item is written up to BlockLast when the two workers look; worker 2 begins with part 0. The counters
are set to 0 only then: worker 1 begins with part 0 as well, and goes on up to part 6. -/
def secondSort : List Act :=
  firstSort ++ ([.start 1 eightParts] ++ threadSteps 7 ++ workerSteps 1 5 ++ workerSteps 2 4 ++ threadSteps 7 ++ workerSteps 1 32 ++
    workerSteps 2 2 ++ threadSteps 2)

example : (exec zeroRing firstSort).thread 1 = .idle ∧ (exec zeroRing firstSort).parts 1 = [7, 6, 5, 4, 3, 2, 1, 0] ∧
    (exec zeroRing firstSort).worker 1 = .look ∧ (exec zeroRing firstSort).worker 2 = .look := by decide +kernel

/-- Before the workers' look nothing is out of order, and the second item is being written. -/
example : (exec zeroRing (firstSort ++ ([.start 1 eightParts] ++ threadSteps 7))).worker 2 = .look ∧
    ((exec zeroRing (firstSort ++ ([.start 1 eightParts] ++ threadSteps 7))).thread 1).writing = some 2 := by decide +kernel

/-- **C112** is false as stated: one thread sorts two arrays, one after the other; two workers look at the second item while it is being
written. The second sort ends although its last part was never sorted (np.sort returns an unsorted array) and another one twice, by two
threads at the same time. -/
theorem C112_early_look_violated :
    (exec zeroRing secondSort).thread 1 = .finish 2 eightParts ∧ 7 ∉ (exec zeroRing secondSort).parts 2 ∧
      ((exec zeroRing secondSort).parts 2).count 0 = 2 := by decide +kernel

/-- Both threads were at part 0 at the same time. -/
example : let s := exec zeroRing (firstSort ++ ([.start 1 eightParts] ++ threadSteps 7 ++ workerSteps 1 5 ++ workerSteps 2 4 ++ threadSteps 7 ++
    workerSteps 1 6)); s.worker 1 = .inside 2 2 (.run 0) ∧ s.worker 2 = .inside 2 2 (.run 0) := by decide +kernel

/-- After the end of the sort, when the caller has freed the workspace, worker 1 begins with the last part. -/
theorem C112_still_running_violated :
    (exec zeroRing (secondSort ++ threadSteps 1 ++ workerSteps 1 2)).thread 1 = .idle ∧
      (exec zeroRing (secondSort ++ threadSteps 1 ++ workerSteps 1 2)).busy 2 1 :=
  ⟨by decide +kernel, 2, 7, by decide +kernel⟩

/-! ### A case for the theorem -/

private def onlyOne : Act → Bool
  | .start t _ => t == 1
  | .thread t => t == 1
  | .worker w => w == 1

private theorem only_one (mem : Nat → Slot) (l : List Act) (h : l.all onlyOne = true) (u : Nat) (hu : u ≠ 1) :
    (exec mem l).thread u = .idle ∧ (exec mem l).worker u = .top := by
  induction l using List.reverseRecOn with
  | nil => exact ⟨rfl, rfl⟩
  | append_singleton l a ih =>
    simp only [List.all_append, Bool.and_eq_true, List.all_cons, List.all_nil, Bool.and_true] at h
    obtain ⟨h1, h2⟩ := ih h.1
    rw [FillTasks.exec_snoc]
    cases a with
    | start t j =>
      have e : t = 1 := by simpa [onlyOne] using h.2
      subst e
      simp only [FillTasks.step]
      split <;> (try simp only [upd_ne _ _ hu]) <;> exact ⟨h1, h2⟩
    | thread t =>
      have e : t = 1 := by simpa [onlyOne] using h.2
      subst e
      simp only [FillTasks.step]
      (repeat' split) <;> (try simp only [upd_ne _ _ hu]) <;> exact ⟨h1, h2⟩
    | worker t =>
      have e : t = 1 := by simpa [onlyOne] using h.2
      subst e
      simp only [FillTasks.step]
      (repeat' split) <;> (try simp only [upd_ne _ _ hu]) <;> exact ⟨h1, h2⟩

/-- The next steps of thread 1 and worker 1 are undisturbed, and fewer than 1024 calls have been made. -/
private def checks (s : FillTasks.St) : List Act → Bool
  | [] => decide (s.main < 1024)
  | a :: l => decide (s.main < 1024) && (match a with
      | .worker _ => s.worker 1 != .look || (s.thread 1).writing != some s.main
      | .thread _ => match s.thread 1, s.worker 1 with
        | .take _, .inside k _ _ => k != (s.main + 1) % 1024
        | _, _ => true
      | .start _ _ => true) && checks (FillTasks.step s a) l

private theorem quiet_of_checks (mem : Nat → Slot) (l : List Act) (h1 : l.all onlyOne = true) (h2 : checks (FillTasks.init mem) l = true) : Quiet mem l := by
  have key : ∀ q p, checks (exec mem p) q = true → (p ++ q).all onlyOne = true →
      (∀ p' a, p' ++ [a] <+: q → Undisturbed (exec mem (p ++ p')) a) ∧ ∀ p', p' <+: q → FillTasks.Calm (exec mem (p ++ p')) := by
    intro q
    induction q with
    | nil =>
      intro p hc ho
      refine ⟨fun p' a hp => absurd hp (by simp), fun p' hp => ?_⟩
      rw [List.prefix_nil.1 hp, List.append_nil]
      intro t i _
      have : (exec mem p).main < 1024 := by simpa [checks] using hc
      omega
    | cons a q ih =>
      intro p hc ho
      simp only [checks, Bool.and_eq_true, decide_eq_true_eq] at hc
      obtain ⟨⟨hm, ha⟩, hr⟩ := hc
      obtain ⟨i1, i2⟩ := ih (p ++ [a]) (by rw [FillTasks.exec_snoc]; exact hr) (by simpa using ho)
      have hop : p.all onlyOne = true := by
        simp only [List.all_append, Bool.and_eq_true] at ho; exact ho.1
      have hoa : onlyOne a = true := by
        simp only [List.all_append, List.all_cons, Bool.and_eq_true] at ho; exact ho.2.1
      refine ⟨fun p' b hp => ?_, fun p' hp => ?_⟩
      · cases p' with
        | nil =>
          have : b = a := by simpa using hp
          subst this
          rw [List.append_nil]
          cases b with
          | start t j => trivial
          | thread t =>
            have e : t = 1 := by simpa [onlyOne] using hoa
            subst e
            intro j hj w k arg pc hw
            by_cases ew : w = 1
            · subst ew; simp only [hj, hw] at ha; simpa using ha
            · rw [(only_one _ _ hop w ew).2] at hw; cases hw
          | worker w =>
            have e : w = 1 := by simpa [onlyOne] using hoa
            subst e
            intro hl t ht
            by_cases et : t = 1
            · subst et; simp only [hl, ht] at ha; simp at ha
            · rw [(only_one _ _ hop t et).1] at ht; cases ht
        | cons c p'' =>
          have := hp
          simp only [List.cons_append, List.cons_prefix_cons] at this
          obtain ⟨rfl, h3⟩ := this
          rw [show p ++ c :: p'' = p ++ [c] ++ p'' by simp]
          exact i1 p'' b h3
      · cases p' with
        | nil => rw [List.append_nil]; intro t i _; omega
        | cons c p'' =>
          have := hp
          simp only [List.cons_prefix_cons] at this
          obtain ⟨rfl, h3⟩ := this
          rw [show p ++ c :: p'' = p ++ [c] ++ p'' by simp]
          exact i2 p'' h3
  have := key l [] h2 h1
  simp only [List.nil_append] at this
  exact this

/-- Two sorts one after the other; worker 1 sorts the parts. -/
def twoSorts : List Act :=
  [.start 1 eightParts] ++ threadSteps 14 ++ workerSteps 1 40 ++ threadSteps 3 ++ workerSteps 1 1 ++ [.start 1 eightParts] ++ threadSteps 11 ++ workerSteps 1 20 ++
    threadSteps 3 ++ workerSteps 1 40 ++ threadSteps 6

private theorem twoSorts_quiet : Quiet zeroRing twoSorts := quiet_of_checks _ _ (by decide +kernel) (by decide +kernel)

example : List.Perm ((exec zeroRing twoSorts).parts 2) (List.range 8) ∧ ∀ w, w ≠ 0 → ¬ (exec zeroRing twoSorts).busy 2 w :=
  C112_sorts_partial _ twoSorts twoSorts_quiet 1 2 eightParts (by decide +kernel)

/-- Worker 1 and the calling thread both had a share. -/
example : (exec zeroRing twoSorts).parts 2 = [7, 6, 5, 4, 2, 3, 1, 0] := by decide +kernel

/-- One sort; once it is published, thread 1 and all workers run again and again. -/
def oneSort (n : Nat) : Act :=
  if n = 0 then .start 1 eightParts
  else if n ≤ 11 then .thread 1
  else if (Nat.unpair (n - 12)).2 = 0 then .thread 1 else .worker (Nat.unpair (n - 12)).2

private theorem oneSort_late (n c : Nat) : oneSort (12 + Nat.pair n c) = if c = 0 then .thread 1 else .worker c := by
  simp only [oneSort, if_neg (show ¬ 12 + Nat.pair n c = 0 by omega), if_neg (show ¬ 12 + Nat.pair n c ≤ 11 by omega),
    Nat.add_sub_cancel_left, Nat.unpair_pair]

/-- The sort is published and only steps of thread 1 and of workers follow. -/
private structure After (s : FillTasks.St) : Prop where
  main : s.main = 1
  others : ∀ t, t ≠ 1 → s.thread t = .idle
  me : (∃ arg pc, s.thread 1 = .inCall 1 eightParts arg pc) ∨ s.thread 1 = .finish 1 eightParts ∨ s.thread 1 = .idle

private theorem after_thread {s : FillTasks.St} (h : After s) : After (FillTasks.step s (.thread 1)) := by
  have oth : ∀ x : Thread, ∀ t, t ≠ 1 → upd s.thread 1 x t = .idle := fun x t ht => by rw [upd_ne _ _ ht]; exact h.others t ht
  rcases h.me with ⟨arg, pc, e⟩ | e | e
  · simp only [FillTasks.step, e]
    split
    · exact ⟨h.main, oth _, .inr (.inl (by simp only [upd_same]))⟩
    · exact ⟨h.main, oth _, .inl ⟨arg, _, by simp only [upd_same]; rfl⟩⟩
  · simp only [FillTasks.step, e]; exact ⟨h.main, oth _, .inr (.inr (by simp only [upd_same]))⟩
  · simp only [FillTasks.step, e]; exact h

private theorem after_worker {s : FillTasks.St} (h : After s) (w : Nat) : After (FillTasks.step s (.worker w)) := by
  simp only [FillTasks.step]
  (repeat' split) <;> exact ⟨h.main, h.others, h.me⟩

private theorem after_oneSort (n : Nat) : After (FillTasks.states zeroRing oneSort (12 + n)) := by
  induction n with
  | zero =>
    have e : FillTasks.states zeroRing oneSort (12 + 0) = exec zeroRing ([.start 1 eightParts] ++ threadSteps 11) := rfl
    rw [e]
    exact ⟨by decide +kernel, fun t ht => (only_one _ _ (by decide +kernel) t ht).1, .inl ⟨1, .fetch false, by decide +kernel⟩⟩
  | succ n ih =>
    rw [← Nat.add_assoc]
    show After (FillTasks.step _ (oneSort (12 + n)))
    rw [← Nat.pair_unpair n, oneSort_late, Nat.pair_unpair]
    split
    · exact after_thread ih
    · exact after_worker ih _

private theorem early_oneSort : ∀ n, n ≤ 12 → ∃ l, l.all onlyOne = true ∧ (∀ a ∈ l, ∀ w, a ≠ .worker w) ∧
    FillTasks.states zeroRing oneSort n = exec zeroRing l := by
  intro n
  induction n with
  | zero => intro _; exact ⟨[], rfl, by simp, rfl⟩
  | succ n ih =>
    intro hn
    obtain ⟨l, h1, h2, h3⟩ := ih (by omega)
    have : oneSort n = .start 1 eightParts ∨ oneSort n = .thread 1 := by
      simp only [oneSort]; split
      · exact .inl rfl
      · rw [if_pos (by omega)]; exact .inr rfl
    refine ⟨l ++ [oneSort n], ?_, ?_, by rw [FillTasks.exec_snoc, ← h3]; rfl⟩
    · rw [List.all_append, h1]; rcases this with e | e <;> rw [e] <;> rfl
    · intro a ha w
      rcases List.mem_append.1 ha with h | h
      · exact h2 a h w
      · rw [List.mem_singleton.1 h]; rcases this with e | e <;> rw [e] <;> simp

private theorem no_worker (mem : Nat → Slot) (l : List Act) (h : ∀ a ∈ l, ∀ w, a ≠ .worker w) (w : Nat) : (exec mem l).worker w = .top := by
  induction l using List.reverseRecOn with
  | nil => rfl
  | append_singleton l a ih =>
    have ih := ih fun b hb => h b (List.mem_append_left _ hb)
    rw [FillTasks.exec_snoc]
    cases a with
    | start t j => simp only [FillTasks.step]; split <;> exact ih
    | thread t => simp only [FillTasks.step]; (repeat' split) <;> exact ih
    | worker v => exact absurd rfl (h _ (by simp) v)

private theorem main_le (mem : Nat → Slot) (σ : Nat → Act) (n : Nat) : (FillTasks.states mem σ n).main ≤ n := by
  induction n with
  | zero => exact Nat.le_refl _
  | succ n ih =>
    show (FillTasks.step _ _).main ≤ _
    cases σ n with
    | start t j => simp only [FillTasks.step]; split <;> (show (FillTasks.states mem σ n).main ≤ _; omega)
    | thread t => simp only [FillTasks.step]; (repeat' split) <;> (try simp only) <;> omega
    | worker w => simp only [FillTasks.step]; (repeat' split) <;> (try simp only) <;> omega

private theorem oneSort_quiet : FillTasks.QuietRun zeroRing oneSort := by
  refine ⟨fun n => ?_, fun n => ?_⟩
  · by_cases hn : n ≤ 11
    · obtain ⟨l, h1, h2, h3⟩ := early_oneSort n (by omega)
      rw [h3]
      cases oneSort n with
      | start t j => trivial
      | thread t => intro j _ w k arg pc hw; rw [no_worker _ l h2] at hw; cases hw
      | worker w => intro hw; rw [no_worker _ l h2] at hw; cases hw
    · obtain ⟨d, rfl⟩ := Nat.exists_eq_add_of_le (show 12 ≤ n by omega)
      have h := after_oneSort d
      have hno : ∀ t, ((FillTasks.states zeroRing oneSort (12 + d)).thread t).writing = none ∧
          ∀ j, (FillTasks.states zeroRing oneSort (12 + d)).thread t ≠ .take j := by
        intro t
        by_cases e : t = 1
        · subst e; rcases h.me with ⟨_, _, e⟩ | e | e <;> rw [e] <;> exact ⟨rfl, by simp⟩
        · rw [h.others t e]; exact ⟨rfl, by simp⟩
      cases oneSort (12 + d) with
      | start t j => trivial
      | thread t => intro j hj; exact absurd hj ((hno t).2 j)
      | worker w => intro _ t ht; rw [(hno t).1] at ht; cases ht
  · intro t i _
    by_cases hn : n ≤ 11
    · have := main_le zeroRing oneSort n; omega
    · obtain ⟨d, rfl⟩ := Nat.exists_eq_add_of_le (show 12 ≤ n by omega)
      rw [(after_oneSort d).main]; omega

/-- The sort ends. -/
example : ∃ m', 1 ≤ m' ∧ (FillTasks.states zeroRing oneSort m').thread 1 = .idle :=
  C112_ends_partial _ _ oneSort_quiet
    (fun w m w0 => ⟨12 + Nat.pair m w, by have := Nat.left_le_pair m w; omega, by rw [oneSort_late, if_neg w0]⟩) 1
    (fun m => ⟨12 + Nat.pair m 0, by have := Nat.left_le_pair m 0; omega, by rw [oneSort_late, if_pos rfl]⟩) 1 eightParts (by decide) rfl
    (by
      intro m' _ _ t' ht'
      by_cases hn : m' ≤ 11
      · obtain ⟨l, h1, _, h3⟩ := early_oneSort m' (by omega)
        rw [h3]; exact (only_one _ _ h1 t' ht').1
      · obtain ⟨d, rfl⟩ := Nat.exists_eq_add_of_le (show 12 ≤ m' by omega)
        exact (after_oneSort d).others t' ht')

end Pnumpy.Props
