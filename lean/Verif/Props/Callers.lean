import Verif.Proofs.Callers
import Verif.Props.Work
/-
Property C40: operations started while another one is in progress.
-/
namespace Pnumpy.Props
open Pnumpy.Callers Pnumpy.Spec
open Pnumpy.Work (upd)

/-- **C40** (slot): the slot of a work item is inside the ring for every value the 64-bit index can take
(`workIndex & RING_BUFFER_MASK`, threads.h:474), and it is the index modulo 1024. -/
theorem C40_slot_in_range (w : BitVec 64) : (w &&& 1023#64).toNat < 1024 ∧ (w &&& 1023#64).toNat = w.toNat % 1024 := by
  have h : (w &&& 1023#64).toNat = w.toNat % 1024 := by
    rw [BitVec.toNat_and]
    exact Nat.and_two_pow_sub_one_eq_mod w.toNat 10
  exact ⟨by rw [h]; omega, h⟩

/-- **C40** (lock): in every history of any number of threads, at most one thread is inside the locked part of
`GetWorkItem`; the lock is taken exactly while some thread is there (it is never left behind). -/
theorem C40_lock_exclusive (l : List Act) :
    (∀ t t', ((exec l).thread t).holds → ((exec l).thread t').holds → t = t') ∧
    ((exec l).lock = true ↔ ∃ t, ((exec l).thread t).holds) := by
  have h := inv_exec False l False.elim
  exact ⟨h.uniq, h.someone, fun ⟨t, ht⟩ => h.held t ht⟩

/-- Case: thread 1 holds the lock while thread 2 wants it. -/
example (j : Job) : ¬ ((exec [.start 1 true j, .start 2 true j, .thread 1]).thread 2).holds := fun h =>
  absurd ((C40_lock_exclusive [.start 1 true j, .start 2 true j, .thread 1]).1 1 2 rfl h) (by decide)

/-- **C40** (items): two operations in progress never have the same work index, in every history; and as long as fewer
than 1024 operations were started since the older one, not the same slot of the ring either. -/
theorem C40_items_distinct (l : List Act) (t t' i i' : Nat) (ht : ((exec l).thread t).idx = some i)
    (ht' : ((exec l).thread t').idx = some i') (hne : t ≠ t') :
    i ≠ i' ∧ ((exec l).main < i + 1024 → (exec l).main < i' + 1024 → i % 1024 ≠ i' % 1024) := by
  have h := inv_exec False l False.elim
  have hd : i ≠ i' := fun e => hne (h.dist t t' i ht (e ▸ ht'))
  exact ⟨hd, fun b b' e => hd (idx_mod (h.range t i ht).2 (h.range t' i' ht').2 b b' e)⟩

/-- **C40** (refused): an operation that asks for an item while another thread is inside the locked part gets none and
runs by itself; otherwise it gets one. -/
theorem C40_refused_iff (l : List Act) (t : Nat) (j : Job) (ht : (exec l).thread t = .want j) :
    ((exec (l ++ [.thread t])).thread t = .serial j ↔ ∃ t', t' ≠ t ∧ ((exec l).thread t').holds) ∧
    ((exec (l ++ [.thread t])).thread t = .take true j ↔ ¬ ∃ t', t' ≠ t ∧ ((exec l).thread t').holds) := by
  have h := C40_lock_exclusive l
  have e : (∃ t', t' ≠ t ∧ ((exec l).thread t').holds) ↔ (exec l).lock = true := by
    rw [h.2]
    exact ⟨fun ⟨t', _, h⟩ => ⟨t', h⟩, fun ⟨t', h⟩ => ⟨t', by rintro rfl; rw [ht] at h; exact h, h⟩⟩
  rw [e, exec_snoc]
  simp only [step, ht]
  cases hl : (exec l).lock <;> simp [upd]

/-- **C40** (refused, result): without an item the kernel is called once for the whole array, so every element is
processed exactly once. -/
theorem C40_refused_complete (n : Nat) : ExactlyOnce n [(0, n)] := by
  intro i
  simp [timesProcessed, covers]

/-- **C40** (granted), chunk operations: any number of threads and workers, any history in which never 1024 operations
are started while one is in progress: when a thread's operation on `n` elements returns, each element was processed
exactly once, whatever the other threads do.  Partial because an item's fields are written in one step of the model
(`C05_violated` shows that a worker can look at an item that is not filled in yet). -/
theorem C40_concurrent_chunks_partial (l : List Act) (hl : CalmHistory l) (t i n wakeup : Nat)
    (ht : (exec l).thread t = .finish i (.counter (chunkCfg n wakeup))) :
    ∃ st, (exec l).slot (i % 1024) = .counter (chunkCfg n wakeup) st ∧ ExactlyOnce n (chunkCalls n st) := by
  have h := inv_exec True l fun _ => hl
  have hb : (exec l).main < i + RING := hl l (List.prefix_refl _) t i (by rw [ht]; rfl)
  have hj := h.own trivial t i _ (by rw [ht]; rfl) hb
  have hr := h.fin trivial t i _ ht hb
  have hx := h.reach (i % RING)
  simp only [RING] at hj hr hx
  cases hs : (exec l).slot (i % 1024) with
  | ufunc it st => rw [hs] at hj; simp [Item.job] at hj
  | counter g st =>
    rw [hs] at hj hr hx
    simp only [Item.job, Job.counter.injEq] at hj
    subst hj
    obtain ⟨sched, rfl⟩ := hx
    exact ⟨_, rfl, C04_chunks_exactly_once n wakeup sched hr⟩

/-- **C40** (granted), tasks (parallel sort, record conversion): as above, when the operation returns exactly the tasks
`0..n-1` were executed, each once. -/
theorem C40_concurrent_tasks_partial (l : List Act) (hl : CalmHistory l) (t i : Nat) (g : Counter.Cfg)
    (ht : (exec l).thread t = .finish i (.counter g)) :
    ∃ st, (exec l).slot (i % 1024) = .counter g st ∧ List.Perm st.log (List.range g.n) := by
  have h := inv_exec True l fun _ => hl
  have hb : (exec l).main < i + RING := hl l (List.prefix_refl _) t i (by rw [ht]; rfl)
  have hj := h.own trivial t i _ (by rw [ht]; rfl) hb
  have hr := h.fin trivial t i _ ht hb
  have hx := h.reach (i % RING)
  simp only [RING] at hj hr hx
  cases hs : (exec l).slot (i % 1024) with
  | ufunc it st => rw [hs] at hj; simp [Item.job] at hj
  | counter g' st =>
    rw [hs] at hj hr hx
    simp only [Item.job, Job.counter.injEq] at hj
    subst hj
    obtain ⟨sched, rfl⟩ := hx
    exact ⟨_, rfl, (C04_tasks_exactly_once g' sched).2.2 hr⟩

/-- **C40** (granted), ufuncs: as above. -/
theorem C40_concurrent_ufuncs_partial (l : List Act) (hl : CalmHistory l) (t i n : Nat) (req : Int) (maxWakeup zz : Nat)
    (ht : (exec l).thread t = .finish i (.ufunc (ufuncItem n req maxWakeup zz))) :
    ∃ st, (exec l).slot (i % 1024) = .ufunc (ufuncItem n req maxWakeup zz) st ∧
      ExactlyOnce n (Work.kernelCalls (ufuncItem n req maxWakeup zz) st) := by
  have h := inv_exec True l fun _ => hl
  have hb : (exec l).main < i + RING := hl l (List.prefix_refl _) t i (by rw [ht]; rfl)
  have hj := h.own trivial t i _ (by rw [ht]; rfl) hb
  have hr := h.fin trivial t i _ ht hb
  have hx := h.reach (i % RING)
  simp only [RING] at hj hr hx
  cases hs : (exec l).slot (i % 1024) with
  | counter g st => rw [hs] at hj; simp [Item.job] at hj
  | ufunc it st =>
    rw [hs] at hj hr hx
    simp only [Item.job, Job.ufunc.injEq] at hj
    subst hj
    obtain ⟨sched, rfl⟩ := hx
    exact ⟨_, rfl, C01_exactly_once n req maxWakeup zz sched hr⟩

/-- The history: thread 1 starts an operation with the tasks `g` and publishes it; before any worker has looked, thread 2
starts the operation `j` and takes an item. -/
def overtake (g : Counter.Cfg) (j : Job) : List Act :=
  [.start 1 true (.counter g), .thread 1, .thread 1, .thread 1, .thread 1, .thread 1,
   .start 2 true j, .thread 2, .thread 2]

/-- **C40 is violated** (first half): an operation started while another one is in progress is not run serially, it is
given an item as well: the lock protects only the handing out of items. -/
theorem C40_not_serial_violated (g : Counter.Cfg) (j : Job) :
    (exec (overtake g j)).thread 1 = .inCall 1 (.counter g) ∧ (exec (overtake g j)).thread 2 = .got true 2 j :=
  ⟨rfl, rfl⟩

private structure Lost (g : Counter.Cfg) (s : St) : Prop where
  thr : s.thread 1 = .inCall 1 (.counter g)
  main : 2 ≤ s.main
  item : ∃ st, s.slot 1 = .counter g st ∧ st.completed = 0 ∧
    ((st.next = 0 ∧ st.pc 0 = .fetch false) ∨ (∃ d, st.pc 0 = .ret d) ∨ st.pc 0 = .wait)
  away : ∀ w, s.worker w ≠ .item 1

private theorem main_step (s : St) (a : Act) : s.main ≤ (step s a).main := by
  cases a with
  | start t lk j => simp only [step]; split <;> exact Nat.le_refl _
  | giveUp t => simp only [step]; split <;> exact Nat.le_refl _
  | thread t => simp only [step]; split <;> (try split) <;> simp
  | worker w =>
    simp only [step]
    split
    · exact Nat.le_refl _
    · split <;> (try split) <;> simp

private theorem main_fold (l : List Act) (s : St) : s.main ≤ (l.foldl step s).main := by
  induction l generalizing s with
  | nil => exact Nat.le_refl _
  | cons a l ih => exact Nat.le_trans (main_step s a) (ih _)

private theorem lost_item {g : Counter.Cfg} (hs : g.skip0 = true) (hn : 0 < g.n) {st : Counter.St} (h0 : st.completed = 0)
    (h : (st.next = 0 ∧ st.pc 0 = .fetch false) ∨ (∃ d, st.pc 0 = .ret d) ∨ st.pc 0 = .wait) :
    (Counter.step g st (.go 0)).completed = 0 ∧
    (((Counter.step g st (.go 0)).next = 0 ∧ (Counter.step g st (.go 0)).pc 0 = .fetch false) ∨
      (∃ d, (Counter.step g st (.go 0)).pc 0 = .ret d) ∨ (Counter.step g st (.go 0)).pc 0 = .wait) := by
  rcases h with ⟨hn0, hp⟩ | ⟨d, hp⟩ | hp
  · simp only [Counter.step, hp, Nat.not_lt_zero, if_false, hn0, Counter.Cfg.task, hs, if_true]
    exact ⟨h0, Or.inr (Or.inl ⟨false, by simp [upd]⟩)⟩
  · simp only [Counter.step, hp, Nat.not_lt_zero, if_false]
    exact ⟨h0, Or.inr (Or.inr (by simp [upd]))⟩
  · simp only [Counter.step, hp, Nat.not_lt_zero, if_false, h0, hn, if_true]
    exact ⟨trivial, Or.inr (Or.inr trivial)⟩

private theorem lost_step {g : Counter.Cfg} (hs : g.skip0 = true) (hn : 0 < g.n) {s : St} (hi : Inv False s) (h : Lost g s) (a : Act)
    (hm : s.main < 1025) : Lost g (step s a) := by
  obtain ⟨h1, h2, ⟨st, h3, h4, h5⟩, h6⟩ := h
  have noret : ¬ (s.slot 1).returned := by
    rw [h3]; simp only [Item.returned]
    rcases h5 with ⟨_, h⟩ | ⟨_, h⟩ | h <;> rw [h] <;> simp
  cases a with
  | start t lk j =>
    by_cases e : t = 1
    · subst e; simp only [step, h1]; exact ⟨h1, h2, ⟨st, h3, h4, h5⟩, h6⟩
    · have e' : (1 : Nat) ≠ t := fun x => e x.symm
      cases ht : s.thread t <;> simp only [step, ht] <;>
        exact ⟨by simp [upd, e', h1], h2, ⟨st, h3, h4, h5⟩, h6⟩
  | giveUp t =>
    by_cases e : t = 1
    · subst e; simp only [step, h1]; exact ⟨h1, h2, ⟨st, h3, h4, h5⟩, h6⟩
    · have e' : (1 : Nat) ≠ t := fun x => e x.symm
      cases ht : s.thread t <;> simp only [step, ht] <;>
        exact ⟨by simp [upd, e', h1], h2, ⟨st, h3, h4, h5⟩, h6⟩
  | worker w =>
    simp only [step]
    split
    · exact ⟨h1, h2, ⟨st, h3, h4, h5⟩, h6⟩
    have aw : ∀ v : Worker, v ≠ .item 1 → ∀ w', upd s.worker w v w' ≠ .item 1 := by
      intro v hv w'; by_cases e : w' = w
      · subst e; simp [upd, hv]
      · simp [upd, e, h6 w']
    cases hw : s.worker w with
    | top => exact ⟨h1, h2, ⟨st, h3, h4, h5⟩, aw _ (by simp)⟩
    | cmp wi => exact ⟨h1, h2, ⟨st, h3, h4, h5⟩, aw _ (by split <;> simp)⟩
    | look =>
      have hk : s.main % RING ≠ 1 := by simp only [RING]; omega
      simp only
      split
      · exact ⟨h1, h2, ⟨st, by simp only [upd, if_neg (Ne.symm hk)]; exact h3, h4, h5⟩, aw _ (by simpa using hk)⟩
      · exact ⟨h1, h2, ⟨st, h3, h4, h5⟩, aw _ (by simp)⟩
    | item k =>
      have hk : k ≠ 1 := fun e => h6 w (e ▸ hw)
      exact ⟨h1, h2, ⟨st, by simp only [upd, if_neg (Ne.symm hk)]; exact h3, h4, h5⟩,
        aw _ (by split <;> simp [hk])⟩
  | thread t =>
    by_cases e : t = 1
    · subst e
      have e1 : (1 % RING) = 1 := rfl
      simp only [step, h1, e1, if_neg noret]
      refine ⟨h1, h2, ?_, h6⟩
      obtain ⟨a, b⟩ := lost_item hs hn h4 h5
      exact ⟨_, by simp [upd, h3, Item.go], a, b⟩
    · have e' : (1 : Nat) ≠ t := fun x => e x.symm
      have far : ∀ i, (s.thread t).idx = some i → i % RING ≠ 1 := by
        intro i hi'
        have b := hi.range t i hi'
        have : i ≠ 1 := fun x => e (hi.dist t 1 1 (x ▸ hi') (by rw [h1]; rfl))
        simp only [RING]; omega
      cases ht : s.thread t with
      | idle => simp only [step, ht]; exact ⟨h1, h2, ⟨st, h3, h4, h5⟩, h6⟩
      | want j =>
        simp only [step, ht]
        split <;> exact ⟨by simp [upd, e', h1], h2, ⟨st, h3, h4, h5⟩, h6⟩
      | take lk j => simp only [step, ht]; exact ⟨by simp [upd, e', h1], Nat.le_succ_of_le h2, ⟨st, h3, h4, h5⟩, h6⟩
      | got lk i j => simp only [step, ht]; exact ⟨by simp [upd, e', h1], h2, ⟨st, h3, h4, h5⟩, h6⟩
      | fill i j =>
        have := far i (by rw [ht]; rfl)
        simp only [step, ht]
        exact ⟨by simp [upd, e', h1], h2, ⟨st, by simp only [upd, if_neg (Ne.symm this)]; exact h3, h4, h5⟩, h6⟩
      | publish i j => simp only [step, ht]; exact ⟨by simp [upd, e', h1], h2, ⟨st, h3, h4, h5⟩, h6⟩
      | inCall i j =>
        have := far i (by rw [ht]; rfl)
        simp only [step, ht]
        split
        · exact ⟨by simp [upd, e', h1], h2, ⟨st, h3, h4, h5⟩, h6⟩
        · exact ⟨h1, h2, ⟨st, by simp only [upd, if_neg (Ne.symm this)]; exact h3, h4, h5⟩, h6⟩
      | finish i j => simp only [step, ht]; exact ⟨by simp [upd, e', h1], h2, ⟨st, h3, h4, h5⟩, h6⟩
      | serial j => simp only [step, ht]; exact ⟨by simp [upd, e', h1], h2, ⟨st, h3, h4, h5⟩, h6⟩

/-- **C40 is violated** (second half): a parallel sort (any number `g.n > 0` of tasks, any number of workers) that is
overtaken by any operation of another thread never returns: workers look only at the newest item, and the caller alone
cannot draw a task.  It holds for every continuation, in which fewer than 1024 operations are started in all (after that the
slot is reused and the two operations share their counters). -/
theorem C40_concurrent_sort_hangs_violated (g : Counter.Cfg) (hs : g.skip0 = true) (hn : 0 < g.n) (j : Job) (l : List Act)
    (hl : (exec (overtake g j ++ l)).main ≤ 1024) :
    (exec (overtake g j ++ l)).thread 1 = .inCall 1 (.counter g) ∧
      ¬ ((exec (overtake g j ++ l)).slot (1 % 1024)).returned := by
  have key : ∀ (l p : List Act), Lost g (exec p) → (exec (p ++ l)).main ≤ 1024 → Lost g (exec (p ++ l)) := by
    intro l
    induction l with
    | nil => intro p h _; simpa using h
    | cons a l ih =>
      intro p h hm
      have e : p ++ a :: l = (p ++ [a]) ++ l := by simp
      rw [e] at hm ⊢
      refine ih _ ?_ hm
      have hle : (exec p).main ≤ (exec (p ++ a :: l)).main := by
        simp only [exec, List.foldl_append]; exact main_fold _ _
      rw [e] at hle
      rw [exec_snoc]
      exact lost_step hs hn (inv_exec False p False.elim) h a (by omega)
  have h0 : Lost g (exec (overtake g j)) :=
    ⟨rfl, Nat.le_refl 2, ⟨Counter.init, rfl, rfl, Or.inl ⟨rfl, rfl⟩⟩, fun w => by
      show Worker.top ≠ _
      simp⟩
  obtain ⟨h1, _, ⟨st, h3, _, h5⟩, _⟩ := key l (overtake g j) h0 hl
  refine ⟨h1, ?_⟩
  rw [show (1 % 1024) = 1 from rfl, h3]
  simp only [Item.returned]
  rcases h5 with ⟨_, h⟩ | ⟨_, h⟩ | h <;> rw [h] <;> simp

/-- Histories with at most 1024 operations meet `CalmHistory` (so do longer ones in which none is overtaken 1024 times). -/
theorem calm_of_few (l : List Act) (h : (exec l).main ≤ 1024) : CalmHistory l := by
  rintro p ⟨q, rfl⟩ t i hi
  have h1 := (inv_exec False p False.elim).range t i hi
  have h2 : (exec p).main ≤ (exec (p ++ q)).main := by
    simp only [exec, List.foldl_append]; exact main_fold _ _
  simp only [RING]; omega

/-- Non-vacuity: thread 1 and thread 2 run at the same time with one worker; both get an item and thread 1's operation
returns. -/
def bothRun : List Act :=
  [.start 1 true (.counter (chunkCfg 40000 1)), .thread 1, .thread 1, .thread 1, .thread 1, .thread 1,
   .start 2 true (.counter (chunkCfg 20000 1)), .thread 2, .thread 2, .thread 2, .thread 2, .thread 2,
   .worker 1, .worker 1, .worker 1, .worker 1, .worker 1] ++
  (List.replicate 13 [Act.thread 1, .thread 2, .worker 1]).flatten

example : (match (exec bothRun).thread 1 with | .finish 1 (.counter g) => g.n | _ => 0) = 3 := by decide +kernel

example : CalmHistory bothRun := calm_of_few _ (by decide +kernel)

/-- Non-vacuity of `C40_refused_iff`: thread 2 asks while thread 1 is inside. -/
example (j : Job) : (exec [.start 1 true j, .start 2 true j, .thread 1]).thread 2 = .want j ∧
    ((exec [.start 1 true j, .start 2 true j, .thread 1]).thread 1).holds := ⟨rfl, rfl⟩

/-- Case: in `bothRun` the two threads have two items. -/
example : ∃ i i', ((exec (bothRun.take 13)).thread 1).idx = some i ∧ ((exec (bothRun.take 13)).thread 2).idx = some i' ∧ i ≠ i' := by
  obtain ⟨i, hi⟩ := Option.isSome_iff_exists.1 (show ((exec (bothRun.take 13)).thread 1).idx.isSome = true by decide +kernel)
  obtain ⟨i', hi'⟩ := Option.isSome_iff_exists.1 (show ((exec (bothRun.take 13)).thread 2).idx.isSome = true by decide +kernel)
  exact ⟨i, i', hi, hi', (C40_items_distinct _ 1 2 i i' hi hi' (by decide)).1⟩

/-- Case: thread 1's operation on 40000 elements in `bothRun`. -/
example : ∃ st, (exec bothRun).slot (1 % 1024) = .counter (chunkCfg 40000 1) st ∧ ExactlyOnce 40000 (chunkCalls 40000 st) :=
  C40_concurrent_chunks_partial bothRun (calm_of_few _ (by decide +kernel)) 1 1 40000 1 rfl

/-- Case: the same operation seen as three tasks. -/
example : ∃ st, (exec bothRun).slot (1 % 1024) = .counter (chunkCfg 40000 1) st ∧ List.Perm st.log (List.range (chunkCfg 40000 1).n) :=
  C40_concurrent_tasks_partial bothRun (calm_of_few _ (by decide +kernel)) 1 1 _ rfl

/-- Thread 1 runs a ufunc on 70000 elements while thread 2 starts an operation of its own; one worker helps. -/
def ufuncRun : List Act :=
  [.start 1 true (.ufunc (ufuncItem 70000 3 1 0)), .thread 1, .thread 1, .thread 1, .thread 1, .thread 1,
   .start 2 true (.counter (chunkCfg 20000 1)), .thread 2, .thread 2, .thread 2] ++
  (List.replicate 31 [Act.worker 1, Act.thread 1]).flatten

/-- Case: the ufunc of thread 1 in `ufuncRun`. -/
example := C40_concurrent_ufuncs_partial ufuncRun (calm_of_few _ (by decide +kernel)) 1 1 70000 3 1 0 rfl

end Pnumpy.Props
