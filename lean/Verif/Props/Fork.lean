import Verif.Props.Callers
/-
Properties C79, C80: calls in a forked child process.  `fork` copies the memory (the ring, its lock and its counters) and only the
calling thread: no worker and no other calling thread takes another step in the child.
-/
namespace Pnumpy.Props
open Pnumpy.Callers Pnumpy.Spec
open Pnumpy.Work (upd)

/-- The history of a process in which only thread `t` is left: after `before` (any history of any number of threads and workers)
thread `t` starts the operation `j` and takes `k` steps. -/
def childCall (before : List Act) (t : Nat) (lock : Bool) (j : Job) (k : Nat) : List Act :=
  before ++ .start t lock j :: List.replicate k (.thread t)

/-- The item after `k` steps of the caller alone. -/
def soloItem (j : Job) : Nat → Item
  | 0 => j.fresh
  | k + 1 => (soloItem j k).go 0

theorem exec_step (l : List Act) (a : Act) : exec (l ++ [a]) = step (exec l) a := by simp [exec]

theorem childCall_succ (l : List Act) (t : Nat) (lock : Bool) (j : Job) (k : Nat) :
    exec (childCall l t lock j (k + 1)) = step (exec (childCall l t lock j k)) (.thread t) := by
  unfold childCall
  rw [List.replicate_succ', ← List.cons_append, ← List.append_assoc, exec_step]

theorem childCall_zero (l : List Act) (t : Nat) (lock : Bool) (j : Job) :
    exec (childCall l t lock j 0) = step (exec l) (.start t lock j) := by
  unfold childCall
  rw [List.replicate_zero, exec_step]

/-- The call gets an item unless the lock was held by a thread that is gone. -/
theorem child_begin (l : List Act) (t : Nat) (lock : Bool) (j : Job) (h : (exec l).thread t = .idle) :
    ((lock = true ∧ (exec l).lock = true) ∧ (exec (childCall l t lock j 1)).thread t = .serial j) ∨
    (¬ (lock = true ∧ (exec l).lock = true) ∧
      ∃ m s, exec (childCall l t lock j m) = s ∧ s.thread t = .inCall ((exec l).main + 1) j ∧
        s.slot (((exec l).main + 1) % RING) = soloItem j 0) := by
  have h0 : step (exec l) (.start t lock j) = { exec l with thread := upd (exec l).thread t (if lock then .want j else .take false j) } := by
    simp only [step, h]
  cases lock with
  | false =>
    refine Or.inr ⟨by simp, 4, _, rfl, ?_⟩
    rw [childCall_succ, childCall_succ, childCall_succ, childCall_succ, childCall_zero, h0]
    constructor <;> simp [step, upd, soloItem]
  | true =>
    cases hl : (exec l).lock with
    | true =>
      refine Or.inl ⟨⟨rfl, rfl⟩, ?_⟩
      rw [childCall_succ, childCall_zero, h0]
      simp [step, upd, hl]
    | false =>
      refine Or.inr ⟨by simp, 5, _, rfl, ?_⟩
      rw [childCall_succ, childCall_succ, childCall_succ, childCall_succ, childCall_succ, childCall_zero, h0]
      constructor <;> simp [step, upd, hl, soloItem]

/-- Inside the call: as long as the item has not returned, the caller drives it. -/
theorem child_inside {l : List Act} {t : Nat} {lock : Bool} {j : Job} {m i : Nat}
    (h1 : (exec (childCall l t lock j m)).thread t = .inCall i j)
    (h2 : (exec (childCall l t lock j m)).slot (i % RING) = soloItem j 0) :
    ∀ k, (∀ k' < k, ¬ (soloItem j k').returned) →
      (exec (childCall l t lock j (m + k))).thread t = .inCall i j ∧
      (exec (childCall l t lock j (m + k))).slot (i % RING) = soloItem j k := by
  intro k
  induction k with
  | zero => intro _; exact ⟨h1, h2⟩
  | succ k ih =>
    intro h
    obtain ⟨g1, g2⟩ := ih fun k' hk => h k' (by omega)
    rw [← Nat.add_assoc, childCall_succ]
    have hn : ¬ ((exec (childCall l t lock j (m + k))).slot (i % RING)).returned := by rw [g2]; exact h k (by omega)
    simp only [step, g1, if_neg hn]
    refine ⟨by simpa [upd] using g1, ?_⟩
    rw [upd, if_pos rfl, g2]; rfl

theorem soloItem_ufunc (it : Work.Item) (k : Nat) : soloItem (.ufunc it) k = .ufunc it (Work.trace it (fun _ => 0) k) := by
  induction k with
  | zero => rfl
  | succ k ih => rw [soloItem, ih]; rfl

theorem soloItem_counter (g : Counter.Cfg) (k : Nat) : soloItem (.counter g) k = .counter g (Counter.exec g (List.replicate k (.go 0))) := by
  induction k with
  | zero => rfl
  | succ k ih =>
    rw [soloItem, ih, List.replicate_succ']
    simp only [Item.go, Counter.exec, List.foldl_append, List.foldl_cons, List.foldl_nil]

theorem trace_exec (it : Work.Item) (σ : Nat → Nat) (k : Nat) : Work.trace it σ k = Work.exec it ((List.range k).map σ) := by
  induction k with
  | zero => rfl
  | succ k ih => rw [Work.trace, ih, List.range_succ]; simp [Work.exec]

theorem first_returned {j : Job} (h : ∃ k, (soloItem j k).returned) : ∃ k, (soloItem j k).returned ∧ ∀ k' < k, ¬ (soloItem j k').returned := by
  obtain ⟨k, hk⟩ := h
  induction k using Nat.strongRecOn with
  | ind k ih =>
    by_cases hex : ∃ k' < k, (soloItem j k').returned
    · obtain ⟨k', h1, h2⟩ := hex
      exact ih k' h1 h2
    · exact ⟨k, hk, fun k' h1 h2 => hex ⟨k', h1, h2⟩⟩

/-- A call whose caller can finish alone returns in the child. -/
theorem child_returns (l : List Act) (t : Nat) (lock : Bool) (j : Job) (h : (exec l).thread t = .idle) (hj : ∃ k, (soloItem j k).returned) :
    ∃ N, (exec (childCall l t lock j N)).thread t = .idle ∧
      (((lock = true ∧ (exec l).lock = true) ∧ ∃ k, k < N ∧ (exec (childCall l t lock j k)).thread t = .serial j) ∨
       (¬ (lock = true ∧ (exec l).lock = true) ∧ ∃ k, (soloItem j k).returned ∧
          (exec (childCall l t lock j N)).slot (((exec l).main + 1) % RING) = soloItem j k)) := by
  rcases child_begin l t lock j h with ⟨h1, h2⟩ | ⟨h1, m, s, rfl, h3, h4⟩
  · refine ⟨2, ?_, Or.inl ⟨h1, 1, by omega, h2⟩⟩
    rw [childCall_succ]
    simp [step, h2, upd]
  · obtain ⟨k, hk, hmin⟩ := first_returned hj
    obtain ⟨g1, g2⟩ := child_inside h3 h4 k hmin
    refine ⟨m + k + 1 + 1, ?_, Or.inr ⟨h1, k, hk, ?_⟩⟩
    all_goals
      rw [childCall_succ, childCall_succ]
      have hr : ((exec (childCall l t lock j (m + k))).slot (((exec l).main + 1) % RING)).returned := by rw [g2]; exact hk
      simp only [step, g1, if_pos hr, upd, if_true]
    exact g2

/-- **C79** (element-wise functions): after any history of any number of threads and workers, at which thread `t` (which is not in an
operation itself) forks, every element-wise call of the child returns after finitely many of its own steps, and each of the `n` elements
has been processed exactly once.  The call is made without threads exactly if the ring's lock was held at the fork (by a thread that
does not exist any more). -/
theorem C79_child_elementwise (l : List Act) (t : Nat) (hidle : (exec l).thread t = .idle) (n : Nat) (req : Int) (maxWakeup zz : Nat) :
    ∃ N, (exec (childCall l t true (.ufunc (ufuncItem n req maxWakeup zz)) N)).thread t = .idle ∧
      (((exec l).lock = true ∧
          ∃ k, k < N ∧ (exec (childCall l t true (.ufunc (ufuncItem n req maxWakeup zz)) k)).thread t = .serial (.ufunc (ufuncItem n req maxWakeup zz))) ∨
       ((exec l).lock = false ∧
          ∃ st, (exec (childCall l t true (.ufunc (ufuncItem n req maxWakeup zz)) N)).slot (((exec l).main + 1) % 1024) =
              .ufunc (ufuncItem n req maxWakeup zz) st ∧
            ExactlyOnce n (Work.kernelCalls (ufuncItem n req maxWakeup zz) st))) := by
  obtain ⟨T, hT⟩ := C03_caller_alone n req maxWakeup zz
  obtain ⟨N, h1, h2⟩ := child_returns l t true (.ufunc (ufuncItem n req maxWakeup zz)) hidle ⟨T, by rw [soloItem_ufunc]; exact hT⟩
  refine ⟨N, h1, h2.imp (fun h => ⟨h.1.2, h.2⟩) fun ⟨h3, k, h4, h5⟩ => ⟨by simpa using h3, ?_⟩⟩
  rw [soloItem_ufunc] at h4 h5
  refine ⟨_, h5, ?_⟩
  rw [trace_exec] at h4 ⊢
  exact C01_exactly_once n req maxWakeup zz _ h4

/-- **C79** (indexing, `arange`, `is_sorted`: calls that work chunk by chunk): the same. -/
theorem C79_child_chunks (l : List Act) (t : Nat) (hidle : (exec l).thread t = .idle) (n wakeup : Nat) :
    ∃ N, (exec (childCall l t true (.counter (chunkCfg n wakeup)) N)).thread t = .idle ∧
      (((exec l).lock = true ∧ ∃ k, k < N ∧ (exec (childCall l t true (.counter (chunkCfg n wakeup)) k)).thread t = .serial (.counter (chunkCfg n wakeup))) ∨
       ((exec l).lock = false ∧
          ∃ st, (exec (childCall l t true (.counter (chunkCfg n wakeup)) N)).slot (((exec l).main + 1) % 1024) = .counter (chunkCfg n wakeup) st ∧
            ExactlyOnce n (chunkCalls n st))) := by
  have htr : ∀ k, Counter.trace (chunkCfg n wakeup) (fun _ => .go 0) k = Counter.exec (chunkCfg n wakeup) (List.replicate k (.go 0)) := by
    intro k
    induction k with
    | zero => rfl
    | succ k ih => rw [Counter.trace, ih, List.replicate_succ']; simp [Counter.exec]
  have hother : ∀ (k c : Nat), c ≠ 0 → (Counter.trace (chunkCfg n wakeup) (fun _ => .go 0) k).pc c = .idle := by
    intro k c hc
    induction k with
    | zero => simp [Counter.trace, Counter.init, hc]
    | succ k ih => rw [Counter.trace, Counter.step_other _ _ hc _ (Or.inl rfl), ih]
  obtain ⟨T, hT⟩ := C04_chunk_progress ((n + 16383) / 16384) wakeup (fun _ => .go 0) ⟨fun t => ⟨t, Nat.le_refl _, rfl⟩, fun k c hb => by
    by_cases hc : c = 0
    · exact ⟨k, Nat.le_refl _, by rw [hc]⟩
    · have := hother k c hc
      rw [this] at hb; cases hb⟩
  obtain ⟨N, h1, h2⟩ := child_returns l t true (.counter (chunkCfg n wakeup)) hidle ⟨T, by rw [soloItem_counter, ← htr]; exact hT⟩
  refine ⟨N, h1, h2.imp (fun h => ⟨h.1.2, h.2⟩) fun ⟨h3, k, h4, h5⟩ => ⟨by simpa using h3, ?_⟩⟩
  rw [soloItem_counter] at h4 h5
  exact ⟨_, h5, C04_chunks_exactly_once n wakeup _ h4⟩

/-- **C80 is violated** (parallel sorts and `recarray_to_colmajor`): unless the lock happened to be held at the fork (`lock`: the call asks for the lock, as
the sorts do), the child never returns from such a call, whatever the history before the fork. -/
theorem C80_child_sort_hangs_violated (l : List Act) (t : Nat) (hidle : (exec l).thread t = .idle) (g : Counter.Cfg) (hs : g.skip0 = true)
    (hn : 0 < g.n) (lock : Bool) (hlock : lock = true → (exec l).lock = false) (N : Nat) :
    (exec (childCall l t lock (.counter g) N)).thread t ≠ .idle := by
  have hnr : ∀ k, ¬ (soloItem (.counter g) k).returned := by
    intro k
    rw [soloItem_counter]
    exact Counter.stuck hs hn _ fun a ha c hc => Or.inl (by
      have := List.eq_of_mem_replicate ha
      rw [this] at hc
      exact (Counter.Act.go.inj hc).symm)
  have hstay : ∀ (k : Nat), (exec (childCall l t lock (.counter g) k)).thread t = .idle →
      ∀ d, (exec (childCall l t lock (.counter g) (k + d))).thread t = .idle := by
    intro k h d
    induction d with
    | zero => exact h
    | succ d ih => rw [← Nat.add_assoc, childCall_succ]; simp only [step, ih]
  intro hN
  rcases child_begin l t lock (.counter g) hidle with ⟨⟨h1, h2⟩, _⟩ | ⟨_, m, s, rfl, h3, h4⟩
  · rw [hlock h1] at h2; cases h2
  · have h5 := (child_inside h3 h4 N fun k _ => hnr k).1
    have h6 := hstay N hN m
    rw [Nat.add_comm] at h6
    rw [h6] at h5
    cases h5

/-- **C80** (part): if the lock was held at the fork by a thread that is gone, every sort of the child is done serially and returns; so are
all later ones, because nobody releases the lock. -/
theorem C80_child_sort_serial_partial (l : List Act) (t : Nat) (hidle : (exec l).thread t = .idle) (hlock : (exec l).lock = true) (j : Job) :
    (exec (childCall l t true j 1)).thread t = .serial j ∧ (exec (childCall l t true j 2)).thread t = .idle ∧
      (exec (childCall l t true j 2)).lock = true := by
  rcases child_begin l t true j hidle with ⟨_, h2⟩ | ⟨h1, _⟩
  · refine ⟨h2, ?_, ?_⟩
    · rw [childCall_succ]; simp [step, h2, upd]
    · have e : ∀ s a, s.lock = true → s.thread t ≠ .idle → (∀ lk i j, s.thread t ≠ .got lk i j) → a = Act.thread t → (step s a).lock = true := by
        rintro s a hs _ hg rfl
        cases ht : s.thread t <;> simp [step, ht, hs] <;> first | (split <;> simp [hs]) | exact absurd ht (hg _ _ _)
      have h0 : (exec (childCall l t true j 0)).thread t = .want j ∧ (exec (childCall l t true j 0)).lock = true := by
        rw [childCall_zero]; simp [step, hidle, upd, hlock]
      have h1 : (exec (childCall l t true j 1)).lock = true := by
        rw [childCall_succ]
        exact e _ _ h0.2 (by rw [h0.1]; simp) (by rw [h0.1]; simp) rfl
      rw [childCall_succ]
      exact e _ _ h1 (by rw [h2]; simp) (by rw [h2]; simp) rfl
  · exact absurd ⟨rfl, hlock⟩ h1

/-- Non-vacuity: thread 2 forks while thread 1 is in the middle of a call with a worker inside it. -/
def midCall : List Act :=
  [.start 1 true (.counter (chunkCfg 40000 1)), .thread 1, .thread 1, .thread 1, .thread 1, .thread 1, .worker 1, .worker 1, .worker 1, .worker 1]

example : (exec midCall).thread 2 = .idle ∧ (exec midCall).lock = false ∧ (exec midCall).main = 1 := ⟨rfl, rfl, rfl⟩

/-- ... and while thread 1 is between taking and releasing the lock. -/
example (j : Job) : (exec [.start 1 true j, .thread 1]).thread 2 = .idle ∧ (exec [.start 1 true j, .thread 1]).lock = true := ⟨rfl, rfl⟩

/-- Case: the fork happens while thread 1 holds the lock; thread 2 of the child then adds two arrays of 70000 elements. -/
example := C79_child_elementwise [.start 1 true (.counter (chunkCfg 40000 1)), .thread 1] 2 rfl 70000 3 1 0

/-- Case: the fork happens when nobody is inside. -/
example := C79_child_chunks [.start 1 true (.counter (chunkCfg 40000 1))] 2 rfl 40000 1

end Pnumpy.Props
