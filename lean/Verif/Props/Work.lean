import Mathlib.Data.Nat.Pairing
import Verif.Spec.Work
import Verif.Proofs.WorkCounter
/-
Property theorems C01-C04: work distribution of threaded calls.
-/
namespace Pnumpy.Props
open Pnumpy.Spec

section Channels
open Pnumpy.Work

/-- The work item of a ufunc call on `n` elements (`WorkMain(pWorkItem, n, req)` with the default
block size and mode). -/
abbrev ufuncItem (n : Nat) (req : Int) (maxWakeup zz : Nat) : Item :=
  workMainSetup n req maxWakeup CHUNK true zz

theorem mem_log_lt {n : Nat} {req : Int} {mw zz : Nat} {sched : List Nat} {b : Nat}
    (hb : b ∈ (exec (ufuncItem n req mw zz) sched).log) : b < (n + 16383) / 16384 := by
  have wf := setup_wf n req mw CHUNK true zz
  have := Inv.claimed_lt wf ((inv_exec wf sched).logClaimed b hb)
  rwa [blockLast_generic] at this

theorem covers_iff {n : Nat} {req : Int} {mw zz b i : Nat} (hb : b < (n + 16383) / 16384) :
    covers i ((ufuncItem n req mw zz).blockSize * b, (ufuncItem n req mw zz).blockLen b) = true ↔
      i < n ∧ b = i / 16384 := by
  have hbl := blockLen_generic n req mw zz b (by rw [blockLast_generic]; exact hb)
  have hbs : (ufuncItem n req mw zz).blockSize = 16384 := rfl
  rw [hbl.1, hbs]
  unfold covers
  simp only [Bool.and_eq_true, decide_eq_true_eq]
  omega

/-- **C01** (at every moment): whatever the schedule, no element is processed twice and no index
outside the array is ever touched, also while the call is still running. -/
theorem C01_never_twice (n : Nat) (req : Int) (maxWakeup zz : Nat) (sched : List Nat) (i : Nat) :
    timesProcessed (kernelCalls (ufuncItem n req maxWakeup zz)
      (exec (ufuncItem n req maxWakeup zz) sched)) i ≤ if i < n then 1 else 0 := by
  unfold timesProcessed kernelCalls
  rw [List.countP_map]
  have hinv := inv_exec (setup_wf n req maxWakeup CHUNK true zz) sched
  split
  · refine countP_le_one hinv.logNodup ?_
    intro x hx y hy h1 h2
    have a := (covers_iff (mem_log_lt hx)).mp h1
    have b := (covers_iff (mem_log_lt hy)).mp h2
    omega
  · refine Nat.le_of_eq ?_
    rw [List.countP_eq_zero]
    intro x hx h1
    have a := (covers_iff (mem_log_lt hx)).mp h1
    omega

/-- **C01**: when the call has returned, every element has been handed to the kernel exactly once,
for every length, worker count, zigzag phase and interleaving (`sched` lists which thread performs
its next atomic step). -/
theorem C01_exactly_once (n : Nat) (req : Int) (maxWakeup zz : Nat) (sched : List Nat)
    (hret : (exec (ufuncItem n req maxWakeup zz) sched).pc 0 = .returned) :
    ExactlyOnce n (kernelCalls (ufuncItem n req maxWakeup zz)
      (exec (ufuncItem n req maxWakeup zz) sched)) := by
  intro i
  have wf := setup_wf n req maxWakeup CHUNK true zz
  have hinv := inv_exec wf sched
  have hc := hinv.retDone 0 hret
  rw [blockLast_generic] at hc
  have hle : (exec (ufuncItem n req maxWakeup zz) sched).doneL.length ≤
      (exec (ufuncItem n req maxWakeup zz) sched).log.length :=
    List.Nodup.length_le_of_subset hinv.doneNodup hinv.doneLog
  rw [hinv.doneLen] at hle
  have full := nodup_full hinv.logNodup (fun b hb => mem_log_lt hb) (Nat.le_trans hc hle)
  unfold timesProcessed kernelCalls
  rw [List.countP_map]
  split
  · rename_i hi
    have hb : i / 16384 < (n + 16383) / 16384 := by omega
    refine countP_one hinv.logNodup (full _ hb) ((covers_iff hb).mpr ⟨hi, rfl⟩) ?_
    intro x hx h1
    exact ((covers_iff (mem_log_lt hx)).mp h1).2
  · rw [List.countP_eq_zero]
    intro x hx h1
    have a := (covers_iff (mem_log_lt hx)).mp h1
    omega

/-- Concrete schedule for the examples: two threads alternate for `k` rounds. -/
def alternate (k : Nat) : List Nat := (List.replicate k [0, 1]).flatten

/-- Non-vacuity of C01: a 65537-element array (last block has 1 element), two threads, zigzag on;
the call returns. -/
example : (exec (ufuncItem 65537 0 1 1) (alternate 20)).pc 0 = .returned := by decide

/-- **C02**: when the call has returned, every block was executed and reported complete, and no
thread is inside (or about to start) a kernel of this call. -/
theorem C02_barrier (n : Nat) (req : Int) (maxWakeup zz : Nat) (sched : List Nat)
    (hret : (exec (ufuncItem n req maxWakeup zz) sched).pc 0 = .returned) (c : Nat) :
    (∀ b, (exec (ufuncItem n req maxWakeup zz) sched).pc c ≠ .run b) ∧
    (∀ ch pos, (exec (ufuncItem n req maxWakeup zz) sched).pc c ≠ .bump ch pos) := by
  have wf := setup_wf n req maxWakeup CHUNK true zz
  have hinv := inv_exec wf sched
  have hc := hinv.retDone 0 hret
  have hle : (exec (ufuncItem n req maxWakeup zz) sched).doneL.length ≤
      (exec (ufuncItem n req maxWakeup zz) sched).log.length :=
    List.Nodup.length_le_of_subset hinv.doneNodup hinv.doneLog
  rw [hinv.doneLen] at hle
  have full := nodup_full hinv.logNodup
    (fun b hb => Inv.claimed_lt wf (hinv.logClaimed b hb)) (Nat.le_trans hc hle)
  have no : ∀ b, ¬ Holds (ufuncItem n req maxWakeup zz)
      ((exec (ufuncItem n req maxWakeup zz) sched).pc c) b := fun b hb =>
    hinv.holdNotLog c b hb (full b (Inv.claimed_lt wf (hinv.holdClaimed c b hb)))
  constructor
  · intro b h; exact no b (by rw [h]; rfl)
  · intro ch pos h; exact no _ (by rw [h]; rfl)

/-- Case: 65537 elements, one worker. -/
example (b : Nat) : (exec (ufuncItem 65537 0 1 1) (alternate 20)).pc 1 ≠ .run b :=
  (C02_barrier 65537 0 1 1 (alternate 20) (by decide) 1).1 b

/-- **C03**: every run in which the caller keeps being scheduled and no thread is suspended forever
in the middle of a block reaches the point where the call returns.  Workers may be starved. -/
theorem C03_progress (n : Nat) (req : Int) (maxWakeup zz : Nat) (σ : Nat → Nat)
    (hcaller : ∀ t, ∃ t', t ≤ t' ∧ σ t' = 0)
    (hbusy : ∀ t c, ((trace (ufuncItem n req maxWakeup zz) σ t).pc c).busy = true →
      ∃ t', t ≤ t' ∧ σ t' = c) :
    ∃ t, (trace (ufuncItem n req maxWakeup zz) σ t).pc 0 = .returned :=
  live (setup_wf n req maxWakeup CHUNK true zz) ⟨hcaller, hbusy⟩

/-- **C03**: if no worker is ever scheduled the caller still finishes the whole call by itself. -/
theorem C03_caller_alone (n : Nat) (req : Int) (maxWakeup zz : Nat) :
    ∃ t, (trace (ufuncItem n req maxWakeup zz) (fun _ => 0) t).pc 0 = .returned := by
  refine C03_progress n req maxWakeup zz _ (fun t => ⟨t, Nat.le_refl _, rfl⟩) ?_
  intro t c hb
  refine ⟨t, Nat.le_refl _, ?_⟩
  -- only the caller ever moves, so only the caller can be busy
  refine Decidable.byContradiction fun hne => ?_
  have : ∀ t, (trace (ufuncItem n req maxWakeup zz) (fun _ => 0) t).pc c = .idle := by
    intro t
    induction t with
    | zero => simp [trace, init, Ne.symm hne]
    | succ t ih => rw [← ih]; exact step_other _ _ (Ne.symm hne)
  rw [this t] at hb; cases hb

/-- The same as a finite schedule. -/
theorem returns_alone (n : Nat) (req : Int) (maxWakeup zz : Nat) : ∃ l : List Nat, (exec (ufuncItem n req maxWakeup zz) l).pc 0 = .returned := by
  obtain ⟨t, ht⟩ := C03_caller_alone n req maxWakeup zz
  refine ⟨List.replicate t 0, ?_⟩
  rw [← ht]
  clear ht
  congr 1
  induction t with
  | zero => rfl
  | succ t ih => rw [List.replicate_succ', exec, List.foldl_append, ← exec, ih]; rfl

/-- **C03**: the caller never waits for a block that no thread holds. -/
theorem C03_no_deadlock (n : Nat) (req : Int) (maxWakeup zz : Nat) (sched : List Nat)
    (hwait : (exec (ufuncItem n req maxWakeup zz) sched).pc 0 = .wait)
    (hbar : (exec (ufuncItem n req maxWakeup zz) sched).completed <
      (ufuncItem n req maxWakeup zz).blockLast) :
    ∃ c, c ≤ (ufuncItem n req maxWakeup zz).wakeup ∧
      ((exec (ufuncItem n req maxWakeup zz) sched).pc c).busy = true := by
  have wf := setup_wf n req maxWakeup CHUNK true zz
  have hinv := inv_exec wf sched
  exact holder_exists wf hinv (hinv.retAll 0 (Or.inr (Or.inl hwait))) hbar

/-- Non-vacuity of C03_no_deadlock: worker 1 took the last block and is still running it while the
caller waits. -/
example : (exec (ufuncItem 32768 0 1 0) [1, 1, 1, 0, 0, 0, 0, 0, 0, 0, 0, 0, 0]).pc 0 = .wait ∧
    (exec (ufuncItem 32768 0 1 0) [1, 1, 1, 0, 0, 0, 0, 0, 0, 0, 0, 0, 0]).completed < 2 := by decide

/-- Non-vacuity of C03_progress: the round-robin schedule of two threads meets its hypotheses. -/
example : ∀ t, ∃ t', t ≤ t' ∧ (fun t => t % 2) t' = 0 := fun t => ⟨2 * t, by omega, by simp⟩

end Channels

section Counter
open Pnumpy.Counter

/-- The kernel calls of a counter-mode chunk call on `len` elements, from the executed blocks
(`start = BlockSize * workBlock`, threads.h:996). -/
def chunkCalls (len : Nat) (s : St) : List (Nat × Nat) :=
  s.log.map fun b => (Work.CHUNK * b, (Work.workMainSetup len 0 0 Work.CHUNK true 0).blockLen b)

/-- A chunk-mode call on `len` elements (`DoMultiThreadedChunkWork`, `GetItemCallback`). -/
abbrev chunkCfg (len wakeup : Nat) : Cfg := { n := (len + 16383) / 16384, skip0 := false, wakeup }

/-- **C04** (chunk mode): when the call returns each element was covered by exactly one chunk, for
every length, worker count and interleaving. -/
theorem C04_chunks_exactly_once (len wakeup : Nat) (sched : List Act)
    (hret : (exec (chunkCfg len wakeup) sched).pc 0 = .returned) :
    ExactlyOnce len (chunkCalls len (exec (chunkCfg len wakeup) sched)) := by
  intro i
  have hinv := inv_exec (chunkCfg len wakeup) sched
  have hc : (len + 16383) / 16384 ≤ _ := hinv.retDone 0 hret
  have hle := List.Nodup.length_le_of_subset hinv.doneNodup hinv.doneLog
  rw [hinv.doneLen] at hle
  have hlt : ∀ b ∈ (exec (chunkCfg len wakeup) sched).log, b < (len + 16383) / 16384 :=
    fun b hb => Inv.claimed_lt (hinv.logClaimed b hb)
  have full := Work.nodup_full hinv.logNodup hlt (Nat.le_trans hc hle)
  have cov : ∀ b, b < (len + 16383) / 16384 → (covers i (Work.CHUNK * b,
      (Work.workMainSetup len 0 0 Work.CHUNK true 0).blockLen b) = true ↔ i < len ∧ b = i / 16384) := by
    intro b hb
    exact covers_iff (req := 0) (mw := 0) (zz := 0) hb
  unfold timesProcessed chunkCalls
  rw [List.countP_map]
  split
  · rename_i hi
    have hb : i / 16384 < (len + 16383) / 16384 := by omega
    refine Work.countP_one hinv.logNodup (full _ hb) ((cov _ hb).mpr ⟨hi, rfl⟩) ?_
    intro x hx h1
    exact ((cov _ (hlt x hx)).mp h1).2
  · rw [List.countP_eq_zero]
    intro x hx h1
    have a := (cov _ (hlt x hx)).mp h1
    omega

/-- Case: 40000 elements, two workers. -/
example : ExactlyOnce 40000 (chunkCalls 40000 (exec (chunkCfg 40000 2) ((List.replicate 12 [Act.go 0, .go 1, .go 2]).flatten))) :=
  C04_chunks_exactly_once 40000 2 _ (by decide)

/-- **C04** (both modes): when the call returns the executed tasks are exactly `0 .. n-1`, each
once; and at any time no task has been executed twice. -/
theorem C04_tasks_exactly_once (g : Cfg) (sched : List Act) :
    (exec g sched).log.Nodup ∧ (∀ b ∈ (exec g sched).log, b < g.n) ∧
    ((exec g sched).pc 0 = .returned → List.Perm (exec g sched).log (List.range g.n)) := by
  have hinv := inv_exec g sched
  have hlt : ∀ b ∈ (exec g sched).log, b < g.n := fun b hb => Inv.claimed_lt (hinv.logClaimed b hb)
  refine ⟨hinv.logNodup, hlt, fun hret => ?_⟩
  have hle := List.Nodup.length_le_of_subset hinv.doneNodup hinv.doneLog
  rw [hinv.doneLen] at hle
  have full := Work.nodup_full hinv.logNodup hlt (Nat.le_trans (hinv.retDone 0 hret) hle)
  rw [List.perm_ext_iff_of_nodup hinv.logNodup List.nodup_range]
  intro a
  exact ⟨fun h => List.mem_range.mpr (hlt a h), fun h => full a (List.mem_range.mp h)⟩

/-- Case: eight tasks, one worker. -/
example : List.Perm (exec { n := 8, skip0 := true, wakeup := 1 } ((List.replicate 40 [Act.go 0, .go 1]).flatten)).log (List.range 8) :=
  (C04_tasks_exactly_once _ _).2.2 (by decide +kernel)

/-- **C04**: barrier in counter mode: after return nobody is inside a task. -/
theorem C04_barrier (g : Cfg) (sched : List Act) (hret : (exec g sched).pc 0 = .returned) (c b : Nat) :
    (exec g sched).pc c ≠ .run b := by
  intro h
  have hinv := inv_exec g sched
  have hperm := (C04_tasks_exactly_once g sched).2.2 hret
  have hlt := Inv.claimed_lt (hinv.runClaimed c b h)
  exact hinv.runNotLog c b h (hperm.mem_iff.mpr (List.mem_range.mpr hlt))

/-- Case: 40000 elements, two workers. -/
example (c b : Nat) : (exec (chunkCfg 40000 2) ((List.replicate 12 [Act.go 0, .go 1, .go 2]).flatten)).pc c ≠ .run b :=
  C04_barrier _ _ (by decide) c b

/-- **C04** (chunk mode): fair runs terminate, workers may be starved. -/
theorem C04_chunk_progress (n wakeup : Nat) (σ : Nat → Act)
    (hf : Fair { n, skip0 := false, wakeup } σ) :
    ∃ t, (trace { n, skip0 := false, wakeup } σ t).pc 0 = .returned :=
  live hf (by simp)

/-- Case: 40000 elements (3 blocks), two workers; a schedule in which every thread comes up again and again. -/
example : ∃ t, (trace { n := 3, skip0 := false, wakeup := 2 } (fun t => .go (Nat.unpair t).2) t).pc 0 = .returned :=
  C04_chunk_progress 3 2 _ ⟨fun t => ⟨Nat.pair t 0, Nat.left_le_pair t 0, by simp⟩, fun t c _ => ⟨Nat.pair t c, Nat.left_le_pair t c, by simp⟩⟩

/-- **C04** (index mode): fair runs terminate *provided* some worker `w` takes part and keeps
being scheduled.  The proviso cannot be dropped, see `C04_index_hangs_without_worker`. -/
theorem C04_index_progress_partial (n wakeup : Nat) (σ : Nat → Act) (w : Nat) (hw : 1 ≤ w) (hw' : w ≤ wakeup)
    (hf : Fair { n, skip0 := true, wakeup } σ)
    (hworker : ∀ t, ∃ t', t ≤ t' ∧ σ t' = .go w) :
    ∃ t, (trace { n, skip0 := true, wakeup } σ t).pc 0 = .returned :=
  live hf (fun _ => ⟨w, hw, hw', hworker⟩)

/-- Finding (C04, index mode, used by the parallel sorts): ticket 0 looks like "no work", so a
caller that no worker helps never returns, under every schedule. In particular when
`ThreadWakeup = 0` (a machine with one worker thread) the call hangs for ever. -/
theorem C04_index_hangs_without_worker (n : Nat) (hn : 0 < n) (sched : List Act) :
    (exec { n, skip0 := true, wakeup := 0 } sched).pc 0 ≠ .returned := by
  refine stuck rfl hn sched ?_
  intro a _ c _
  by_cases h : c = 0
  · exact Or.inl h
  · exact Or.inr (Nat.pos_of_ne_zero h)

/-- Non-vacuity: chunk mode with two workers and index mode with one worker do return. -/
example : (exec (chunkCfg 40000 2) ((List.replicate 12 [Act.go 0, .go 1, .go 2]).flatten)).pc 0 = .returned := by
  decide
example : (exec { n := 8, skip0 := true, wakeup := 1 }
    ((List.replicate 40 [Act.go 0, .go 1]).flatten)).pc 0 = .returned := by decide +kernel

end Counter
end Pnumpy.Props
