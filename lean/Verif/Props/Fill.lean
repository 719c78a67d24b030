import Verif.Proofs.Fill
import Verif.Props.CallersLive
import Mathlib.Data.Nat.Pairing
/-
Property theorems C108: an item is written field by field while workers may look at it.
-/
namespace Pnumpy.Props
open Pnumpy.Fill Pnumpy.Spec
open Pnumpy.Work (upd)
open Pnumpy.Callers (upd_same upd_ne)

/-- **C108**: whatever the ring's memory held before, and with any number of threads calling at the same time: if no worker looks at an
item while it is written, and fewer than 1024 calls are made during one, then when a call comes to its end its kernel has been called for
every element exactly once. -/
theorem C108_exactly_once_partial (mem : Nat → Slot) (l : List Act) (hq : Quiet mem l) (t i : Nat) (j : Job)
    (h : (exec mem l).thread t = .finish i j) : ExactlyOnce j.len ((exec mem l).calls i) := by
  obtain ⟨l', own, hs, hc⟩ := sim_exec mem l hq
  have ho := hs.fin t i j h
  obtain ⟨_, st, a1, _, _, a4, _⟩ := hs.live _ _ _ ho
  obtain ⟨st', b1, b2⟩ := C40_concurrent_ufuncs_partial l' hc t i j.len j.req j.maxWakeup j.zz (by rw [hs.thread, h]; rfl)
  rw [a4]
  have e : i % RING = i % 1024 := rfl
  rw [e, b1] at a1
  injection a1 with e1 e2
  rw [← e2]; exact b2

/-- **C108**: under the same conditions, with threads and workers that keep running, every call comes to an end. -/
theorem C108_ends_partial (mem : Nat → Slot) (σ : Nat → Act) (hq : QuietRun mem σ)
    (hworkers : ∀ w m, w ≠ 0 → ∃ m', m ≤ m' ∧ σ m' = .worker w) (t : Nat) (hthread : ∀ m, ∃ m', m ≤ m' ∧ σ m' = .thread t) (m : Nat) :
    ∃ m', m ≤ m' ∧ (states mem σ m').thread t = .idle := by
  have hcalm : ∀ n, Callers.Calm (Callers.states (fun m => simAct (states mem σ m) (σ m)) n) := fun n => by
    obtain ⟨own, h, _⟩ := sim_states mem σ hq n
    exact h.calm (hq.2 n)
  have idle : ∀ m', (Callers.states (fun m => simAct (states mem σ m) (σ m)) m').thread t = .idle → (states mem σ m').thread t = .idle := by
    intro m' e
    obtain ⟨own, h, _⟩ := sim_states mem σ hq m'
    rw [h.thread] at e
    cases e' : (states mem σ m').thread t <;> rw [e'] at e <;> first | rfl | cases e
  by_cases h0 : (states mem σ m).thread t = .idle
  · exact ⟨m, Nat.le_refl m, h0⟩
  · obtain ⟨own, h, _⟩ := sim_states mem σ hq m
    have hj : ∃ j : Job, ((Callers.states (fun m => simAct (states mem σ m) (σ m)) m).thread t).job =
        some (.ufunc (ufuncItem j.len j.req j.maxWakeup j.zz)) := by
      rw [h.thread]
      cases e : (states mem σ m).thread t with
      | idle => exact absurd e h0
      | want j => exact ⟨j, rfl⟩
      | take j => exact ⟨j, rfl⟩
      | zig i j => exact ⟨j, rfl⟩
      | unlock i j => exact ⟨j, rfl⟩
      | fill i j todo => exact ⟨j, rfl⟩
      | publish i j => exact ⟨j, rfl⟩
      | inCall i j arg pc => exact ⟨j, rfl⟩
      | finish i j => exact ⟨j, rfl⟩
      | serial j => exact ⟨j, rfl⟩
    obtain ⟨j, hj⟩ := hj
    obtain ⟨m', hle, he⟩ := C94_elementwise_ends_partial _ hcalm (fun w n w0 => by
      obtain ⟨n', hn, e⟩ := hworkers w n w0
      exact ⟨n', hn, by simp only [e, simAct]⟩) t (thread_counts mem σ t hthread) m j.len j.req j.maxWakeup j.zz hj
    exact ⟨m', hle, idle m' he⟩

/-! ### Memory of zeros: two calls of one thread, one worker that is slow -/

/-- Ring memory in which every word is 0, except what is given for the end of every channel. -/
def ringMem (last : Nat) : Nat → Slot := fun _ =>
  { zigzag := false, arg := 0, total := 0, wakeup := 0, blockLast := 0, completed := 0, next := 0, blockSize := 0,
    cur := fun _ => 0, chanLast := fun _ => last }

/-- 65536 elements: four blocks, the caller and one worker. -/
def fourBlocks : Job := ⟨65536, 1, 7, 0⟩

def threadSteps (n : Nat) : List Act := List.replicate n (.thread 1)
def workerSteps (n : Nat) : List Act := List.replicate n (.worker 1)

/-- The first call; worker 1 sees that there is work, but gets to look at the item only when the call is over. -/
def firstCall : List Act := [.start 1 fourBlocks] ++ threadSteps 16 ++ workerSteps 2 ++ threadSteps 28

/-- Then the second call, in the middle of whose stores worker 1 looks at the item, goes through it and leaves. -/
def midway : List Act := firstCall ++ ([.start 1 fourBlocks] ++ threadSteps 12 ++ workerSteps 8 ++ threadSteps 4)


/-- Blocks a thread has claimed and not yet reported complete. -/
private def inHand : PC → Nat
  | .bump _ _ => 1
  | .run _ _ => 1
  | .complete _ => 1
  | _ => 0

private def handOf : Worker → Nat
  | .inside _ _ pc => inHand pc
  | _ => 0

private def left (sl : Slot) : Nat := (2 - sl.cur 0) + (2 - sl.cur 1)

private structure Fixed (sl : Slot) : Prop where
  wakeup : sl.wakeup = 1
  blockLast : sl.blockLast = 4
  size : sl.blockSize = 16384
  chan : sl.chanLast 0 = 2 ∧ sl.chanLast 1 = 2

private theorem claim_left {sl : Slot} (hf : Fixed sl) (i : Nat) (hi : i ≤ 1) (fail : PC) (h0 : inHand fail = 0) :
    Fixed (claim sl i fail).1 ∧ (claim sl i fail).1.completed + inHand (claim sl i fail).2 + left (claim sl i fail).1 ≤ sl.completed + left sl := by
  refine ⟨⟨hf.wakeup, hf.blockLast, hf.size, hf.chan⟩, ?_⟩
  obtain ⟨c0, c1⟩ := hf.chan
  obtain rfl | rfl : i = 0 ∨ i = 1 := by omega
  · by_cases h : sl.cur 0 < sl.chanLast 0
    · simp only [claim, left, upd_same, if_pos h, inHand, upd_ne _ _ (show (1 : Nat) ≠ 0 by omega)]; omega
    · simp only [claim, left, upd_same, if_neg h, h0, upd_ne _ _ (show (1 : Nat) ≠ 0 by omega)]; omega
  · by_cases h : sl.cur 1 < sl.chanLast 1
    · simp only [claim, left, upd_same, if_pos h, inHand, upd_ne _ _ (show (0 : Nat) ≠ 1 by omega)]; omega
    · simp only [claim, left, upd_same, if_neg h, h0, upd_ne _ _ (show (0 : Nat) ≠ 1 by omega)]; omega

private theorem go_left {sl : Slot} (hf : Fixed sl) (c : Nat) (hc : c ≤ 1) (pc : PC) :
    Fixed (go sl c pc).1 ∧ (go sl c pc).1.completed + inHand (go sl c pc).2 + left (go sl c pc).1 ≤ sl.completed + inHand pc + left sl := by
  cases pc with
  | own => exact claim_left hf c hc .check rfl
  | bump ch pos =>
    refine ⟨⟨hf.wakeup, hf.blockLast, hf.size, hf.chan⟩, ?_⟩
    have : sl.blockLen (sl.logical ch pos) ≠ 0 := by
      simp only [Slot.blockLen, hf.size]; (repeat' split) <;> simp_all
    simp only [go, if_neg this, inHand]; exact Nat.le_refl _
  | check => refine ⟨hf, ?_⟩; simp only [go]; split <;> exact Nat.le_refl _
  | scan i =>
    simp only [go, hf.wakeup]
    split
    · exact ⟨hf, Nat.le_refl _⟩
    · split
      · exact ⟨hf, Nat.le_refl _⟩
      · exact claim_left hf i (by omega) _ rfl
  | run b len => exact ⟨hf, Nat.le_refl _⟩
  | complete b =>
    refine ⟨⟨hf.wakeup, hf.blockLast, hf.size, hf.chan⟩, ?_⟩
    simp only [go, inHand]; show sl.completed + 1 + 0 + left sl ≤ _; omega
  | wait => refine ⟨hf, ?_⟩; simp only [go]; split <;> exact Nat.le_refl _
  | _ => exact ⟨hf, Nat.le_refl _⟩

private structure Stuck (s : Fill.St) : Prop where
  main : s.main = 2
  others : ∀ t, t ≠ 1 → s.thread t = .idle
  fixed : Fixed (s.slot 2)
  workers : ∀ w k arg pc, s.worker w = .inside k arg pc → w = 1 ∧ k = 2
  caller : ∃ arg pc, s.thread 1 = .inCall 2 fourBlocks arg pc ∧ pc ≠ .returned ∧
    (s.slot 2).completed + inHand pc + handOf (s.worker 1) + left (s.slot 2) ≤ 3

private theorem go_returned (sl : Slot) (pc : PC) (h : pc ≠ .returned) (hf : Fixed sl) (hb : sl.completed ≤ 3) : (go sl 0 pc).2 ≠ .returned := by
  cases pc <;> simp only [go, claim] <;> (repeat' split) <;> simp_all
  rename_i h1
  have := hf.blockLast
  omega

private theorem stuck_step {s : Fill.St} (h : Stuck s) (a : Act) (ha : ∀ t j, a ≠ .start t j) : Stuck (Fill.step s a) := by
  obtain ⟨arg, pc, hc1, hc2, hc3⟩ := h.caller
  have hR : (2 : Nat) % RING = 2 := rfl
  cases a with
  | start t j => exact absurd rfl (ha t j)
  | thread t =>
    by_cases e : t = 1
    · subst e
      obtain ⟨g1, g2⟩ := go_left h.fixed 0 (by omega) pc
      have g3 := go_returned (s.slot 2) pc hc2 h.fixed (by omega)
      simp only [Fill.step, hc1, if_neg hc2, hR]
      refine ⟨h.main, fun t ht => ?_, by simp only [upd_same]; exact g1, h.workers, arg, (go (s.slot 2) 0 pc).2, by simp only [upd_same], g3, ?_⟩
      · simp only [upd_ne _ _ ht]; exact h.others t ht
      · simp only [upd_same]; omega
    · simp only [Fill.step, h.others t e]; exact h
  | worker w =>
    simp only [Fill.step]
    split
    · exact h
    have move : ∀ x : Worker, (∀ k a p, s.worker w ≠ .inside k a p) → handOf x = 0 → (∀ k a p, x = .inside k a p → w = 1 ∧ k = 2) →
        Stuck { s with worker := upd s.worker w x } := by
      intro x h1 h2 h3
      refine ⟨h.main, h.others, h.fixed, fun u k a p hu => ?_, arg, pc, hc1, hc2, ?_⟩
      · by_cases e : u = w
        · subst e; simp only [upd_same] at hu; exact h3 k a p hu
        · simp only [upd_ne _ _ e] at hu; exact h.workers u k a p hu
      · by_cases e : 1 = w
        · subst e; simp only [upd_same, h2]; omega
        · simp only [upd_ne _ _ e]; exact hc3
    cases hw : s.worker w with
    | top => exact move _ (by simp [hw]) rfl (by simp)
    | cmp wi =>
      simp only
      split
      · exact move .look (by simp [hw]) rfl (by simp)
      · exact move .top (by simp [hw]) rfl (by simp)
    | look =>
      have hk : s.main % RING = 2 := by rw [h.main]; rfl
      simp only [hk]
      split
      · rename_i h0 h1
        rw [h.fixed.wakeup] at h1
        refine move (.inside 2 0 .enter) (by simp [hw]) rfl ?_
        intro k a p e; cases e; exact ⟨by omega, rfl⟩
      · exact move .top (by simp [hw]) rfl (by simp)
    | inside k arg' pc' =>
      obtain ⟨rfl, rfl⟩ := h.workers w k arg' pc' hw
      rw [hw] at hc3
      simp only [handOf] at hc3
      simp only
      by_cases e1 : pc' = .enter
      · subst e1
        simp only [if_true]
        refine ⟨h.main, h.others, h.fixed, fun u k a p hu => ?_, arg, pc, hc1, hc2, ?_⟩
        · by_cases e : u = 1
          · subst e; simp only [upd_same] at hu; cases hu; exact ⟨rfl, rfl⟩
          · simp only [upd_ne _ _ e] at hu; exact h.workers u k a p hu
        · simp only [upd_same, handOf]; exact hc3
      · rw [if_neg e1]
        by_cases e2 : pc' = .ret
        · subst e2
          simp only [if_true]
          refine ⟨h.main, h.others, h.fixed, fun u k a p hu => ?_, arg, pc, hc1, hc2, ?_⟩
          · by_cases e : u = 1
            · subst e; simp only [upd_same] at hu; cases hu
            · simp only [upd_ne _ _ e] at hu; exact h.workers u k a p hu
          · simp only [upd_same, handOf]; omega
        · rw [if_neg e2]
          obtain ⟨g1, g2⟩ := go_left h.fixed 1 (by omega) pc'
          refine ⟨h.main, h.others, by simp only [upd_same]; exact g1, fun u k a p hu => ?_, arg, pc, hc1, hc2, ?_⟩
          · by_cases e : u = 1
            · subst e; simp only [upd_same] at hu; cases hu; exact ⟨rfl, rfl⟩
            · simp only [upd_ne _ _ e] at hu; exact h.workers u k a p hu
          · simp only [upd_same, handOf]; omega

private def onlyOne : Act → Bool
  | .start t _ => t == 1
  | .thread t => t == 1
  | .worker w => w == 1

private theorem only_one (mem : Nat → Slot) (l : List Act) (h : l.all onlyOne = true) (u : Nat) (hu : u ≠ 1) :
    (exec mem l).thread u = .idle ∧ (exec mem l).worker u = .top := by
  induction l using List.reverseRecOn with
  | nil => exact ⟨rfl, rfl⟩
  | append_singleton l a ih =>
    simp only [List.all_append, Bool.and_eq_true, List.all_cons, List.all_nil, Bool.and_true] at h
    obtain ⟨h1, h2⟩ := ih h.1
    rw [Fill.exec_snoc]
    cases a with
    | start t j =>
      have e : t = 1 := by simpa [onlyOne] using h.2
      subst e
      simp only [Fill.step]
      split <;> (try simp only [upd_ne _ _ hu]) <;> exact ⟨h1, h2⟩
    | thread t =>
      have e : t = 1 := by simpa [onlyOne] using h.2
      subst e
      simp only [Fill.step]
      (repeat' split) <;> (try simp only [upd_ne _ _ hu]) <;> exact ⟨h1, h2⟩
    | worker t =>
      have e : t = 1 := by simpa [onlyOne] using h.2
      subst e
      simp only [Fill.step]
      (repeat' split) <;> (try simp only [upd_ne _ _ hu]) <;> exact ⟨h1, h2⟩

private theorem stuck_midway : Stuck (exec (ringMem 0) midway) := by
  have hall : midway.all onlyOne = true := by decide +kernel
  have hw : (exec (ringMem 0) midway).worker 1 = .top := by decide +kernel
  refine ⟨by decide +kernel, fun t ht => (only_one _ _ hall t ht).1, ⟨by decide +kernel, by decide +kernel, by decide +kernel, by decide +kernel⟩,
    fun w k arg pc e => ?_, 2, .own, by decide +kernel, by simp, ?_⟩
  · by_cases e1 : w = 1
    · subst e1; rw [hw] at e; cases e
    · rw [(only_one _ _ hall w e1).2] at e; cases e
  · rw [hw]; decide +kernel

/-- **C108** is false as stated: one thread makes two calls in a row, with one worker thread and nothing else running. The worker looks at
the second item while it is being written, and the second call never returns, however long all threads go on running. -/
theorem C108_hang_violated (l : List Act) (hl : ∀ a ∈ l, ∀ t j, a ≠ .start t j) :
    ∃ arg pc, (exec (ringMem 0) (midway ++ l)).thread 1 = .inCall 2 fourBlocks arg pc := by
  have : Stuck (exec (ringMem 0) (midway ++ l)) := by
    induction l using List.reverseRecOn with
    | nil => rw [List.append_nil]; exact stuck_midway
    | append_singleton l a ih =>
      rw [← List.append_assoc, Fill.exec_snoc]
      exact stuck_step (ih fun b hb => hl b (List.mem_append_left _ hb)) a (hl a (by simp))
  obtain ⟨arg, pc, h, _⟩ := this.caller
  exact ⟨arg, pc, h⟩

/-- The first call was over, and its kernel had been called for every element. -/
example : (exec (ringMem 0) firstCall).thread 1 = .idle ∧
    (exec (ringMem 0) firstCall).calls 1 = [(49152, 16384), (16384, 16384), (32768, 16384), (0, 16384)] := by decide +kernel

/-- Before the worker's look the history is quiet. -/
example : (exec (ringMem 0) (firstCall ++ ([.start 1 fourBlocks] ++ threadSteps 12))).worker 1 = .look ∧
    ((exec (ringMem 0) (firstCall ++ ([.start 1 fourBlocks] ++ threadSteps 12))).thread 1).writing = some 2 := by decide +kernel

/-! ### Memory that is not 0: a kernel call outside of the arrays -/

/-- The second call is at its first seven stores, whatever the channels held is still there, and the worker goes into the item. -/
def astray : List Act := firstCall ++ ([.start 1 fourBlocks] ++ threadSteps 11 ++ workerSteps 13)

/-- **C108** is false as stated: the ring is not cleared when it is set up (threads.h:446-468), and items are used again. With 5 left over
as the end of a channel, the worker that looks at the half-written item calls the kernel from element 81920 on, of arrays of 65536. -/
theorem C108_out_of_bounds_violated :
    ∃ r ∈ (exec (ringMem 5) astray).runs, r.call = 2 ∧ fourBlocks.len < r.start + r.len :=
  ⟨⟨2, 81920, 16384⟩, by decide +kernel, rfl, by decide⟩

/-! ### Cases for the theorems -/

/-- The next steps of thread 1 and worker 1 are undisturbed, and fewer than 1024 calls have been made. -/
private def checks (s : Fill.St) : List Act → Bool
  | [] => decide (s.main < 1024)
  | a :: l => decide (s.main < 1024) && (match a with
      | .worker _ => s.worker 1 != .look || (s.thread 1).writing != some s.main
      | .thread _ => match s.thread 1, s.worker 1 with
        | .take _, .inside k _ _ => k != (s.main + 1) % 1024
        | _, _ => true
      | .start _ _ => true) && checks (Fill.step s a) l

private theorem quiet_of_checks (mem : Nat → Slot) (l : List Act) (h1 : l.all onlyOne = true) (h2 : checks (Fill.init mem) l = true) : Quiet mem l := by
  have key : ∀ q p, checks (exec mem p) q = true → (p ++ q).all onlyOne = true →
      (∀ p' a, p' ++ [a] <+: q → Undisturbed (exec mem (p ++ p')) a) ∧ ∀ p', p' <+: q → Fill.Calm (exec mem (p ++ p')) := by
    intro q
    induction q with
    | nil =>
      intro p hc ho
      refine ⟨fun p' a hp => absurd hp (by simp), fun p' hp => ?_⟩
      rw [List.prefix_nil.1 hp, List.append_nil]
      intro t i _
      have : (exec mem p).main < 1024 := by simpa [checks] using hc
      omega
    | cons a q ih =>
      intro p hc ho
      simp only [checks, Bool.and_eq_true, decide_eq_true_eq] at hc
      obtain ⟨⟨hm, ha⟩, hr⟩ := hc
      obtain ⟨i1, i2⟩ := ih (p ++ [a]) (by rw [Fill.exec_snoc]; exact hr) (by simpa using ho)
      have hop : p.all onlyOne = true := by
        simp only [List.all_append, Bool.and_eq_true] at ho; exact ho.1
      have hoa : onlyOne a = true := by
        simp only [List.all_append, List.all_cons, Bool.and_eq_true] at ho; exact ho.2.1
      refine ⟨fun p' b hp => ?_, fun p' hp => ?_⟩
      · cases p' with
        | nil =>
          have : b = a := by simpa using hp
          subst this
          rw [List.append_nil]
          cases b with
          | start t j => trivial
          | thread t =>
            have e : t = 1 := by simpa [onlyOne] using hoa
            subst e
            intro j hj w k arg pc hw
            by_cases ew : w = 1
            · subst ew; simp only [hj, hw] at ha; simpa using ha
            · rw [(only_one _ _ hop w ew).2] at hw; cases hw
          | worker w =>
            have e : w = 1 := by simpa [onlyOne] using hoa
            subst e
            intro hl t ht
            by_cases et : t = 1
            · subst et; simp only [hl, ht] at ha; simp at ha
            · rw [(only_one _ _ hop t et).1] at ht; cases ht
        | cons c p'' =>
          have := hp
          simp only [List.cons_append, List.cons_prefix_cons] at this
          obtain ⟨rfl, h3⟩ := this
          rw [show p ++ c :: p'' = p ++ [c] ++ p'' by simp]
          exact i1 p'' b h3
      · cases p' with
        | nil => rw [List.append_nil]; intro t i _; omega
        | cons c p'' =>
          have := hp
          simp only [List.cons_prefix_cons] at this
          obtain ⟨rfl, h3⟩ := this
          rw [show p ++ c :: p'' = p ++ [c] ++ p'' by simp]
          exact i2 p'' h3
  have := key l [] h2 h1
  simp only [List.nil_append] at this
  exact this

/-- Two calls one after the other; worker 1 helps in both. -/
def twoQuiet : List Act :=
  [.start 1 fourBlocks] ++ threadSteps 18 ++ workerSteps 12 ++ threadSteps 30 ++ workerSteps 20 ++ [.start 1 fourBlocks] ++ threadSteps 18 ++
    workerSteps 13 ++ threadSteps 11

private theorem twoQuiet_quiet : Quiet (ringMem 5) twoQuiet := quiet_of_checks _ _ (by decide +kernel) (by decide +kernel)

private theorem twoQuiet_ends : (exec (ringMem 5) twoQuiet).thread 1 = .finish 2 fourBlocks := by decide +kernel

example : ExactlyOnce 65536 ((exec (ringMem 5) twoQuiet).calls 2) :=
  C108_exactly_once_partial _ twoQuiet twoQuiet_quiet 1 2 fourBlocks twoQuiet_ends

/-- Both threads had a share. -/
example : (exec (ringMem 5) twoQuiet).calls 2 = [(32768, 16384), (0, 16384), (49152, 16384), (16384, 16384)] := by decide +kernel

/-- One call; once it is published, thread 1 and all workers run again and again. -/
def oneQuiet (n : Nat) : Act :=
  if n = 0 then .start 1 fourBlocks
  else if n ≤ 16 then .thread 1
  else if (Nat.unpair (n - 17)).2 = 0 then .thread 1 else .worker (Nat.unpair (n - 17)).2

private theorem oneQuiet_late (n c : Nat) : oneQuiet (17 + Nat.pair n c) = if c = 0 then .thread 1 else .worker c := by
  simp only [oneQuiet, if_neg (show ¬ 17 + Nat.pair n c = 0 by omega), if_neg (show ¬ 17 + Nat.pair n c ≤ 16 by omega),
    Nat.add_sub_cancel_left, Nat.unpair_pair]

/-- The call is published and only steps of thread 1 and of workers follow. -/
private structure After (s : Fill.St) : Prop where
  main : s.main = 1
  others : ∀ t, t ≠ 1 → s.thread t = .idle
  me : (∃ arg pc, s.thread 1 = .inCall 1 fourBlocks arg pc) ∨ s.thread 1 = .finish 1 fourBlocks ∨ s.thread 1 = .idle

private theorem after_thread {s : Fill.St} (h : After s) : After (Fill.step s (.thread 1)) := by
  have oth : ∀ x : Thread, ∀ t, t ≠ 1 → upd s.thread 1 x t = .idle := fun x t ht => by rw [upd_ne _ _ ht]; exact h.others t ht
  rcases h.me with ⟨arg, pc, e⟩ | e | e
  · simp only [Fill.step, e]
    split
    · exact ⟨h.main, oth _, .inr (.inl (by simp only [upd_same]))⟩
    · exact ⟨h.main, oth _, .inl ⟨arg, _, by simp only [upd_same]; rfl⟩⟩
  · simp only [Fill.step, e]; exact ⟨h.main, oth _, .inr (.inr (by simp only [upd_same]))⟩
  · simp only [Fill.step, e]; exact h

private theorem after_worker {s : Fill.St} (h : After s) (w : Nat) : After (Fill.step s (.worker w)) := by
  simp only [Fill.step]
  (repeat' split) <;> exact ⟨h.main, h.others, h.me⟩

private theorem after_oneQuiet (n : Nat) : After (Fill.states (ringMem 5) oneQuiet (17 + n)) := by
  induction n with
  | zero =>
    have e : Fill.states (ringMem 5) oneQuiet (17 + 0) = exec (ringMem 5) ([.start 1 fourBlocks] ++ threadSteps 16) := rfl
    rw [e]
    exact ⟨by decide +kernel, fun t ht => (only_one _ _ (by decide +kernel) t ht).1, .inl ⟨1, .own, by decide +kernel⟩⟩
  | succ n ih =>
    rw [← Nat.add_assoc]
    show After (Fill.step _ (oneQuiet (17 + n)))
    rw [← Nat.pair_unpair n, oneQuiet_late, Nat.pair_unpair]
    split
    · exact after_thread ih
    · exact after_worker ih _

private theorem early_oneQuiet : ∀ n, n ≤ 17 → ∃ l, l.all onlyOne = true ∧ (∀ a ∈ l, ∀ w, a ≠ .worker w) ∧
    Fill.states (ringMem 5) oneQuiet n = exec (ringMem 5) l := by
  intro n
  induction n with
  | zero => intro _; exact ⟨[], rfl, by simp, rfl⟩
  | succ n ih =>
    intro hn
    obtain ⟨l, h1, h2, h3⟩ := ih (by omega)
    have : oneQuiet n = .start 1 fourBlocks ∨ oneQuiet n = .thread 1 := by
      simp only [oneQuiet]; split
      · exact .inl rfl
      · rw [if_pos (by omega)]; exact .inr rfl
    refine ⟨l ++ [oneQuiet n], ?_, ?_, by rw [Fill.exec_snoc, ← h3]; rfl⟩
    · rw [List.all_append, h1]; rcases this with e | e <;> rw [e] <;> rfl
    · intro a ha w
      rcases List.mem_append.1 ha with h | h
      · exact h2 a h w
      · rw [List.mem_singleton.1 h]; rcases this with e | e <;> rw [e] <;> simp

private theorem no_worker (mem : Nat → Slot) (l : List Act) (h : ∀ a ∈ l, ∀ w, a ≠ .worker w) (w : Nat) : (exec mem l).worker w = .top := by
  induction l using List.reverseRecOn with
  | nil => rfl
  | append_singleton l a ih =>
    have ih := ih fun b hb => h b (List.mem_append_left _ hb)
    rw [Fill.exec_snoc]
    cases a with
    | start t j => simp only [Fill.step]; split <;> exact ih
    | thread t => simp only [Fill.step]; (repeat' split) <;> exact ih
    | worker v => exact absurd rfl (h _ (by simp) v)

private theorem main_le (mem : Nat → Slot) (σ : Nat → Act) (n : Nat) : (Fill.states mem σ n).main ≤ n := by
  induction n with
  | zero => exact Nat.le_refl _
  | succ n ih =>
    show (Fill.step _ _).main ≤ _
    cases σ n with
    | start t j => simp only [Fill.step]; split <;> (show (Fill.states mem σ n).main ≤ _; omega)
    | thread t => simp only [Fill.step]; (repeat' split) <;> (try simp only) <;> omega
    | worker w => simp only [Fill.step]; (repeat' split) <;> (try simp only) <;> omega

private theorem oneQuiet_quiet : QuietRun (ringMem 5) oneQuiet := by
  refine ⟨fun n => ?_, fun n => ?_⟩
  · by_cases hn : n ≤ 16
    · obtain ⟨l, h1, h2, h3⟩ := early_oneQuiet n (by omega)
      rw [h3]
      cases oneQuiet n with
      | start t j => trivial
      | thread t => intro j _ w k arg pc hw; rw [no_worker _ l h2] at hw; cases hw
      | worker w => intro hw; rw [no_worker _ l h2] at hw; cases hw
    · obtain ⟨d, rfl⟩ := Nat.exists_eq_add_of_le (show 17 ≤ n by omega)
      have h := after_oneQuiet d
      have hno : ∀ t, ((Fill.states (ringMem 5) oneQuiet (17 + d)).thread t).writing = none ∧
          ∀ j, (Fill.states (ringMem 5) oneQuiet (17 + d)).thread t ≠ .take j := by
        intro t
        by_cases e : t = 1
        · subst e; rcases h.me with ⟨_, _, e⟩ | e | e <;> rw [e] <;> exact ⟨rfl, by simp⟩
        · rw [h.others t e]; exact ⟨rfl, by simp⟩
      cases oneQuiet (17 + d) with
      | start t j => trivial
      | thread t => intro j hj; exact absurd hj ((hno t).2 j)
      | worker w => intro _ t ht; rw [(hno t).1] at ht; cases ht
  · intro t i _
    by_cases hn : n ≤ 16
    · have := main_le (ringMem 5) oneQuiet n; omega
    · obtain ⟨d, rfl⟩ := Nat.exists_eq_add_of_le (show 17 ≤ n by omega)
      rw [(after_oneQuiet d).main]; omega

/-- After 17 steps the call is in progress, and it ends. -/
example : (Fill.states (ringMem 5) oneQuiet 17).thread 1 = .inCall 1 fourBlocks 1 .own ∧
    ∃ m', 17 ≤ m' ∧ (Fill.states (ringMem 5) oneQuiet m').thread 1 = .idle :=
  ⟨by decide +kernel, C108_ends_partial _ _ oneQuiet_quiet
    (fun w m w0 => ⟨17 + Nat.pair m w, by have := Nat.left_le_pair m w; omega, by rw [oneQuiet_late, if_neg w0]⟩) 1
    (fun m => ⟨17 + Nat.pair m 0, by have := Nat.left_le_pair m 0; omega, by rw [oneQuiet_late, if_pos rfl]⟩) 17⟩

end Pnumpy.Props
