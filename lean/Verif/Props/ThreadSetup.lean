import Verif.Model.ThreadSetup
import Verif.Props.Settings
import Verif.Props.Futex
import Mathlib.Data.List.Dedup
import Mathlib.Data.List.Perm.Subperm
import Mathlib.Tactic.SplitIfs
import Mathlib.Data.List.Induction
/-
Property theorems C72: the worker threads of a process, from its affinity mask.
-/
namespace Pnumpy.Props
open Pnumpy.ThreadSetup

/-- Number of CPUs among the first 63 the process may run on. -/
def cpusSeen (cpus : Nat → Bool) : Nat := ((List.range 63).filter fun i => cpus i).length

/-! ### The affinity mask -/

theorem affinity_bit (cpus : Nat → Bool) : ∀ (k i : Nat) (mask : BitVec 64), i + k ≤ 64 → ∀ j, j < 64 →
    (affinityLoop cpus k i (mask, 1#64 <<< i)).getLsbD j = (mask.getLsbD j || (decide (i ≤ j ∧ j < i + k) && cpus j)) := by
  intro k
  induction k with
  | zero => intro i mask _ j _; simp [affinityLoop]
  | succ k ih =>
    intro i mask h j hj
    have e : (1#64 <<< i) <<< 1 = 1#64 <<< (i + 1) := by rw [← BitVec.shiftLeft_add]
    simp only [affinityLoop, e]
    rw [ih (i + 1) _ (by omega) j hj]
    by_cases hij : i = j
    · subst hij
      by_cases hc : cpus i <;> simp [hc, hj, BitVec.getLsbD_or, BitVec.getLsbD_shiftLeft]
    · have hd : (decide (i + 1 ≤ j ∧ j < i + 1 + k) : Bool) = decide (i ≤ j ∧ j < i + (k + 1)) := by
        rw [decide_eq_decide]; omega
      rw [hd]
      by_cases hc : cpus i
      · simp only [hc, if_true]
        have : (1#64 <<< i).getLsbD j = false := by
          simp [BitVec.getLsbD_shiftLeft]; omega
        rw [BitVec.getLsbD_or, this, Bool.or_false]
      · simp [hc]

theorem processMask_bit (cpus : Nat → Bool) (j : Nat) (hj : j < 64) : (processMask cpus).getLsbD j = (decide (j < 63) && cpus j) := by
  unfold processMask
  rw [show ((0 : BitVec 64), (1 : BitVec 64)) = (0#64, 1#64 <<< 0) from rfl, affinity_bit cpus 63 0 0#64 (by omega) j hj]
  simp

theorem countBits_eq : ∀ (d : Nat) (m : BitVec 64) (c : Nat), m.toNat < 2 ^ d →
    countBits m c = c + ((List.range d).filter fun i => m.getLsbD i).length := by
  intro d
  induction d with
  | zero =>
    intro m c h
    have : m = 0 := BitVec.eq_of_toNat_eq (by have : m.toNat = 0 := by omega
                                              rw [this]; rfl)
    rw [countBits, dif_pos this]; simp
  | succ d ih =>
    intro m c h
    rw [countBits]
    split
    · next h0 => subst h0; simp
    · rw [ih (m >>> 1) _ (by rw [BitVec.toNat_ushiftRight, Nat.shiftRight_eq_div_pow]; omega)]
      have e1 : (fun i => (m >>> 1).getLsbD i) = (fun i => m.getLsbD i) ∘ Nat.succ := by
        funext i; simp [BitVec.getLsbD_ushiftRight, Nat.add_comm]
      have e2 : m &&& 1 ≠ 0 ↔ m.getLsbD 0 = true := by
        constructor
        · intro h1
          cases h2 : m.getLsbD 0 with
          | true => rfl
          | false =>
            exfalso; apply h1
            apply BitVec.eq_of_getLsbD_eq
            intro i hi
            by_cases h3 : i = 0
            · subst h3; simp only [BitVec.getLsbD_and, h2, Bool.false_and]; rfl
            · simp [BitVec.getLsbD_and, BitVec.getLsbD_one, h3]
        · intro h1 h2
          have := congrArg (fun x : BitVec 64 => x.getLsbD 0) h2
          simp only [BitVec.getLsbD_and, h1, Bool.true_and] at this
          exact absurd this (by decide)
      rw [List.range_succ_eq_map, List.filter_cons, List.filter_map, e1]
      by_cases h1 : m.getLsbD 0 = true
      · rw [if_pos (e2.mpr h1), if_pos h1]; simp only [List.length_cons, List.length_map]; omega
      · rw [if_neg (fun h => h1 (e2.mp h)), if_neg h1]; simp only [List.length_map]

theorem countBits_mask (cpus : Nat → Bool) : countBits (processMask cpus) 0 = cpusSeen cpus := by
  have hlt : (processMask cpus).toNat < 2 ^ 63 := by
    have h := processMask_bit cpus 63 (by omega)
    simp only [show ¬ (63 : Nat) < 63 by omega, decide_false, Bool.false_and] at h
    have hm : (processMask cpus).msb = false := by rw [BitVec.msb_eq_getLsbD_last]; exact h
    have := BitVec.msb_eq_decide (processMask cpus)
    rw [hm] at this
    simpa using this
  rw [countBits_eq 63 _ 0 hlt, Nat.zero_add]
  unfold cpusSeen
  congr 1
  apply List.filter_congr
  intro i hi
  have hi := List.mem_range.mp hi
  rw [processMask_bit cpus i (by omega)]
  simp [hi]

/-- **C72**: the number of worker threads: one per CPU (of the first 63) the process may use, at most 15, and 5 if it may use
none of them. -/
theorem C72_worker_count_partial (cpus : Nat → Bool) :
    procCount cpus = if cpusSeen cpus = 0 then 5 else min (cpusSeen cpus) 15 := by
  unfold procCount
  rw [countBits_mask]
  simp only
  split <;> split <;> omega

/-! ### Numbers of the workers -/

theorem boot_inv (sched : List Nat) :
    (Boot.run sched).workThread = (List.dedup sched).length ∧
    (∀ i, (Boot.run sched).core i = none ↔ i ∉ sched) ∧
    (∀ i c, (Boot.run sched).core i = some c → 1 ≤ c ∧ c ≤ (Boot.run sched).workThread) ∧
    (∀ i j c, (Boot.run sched).core i = some c → (Boot.run sched).core j = some c → i = j) := by
  induction sched using List.reverseRecOn with
  | nil => simp [Boot.run, Boot.init]
  | append_singleton l i ih =>
    have e : Boot.run (l ++ [i]) = (Boot.run l).step i := by simp [Boot.run]
    rw [e]
    obtain ⟨h1, h2, h3, h4⟩ := ih
    have hd : (List.dedup (l ++ [i])).length = (List.dedup l).length + if i ∈ l then 0 else 1 := by
      have p : (l ++ [i]).Perm (i :: l) := List.perm_append_singleton i l
      rw [(List.Perm.dedup p).length_eq]
      by_cases h : i ∈ l
      · rw [List.dedup_cons_of_mem h, if_pos h, Nat.add_zero]
      · rw [List.dedup_cons_of_notMem h, if_neg h, List.length_cons]
    unfold Boot.step
    by_cases hs : ((Boot.run l).core i).isSome
    · rw [if_pos hs]
      have hi : i ∈ l := by
        by_contra hn
        rw [(h2 i).mpr hn] at hs; simp at hs
      refine ⟨by rw [hd, if_pos hi, h1, Nat.add_zero], fun j => ?_, h3, h4⟩
      rw [h2 j]; simp only [List.mem_append, List.mem_singleton]
      constructor
      · rintro h (hj | rfl)
        · exact h hj
        · exact h hi
      · exact fun h hj => h (Or.inl hj)
    · rw [if_neg hs]
      have hn : (Boot.run l).core i = none := by simpa using hs
      have hi := (h2 i).mp hn
      refine ⟨by simp only; rw [hd, if_neg hi, h1], fun j => ?_, fun j c => ?_, fun j j' c => ?_⟩
      · simp only
        by_cases hj : j = i
        · subst hj; simp
        · rw [if_neg hj, h2 j]; simp [hj]
      · simp only
        by_cases hj : j = i
        · rw [if_pos hj]; intro h; cases h; omega
        · rw [if_neg hj]; intro h; have := h3 j c h; omega
      · simp only
        by_cases hj : j = i <;> by_cases hj' : j' = i
        · intros; rw [hj, hj']
        · rw [if_pos hj, if_neg hj']; intro h h'; cases h; have := h3 j' _ h'; omega
        · rw [if_neg hj, if_pos hj']; intro h h'; cases h'; have := h3 j _ h; omega
        · rw [if_neg hj, if_neg hj']; exact h4 j j' c

/-- **C72**: whatever the order in which the threads `0 .. W-1` begin to run: a thread that has begun has a number between 1
and `W`, no two have the same number, number and pool are inside the 16 channels and 4 pools, and the thread handles are
inside their array of 16. -/
theorem C72_numbers (cpus : Nat → Bool) (sched : List Nat) (hs : ∀ i ∈ sched, i < procCount cpus) :
    (∀ i c, (Boot.run sched).core i = some c → 1 ≤ c ∧ c ≤ procCount cpus ∧ c < 16 ∧ pool c < 4 ∧ i < 16) ∧
    (∀ i j c, (Boot.run sched).core i = some c → (Boot.run sched).core j = some c → i = j) ∧
    ((∀ i, i < procCount cpus → i ∈ sched) → ∀ c, 1 ≤ c → c ≤ procCount cpus → ∃ i, i < procCount cpus ∧ (Boot.run sched).core i = some c) := by
  obtain ⟨h1, h2, h3, h4⟩ := boot_inv sched
  have hW : procCount cpus ≤ 15 := by rw [C72_worker_count_partial]; split <;> omega
  have hlen : (List.dedup sched).length ≤ procCount cpus := by
    have hsub : List.dedup sched ⊆ List.range (procCount cpus) := fun i hi =>
      List.mem_range.mpr (hs i (List.mem_dedup.mp hi))
    have := List.subperm_of_subset (List.nodup_dedup sched) hsub
    simpa using this.length_le
  have hmem : ∀ i c, (Boot.run sched).core i = some c → i ∈ sched := fun i c h => by
    by_contra hn
    rw [(h2 i).mpr hn] at h; cases h
  refine ⟨fun i c h => ?_, h4, fun hall c hc1 hc2 => ?_⟩
  · have := h3 i c h
    have := hs i (hmem i c h)
    unfold pool
    omega
  · by_contra hno
    have hno : ∀ i, i < procCount cpus → (Boot.run sched).core i ≠ some c := fun i hi h => hno ⟨i, hi, h⟩
    let f : Nat → Nat := fun i => ((Boot.run sched).core i).getD 0
    have hf : ∀ i, i < procCount cpus → (Boot.run sched).core i = some (f i) := fun i hi => by
      cases h : (Boot.run sched).core i with
      | none => exact absurd (hall i hi) ((h2 i).mp h)
      | some x => simp [f, h]
    have hnd : ((List.range (procCount cpus)).map f).Nodup := by
      rw [List.nodup_map_iff_inj_on List.nodup_range]
      intro i hi j hj e
      have hi := hf i (List.mem_range.mp hi)
      have hj := hf j (List.mem_range.mp hj)
      rw [e] at hi
      exact h4 i j _ hi hj
    have hsub : (List.range (procCount cpus)).map f ⊆ ((List.range' 1 (procCount cpus)).erase c) := by
      intro x hx
      obtain ⟨i, hi, rfl⟩ := List.mem_map.mp hx
      have hi := List.mem_range.mp hi
      have := h3 i _ (hf i hi)
      have hne : f i ≠ c := fun e => hno i hi (e ▸ hf i hi)
      rw [List.mem_erase_of_ne hne, List.mem_range'_1]
      omega
    have := (List.subperm_of_subset hnd hsub).length_le
    rw [List.length_map, List.length_range, List.length_erase_of_mem (by rw [List.mem_range'_1]; omega), List.length_range'] at this
    omega

/-- Non-vacuity: CPUs 0, 2, 4, .. 62 of a large machine; four threads of a 4-CPU machine starting in the order 2, 0, 3, 1. -/
example : procCount (fun i => i % 2 == 0) = 15 := by rw [C72_worker_count_partial]; decide
example : procCount (fun i => decide (i < 4)) = 4 ∧
    (List.range 4).map (Boot.run [2, 0, 3, 1]).core = [some 2, some 4, some 1, some 3] := by
  refine ⟨by rw [C72_worker_count_partial]; decide, by decide⟩

/-- **C72 is violated** for a process confined to CPUs from 63 on: it starts 5 workers even if it may use only one CPU. -/
theorem C72_high_cpus_violated (cpus : Nat → Bool) (h : ∀ i, i < 63 → cpus i = false) : procCount cpus = 5 := by
  rw [C72_worker_count_partial]
  have : cpusSeen cpus = 0 := by
    unfold cpusSeen
    rw [List.length_eq_zero_iff, List.filter_eq_nil_iff]
    intro i hi; simp [h i (List.mem_range.mp hi)]
  rw [if_pos this]
example : ∃ cpus : Nat → Bool, (∀ i, i < 63 → cpus i = false) ∧ cpus 64 = true ∧ ∀ i, i ≠ 64 → cpus i = false :=
  ⟨fun i => i == 64, fun i hi => by simp; omega, by simp, fun i hi => by simpa using hi⟩

/-- **C72**, exactly: a process that may use at least one CPU (CPUs are numbered below `N`) gets one worker per CPU, at most 15, if and only if all CPUs it may use have
numbers below 63, or at least 15 of them have, or they are exactly five and all have numbers from 63 on. -/
theorem C72_iff_partial (cpus : Nat → Bool) (N : Nat) (hN : 63 ≤ N) (hpos : 0 < ((List.range N).filter fun i => cpus i).length) :
    procCount cpus = min (((List.range N).filter fun i => cpus i).length) 15 ↔
      (∀ i, i < N → cpus i = true → i < 63) ∨ 15 ≤ ((List.range 63).filter fun i => cpus i).length ∨
      ((∀ i, i < 63 → cpus i = false) ∧ ((List.range N).filter fun i => cpus i).length = 5) := by
  obtain ⟨d, rfl⟩ : ∃ d, N = 63 + d := ⟨N - 63, by omega⟩
  have hsplit : ((List.range (63 + d)).filter fun i => cpus i).length
      = cpusSeen cpus + (((List.range d).map (63 + ·)).filter fun i => cpus i).length := by
    rw [List.range_add, List.filter_append, List.length_append]
    rfl
  have hhigh : (∀ i, i < 63 + d → cpus i = true → i < 63) ↔ (((List.range d).map (63 + ·)).filter fun i => cpus i).length = 0 := by
    rw [List.length_eq_zero_iff, List.filter_eq_nil_iff]
    constructor
    · intro h i hi hc
      obtain ⟨j, hj, rfl⟩ := List.mem_map.1 hi
      have := h (63 + j) (by have := List.mem_range.1 hj; omega) hc
      omega
    · intro h i hi hc
      by_contra hge
      exact h i (List.mem_map.2 ⟨i - 63, List.mem_range.2 (by omega), by omega⟩) hc
  have hlow : (∀ i, i < 63 → cpus i = false) ↔ cpusSeen cpus = 0 := by
    unfold cpusSeen
    rw [List.length_eq_zero_iff, List.filter_eq_nil_iff]
    simp
  rw [hhigh, hlow, C72_worker_count_partial, hsplit]
  rw [hsplit] at hpos
  show _ ↔ _ ∨ 15 ≤ cpusSeen cpus ∨ _
  split <;> omega

/-- Case: a process that may use the CPUs 62 and 63 of 128 gets one worker, not two. -/
example : procCount (fun i => i == 62 || i == 63) ≠ min (((List.range 128).filter fun i => i == 62 || i == 63).length) 15 := by
  rw [Ne, C72_iff_partial (fun i => i == 62 || i == 63) 128 (by omega) (by decide)]
  rintro (h | h | ⟨h, -⟩)
  · have := h 63 (by omega) (by decide); omega
  · revert h; decide
  · have := h 62 (by omega); revert this; decide

/-! ### C73: parallel sorts on every machine -/

theorem wake_run (c : Settings.Cfg) : ∀ h : List Spec.SetCall, (∀ k, Spec.SetCall.setWorkers k ∈ h → 2 ≤ k) →
    3 ≤ c.W → 2 ≤ (Settings.run c h).wake := by
  intro h
  induction h with
  | nil => intro _ hW; simp only [Settings.run, Settings.init]; split <;> omega
  | cons x h ih =>
    intro hk hW
    have ih := ih (fun k hm => hk k (List.mem_cons_of_mem _ hm)) hW
    cases x with
    | setWorkers k =>
      have := hk k List.mem_cons_self
      simp only [Settings.run, Settings.step, Settings.clampWake]
      split_ifs <;> omega
    | atopSetWorkers n d k => simp only [Settings.run, Settings.step]; split_ifs <;> exact ih
    | zigzag => simp only [Settings.run, Settings.step]; split_ifs <;> exact ih
    | _ => exact ih

theorem wake_fixed (c : Settings.Cfg) (v : Int) (hv : v = c.W - 1) (h2 : v ≤ 1) : ∀ h : List Spec.SetCall, (Settings.run c h).wake = v := by
  intro h
  induction h with
  | nil => simp only [Settings.run, Settings.init]; split <;> omega
  | cons x h ih =>
    cases x with
    | setWorkers k =>
      simp only [Settings.run, Settings.step, Settings.clampWake]
      split_ifs <;> omega
    | atopSetWorkers n d k => simp only [Settings.run, Settings.step]; split_ifs <;> exact ih
    | zigzag => simp only [Settings.run, Settings.step]; split_ifs <;> exact ih
    | _ => exact ih

/-- **C73, partial** (Linux; at least three CPUs among the first 63, or none of them; the user has not asked for fewer than two
workers): after every history of settings, an operation in index mode (parallel sort, record conversion; `n` tasks) returns
and has executed every task exactly once, for every earlier state of the workers, every choice of the futex and every
schedule in which the caller and the workers keep running. -/
theorem C73_sorts_return_partial (cpus : Nat → Bool) (hc : cpusSeen cpus = 0 ∨ 3 ≤ cpusSeen cpus) (hooked dflt)
    (h : List Spec.SetCall) (hk : ∀ k, Spec.SetCall.setWorkers k ∈ h → 2 ≤ k) (n : Nat) (w : Nat → Futex.Worker) (hw : Futex.Before w)
    (σ : Nat → Futex.Act) :
    let wakeup := (Settings.run (cfg cpus hooked dflt) h).wake.toNat
    let k : Futex.Cfg := { workers := procCount cpus, g := { n, skip0 := true, wakeup } }
    Futex.Fair k w σ → ∃ t, (Futex.trace k w σ t).item.pc 0 = .returned ∧ List.Perm (Futex.trace k w σ t).item.log (List.range n) := by
  intro wakeup k hf
  have hW : 3 ≤ procCount cpus := by rw [C72_worker_count_partial]; split <;> omega
  have h2 := wake_run (cfg cpus hooked dflt) h hk (by show (3 : Int) ≤ (procCount cpus : Int); omega)
  exact C42_returns_partial n wakeup (procCount cpus) (by omega) (by omega) (by omega) w hw σ hf

/-- **C73 is violated** for a process with one CPU: whatever the settings calls, no worker takes part, and an operation in
index mode never returns. -/
theorem C73_one_cpu_violated (cpus : Nat → Bool) (hc : cpusSeen cpus = 1) (hooked dflt) (h : List Spec.SetCall) (n : Nat) (hn : 0 < n)
    (sched : List Counter.Act) :
    (Counter.exec { n, skip0 := true, wakeup := (Settings.run (cfg cpus hooked dflt) h).wake.toNat } sched).pc 0 ≠ .returned := by
  have hW : procCount cpus = 1 := by rw [C72_worker_count_partial, if_neg (by omega)]; omega
  have h0 := wake_fixed (cfg cpus hooked dflt) 0 (by show (0 : Int) = (procCount cpus : Int) - 1; omega) (by omega) h
  rw [h0]
  exact C04_index_hangs_without_worker n hn sched

/-- **C73 is violated** for a process with two CPUs: whatever the settings calls, one worker is woken, and if the futex picks
worker 2 the operation never returns, whatever happens (until worker 1 wakes up spuriously). -/
theorem C73_two_cpus_violated (cpus : Nat → Bool) (hc : cpusSeen cpus = 2) (hooked dflt) (h : List Spec.SetCall) (n : Nat) (hn : 0 < n) :
    let k : Futex.Cfg := { workers := procCount cpus, g := { n, skip0 := true, wakeup := (Settings.run (cfg cpus hooked dflt) h).wake.toNat } }
    Futex.Legal k (Futex.exec k (fun _ => .asleep) [.caller fun _ => false]) (fun c => c == 2) ∧
    ∀ l : List Futex.Act, Futex.Act.spurious 1 ∉ l →
      (Futex.exec k (fun _ => .asleep) ([.caller fun _ => false, .caller fun c => c == 2] ++ l)).item.pc 0 ≠ .returned := by
  have hW : procCount cpus = 2 := by rw [C72_worker_count_partial, if_neg (by omega)]; omega
  have h0 := wake_fixed (cfg cpus hooked dflt) 1 (by show (1 : Int) = (procCount cpus : Int) - 1; omega) (by omega) h
  rw [h0]
  exact C42_one_woken_violated n (procCount cpus) hn (by omega)

/-- Non-vacuity: masks with 1, 2 and 4 CPUs; the user asked for 20 workers on the last. (A fair schedule: see
`Verif.Props.Futex`.) -/
example : cpusSeen (fun i => i == 3) = 1 ∧ cpusSeen (fun i => decide (i < 2)) = 2 ∧ cpusSeen (fun i => decide (i < 4)) = 4 ∧
    (Settings.run (cfg (fun i => decide (i < 4)) (fun _ _ => true) fun _ => 3) [.setWorkers 20, .operation]).wake = 3 := by
  refine ⟨by decide, by decide, by decide, ?_⟩
  have : procCount (fun i => decide (i < 4)) = 4 := by rw [C72_worker_count_partial]; decide
  simp [Settings.run, Settings.step, Settings.clampWake, cfg, this]

end Pnumpy.Props
