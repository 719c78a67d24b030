import Verif.Props.ThreadSetup
/-
Property theorems C109: the system refuses to create some of the worker threads.
-/
namespace Pnumpy.Props
open Pnumpy.ThreadSetup Pnumpy.Spec

/-- **C109**: whichever creations fail and in whatever order the others begin to run, the threads that exist have the numbers 1 to their
count. -/
theorem C109_numbers (W : Nat) (ok : Nat → Bool) (sched : List Nat) (hs : ∀ i, i ∈ sched ↔ i < W ∧ ok i = true) (c : Nat) :
    (∃ i, (Boot.run sched).core i = some c) ↔ 1 ≤ c ∧ c ≤ (created W ok).length := by
  obtain ⟨h1, h2, h3, h4⟩ := boot_inv sched
  have hmem : ∀ i, i ∈ sched ↔ i ∈ created W ok := fun i => by simp [created, hs]
  have hnd : (created W ok).Nodup := List.Nodup.filter _ List.nodup_range
  have hlen : (List.dedup sched).length = (created W ok).length := by
    apply Nat.le_antisymm
    · exact (List.subperm_of_subset (List.nodup_dedup sched) fun i hi => (hmem i).1 (List.mem_dedup.1 hi)).length_le
    · exact (List.subperm_of_subset hnd fun i hi => List.mem_dedup.2 ((hmem i).2 hi)).length_le
  constructor
  · rintro ⟨i, hi⟩
    have := h3 i c hi; omega
  · rintro ⟨hc1, hc2⟩
    by_contra hno
    have hno : ∀ i, (Boot.run sched).core i ≠ some c := fun i h => hno ⟨i, h⟩
    let f : Nat → Nat := fun i => ((Boot.run sched).core i).getD 0
    have hf : ∀ i, i ∈ created W ok → (Boot.run sched).core i = some (f i) := fun i hi => by
      cases h : (Boot.run sched).core i with
      | none => exact absurd ((hmem i).2 hi) ((h2 i).mp h)
      | some x => simp [f, h]
    have hnd' : ((created W ok).map f).Nodup := by
      rw [List.nodup_map_iff_inj_on hnd]
      intro i hi j hj e
      have hi := hf i hi
      have hj := hf j hj
      rw [e] at hi
      exact h4 i j _ hi hj
    have hsub : (created W ok).map f ⊆ ((List.range' 1 (created W ok).length).erase c) := by
      intro x hx
      obtain ⟨i, hi, rfl⟩ := List.mem_map.mp hx
      have := h3 i _ (hf i hi)
      have hne : f i ≠ c := fun e => hno i (e ▸ hf i hi)
      rw [List.mem_erase_of_ne hne, List.mem_range'_1]
      omega
    have := (List.subperm_of_subset hnd' hsub).length_le
    rw [List.length_map, List.length_erase_of_mem (by rw [List.mem_range'_1]; omega), List.length_range'] at this
    omega

/-- Case: 4 threads, the second creation fails; the others begin in the order 3, 0, 2. -/
example : (∃ i, (Boot.run [3, 0, 2]).core i = some 3) ∧ ¬ ∃ i, (Boot.run [3, 0, 2]).core i = some 4 := by
  have hs : ∀ i, i ∈ [3, 0, 2] ↔ i < 4 ∧ (i != 1) = true := by intro i; simp; omega
  rw [C109_numbers 4 (fun i => i != 1) _ hs, C109_numbers 4 (fun i => i != 1) _ hs]
  decide

/-- A thread that is never scheduled does nothing. -/
private theorem idle_work (it : Work.Item) (σ : Nat → Nat) (c : Nat) (hc : ∀ t, σ t ≠ c) (t : Nat) :
    (Work.trace it σ t).pc c = Work.init.pc c := by
  induction t with
  | zero => rfl
  | succ t ih => rw [Work.trace, Work.step_other _ _ (Ne.symm (hc t)), ih]

private theorem trace_exec (it : Work.Item) (σ : Nat → Nat) (t : Nat) : ∃ l, Work.trace it σ t = Work.exec it l := by
  induction t with
  | zero => exact ⟨[], rfl⟩
  | succ t ih =>
    obtain ⟨l, e⟩ := ih
    exact ⟨l ++ [σ t], by rw [Work.trace, e]; simp [Work.exec, List.foldl_append]⟩

/-- **C109**: element-wise calls return, with every element processed exactly once, however few worker threads there are (`k`, also 0),
whatever the call counts on (`maxWakeup`). -/
theorem C109_elementwise (k n : Nat) (req : Int) (maxWakeup zz : Nat) (σ : Nat → Nat) (hk : ∀ t, σ t ≤ k)
    (hf : ∀ c, c ≤ k → ∀ t, ∃ t', t ≤ t' ∧ σ t' = c) :
    ∃ t, (Work.trace (ufuncItem n req maxWakeup zz) σ t).pc 0 = .returned ∧
      ExactlyOnce n (Work.kernelCalls (ufuncItem n req maxWakeup zz) (Work.trace (ufuncItem n req maxWakeup zz) σ t)) := by
  obtain ⟨t, ht⟩ := C03_progress n req maxWakeup zz σ (hf 0 (Nat.zero_le k)) (by
    intro t c hb
    by_cases hc : c ≤ k
    · exact hf c hc t
    · rw [idle_work _ σ c (fun t => by have := hk t; omega)] at hb
      simp only [Work.init, if_neg (show c ≠ 0 by omega)] at hb
      cases hb)
  refine ⟨t, ht, ?_⟩
  obtain ⟨l, e⟩ := trace_exec (ufuncItem n req maxWakeup zz) σ t
  rw [e] at ht ⊢
  exact C01_exactly_once n req maxWakeup zz l ht

/-- Case: no worker thread at all, 100000 elements, the call counts on 7. -/
example : ∃ t, (Work.trace (ufuncItem 100000 0 7 0) (fun _ => 0) t).pc 0 = .returned ∧
    ExactlyOnce 100000 (Work.kernelCalls (ufuncItem 100000 0 7 0) (Work.trace (ufuncItem 100000 0 7 0) (fun _ => 0) t)) :=
  C109_elementwise 0 _ _ _ _ _ (fun _ => Nat.le_refl 0) fun c hc t => ⟨t, Nat.le_refl t, by omega⟩

private theorem idle_counter (g : Counter.Cfg) (σ : Nat → Counter.Act) (c : Nat) (hc : ∀ t, σ t ≠ .go c ∧ σ t ≠ .wake c) (t : Nat) :
    (Counter.trace g σ t).pc c = Counter.init.pc c := by
  induction t with
  | zero => rfl
  | succ t ih =>
    rw [Counter.trace, ← ih]
    cases e : σ t with
    | go d => exact Counter.step_other g _ (fun h => (hc t).1 (by rw [e, h])) _ (.inl rfl)
    | wake d => exact Counter.step_other g _ (fun h => (hc t).2 (by rw [e, h])) _ (.inr rfl)

/-- **C109**: the same for calls that work chunk by chunk (boolean masks, integer index, arange). -/
theorem C109_chunks (k n wakeup : Nat) (σ : Nat → Counter.Act) (hk : ∀ t c, σ t = .go c ∨ σ t = .wake c → c ≤ k)
    (hf : ∀ c, c ≤ k → ∀ t, ∃ t', t ≤ t' ∧ σ t' = .go c) :
    ∃ t, (Counter.trace { n, skip0 := false, wakeup } σ t).pc 0 = .returned ∧
      List.Perm (Counter.trace { n, skip0 := false, wakeup } σ t).log (List.range n) := by
  obtain ⟨t, ht⟩ := C04_chunk_progress n wakeup σ ⟨hf 0 (Nat.zero_le k), by
    intro t c hb
    by_cases hc : c ≤ k
    · exact hf c hc t
    · rw [idle_counter _ σ c (fun t => ⟨fun e => hc (hk t c (.inl e)), fun e => hc (hk t c (.inr e))⟩)] at hb
      simp only [Counter.init, if_neg (show c ≠ 0 by omega)] at hb
      cases hb⟩
  refine ⟨t, ht, ?_⟩
  have : ∀ t, ∃ l, Counter.trace { n, skip0 := false, wakeup } σ t = Counter.exec { n, skip0 := false, wakeup } l := by
    intro t
    induction t with
    | zero => exact ⟨[], rfl⟩
    | succ t ih =>
      obtain ⟨l, e⟩ := ih
      exact ⟨l ++ [σ t], by rw [Counter.trace, e]; simp [Counter.exec, List.foldl_append]⟩
  obtain ⟨l, e⟩ := this t
  rw [e] at ht ⊢
  exact (C04_tasks_exactly_once _ l).2.2 ht

/-- Case: one of the three workers the call counts on exists. -/
example : ∃ t, (Counter.trace { n := 5, skip0 := false, wakeup := 3 } (fun t => .go (t % 2)) t).pc 0 = .returned ∧
    List.Perm (Counter.trace { n := 5, skip0 := false, wakeup := 3 } (fun t => .go (t % 2)) t).log (List.range 5) :=
  C109_chunks 1 5 3 _ (fun t c h => by rcases h with h | h <;> simp at h; omega)
    fun c hc t => ⟨2 * t + c, by omega, by simp only [Counter.Act.go.injEq]; omega⟩

/-- **C109, partial** (Linux): parallel sorts return, with every task executed exactly once, if at least one worker thread could be created:
on a machine with three or more CPUs (or none detected), for every settings history that does not ask for fewer than two workers.
Missing: no worker thread, for which it is false (`C109_none_violated`). -/
theorem C109_sorts_return_partial (cpus : Nat → Bool) (hc : cpusSeen cpus = 0 ∨ 3 ≤ cpusSeen cpus) (hooked dflt)
    (h : List Spec.SetCall) (hk : ∀ k, Spec.SetCall.setWorkers k ∈ h → 2 ≤ k) (ok : Nat → Bool) (i : Nat) (hi : i < procCount cpus) (hok : ok i = true)
    (n : Nat) (w : Nat → Futex.Worker) (hw : Futex.Before w) (σ : Nat → Futex.Act) :
    let k : Futex.Cfg := { workers := (created (procCount cpus) ok).length,
                           g := { n, skip0 := true, wakeup := (Settings.run (cfg cpus hooked dflt) h).wake.toNat } }
    Futex.Fair k w σ → ∃ t, (Futex.trace k w σ t).item.pc 0 = .returned ∧ List.Perm (Futex.trace k w σ t).item.log (List.range n) := by
  intro k hf
  have hW : 3 ≤ procCount cpus := by rw [C72_worker_count_partial]; split <;> omega
  have h2 := wake_run (cfg cpus hooked dflt) h hk (by show (3 : Int) ≤ (procCount cpus : Int); omega)
  have hpos : 0 < (created (procCount cpus) ok).length := by
    apply List.length_pos_of_mem (a := i)
    simp [created, hi, hok]
  exact C42_returns_partial n _ _ (by omega) hpos (by omega) w hw σ hf

/-- A machine with four CPUs on which only the third creation succeeds: the one worker and the caller take turns. -/
private def alone (t : Nat) : Futex.Act :=
  if t = 0 then .caller fun _ => false
  else if t = 1 then .caller fun c => c == 1
  else if t % 2 = 0 then .caller fun _ => false else .worker 1

private theorem alone_fair : Futex.Fair { workers := 1, g := { n := 8, skip0 := true, wakeup := 3 } } (fun _ => .asleep) alone := by
  have hleg : Futex.Legal { workers := 1, g := { n := 8, skip0 := true, wakeup := 3 } }
      (Futex.trace { workers := 1, g := { n := 8, skip0 := true, wakeup := 3 } } (fun _ => .asleep) alone 1) (fun c => c == 1) := by
    refine ⟨?_, rfl, ?_⟩
    · intro c hc
      have : c = 1 := by simpa using hc
      subst this; exact ⟨by decide, by decide, rfl, rfl⟩
    · intro c h4 h3; simp only at h3; omega
  have h2 : (Futex.trace { workers := 1, g := { n := 8, skip0 := true, wakeup := 3 } } (fun _ => .asleep) alone 2).phase = .work := by
    show (Futex.step _ (Futex.trace _ _ alone 1) (alone 1)).phase = _
    have : (Futex.trace { workers := 1, g := { n := 8, skip0 := true, wakeup := 3 } } (fun _ => .asleep) alone 1).phase = .wake := rfl
    simp only [alone, Futex.step, this, Nat.one_ne_zero, if_false, if_true, if_pos hleg]
  refine ⟨?_, ?_⟩
  · intro t
    refine ⟨2 * t + 2, by omega, fun _ => false, ?_, ?_⟩
    · simp [alone]
    · intro hp
      have := Futex.phase_work_from h2 (2 * t)
      rw [show 2 + 2 * t = 2 * t + 2 by omega, hp] at this
      simp at this
  · intro c h1 h3 t
    simp only at h3
    refine ⟨2 * t + 3, by omega, ?_⟩
    have : (2 * t + 3) % 2 = 1 := by omega
    have hc : c = 1 := by omega
    simp only [alone, this, hc]
    rw [if_neg (by omega), if_neg (by omega), if_neg (by omega)]

/-- Case: that machine. -/
example : ∃ t, (Futex.trace { workers := 1, g := { n := 8, skip0 := true, wakeup := 3 } } (fun _ => .asleep) alone t).item.pc 0 = .returned := by
  have hp : procCount (fun i => decide (i < 4)) = 4 := by rw [C72_worker_count_partial]; decide
  have := C109_sorts_return_partial (fun i => decide (i < 4)) (.inr (by decide)) (fun _ _ => true) (fun _ => 3) [] (by simp)
    (fun i => i == 2) 2 (by rw [hp]; decide) rfl 8 (fun _ => .asleep) (fun _ => .inr (.inr rfl)) alone
  have hw : (Settings.run (cfg (fun i => decide (i < 4)) (fun _ _ => true) fun _ => 3) []).wake = 3 := by
    simp [Settings.run, Settings.init, cfg, hp]
  simp only [hp, hw] at this
  obtain ⟨t, ht, _⟩ := this alone_fair
  exact ⟨t, ht⟩

/-- **C109 is violated**: if no worker thread could be created, a parallel sort never returns. -/
theorem C109_none_violated (cpus : Nat → Bool) (ok : Nat → Bool) (hok : ∀ i, i < procCount cpus → ok i = false) (n wakeup : Nat) (hn : 0 < n)
    (w : Nat → Futex.Worker) (l : List Futex.Act) :
    (Futex.exec { workers := (created (procCount cpus) ok).length, g := { n, skip0 := true, wakeup } } w l).item.pc 0 ≠ .returned := by
  have h0 : (created (procCount cpus) ok).length = 0 := by
    rw [List.length_eq_zero_iff]
    simp only [created, List.filter_eq_nil_iff, List.mem_range]
    intro i hi; simp [hok i hi]
  rw [h0]
  have key : ∃ sched : List Counter.Act, (∀ a ∈ sched, ∀ c, a = .go c → c = 0 ∨ wakeup < c) ∧
      (Futex.exec { workers := 0, g := { n, skip0 := true, wakeup } } w l).item = Counter.exec { n, skip0 := true, wakeup } sched := by
    induction l using List.reverseRecOn with
    | nil => exact ⟨[], by simp, rfl⟩
    | append_singleton l a ih =>
      obtain ⟨sched, h1, h2⟩ := ih
      have e : Futex.exec { workers := 0, g := { n, skip0 := true, wakeup } } w (l ++ [a]) =
          Futex.step { workers := 0, g := { n, skip0 := true, wakeup } } (Futex.exec { workers := 0, g := { n, skip0 := true, wakeup } } w l) a := by
        simp [Futex.exec, List.foldl_append]
      rw [e, Futex.step_item, h2]
      refine ⟨sched ++ [Futex.proj { workers := 0, g := { n, skip0 := true, wakeup } } (Futex.exec { workers := 0, g := { n, skip0 := true, wakeup } } w l) a], ?_, by
        simp [Counter.exec, List.foldl_append]⟩
      intro b hb c hc
      rcases List.mem_append.1 hb with hb | hb
      · exact h1 b hb c hc
      · rw [List.mem_singleton.1 hb] at hc
        left
        cases a with
        | caller S => simp only [Futex.proj] at hc; split at hc <;> cases hc; rfl
        | spurious d => cases hc
        | worker d =>
          simp only [Futex.proj] at hc
          rw [if_pos (by omega)] at hc; cases hc
  obtain ⟨sched, h1, h2⟩ := key
  rw [h2]
  exact Counter.stuck rfl hn sched h1

/-- Case: four CPUs, every creation fails (a limit on the number of processes of the user); 8 tasks. -/
example (w : Nat → Futex.Worker) (l : List Futex.Act) :
    (Futex.exec { workers := (created (procCount fun i => decide (i < 4)) fun _ => false).length, g := { n := 8, skip0 := true, wakeup := 3 } } w l).item.pc 0 ≠ .returned :=
  C109_none_violated _ _ (fun _ _ => rfl) 8 3 (by decide) w l

private theorem futex_trace_exec (k : Futex.Cfg) (w : Nat → Futex.Worker) (σ : Nat → Futex.Act) : ∀ t, Futex.trace k w σ t = Futex.exec k w ((List.range t).map σ)
  | 0 => rfl
  | t + 1 => by
    rw [Futex.trace, futex_trace_exec k w σ t, List.range_succ, List.map_append]
    simp [Futex.exec, List.foldl_append]

/-- **C109**, exactly, for parallel sorts (three or more CPUs, no request for fewer than two workers, at least one task): in a schedule in which the caller and the workers
that exist keep running, the sort returns if and only if at least one worker thread could be created. -/
theorem C109_sorts_iff_partial (cpus : Nat → Bool) (hc : cpusSeen cpus = 0 ∨ 3 ≤ cpusSeen cpus) (hooked dflt)
    (h : List Spec.SetCall) (hk : ∀ k, Spec.SetCall.setWorkers k ∈ h → 2 ≤ k) (ok : Nat → Bool)
    (n : Nat) (hn : 0 < n) (w : Nat → Futex.Worker) (hw : Futex.Before w) (σ : Nat → Futex.Act) :
    let k : Futex.Cfg := { workers := (created (procCount cpus) ok).length,
                           g := { n, skip0 := true, wakeup := (Settings.run (cfg cpus hooked dflt) h).wake.toNat } }
    Futex.Fair k w σ → ((∃ t, (Futex.trace k w σ t).item.pc 0 = .returned) ↔ ∃ i, i < procCount cpus ∧ ok i = true) := by
  intro k hf
  constructor
  · rintro ⟨t, ht⟩
    by_contra hno
    rw [futex_trace_exec] at ht
    exact C109_none_violated cpus ok (fun i hi => by
      by_contra h'
      exact hno ⟨i, hi, by simpa using h'⟩) n _ hn w _ ht
  · rintro ⟨i, hi, hok⟩
    obtain ⟨t, ht, -⟩ := C109_sorts_return_partial cpus hc hooked dflt h hk ok i hi hok n w hw σ hf
    exact ⟨t, ht⟩

/-- Case: four CPUs and no worker; the caller keeps running and the sort does not return. -/
example : ¬ ∃ t, (Futex.trace { workers := 0, g := { n := 8, skip0 := true, wakeup := 3 } } (fun _ => .asleep) (fun _ => .caller fun _ => false) t).item.pc 0 = .returned := by
  have hp : procCount (fun i => decide (i < 4)) = 4 := by rw [C72_worker_count_partial]; decide
  have := C109_sorts_iff_partial (fun i => decide (i < 4)) (.inr (by decide)) (fun _ _ => true) (fun _ => 3) [] (by simp)
    (fun _ => false) 8 (by decide) (fun _ => .asleep) (fun _ => .inr (.inr rfl)) (fun _ => .caller fun _ => false)
  have hw : (Settings.run (cfg (fun i => decide (i < 4)) (fun _ _ => true) fun _ => 3) []).wake = 3 := by
    simp [Settings.run, Settings.init, cfg, hp]
  have hcr : (created 4 fun _ => false).length = 0 := by decide
  simp only [hp, hw, hcr] at this
  refine fun hr => ?_
  refine absurd ((this ?_).1 hr) (by simp)
  · refine ⟨fun t => ⟨t, Nat.le_refl t, fun _ => false, rfl, fun _ => ⟨by simp, rfl, ?_⟩⟩, ?_⟩
    · intro c h4 h3
      simp only at h3
      omega
    · intro c h1 h3
      simp only at h3
      omega

end Pnumpy.Props
