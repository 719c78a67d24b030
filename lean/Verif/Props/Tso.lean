import Verif.Spec.Memory
import Verif.Proofs.TsoLive
/-
Property theorems C76: threaded element-wise calls on a processor with store buffers.
-/
namespace Pnumpy.Props
open Spec Work Pnumpy.Tso

variable {V : Type}

theorem load_lastStored (l : List (Nat × V)) : ∀ (mem : Nat → V) (a : Nat), load mem l a = lastStored mem l a := by
  induction l with
  | nil => intro mem a; rfl
  | cons p l ih =>
    intro mem a
    rw [load, ih]
    unfold lastStored
    rw [List.reverse_cons, List.find?_append]
    cases h : l.reverse.find? fun q => decide (q.1 = a) with
    | some q => rfl
    | none =>
      simp only [Option.none_or, List.find?_cons, List.find?_nil]
      by_cases hp : p.1 = a
      · simp [hp]
      · simp [hp, Ne.symm hp]

theorem applyAll_lastStored (l : List (Nat × V)) (mem : Nat → V) : applyAll mem l = lastStored mem l := by
  funext a; rw [← load_eq, load_lastStored]

/-- The call's work item is not visible yet: its number is not in memory and not among the caller's earlier stores. -/
def Unpublished (mem : Nat → V) (before : List (Nat × V)) (flag : Nat × V) : Prop :=
  mem flag.1 ≠ flag.2 ∧ ∀ p ∈ before, p.1 ≠ flag.1

/-- C76: whatever the length, the number of threads, the interleaving (down to single elements) and the delay of every store, and whatever stores
of the caller were still on their way when it made the call: when the call has returned, every output cell holds in memory the
operation applied to what the caller saw in the input cells when it made the call; every other cell holds what the caller last
stored there; and no store of any thread is still on its way. The output cells must be different from each other, and no element
may read another element's output cell (an array may be its own output). -/
theorem C76_results_visible [DecidableEq V] (n : Nat) (req : Int) (maxWakeup zz : Nat) (job : Job V) (mem : Nat → V) (before : List (Nat × V)) (flag : Nat × V)
    (hinj : ∀ i j, i < n → j < n → job.out i = job.out j → i = j) (hapart : ∀ i j, i < n → j < n → job.out j ∈ job.ins i → i = j)
    (hu : Unpublished mem before flag) (acts : List Act)
    (hret : (exec (ufuncItem n req maxWakeup zz) job mem before flag acts).ctl.pc 0 = .returned) :
    (∀ i, i < n → (exec (ufuncItem n req maxWakeup zz) job mem before flag acts).mem (job.out i) =
      job.f ((job.ins i).map (lastStored mem (before ++ [flag])))) ∧
    (∀ a, (∀ i, i < n → a ≠ job.out i) → (exec (ufuncItem n req maxWakeup zz) job mem before flag acts).mem a = lastStored mem (before ++ [flag]) a) ∧
    ∀ c, (exec (ufuncItem n req maxWakeup zz) job mem before flag acts).buf c = [] := by
  have wf := setup_wf n req maxWakeup CHUNK true zz
  have h2 := inv2_exec (n := n) (req := req) (mw := maxWakeup) (zz := zz) ⟨hinj, hapart⟩ hu.2 hu.1 acts
  generalize exec (ufuncItem n req maxWakeup zz) job mem before flag acts = s at *
  rcases h2 with h | h
  · rw [h.ctl] at hret; cases hret
  rw [applyAll_lastStored] at h
  have hfull : ∀ b, b < (ufuncItem n req maxWakeup zz).blockLast → b ∈ s.ctl.doneL := by
    have hc := h.work.retDone 0 hret
    rw [← h.work.doneLen] at hc
    exact nodup_full h.work.doneNodup (fun b hb => Inv.claimed_lt wf (h.work.logClaimed b (h.work.doneLog b hb))) hc
  have hbuf : ∀ c, s.buf c = [] := by
    intro c
    cases hb : s.buf c with
    | nil => rfl
    | cons p l =>
      obtain ⟨i, _, _, ha, _⟩ := h.mine c p (by rw [hb]; exact List.mem_cons_self)
      exact absurd (hfull _ (At.lt wf h.work ha)) (At.not_done h.work ha)
  refine ⟨fun i hi => ?_, h.rest, hbuf⟩
  have hb : i / 16384 < (ufuncItem n req maxWakeup zz).blockLast := by rw [blockLast_generic]; omega
  rcases h.new i hi (Or.inl (hfull _ hb)) with hm | ⟨c, hc⟩
  · exact hm
  · rw [hbuf c] at hc; cases hc

/-- C76, at every moment of the call: a worker that has entered the call sees in every cell that is not an output cell what the caller last
stored there - the input arrays, the fields of the work item, the callback argument. -/
theorem C76_published [DecidableEq V] (n : Nat) (req : Int) (maxWakeup zz : Nat) (job : Job V) (mem : Nat → V) (before : List (Nat × V)) (flag : Nat × V)
    (hinj : ∀ i j, i < n → j < n → job.out i = job.out j → i = j) (hapart : ∀ i j, i < n → j < n → job.out j ∈ job.ins i → i = j)
    (hu : Unpublished mem before flag) (acts : List Act) (c : Nat) (hc : 1 ≤ c)
    (hin : (exec (ufuncItem n req maxWakeup zz) job mem before flag acts).ctl.pc c ≠ .idle) (a : Nat) (ha : ∀ i, i < n → a ≠ job.out i) :
    load (exec (ufuncItem n req maxWakeup zz) job mem before flag acts).mem ((exec (ufuncItem n req maxWakeup zz) job mem before flag acts).buf c) a =
      lastStored mem (before ++ [flag]) a := by
  have h2 := inv2_exec (n := n) (req := req) (mw := maxWakeup) (zz := zz) ⟨hinj, hapart⟩ hu.2 hu.1 acts
  generalize exec (ufuncItem n req maxWakeup zz) job mem before flag acts = s at *
  rcases h2 with h | h
  · rw [h.ctl] at hin
    exact absurd (if_neg (by omega)) hin
  · rw [applyAll_lastStored] at h
    rw [load_not_mem, h.rest a ha]
    intro p hp he
    obtain ⟨i, hi, rfl, _⟩ := h.mine c p hp
    exact ha i hi he.symm

/-- C76, at every moment of the call: memory never holds anything but the value from before the call or the final result in an output cell,
once the item is published. -/
theorem C76_old_or_new [DecidableEq V] (n : Nat) (req : Int) (maxWakeup zz : Nat) (job : Job V) (mem : Nat → V) (before : List (Nat × V)) (flag : Nat × V)
    (hinj : ∀ i j, i < n → j < n → job.out i = job.out j → i = j) (hapart : ∀ i j, i < n → j < n → job.out j ∈ job.ins i → i = j)
    (hflag : ∀ i, i < n → job.out i ≠ flag.1)
    (hu : Unpublished mem before flag) (acts : List Act)
    (hp : (exec (ufuncItem n req maxWakeup zz) job mem before flag acts).mem flag.1 = flag.2) (i : Nat) (hi : i < n) :
    (exec (ufuncItem n req maxWakeup zz) job mem before flag acts).mem (job.out i) = lastStored mem (before ++ [flag]) (job.out i) ∨
    (exec (ufuncItem n req maxWakeup zz) job mem before flag acts).mem (job.out i) = job.f ((job.ins i).map (lastStored mem (before ++ [flag]))) := by
  have hl : Layout n job := ⟨hinj, hapart⟩
  have key : ∀ (acts : List Act) (s : St V), (Inv2 n (ufuncItem n req maxWakeup zz) job mem before flag s ∧
      (s.mem flag.1 = flag.2 → s.mem (job.out i) = lastStored mem (before ++ [flag]) (job.out i) ∨ s.mem (job.out i) = val job (lastStored mem (before ++ [flag])) i)) →
      ((acts.foldl (step (ufuncItem n req maxWakeup zz) job flag) s).mem flag.1 = flag.2 →
        (acts.foldl (step (ufuncItem n req maxWakeup zz) job flag) s).mem (job.out i) = lastStored mem (before ++ [flag]) (job.out i) ∨
        (acts.foldl (step (ufuncItem n req maxWakeup zz) job flag) s).mem (job.out i) = val job (lastStored mem (before ++ [flag])) i) := by
    intro acts
    induction acts with
    | nil => intro s h; exact h.2
    | cons a acts ih =>
      intro s h
      refine ih _ ⟨inv2_step hl hu.2 hu.1 h.1 a, fun hf => ?_⟩
      have hn := inv2_step hl hu.2 hu.1 h.1 a
      rcases h.1 with hA | hB
      · -- the item is published by this step, or not yet
        rcases hn with hA' | hB'
        · exfalso
          obtain ⟨done, left, h1, h2, h3⟩ := hA'.buf
          rw [h3, applyAll_not_mem (fun p hp => hu.2 p (by rw [h1]; exact List.mem_append.2 (Or.inl hp)))] at hf
          exact hu.1 hf
        · rw [applyAll_lastStored] at hB'
          refine Or.inl (hB'.old i hi ?_)
          have hctl : (step (ufuncItem n req maxWakeup zz) job flag s a).ctl = Work.init ∨ ¬ Issued (step (ufuncItem n req maxWakeup zz) job flag s a) i := by
            rw [step_ctl, hA.ctl]
            cases a with
            | drain c => exact Or.inl (work_stutter _ _ (Nat.lt_succ_self _))
            | go c =>
              refine Or.inr ?_
              rintro (hd | ⟨d, hd, hlt⟩)
              · rw [step_ctl, hA.ctl, step_doneL] at hd
                · cases hd
                · intro b hb; unfold Work.init at hb; simp only at hb; split at hb <;> cases hb
              · rw [step_ctl, hA.ctl] at hd
                by_cases hdc : d = who (ufuncItem n req maxWakeup zz) flag s (.go c)
                · by_cases hw : (ufuncItem n req maxWakeup zz).wakeup < d
                  · rw [← hdc, work_stutter _ _ hw] at hd
                    rcases hd with hd | hd <;> (unfold Work.init at hd; simp only at hd; split at hd <;> cases hd)
                  · rw [← hdc] at hd
                    refine step_not_at hw ?_ ?_ _ hd
                    · rintro b (hb | hb) <;> (unfold Work.init at hb; simp only at hb; split at hb <;> cases hb)
                    · intro ch p hb; unfold Work.init at hb; simp only at hb; split at hb <;> cases hb
                · rw [step_other _ _ hdc] at hd
                  rcases hd with hd | hd <;> (unfold Work.init at hd; simp only at hd; split at hd <;> cases hd)
          rcases hctl with hctl | hni
          · rintro (hd | ⟨d, hd, _⟩)
            · rw [hctl] at hd; cases hd
            · rw [hctl] at hd
              rcases hd with hd | hd <;> (unfold Work.init at hd; simp only at hd; split at hd <;> cases hd)
          · exact hni
      · rw [applyAll_lastStored] at hB
        have hold := h.2 (by
          have : s.mem flag.1 = lastStored mem (before ++ [flag]) flag.1 := hB.rest _ (fun i hi e => hflag i hi e.symm)
          rw [this]
          unfold lastStored
          simp)
        cases a with
        | go c =>
          have : (step (ufuncItem n req maxWakeup zz) job flag s (.go c)).mem = s.mem := by
            unfold Tso.step
            simp only
            split
            · rfl
            · split <;> split <;> rfl
          rw [this]; exact hold
        | drain c =>
          unfold Tso.step
          simp only
          split
          · exact hold
          · rename_i x v l hb
            obtain ⟨j, hj, he, _, _⟩ := hB.mine c (x, v) (by rw [hb]; exact List.mem_cons_self)
            obtain ⟨rfl, rfl⟩ := Prod.mk.inj he
            show (if job.out i = job.out j then _ else s.mem (job.out i)) = _ ∨ (if job.out i = job.out j then _ else s.mem (job.out i)) = _
            by_cases hij : i = j
            · subst hij; rw [if_pos rfl]; exact Or.inr rfl
            · rw [if_neg (fun e => hij (hinj i j hi hj e))]; exact hold
  exact key acts _ ⟨Or.inl (invA_init mem before flag), fun h => absurd h hu.1⟩ hp

/-- C76: the call returns in every run in which the caller keeps being scheduled, no thread is suspended for ever in the middle of a block, and
no store stays in its buffer for ever. Workers may be starved otherwise. -/
theorem C76_returns [DecidableEq V] (n : Nat) (req : Int) (maxWakeup zz : Nat) (job : Job V) (mem : Nat → V) (before : List (Nat × V)) (flag : Nat × V)
    (σ : Nat → Act)
    (hcaller : ∀ t, ∃ t', t ≤ t' ∧ σ t' = .go 0)
    (hbusy : ∀ t c, ((trace (ufuncItem n req maxWakeup zz) job mem before flag σ t).ctl.pc c).busy = true → ∃ t', t ≤ t' ∧ σ t' = .go c)
    (hdrain : ∀ t c, (trace (ufuncItem n req maxWakeup zz) job mem before flag σ t).buf c ≠ [] → ∃ t', t ≤ t' ∧ σ t' = .drain c) :
    ∃ t, (trace (ufuncItem n req maxWakeup zz) job mem before flag σ t).ctl.pc 0 = .returned := by
  have wf := setup_wf n req maxWakeup CHUNK true zz
  have h : ∃ t, (Work.trace (ufuncItem n req maxWakeup zz) (fun t => who (ufuncItem n req maxWakeup zz) flag (trace (ufuncItem n req maxWakeup zz) job mem before flag σ t) (σ t)) t).pc 0 = .returned := by
    refine live wf ⟨fun t => ?_, fun t c hb => ?_⟩
    · refine moves (Nat.zero_le _) rfl ?_ (fun u _ _ => hcaller u) (fun u hu => hdrain u 0 hu)
      rw [trace_ctl]
      exact (inv_trace wf _ t).mainNotIdle
    · have hb' : ((trace (ufuncItem n req maxWakeup zz) job mem before flag σ t).ctl.pc c).busy = true := by rw [trace_ctl]; exact hb
      have hcw : c ≤ (ufuncItem n req maxWakeup zz).wakeup := by
        refine Nat.le_of_not_lt fun hlt => ?_
        rw [(inv_trace wf _ t).coreRange c hlt] at hb
        cases hb
      refine moves hcw rfl ?_ (fun u _ he => hbusy u c (by rw [he]; exact hb')) (fun u hu => hdrain u c hu)
      intro he; rw [he] at hb'; cases hb'
  obtain ⟨t, ht⟩ := h
  exact ⟨t, by rw [trace_ctl]; exact ht⟩

/-- In-place negation of three numbers: cell `i` is element `i`, cell 100 publishes the item. -/
def negateJob : Job Int := { ins := fun i => [i], out := fun i => i, f := fun l => -(l.headD 0) }

/-- A run meeting the hypotheses of C76_results_visible: the store of 7 into the input cell 1 is still on its way when the call is made; worker 1 takes the block, its
stores reach memory only after the caller waits; then the caller returns. -/
def negateRun : List Act :=
  [.drain 0, .drain 0] ++ List.replicate 8 (.go 1) ++ List.replicate 8 (.go 0) ++ [.drain 1, .go 1, .drain 1, .drain 1] ++ List.replicate 4 (.go 1) ++ List.replicate 3 (.go 0)

example : Unpublished (fun a => if a = 100 then 0 else (a : Int)) [(1, 7)] (100, 1) := ⟨by decide, by decide⟩
example : (exec (ufuncItem 3 0 1 0) negateJob (fun a => if a = 100 then 0 else (a : Int)) [(1, 7)] (100, 1) negateRun).ctl.pc 0 = .returned := by decide
example : (exec (ufuncItem 3 0 1 0) negateJob (fun a => if a = 100 then 0 else (a : Int)) [(1, 7)] (100, 1) negateRun).mem 1 = -7 := by decide

end Pnumpy.Props
