import Verif.Model.Slots
import Verif.Props.ThreadSetup
/-
Property theorems C93: no threaded call uses more per-thread entries than a work item has.
-/
namespace Pnumpy.Props
open Pnumpy.ThreadSetup (cfg procCount)

/-- After every history of settings calls, the wake count is between 0 and one less than the number of workers. -/
theorem wake_bounds (c : Settings.Cfg) (hW : 1 ≤ c.W) : ∀ h : List Spec.SetCall,
    0 ≤ (Settings.run c h).wake ∧ (Settings.run c h).wake ≤ c.W - 1 := by
  intro h
  induction h with
  | nil => simp only [Settings.run, Settings.init]; split <;> omega
  | cons x h ih =>
    cases x with
    | setWorkers k =>
      simp only [Settings.run, Settings.step, Settings.clampWake]
      split_ifs <;> omega
    | atopSetWorkers n d k => simp only [Settings.run, Settings.step]; split_ifs <;> exact ih
    | zigzag => simp only [Settings.run, Settings.step]; split_ifs <;> exact ih
    | _ => exact ih

theorem procCount_bounds (cpus : Nat → Bool) : 1 ≤ procCount cpus ∧ procCount cpus ≤ 15 := by
  rw [C72_worker_count_partial]; split <;> omega

/-- A claimed block lies in a channel of the item. -/
theorem bump_channel (it : Work.Item) (sched : List Nat) :
    ∀ c ch pos, (Work.exec it sched).pc c = .bump ch pos → ch ≤ it.wakeup := by
  unfold Work.exec
  rw [← List.reverse_reverse sched, List.foldl_reverse]
  generalize sched.reverse = l
  induction l with
  | nil => intro c ch pos h; simp only [List.foldr, Work.init] at h; split at h <;> cases h
  | cons d l ih =>
    intro c ch pos
    rw [List.foldr_cons]
    generalize List.foldr (fun x y => Work.step it y x) Work.init l = s at ih ⊢
    unfold Work.step Work.tryClaim
    by_cases hd : it.wakeup < d
    · rw [if_pos hd]; exact ih c ch pos
    · rw [if_neg hd]
      by_cases hcd : c = d
      · subst hcd
        cases hp : s.pc c with
        | own => simp only [Work.upd, if_true]; split <;> intro h <;> cases h; omega
        | scan i =>
          simp only
          split
          · simp [Work.upd]
          · split
            · simp [Work.upd]
            · simp only [Work.upd, if_true]; split <;> intro h <;> cases h; omega
        | wait => simp only; split
                  · intro h; rw [hp] at h; cases h
                  · simp [Work.upd]
        | returned => intro h; rw [hp] at h; cases h
        | check => simp only [Work.upd, if_true]; split <;> intro h <;> cases h
        | ret => simp only [Work.upd, if_true]; split <;> intro h <;> cases h
        | _ => simp [Work.upd]
      · cases hp : s.pc d <;> simp only [Work.upd, if_neg hcd]
        case scan i => split
                       · simpa only [Work.upd, if_neg hcd] using ih c ch pos
                       · split <;> simpa only [Work.upd, if_neg hcd] using ih c ch pos
        case wait => split
                     · exact ih c ch pos
                     · simpa only [Work.upd, if_neg hcd] using ih c ch pos
        all_goals exact ih c ch pos

/-- **C93**: on every machine (affinity mask `cpus`), after every history of settings calls, for every threaded call (`n` elements, `req` threads asked
for - `atop_setworkers` allows up to 63 -, any block size and mode, any zigzag word) and every schedule of its threads: every entry of the per-thread array
that the set-up writes and every entry that a thread goes on to access is one of its 16. -/
theorem C93_slots (cpus : Nat → Bool) (hooked dflt) (h : List Spec.SetCall) (n : Nat) (req : Int) (blockSize : Nat) (generic : Bool) (zz : Nat)
    (sched : List Nat) :
    let it := Work.workMainSetup n req (Settings.run (cfg cpus hooked dflt) h).wake.toNat blockSize generic zz
    (∀ i ∈ Slots.setup it, i < 16) ∧
    (∀ c i, Slots.next it (Work.exec it sched) c = some i → i < 16) := by
  intro it
  have hP := procCount_bounds cpus
  have hw := wake_bounds (cfg cpus hooked dflt) (by show (1 : Int) ≤ (procCount cpus : Int); omega) h
  have hwk : it.wakeup ≤ 14 := by
    have h15 : (Settings.run (cfg cpus hooked dflt) h).wake ≤ 14 := by
      have : (cfg cpus hooked dflt).W = (procCount cpus : Int) := rfl
      omega
    show (if req ≤ 0 then _ else _) ≤ 14
    split <;> omega
  refine ⟨fun i hi => ?_, fun c i hi => ?_⟩
  · simp only [Slots.setup, Work.Item.threads, List.mem_append, List.mem_range, List.mem_singleton] at hi
    omega
  · unfold Slots.next at hi
    split at hi
    · cases hi
    · split at hi
      · cases hi; omega
      · next ch pos hp =>
        cases hi
        have := bump_channel it sched c i pos hp
        omega
      · split at hi
        · cases hi
        · split at hi
          · cases hi
          · cases hi; omega
      · cases hi

/-- Non-vacuity: 64 CPUs, `thread_setworkers(100)`, a function set to 63 threads: 15 channels and the marker in the 16th and last entry. -/
example : Slots.setup (Work.workMainSetup 1000000 63 (Settings.run (cfg (fun _ => true) (fun _ _ => true) fun _ => 3) [.setWorkers 100]).wake.toNat
      Work.CHUNK true 0) = List.range 16 ∧ Slots.handles = 16 := by
  have : procCount (fun _ => true) = 15 := by rw [C72_worker_count_partial]; decide
  have e : (Settings.run (cfg (fun _ => true) (fun _ _ => true) fun _ => 3) [.setWorkers 100]).wake = 14 := by
    simp [Settings.run, Settings.step, Settings.clampWake, cfg, this]
  rw [e]; decide
/-- Non-vacuity: a thread that claimed a block, and one about to steal from channel 2. -/
example :
    let it := Work.workMainSetup 100000 3 3 Work.CHUNK true 0
    Slots.next it (Work.exec it [0]) 0 = some 0 ∧ Slots.next it (Work.exec it (List.replicate 25 1)) 1 = some 2 := by decide

end Pnumpy.Props
