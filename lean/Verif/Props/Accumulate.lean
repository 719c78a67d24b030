import Verif.Model.Accumulate
import Verif.Spec.Accumulate
import Verif.Proofs.Elementwise
import Verif.Props.Work
/-
Property theorems C10: accumulate.
-/
namespace Pnumpy.Props
open Pnumpy.Spec Pnumpy.Elem Pnumpy.Accum
variable {α : Type}

/-- `accFrom f v a i`: start with `v`, then combine with `a 1 .. a i`. -/
theorem scalarLoop_succ (a1 a2 o : Nat → Int) (start cnt : Nat) :
    scalarLoop a1 a2 o start (cnt + 1) = scalarLoop a1 a2 o start cnt ++
      [.load (start + cnt) (a1 (start + cnt)) (a2 (start + cnt)), .store (start + cnt) (o (start + cnt))] := by
  unfold scalarLoop
  rw [List.range_succ, List.flatMap_append]
  simp

theorem run_pair (f : α → α → α) (s : MState α) (tag l : Nat) (x y a : Int) :
    ∃ s', run f s [(tag, .load l x y), (tag, .store l a)] = some s' ∧
      ∀ a', s'.mem a' = if a' = a then f (s.mem x) (s.mem y) else s.mem a' := by
  refine ⟨_, by simp [run, stepAcc]; rfl, fun _ => rfl⟩

/-- Running numpy's sequential loop for an accumulate from element `b` on. -/
theorem run_acc (f : α → α → α) (pin si po so : Int) (tag : Nat) (b : Nat) (s : MState α) :
    ∀ (cnt : Nat),
    (∀ i j : Nat, i ≤ b + cnt → j ≤ b + cnt → i ≠ j →
      po + so * i ≠ po + so * j ∧ po + so * i ≠ pin + si * j) →
    ∃ s', run f s ((scalarLoop (strided ((accArgs pin si po so).at b).p1 so)
        (strided ((accArgs pin si po so).at b).p2 si) (strided ((accArgs pin si po so).at b).po so) 0 cnt).map
        fun e => (tag, e)) = some s' ∧
      (∀ i : Nat, i ≤ cnt → s'.mem (po + so * ((b + i : Nat) : Int)) =
        accSpec f (fun j => if j = 0 then s.mem (po + so * (b : Int))
          else s.mem (pin + si * ((b + j : Nat) : Int))) i) ∧
      (∀ a, (∀ i : Nat, 1 ≤ i → i ≤ cnt → a ≠ po + so * ((b + i : Nat) : Int)) → s'.mem a = s.mem a)
  | 0, _ => by
    refine ⟨s, rfl, ?_, fun _ _ => rfl⟩
    intro i hi
    have : i = 0 := by omega
    subst this
    simp [accSpec]
  | cnt + 1, hd => by
    obtain ⟨s', hr, hv, hu⟩ := run_acc f pin si po so tag b s cnt
      (fun i j hi hj => hd i j (by omega) (by omega))
    rw [scalarLoop_succ, List.map_append, run_append, hr]
    have e1 : strided ((accArgs pin si po so).at b).p1 so (0 + cnt) = po + so * ((b + cnt : Nat) : Int) := by
      simp only [strided, accArgs, Args.at]; rw [Int.natCast_add, Int.natCast_add, Int.mul_add, Int.mul_add]; omega
    have e2 : strided ((accArgs pin si po so).at b).p2 si (0 + cnt) = pin + si * ((b + (cnt + 1) : Nat) : Int) := by
      simp only [strided, accArgs, Args.at]
      rw [Int.natCast_add, Int.natCast_add, Int.natCast_add, Int.mul_add, Int.mul_add, Int.mul_add]; omega
    have e3 : strided ((accArgs pin si po so).at b).po so (0 + cnt) = po + so * ((b + (cnt + 1) : Nat) : Int) := by
      simp only [strided, accArgs, Args.at]
      rw [Int.natCast_add, Int.natCast_add, Int.natCast_add, Int.mul_add, Int.mul_add, Int.mul_add]; omega
    rw [e1, e2, e3]
    have hin : s'.mem (pin + si * ((b + (cnt + 1) : Nat) : Int)) = s.mem (pin + si * ((b + (cnt + 1) : Nat) : Int)) := by
      refine hu _ fun i h1 h2 => ?_
      exact Ne.symm (hd (b + i) (b + (cnt + 1)) (by omega) (by omega) (by omega)).2
    obtain ⟨s2, hr2, hm2⟩ := run_pair f s' tag (0 + cnt) (po + so * ((b + cnt : Nat) : Int))
      (pin + si * ((b + (cnt + 1) : Nat) : Int)) (po + so * ((b + (cnt + 1) : Nat) : Int))
    refine ⟨s2, hr2, ?_, ?_⟩
    · intro i hi
      rw [hm2]
      by_cases hlast : i = cnt + 1
      · subst hlast
        rw [if_pos rfl, hin, hv cnt (by omega)]
        simp [accSpec]
      · have hne := (hd (b + i) (b + (cnt + 1)) (by omega) (by omega) (by omega)).1
        rw [if_neg hne]
        exact hv i (by omega)
    · intro a ha
      rw [hm2, if_neg (ha (cnt + 1) (by omega) (by omega))]
      exact hu a fun i h1 h2 => ha i h1 (by omega)

/-- With these arguments every arithmetic kernel is the plain loop: either the guard fires or the
output stride is not the contiguous one. -/
theorem binaryLoop_acc (enabled : Bool) (k : Kernel) (hv : k.Valid) (hk : isArith k = true)
    (hsz : ∀ z, (k = .slow z ∨ k = .fastDouble z) → 0 < z ∧ z < 64) (pin si po so : Int) (b n : Nat) :
    binaryLoop enabled k (overlapGuard (accArgs pin si po so)) ((accArgs pin si po so).at b) n =
      scalarLoop (strided ((accArgs pin si po so).at b).p1 so)
        (strided ((accArgs pin si po so).at b).p2 si) (strided ((accArgs pin si po so).at b).po so) 0 n := by
  unfold binaryLoop
  split
  · rename_i h
    simp only [Bool.and_eq_true, Bool.not_eq_true'] at h
    have hg := h.2
    have hso : ¬ (0 < so ∧ so < 64) := by
      intro hs
      have : overlapGuard (accArgs pin si po so) = true := by
        unfold overlapGuard accArgs
        simp only [Bool.or_eq_true, Bool.and_eq_true, decide_eq_true_eq]
        left; omega
      rw [this] at hg; cases hg
    have hne : ∀ z : Nat, 0 < z → z < 64 → so ≠ (z : Int) := fun z _ _ hz => hso (by omega)
    cases k <;> simp only [isArith, Bool.false_eq_true] at hk
    · rename_i z
      have := hne z (hsz z (Or.inl rfl)).1 (hsz z (Or.inl rfl)).2
      exact if_neg this
    · rename_i z
      have := hne z (by simp only [Kernel.Valid] at hv; omega) (by simp only [Kernel.Valid] at hv; omega)
      exact if_neg this
    · rename_i z
      have := hne z (by simp only [Kernel.Valid] at hv; omega) (by simp only [Kernel.Valid] at hv; omega)
      exact if_neg this
    · have := hne 8 (by omega) (by omega)
      exact if_neg this
  · rfl

/-- **C10** (not threaded): accumulate over `n` elements returns the prefix combinations, for every
kernel, stride and operation, whether pnumpy is enabled or not; nothing else changes.  The output may
be separate or exactly alias the input. The threaded case is `C10_threaded_violated`. -/
theorem C10_serial_partial (enabled : Bool) (k : Kernel) (hv : k.Valid) (hk : isArith k = true)
    (hsz : ∀ z, (k = .slow z ∨ k = .fastDouble z) → 0 < z ∧ z < 64)
    (f : α → α → α) (pin si po so : Int) (n : Nat) (m : Int → α) (h0 : m po = m pin)
    (hd : ∀ i j : Nat, i < n + 1 → j < n + 1 → i ≠ j →
      po + so * i ≠ po + so * j ∧ po + so * i ≠ pin + si * j) :
    ∃ m', runMem f m (serialAcc enabled k (accArgs pin si po so) n) = some m' ∧
      (∀ i : Nat, i < n + 1 → m' (po + so * i) = accSpec f (fun j => m (pin + si * j)) i) ∧
      (∀ a, (∀ i : Nat, i < n + 1 → a ≠ po + so * i) → m' a = m a) := by
  unfold serialAcc
  have hb := binaryLoop_acc enabled k hv hk hsz pin si po so 0 n
  have hat : (accArgs pin si po so).at 0 = accArgs pin si po so := by
    simp [Args.at, accArgs]
  rw [hat] at hb
  rw [hb]
  obtain ⟨s', hr, hval, hun⟩ := run_acc f pin si po so 0 0 ⟨m, fun _ _ => none⟩ n
    (fun i j hi hj => hd i j (by omega) (by omega))
  rw [hat] at hr
  refine ⟨s'.mem, by simp only [runMem]; rw [hr]; rfl, ?_, ?_⟩
  · intro i hi
    have := hval i (by omega)
    simp only [Nat.zero_add] at this
    rw [this]
    congr 1
    funext j
    split
    · rename_i hj; subst hj; simpa using h0
    · rfl
  · intro a ha
    exact hun a fun i _ h2 => by simpa using ha i (by omega)

/-- Non-vacuity: cumulative sum of int64 into a fresh array, and the values for `1,2,3`. -/
example : isArith (.symmetric 8) = true ∧ (∀ i j : Nat, i < 101 → j < 101 → i ≠ j →
    (4000 : Int) + 8 * i ≠ 4000 + 8 * j ∧ (4000 : Int) + 8 * i ≠ 0 + 8 * j) :=
  ⟨rfl, fun i j _ _ _ => by omega⟩
example : accSpec (fun x y : Int => x + y) (fun i => (i : Int) + 1) 2 = 6 := by decide

/-- A schedule of the block distribution for 65536 elements with one worker: the worker takes and runs
block 1 before the caller runs block 0. -/
def badSched : List Nat := [1, 1, 1, 1, 1] ++ alternate 30

theorem badSched_log : (Work.exec (ufuncItem 65536 0 1 0) badSched).pc 0 = .returned ∧
    (Work.kernelCalls (ufuncItem 65536 0 1 0) (Work.exec (ufuncItem 65536 0 1 0) badSched)).reverse =
      [(16384, 16384), (0, 16384), (49152, 16384), (32768, 16384)] := by
  constructor <;> decide +kernel

/-- **C10 violated** when threaded (65537 elements or more, e.g. `np.cumsum` / `np.add.accumulate` of an int64
array): there is a complete run of the threaded call, blocks executed in the order in which the
threads took them, in which element 16385 is computed from the *uninitialised* output cell 16384;
the result is not the prefix sum. -/
theorem C10_threaded_violated :
    ∃ sched, (Work.exec (ufuncItem 65536 0 1 0) sched).pc 0 = .returned ∧
    ∃ (m m' : Int → Int), m 1000000 = m 0 ∧
      runMem (fun x y => x + y) m (blocksInOrder true (.symmetric 8) (accArgs 0 8 1000000 8)
        (Work.kernelCalls (ufuncItem 65536 0 1 0) (Work.exec (ufuncItem 65536 0 1 0) sched)).reverse) = some m' ∧
      m' (1000000 + 8 * ((16385 : Nat) : Int)) ≠
        accSpec (fun x y => x + y) (fun j => m (0 + 8 * (j : Int))) 16385 := by
  refine ⟨badSched, badSched_log.1, ?_⟩
  rw [badSched_log.2]
  let m : Int → Int := fun a => if a = 1000000 + 8 * 16384 then 7 else 0
  have hloop := fun b n => binaryLoop_acc true (.symmetric 8) (by simp [Kernel.Valid]) rfl
    (by intro z h; rcases h with h | h <;> cases h) 0 8 1000000 8 b n
  have hd : ∀ b cnt, b + cnt ≤ 65536 → ∀ i j : Nat, i ≤ b + cnt → j ≤ b + cnt → i ≠ j →
      (1000000 : Int) + 8 * i ≠ 1000000 + 8 * j ∧ (1000000 : Int) + 8 * i ≠ 0 + 8 * j := by
    intro b cnt hb i j hi hj hne; omega
  obtain ⟨s1, r1, v1, u1⟩ := run_acc (fun x y : Int => x + y) 0 8 1000000 8 0 16384
    ⟨m, fun _ _ => none⟩ 16384 (hd _ _ (by omega))
  obtain ⟨s2, r2, v2, u2⟩ := run_acc (fun x y : Int => x + y) 0 8 1000000 8 1 0 s1 16384
    (hd _ _ (by omega))
  obtain ⟨s3, r3, v3, u3⟩ := run_acc (fun x y : Int => x + y) 0 8 1000000 8 2 49152 s2 16384
    (hd _ _ (by omega))
  obtain ⟨s4, r4, v4, u4⟩ := run_acc (fun x y : Int => x + y) 0 8 1000000 8 3 32768 s3 16384
    (hd _ _ (by omega))
  refine ⟨m, s4.mem, by decide, ?_, ?_⟩
  · unfold runMem blocksInOrder
    simp only [List.zipIdx_cons, List.zipIdx_nil, List.flatMap_cons, List.flatMap_nil, List.append_nil,
      hloop, run_append]
    simp only [Nat.zero_add, Nat.reduceAdd]
    rw [r1, Option.bind_some, r2, Option.bind_some, r3, Option.bind_some, r4]
    rfl
  · rw [u4 _ (by intro i h1 h2; omega), u3 _ (by intro i h1 h2; omega), u2 _ (by intro i h1 h2; omega)]
    have hv := v1 1 (by omega)
    have hcast : ((16384 + 1 : Nat) : Int) = ((16385 : Nat) : Int) := rfl
    rw [hcast] at hv
    rw [hv]
    have hz : ∀ k : Nat, k ≤ 16385 → accSpec (fun x y : Int => x + y) (fun j => m (0 + 8 * (j : Int))) k = 0 := by
      intro k hk
      have hm : ∀ j : Nat, j ≤ 16385 → m (0 + 8 * (j : Int)) = 0 := by
        intro j hj
        show (if _ then _ else _) = _
        rw [if_neg (by omega)]
      induction k with
      | zero => exact hm 0 (by omega)
      | succ k ih => simp only [accSpec]; rw [ih (by omega), hm (k + 1) hk]; rfl
    rw [hz 16385 (by omega)]
    simp [accSpec, m]

end Pnumpy.Props
