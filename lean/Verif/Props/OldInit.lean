import Verif.Model.OldInit
import Verif.Spec.Elementwise
/-
Property theorems C96: what the loop installed by `oldinit` computes.
-/
namespace Pnumpy.Props
open Pnumpy.OldInit Pnumpy.Spec

theorem addLoop_run (is1 is2 os1 : Int) (n : Nat) : ∀ (ip1 ip2 op1 : Int) (m : Mem), SafeOverlap n ip1 is1 ip2 is2 op1 os1 →
    ElementwiseResult (· + ·) n ip1 is1 ip2 is2 op1 os1 m (addLoop is1 is2 os1 n ip1 ip2 op1 m) := by
  induction n with
  | zero =>
    intro ip1 ip2 op1 m _
    exact ⟨fun i h => absurd h (by omega), fun a _ => rfl⟩
  | succ n ih =>
    intro ip1 ip2 op1 m hs
    have shift : ∀ (p s : Int) (i : Nat), p + s + s * i = p + s * ((i + 1 : Nat) : Int) := by
      intro p s i; push_cast; rw [Int.mul_add, Int.mul_one]; omega
    have hs' : SafeOverlap n (ip1 + is1) is1 (ip2 + is2) is2 (op1 + os1) os1 := by
      intro i j hi hj hij
      have := hs (i + 1) (j + 1) (by omega) (by omega) (by omega)
      rw [shift, shift, shift, shift]; exact this
    obtain ⟨h1, h2⟩ := ih (ip1 + is1) (ip2 + is2) (op1 + os1) (fun a => if a = op1 then m ip1 + m ip2 else m a) hs'
    refine ⟨fun i hi => ?_, fun a ha => ?_⟩
    · cases i with
      | zero =>
        rw [addLoop, h2]
        · simp
        · intro i hi
          have := (hs 0 (i + 1) (by omega) (by omega) (by omega)).1
          rw [shift]; simpa using this
      | succ i =>
        have := h1 i (by omega)
        rw [shift, shift, shift] at this
        rw [addLoop, this]
        have e1 := (hs 0 (i + 1) (by omega) (by omega) (by omega)).2.1
        have e2 := (hs 0 (i + 1) (by omega) (by omega) (by omega)).2.2
        show (if ip1 + is1 * ((i + 1 : Nat) : Int) = op1 then _ else _) + (if ip2 + is2 * ((i + 1 : Nat) : Int) = op1 then _ else _) = _
        rw [if_neg (by intro e; apply e1; rw [e]; simp), if_neg (by intro e; apply e2; rw [e]; simp)]
    · rw [addLoop, h2]
      · simp only
        rw [if_neg]
        have := ha 0 (by omega)
        simpa using this
      · intro i hi
        rw [shift]; exact ha (i + 1) (by omega)

theorem sumLoop_run (m : Mem) (is2 : Int) (n : Nat) : ∀ (ip2 : Int) (x : BitVec 32),
    sumLoop m is2 n ip2 x = ((List.range n).map fun i : Nat => m (ip2 + is2 * i)).foldl (· + ·) x := by
  induction n with
  | zero => intro ip2 x; rfl
  | succ n ih =>
    intro ip2 x
    have shift : ∀ (i : Nat), ip2 + is2 + is2 * i = ip2 + is2 * ((i + 1 : Nat) : Int) := by
      intro i; push_cast; rw [Int.mul_add, Int.mul_one]; omega
    rw [sumLoop, ih, List.range_succ_eq_map, List.map_cons, List.foldl_cons, List.map_map]
    simp only [shift, Function.comp_def]
    simp

/-- **C96**, element-wise: after `oldinit("add")`, `np.add` of int32 arrays of any length, position and strides still stores the (wrapped) sums and nothing
else. -/
theorem C96_add_partial (p1 s1 p2 s2 po so : Int) (n : Nat) (m : Mem) (hno : ¬ (p1 = po ∧ s1 = so ∧ s1 = 0)) (hs : SafeOverlap n p1 s1 p2 s2 po so) :
    ∃ m', addT (Operands.args ⟨[(p1, s1), (p2, s2)], (po, so)⟩) (Operands.steps ⟨[(p1, s1), (p2, s2)], (po, so)⟩) n m = some m' ∧
      ElementwiseResult (· + ·) n p1 s1 p2 s2 po so m m' := by
  refine ⟨addLoop s1 s2 so n p1 p2 po m, ?_, addLoop_run _ _ _ _ _ _ _ _ hs⟩
  show (if p1 = po ∧ s1 = so ∧ s1 = 0 then _ else some (addLoop s1 s2 so n p1 p2 po m)) = _
  rw [if_neg hno]

example : SafeOverlap 100 0 4 1000 (-4) 2000 4 := by
  intro i j hi hj hij; omega

/-- **C96**, reduction (first input and output the same cell, stride 0): the cell afterwards holds its old value plus the sum of the array, and nothing else has
changed. -/
theorem C96_reduce_partial (p p2 s2 : Int) (n : Nat) (m : Mem) :
    ∃ m', addT (Operands.args ⟨[(p, 0), (p2, s2)], (p, 0)⟩) (Operands.steps ⟨[(p, 0), (p2, s2)], (p, 0)⟩) n m = some m' ∧
      m' p = ((List.range n).map fun i : Nat => m (p2 + s2 * i)).foldl (· + ·) (m p) ∧ ∀ a, a ≠ p → m' a = m a := by
  refine ⟨fun a => if a = p then sumLoop m s2 n p2 (m p) else m a, ?_, ?_, ?_⟩
  · show (if p = p ∧ (0 : Int) = 0 ∧ (0 : Int) = 0 then _ else _) = _
    rw [if_pos ⟨rfl, rfl, rfl⟩]; rfl
  · simp only [if_true]; exact sumLoop_run m s2 n p2 (m p)
  · intro a ha; simp only [if_neg ha]

/-- Case: np.add.reduce of five numbers at address 100, the sum at address 0. -/
example (m : Mem) : ∃ m', addT (Operands.args ⟨[(0, 0), (100, 4)], (0, 0)⟩) (Operands.steps ⟨[(0, 0), (100, 4)], (0, 0)⟩) 5 m = some m' ∧
    m' 0 = ((List.range 5).map fun i : Nat => m (100 + 4 * i)).foldl (· + ·) (m 0) ∧ ∀ a, a ≠ 0 → m' a = m a :=
  C96_reduce_partial 0 100 4 5 m

/-- **C96 is violated** for other functions of two arguments: after `oldinit("multiply")` the int32 product 2·3 is 5 (and so for every function with an
int32,int32→int32 loop: the loop adds). -/
theorem C96_multiply_violated :
    replaces [5, 5, 5] = true ∧
    (addT (Operands.args ⟨[(0, 4), (4, 4)], (8, 4)⟩) (Operands.steps ⟨[(0, 4), (4, 4)], (8, 4)⟩) 1 (fun a => if a = 0 then 2 else 3)).map (fun m => m 8) =
      some 5#32 ∧ (2 * 3 : BitVec 32) ≠ 5#32 := by
  decide

/-- **C96 is violated** for functions of one argument: `oldinit("negative")` is accepted (numpy compares two types only), and the loop then reads a third
operand, which does not exist, in every call. -/
theorem C96_unary_violated (p s po so : Int) (n : Nat) (m : Mem) :
    replaces [5, 5] = true ∧ addT (Operands.args ⟨[(p, s)], (po, so)⟩) (Operands.steps ⟨[(p, s)], (po, so)⟩) n m = none :=
  ⟨by decide, rfl⟩

end Pnumpy.Props
