import Verif.Spec.Overlap
import Verif.Props.Accumulate
import Mathlib.Tactic.SplitIfs
/-
Property theorems C85: a binary arithmetic call on overlapping operands.
-/
namespace Pnumpy.Props
open Pnumpy.Spec Pnumpy.Elem Pnumpy.Accum
variable {α : Type}

/-- Two access programs with the same effect from every state. -/
def RunEq (f : α → α → α) (xs ys : List Acc) : Prop :=
  ∀ (s : MState α) (t : Nat), run f s (xs.map fun e => (t, e)) = run f s (ys.map fun e => (t, e))

theorem RunEq.rfl' {f : α → α → α} {xs : List Acc} : RunEq f xs xs := fun _ _ => rfl

theorem RunEq.trans {f : α → α → α} {xs ys zs : List Acc} (h : RunEq f xs ys) (g : RunEq f ys zs) :
    RunEq f xs zs := fun s t => (h s t).trans (g s t)

theorem RunEq.append {f : α → α → α} {xs ys xs' ys' : List Acc} (h : RunEq f xs ys)
    (g : RunEq f xs' ys') : RunEq f (xs ++ xs') (ys ++ ys') := by
  intro s t
  simp only [List.map_append, run_append]
  rw [h s t]
  cases run f s (ys.map fun e => (t, e)) with
  | none => rfl
  | some s' => exact g s' t

theorem scalarLoop_append (a1 a2 o : Nat → Int) (st m : Nat) : ∀ k,
    scalarLoop a1 a2 o st (m + k) = scalarLoop a1 a2 o st m ++ scalarLoop a1 a2 o (st + m) k
  | 0 => by simp [scalarLoop]
  | k + 1 => by
    rw [← Nat.add_assoc, scalarLoop_succ, scalarLoop_succ, scalarLoop_append a1 a2 o st m k]
    simp [Nat.add_assoc]

/-- A load of one lane and a store of another lane to a cell the load does not read commute. -/
theorem swap_load_store (f : α → α → α) (l l' : Nat) (x y a : Int) (hl : l ≠ l') (hx : a ≠ x) (hy : a ≠ y) :
    RunEq f [.load l x y, .store l' a] [.store l' a, .load l x y] := by
  intro s t
  simp only [List.map, run, stepAcc, Option.bind_some]
  have e : ¬ (True ∧ l' = l) := fun h => hl h.2.symm
  rw [if_neg e]
  cases s.reg t l' with
  | none => rfl
  | some v =>
    simp only [Option.bind_some]
    rw [if_neg (Ne.symm hx), if_neg (Ne.symm hy)]

theorem swap_load_stores (f : α → α → α) (o : Nat → Int) (p l : Nat) (x y : Int) : ∀ (w : Nat),
    (∀ j < w, l ≠ p + j ∧ o (p + j) ≠ x ∧ o (p + j) ≠ y) →
    RunEq f (Acc.load l x y :: (List.range w).map (fun j => Acc.store (p + j) (o (p + j))))
      ((List.range w).map (fun j => Acc.store (p + j) (o (p + j))) ++ [Acc.load l x y])
  | 0, _ => RunEq.rfl'
  | w + 1, h => by
    rw [List.range_succ, List.map_append, List.map_cons, List.map_nil]
    have ih := swap_load_stores f o p l x y w (fun j hj => h j (by omega))
    have h2 := swap_load_store f l (p + w) x y (o (p + w)) (h w (by omega)).1 (h w (by omega)).2.1 (h w (by omega)).2.2
    have e1 := RunEq.append ih (RunEq.rfl' (f := f) (xs := [Acc.store (p + w) (o (p + w))]))
    have e2 := RunEq.append (RunEq.rfl' (f := f)
      (xs := (List.range w).map (fun j => Acc.store (p + j) (o (p + j))))) h2
    simp only [List.append_assoc, List.cons_append, List.nil_append] at e1 e2 ⊢
    exact e1.trans e2

/-- A vector step computes what the scalar loop computes if no lane writes a cell that a later lane of
the same step reads. -/
theorem vecStep_eq (f : α → α → α) (a1 a2 o : Nat → Int) (p : Nat) : ∀ (w : Nat),
    (∀ i j, i < j → j < w → o (p + i) ≠ a1 (p + j) ∧ o (p + i) ≠ a2 (p + j)) →
    RunEq f (vecStep a1 a2 o w p) (scalarLoop a1 a2 o p w)
  | 0, _ => RunEq.rfl'
  | w + 1, h => by
    have ih := vecStep_eq f a1 a2 o p w (fun i j hi hj => h i j hi (by omega))
    have hs := swap_load_stores f o p (p + w) (a1 (p + w)) (a2 (p + w)) w
      (fun j hj => ⟨by omega, h j w hj (by omega)⟩)
    rw [scalarLoop_succ]
    unfold vecStep at ih ⊢
    rw [List.range_succ, List.map_append, List.map_append, List.map_cons, List.map_nil, List.map_cons, List.map_nil]
    have e1 := RunEq.append (RunEq.append (RunEq.rfl' (f := f)
      (xs := (List.range w).map (fun j => Acc.load (p + j) (a1 (p + j)) (a2 (p + j))))) hs)
      (RunEq.rfl' (f := f) (xs := [Acc.store (p + w) (o (p + w))]))
    have e2 := RunEq.append ih (RunEq.rfl' (f := f)
      (xs := [Acc.load (p + w) (a1 (p + w)) (a2 (p + w)), Acc.store (p + w) (o (p + w))]))
    simp only [List.append_assoc, List.cons_append, List.nil_append] at e1 e2 ⊢
    exact e1.trans e2

/-- No lane writes a cell that a later lane of a `w`-lane step reads. -/
def StepFree (a1 a2 o : Nat → Int) (w n : Nat) : Prop :=
  ∀ p i j, i < j → j < w → p + j < n → o (p + i) ≠ a1 (p + j) ∧ o (p + i) ≠ a2 (p + j)

theorem vecDo_eq {f : α → α → α} {a1 a2 o : Nat → Int} {w : Nat} {n : Nat} (hw : 0 < w) (h : StepFree a1 a2 o w n) :
    ∀ (q p : Nat), p + w * (q + 1) ≤ n → RunEq f (vecDo a1 a2 o w (p + w * (q + 1)) p).1 (scalarLoop a1 a2 o p (w * (q + 1))) ∧
      (vecDo a1 a2 o w (p + w * (q + 1)) p).2 = p + w * (q + 1)
  | 0, p, hle => by
    rw [vecDo, if_neg (by simp)]
    simp only [Nat.zero_add, Nat.mul_one, and_true]
    exact vecStep_eq f a1 a2 o p w (fun i j hi hj => h p i j hi hj (by simp at hle; omega))
  | q + 1, p, hle => by
    have hlt : p + w < p + w * (q + 1 + 1) := by
      rw [Nat.mul_add w (q + 1) 1, Nat.mul_one, Nat.mul_add, Nat.mul_one]; omega
    have e : p + w * (q + 1 + 1) = (p + w) + w * (q + 1) := by
      rw [Nat.mul_add w (q + 1) 1, Nat.mul_one]; omega
    have ih := vecDo_eq hw h q (p + w) (by omega) (f := f)
    rw [vecDo, if_pos ⟨hlt, hw⟩, e]
    refine ⟨?_, ih.2⟩
    have e2 : w * (q + 1 + 1) = w + w * (q + 1) := by rw [Nat.mul_add w (q + 1) 1, Nat.mul_one]; omega
    rw [e2, scalarLoop_append]
    exact RunEq.append (vecStep_eq f a1 a2 o p w (fun i j hi hj => h p i j hi hj (by omega))) ih.1

theorem vecWhile_eq {f : α → α → α} {a1 a2 o : Nat → Int} {w : Nat} {n : Nat} (hw : 0 < w) (h : StepFree a1 a2 o w n) :
    ∀ (q p : Nat), p + w * q ≤ n → RunEq f (vecWhile a1 a2 o w (p + w * q) p).1 (scalarLoop a1 a2 o p (w * q)) ∧
      (vecWhile a1 a2 o w (p + w * q) p).2 = p + w * q
  | 0, p, _ => by
    rw [vecWhile, if_neg (by simp)]
    simp [scalarLoop, RunEq.rfl']
  | q + 1, p, hle => by
    have hlt : p < p + w * (q + 1) := by rw [Nat.mul_add, Nat.mul_one]; omega
    have e : p + w * (q + 1) = (p + w) + w * q := by rw [Nat.mul_add, Nat.mul_one]; omega
    have ih := vecWhile_eq hw h q (p + w) (by omega) (f := f)
    rw [vecWhile, if_pos ⟨hlt, hw⟩, e]
    refine ⟨?_, ih.2⟩
    have e2 : w * (q + 1) = w + w * q := by rw [Nat.mul_add, Nat.mul_one]; omega
    rw [e2, scalarLoop_append]
    exact RunEq.append (vecStep_eq f a1 a2 o p w (fun i j hi hj => h p i j hi hj (by omega))) ih.1

/-- Loads with swapped operands, for a commutative operation. -/
theorem scalarLoop_swap {f : α → α → α} (hf : ∀ x y, f x y = f y x) (a1 a2 o : Nat → Int) (st : Nat) :
    ∀ n, RunEq f (scalarLoop a1 a2 o st n) (scalarLoop a2 a1 o st n)
  | 0 => RunEq.rfl'
  | n + 1 => by
    rw [scalarLoop_succ, scalarLoop_succ]
    refine RunEq.append (scalarLoop_swap hf a1 a2 o st n) ?_
    intro s t
    simp only [List.map, run, stepAcc, hf (s.mem (a1 (st + n)))]

theorem vecTail_eq {f : α → α → α} {v1 v2 a1 a2 o : Nat → Int} {w : Nat} (hw : ∃ j, w = 2 ^ j) (n : Nat)
    (hv : ∀ st k, RunEq f (scalarLoop v1 v2 o st k) (scalarLoop a1 a2 o st k))
    (h : StepFree v1 v2 o w n) : RunEq f (vecTail v1 v2 a1 a2 o w n) (scalarLoop a1 a2 o 0 n) := by
  have hpos := pow2_pos hw
  unfold vecTail
  split
  · rename_i hge
    obtain ⟨q, hq⟩ : ∃ q, n / w = q + 1 := ⟨n / w - 1, by
      have := Nat.div_pos hge hpos; omega⟩
    have hn : n = w * (q + 1) + n % w := by rw [← hq]; exact (Nat.div_add_mod n w).symm
    have hd := vecDo_eq (f := f) hpos h q 0 (by omega)
    simp only [Nat.zero_add] at hd
    simp only [hq, and_mask hw]
    rw [hd.2]
    conv => arg 3; rw [hn, scalarLoop_append, Nat.zero_add]
    exact RunEq.append (hd.1.trans (hv _ _)) RunEq.rfl'
  · exact RunEq.rfl'

theorem inplaceScalar_eq {f : α → α → α} {v1 v2 a1 a2 o : Nat → Int} {w : Nat} (hw : ∃ j, w = 2 ^ j)
    (size : Nat) (addr : Int) (n : Nat)
    (hv : ∀ st k, RunEq f (scalarLoop v1 v2 o st k) (scalarLoop a1 a2 o st k))
    (h : StepFree v1 v2 o w n) :
    RunEq f (inplaceScalar v1 v2 a1 a2 o size w addr n) (scalarLoop a1 a2 o 0 n) := by
  have hpos := pow2_pos hw
  unfold inplaceScalar
  have hpre : inplacePre size addr n ≤ n := by unfold inplacePre; simp only; split <;> omega
  generalize inplacePre size addr n = pre at hpre
  simp only
  have hn : n = pre + (n - pre) := by omega
  conv => arg 3; rw [hn, scalarLoop_append, Nat.zero_add]
  refine RunEq.append RunEq.rfl' ?_
  split
  · have hn : n - pre = w * ((n - pre) / w) + (n - pre) % w := (Nat.div_add_mod _ w).symm
    have hd := vecWhile_eq (f := f) hpos h ((n - pre) / w) pre (by omega)
    simp only [and_mask hw]
    rw [hd.2]
    conv => arg 3; rw [hn, scalarLoop_append]
    exact RunEq.append (hd.1.trans (hv _ _)) RunEq.rfl'
  · exact RunEq.rfl'

/-- The in-order loop executed by the access machine is the specification. -/
theorem run_inOrder (f : α → α → α) (a1 a2 o : Nat → Int) (m : Int → α) (t : Nat) : ∀ n,
    ∃ r, run f ⟨m, fun _ _ => none⟩ ((scalarLoop a1 a2 o 0 n).map fun e => (t, e)) =
      some ⟨inOrder f a1 a2 o m n, r⟩
  | 0 => ⟨_, rfl⟩
  | n + 1 => by
    obtain ⟨r, hr⟩ := run_inOrder f a1 a2 o m t n
    rw [scalarLoop_succ, List.map_append, run_append, hr]
    simp only [Nat.zero_add, List.map, Option.bind_some, run, stepAcc, and_self, if_true]
    exact ⟨_, rfl⟩

/-- Sizes of the arithmetic kernels whose output elements have the size of the input elements. -/
def SameSize : Kernel → Prop
  | .slow _ | .fast _ | .symmetric _ => True
  | .fastDouble z => z = 8
  | _ => False

theorem stepFree_of {z w n : Nat} {b1 b2 bo : Int} {s1 s2 : Int} (hz : 0 < z) (hzw : z * w ≤ 64)
    (h1 : s1 = z ∨ (s1 = 0 ∧ ∀ i : Nat, i < n → bo + z * i ≠ b1))
    (h2 : s2 = z ∨ (s2 = 0 ∧ ∀ i : Nat, i < n → bo + z * i ≠ b2))
    (g1 : ¬ (bo > b1 ∧ bo < b1 + 64)) (g2 : ¬ (bo > b2 ∧ bo < b2 + 64)) :
    StepFree (strided b1 s1) (strided b2 s2) (strided bo z) w n := by
  have key : ∀ (b : Int) (s : Int), (s = z ∨ (s = 0 ∧ ∀ i : Nat, i < n → bo + z * i ≠ b)) → ¬ (bo > b ∧ bo < b + 64) →
      ∀ p i j, i < j → j < w → p + j < n → strided bo z (p + i) ≠ strided b s (p + j) := by
    intro b s hs g p i j hij hj hn he
    unfold strided at he
    rcases hs with rfl | ⟨rfl, hs⟩
    · apply g
      have hji : bo - b = z * ((j - i : Nat) : Int) := by
        rw [Int.ofNat_sub (by omega), Int.mul_sub]
        rw [Int.natCast_add, Int.natCast_add, Int.mul_add, Int.mul_add] at he
        omega
      have h3 : z * (j - i) < 64 := by
        have : z * (j - i) < z * w := Nat.mul_lt_mul_of_pos_left (by omega) hz
        omega
      have h4 : 0 < z * (j - i) := Nat.mul_pos hz (by omega)
      have h5 : (z : Int) * ((j - i : Nat) : Int) = ((z * (j - i) : Nat) : Int) := (Int.natCast_mul _ _).symm
      omega
    · exact hs (p + i) (by omega) (by rw [he]; simp)
  intro p i j hij hj hn
  exact ⟨key b1 s1 h1 g1 p i j hij hj hn, key b2 s2 h2 g2 p i j hij hj hn⟩

theorem scalarLoop_congr {a1 a2 o a1' a2' o' : Nat → Int} (st n : Nat) (h1 : ∀ i, a1 i = a1' i)
    (h2 : ∀ i, a2 i = a2' i) (h3 : ∀ i, o i = o' i) : scalarLoop a1 a2 o st n = scalarLoop a1' a2' o' st n := by
  rw [show a1 = a1' from funext h1, show a2 = a2' from funext h2, show o = o' from funext h3]

theorem strided_zero (p : Int) : strided p 0 = fun _ => p := by funext i; simp [strided]

/-- Outside the guard, every same-size arithmetic kernel computes what the in-order loop computes. -/
theorem kernel_inOrder (f : α → α → α) (k : Kernel) (hk : SameSize k) (hv : k.Valid)
    (hf : (∃ z, k = .symmetric z) → ∀ x y, f x y = f y x) (A : Args) (n : Nat)
    (h1 : A.s1 = 0 → ∀ i : Nat, i < n → A.po + A.so * i ≠ A.p1)
    (h2 : A.s2 = 0 → ∀ i : Nat, i < n → A.po + A.so * i ≠ A.p2)
    (g : overlapGuard A = false) :
    RunEq f (k.prog A n) (scalarLoop (strided A.p1 A.s1) (strided A.p2 A.s2) (strided A.po A.so) 0 n) := by
  obtain ⟨p1, s1, p2, s2, po, so⟩ := A
  simp only [overlapGuard, Bool.or_eq_false_iff, Bool.and_eq_false_iff, decide_eq_false_iff_not] at g
  simp only at h1 h2
  have g1 : ¬ (po > p1 ∧ po < p1 + 64) := fun h => g.1.elim (fun x => x h.1) (fun x => x h.2)
  have g2 : ¬ (po > p2 ∧ po < p2 + 64) := fun h => g.2.elim (fun x => x h.1) (fun x => x h.2)
  have w8 : ∀ z : Nat, (z = 1 ∨ z = 2 ∨ z = 4 ∨ z = 8) → (∃ j, 32 / z = 2 ^ j) ∧ z * (32 / z) ≤ 64 ∧ 0 < z := by
    intro z hz
    rcases hz with rfl | rfl | rfl | rfl
    · exact ⟨⟨5, rfl⟩, by decide, by decide⟩
    · exact ⟨⟨4, rfl⟩, by decide, by decide⟩
    · exact ⟨⟨3, rfl⟩, by decide, by decide⟩
    · exact ⟨⟨2, rfl⟩, by decide, by decide⟩
  cases k <;> simp only [SameSize] at hk
  · rename_i z
    simp only [Kernel.prog, simpleMathOpSlow]
    split_ifs with c1 c2 c3 c4 c5
    all_goals first | exact RunEq.rfl' | skip
    · obtain ⟨rfl, rfl⟩ := c3; subst c1; exact RunEq.rfl'
    · obtain ⟨rfl, rfl⟩ := c4; subst c1; rw [strided_zero]; exact RunEq.rfl'
    · obtain ⟨rfl, rfl⟩ := c5; subst c1; rw [strided_zero]; exact RunEq.rfl'
  · rename_i z
    obtain ⟨hw, hz64, hz⟩ := w8 z hv
    simp only [Kernel.prog, simpleMathOpFast]
    split_ifs with c1 c2 c3 c4 c5
    all_goals first | exact RunEq.rfl' | skip
    · obtain ⟨-, rfl, rfl⟩ := c2; subst c1
      exact vecTail_eq hw n (fun _ _ => RunEq.rfl') (stepFree_of hz hz64 (Or.inl rfl) (Or.inl rfl) g1 g2)
    · obtain ⟨rfl, rfl⟩ := c3; subst c1; rw [← strided_zero]
      exact vecTail_eq hw n (fun _ _ => RunEq.rfl') (stepFree_of hz hz64 (Or.inr ⟨rfl, h1 rfl⟩) (Or.inl rfl) g1 g2)
    · obtain ⟨rfl, rfl⟩ := c4; subst c1; subst c5; rw [← strided_zero]
      exact inplaceScalar_eq hw _ _ n (fun _ _ => RunEq.rfl')
        (stepFree_of hz hz64 (Or.inl rfl) (Or.inr ⟨rfl, h2 rfl⟩) g1 g2)
    · obtain ⟨rfl, rfl⟩ := c4; subst c1; rw [← strided_zero]
      exact vecTail_eq hw n (fun _ _ => RunEq.rfl') (stepFree_of hz hz64 (Or.inl rfl) (Or.inr ⟨rfl, h2 rfl⟩) g1 g2)
  · rename_i z
    obtain ⟨hw, hz64, hz⟩ := w8 z hv
    have hf := hf ⟨z, rfl⟩
    simp only [Kernel.prog, simpleMathOpFastSymmetric]
    split_ifs with c1 c2 c3 c4 c5 c6
    all_goals first | exact RunEq.rfl' | skip
    · obtain ⟨rfl, rfl⟩ := c2; subst c1
      exact vecTail_eq hw n (fun _ _ => RunEq.rfl') (stepFree_of hz hz64 (Or.inl rfl) (Or.inl rfl) g1 g2)
    · obtain ⟨rfl, rfl⟩ := c2; subst c1
      have c3 : p1 = p2 := Classical.byContradiction c3
      subst c3
      exact vecTail_eq hw n (fun _ _ => RunEq.rfl') (stepFree_of hz hz64 (Or.inl rfl) (Or.inl rfl) g1 g2)
    · obtain ⟨rfl, rfl⟩ := c4; subst c1; rw [← strided_zero]
      exact vecTail_eq hw n (fun _ _ => RunEq.rfl') (stepFree_of hz hz64 (Or.inr ⟨rfl, h1 rfl⟩) (Or.inl rfl) g1 g2)
    · obtain ⟨rfl, rfl⟩ := c5; subst c1; subst c6; rw [← strided_zero]
      exact inplaceScalar_eq hw _ _ n (fun _ _ => scalarLoop_swap hf _ _ _ _ _)
        (stepFree_of hz hz64 (Or.inr ⟨rfl, h2 rfl⟩) (Or.inl rfl) g2 g1)
    · obtain ⟨rfl, rfl⟩ := c5; subst c1; rw [← strided_zero]
      exact vecTail_eq hw n (fun _ _ => scalarLoop_swap hf _ _ _ _ _)
        (stepFree_of hz hz64 (Or.inr ⟨rfl, h2 rfl⟩) (Or.inl rfl) g2 g1)
  · subst hk
    simp only [Kernel.prog, simpleMathOpFastDouble]
    split_ifs with c1 c2 c3 c4 c5
    all_goals first | exact RunEq.rfl' | skip
    · obtain ⟨rfl, rfl⟩ := c2; subst c1
      have hs := stepFree_of (z := 8) (w := 4) (n := n) (by decide) (by decide) (Or.inl rfl) (Or.inl rfl) g1 g2
      have hn : n = 4 * (n / 4) + n % 4 := (Nat.div_add_mod _ 4).symm
      have hd := vecWhile_eq (f := f) (by decide) hs (n / 4) 0 (by omega)
      simp only [Nat.zero_add] at hd
      have e : n &&& 3 = n % 4 := and_mask (w := 4) ⟨2, rfl⟩
      rw [e]
      rw [show ((8 : Nat) : Int) = 8 from rfl] at hd ⊢
      rw [hd.2]
      conv => arg 3; rw [hn, scalarLoop_append, Nat.zero_add]
      exact RunEq.append hd.1 RunEq.rfl'
    · obtain ⟨rfl, rfl⟩ := c2; subst c1; exact RunEq.rfl'
    · obtain ⟨rfl, rfl⟩ := c4; subst c1; rw [strided_zero]; exact RunEq.rfl'
    · obtain ⟨rfl, rfl⟩ := c5; subst c1; rw [strided_zero]; exact RunEq.rfl'

/-- **C85**: a binary arithmetic call that is not threaded leaves in memory what computing the elements
one by one in index order leaves there, wherever the output lies relative to the two inputs
(before, after, between, overlapping by any amount), for every stride, whether pnumpy is enabled or
not.  Scope: kernels whose output elements have the size of the input elements; a scalar operand is not
overwritten by the output; elements of different arrays coincide or do not interact. -/
theorem C85_overlap_in_order (enabled : Bool) (f : α → α → α) (k : Kernel) (hk : SameSize k) (hv : k.Valid)
    (hf : (∃ z, k = .symmetric z) → ∀ x y, f x y = f y x) (A : Args) (n : Nat)
    (h1 : A.s1 = 0 → ∀ i : Nat, i < n → A.po + A.so * i ≠ A.p1)
    (h2 : A.s2 = 0 → ∀ i : Nat, i < n → A.po + A.so * i ≠ A.p2) (m : Int → α) :
    runMem f m (serialAcc enabled k A n) =
      some (inOrder f (fun i => A.p1 + A.s1 * i) (fun i => A.p2 + A.s2 * i) (fun i => A.po + A.so * i) m n) := by
  obtain ⟨r, hr⟩ := run_inOrder f (strided A.p1 A.s1) (strided A.p2 A.s2) (strided A.po A.so) m 0 n
  unfold runMem serialAcc binaryLoop
  split
  · rename_i h
    simp only [Bool.and_eq_true, Bool.not_eq_true'] at h
    rw [kernel_inOrder f k hk hv hf A n h1 h2 h.2 _ 0, hr]; rfl
  · rw [hr]; rfl

/-- Non-vacuity: `out` one element after the first input (a running sum), 100 int64 elements. -/
example : ∃ m', runMem (fun x y : Int => x + y) (fun _ => 1)
    (serialAcc true (.symmetric 8) ⟨0, 8, 4000, 8, 8, 8⟩ 100) = some m' ∧ m' 16 = 3 := by
  refine ⟨_, C85_overlap_in_order true _ (.symmetric 8) trivial (by simp [Kernel.Valid]) (fun _ x y => Int.add_comm x y) _ _
    (by intro h; cases h) (by intro h; cases h) _, ?_⟩
  have h : ∀ q, (inOrder (fun x y : Int => x + y) (fun i => 0 + 8 * (i : Int)) (fun i => 4000 + 8 * (i : Int))
      (fun i => 8 + 8 * (i : Int)) (fun _ => 1) (2 + q)) 16 = 3 := by
    intro q
    induction q with
    | zero => decide
    | succ q ih =>
      rw [← Nat.add_assoc, inOrder]
      simp only
      rw [if_neg (by omega)]; exact ih
  exact h 98

/-- The guard is what makes this true: the vector kernel itself, given an output one element after its
second input, does not compute the running sum. -/
theorem C85_kernel_alone_differs :
    (runMem (fun x y : Int => x + y) (fun _ => 1)
      ((Kernel.prog (.symmetric 8) ⟨4000, 8, 0, 8, 8, 8⟩ 4).map fun e => (0, e))).map (fun m' => m' 16) = some 2 ∧
    inOrder (fun x y : Int => x + y) (fun i => 4000 + 8 * (i : Int)) (fun i => 0 + 8 * (i : Int))
      (fun i => 8 + 8 * (i : Int)) (fun _ => 1) 4 16 = 3 := by
  refine ⟨?_, by decide +kernel⟩
  have e : Kernel.prog (.symmetric 8) ⟨4000, 8, 0, 8, 8, 8⟩ 4 =
      vecStep (strided 4000 8) (strided 0 8) (strided 8 8) 4 0 := by
    simp [Kernel.prog, simpleMathOpFastSymmetric, vecTail, vecDo, scalarLoop]
  rw [e]
  decide +kernel

end Pnumpy.Props
