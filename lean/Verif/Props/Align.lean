import Verif.Model.Align
import Verif.Model.OpTables
import Verif.Model.Reduce
import Verif.Props.Elementwise
import Batteries.Tactic.Init
/-
C102: no access demands more alignment than the caller guarantees.
`Met ds`: every access of the list is made at an address that is a multiple of the alignment it demands.
-/
namespace Pnumpy.Props
open Pnumpy.Elem Pnumpy.Align

/-- Every access is at an address it may be made at. -/
def Met (ds : List Demand) : Prop := ∀ d ∈ ds, d.addr % (d.align : Int) = 0

theorem mem_whileStarts {w pEnd p q : Nat} (h : q ∈ whileStarts w pEnd p) : ∃ k, q = p + w * k ∧ q < pEnd := by
  rw [whileStarts] at h
  split at h
  · rename_i hc
    rcases List.mem_cons.1 h with rfl | h
    · exact ⟨0, by simp, hc.1⟩
    · obtain ⟨k, hk, hl⟩ := mem_whileStarts h
      exact ⟨k + 1, by rw [hk, Nat.mul_succ]; omega, hl⟩
  · cases h
termination_by pEnd - p
decreasing_by omega

theorem mem_doStarts {w pEnd p q : Nat} (h : q ∈ doStarts w pEnd p) : ∃ k, q = p + w * k := by
  rw [doStarts] at h
  split at h
  · rcases List.mem_cons.1 h with rfl | h
    · exact ⟨0, by simp⟩
    · obtain ⟨k, hk⟩ := mem_doStarts h
      exact ⟨k + 1, by rw [hk, Nat.mul_succ]; omega⟩
  · exact ⟨0, by simpa using h⟩
termination_by pEnd - p
decreasing_by omega

theorem whileStarts_head {w pEnd p : Nat} (h : p < pEnd) (hw : 0 < w) : p ∈ whileStarts w pEnd p := by
  rw [whileStarts, if_pos ⟨h, hw⟩]; exact List.mem_cons_self

theorem doStarts_head {w pEnd p : Nat} : p ∈ doStarts w pEnd p := by
  rw [doStarts]; split
  · exact List.mem_cons_self
  · simp

/-- The positions used for the demands are the positions of the vector steps of the kernel programs (`while` loops). -/
theorem C102_positions_while (a1 a2 o : Nat → Int) (w pEnd p : Nat) :
    (vecWhile a1 a2 o w pEnd p).1 = (whileStarts w pEnd p).flatMap fun q => vecStep a1 a2 o w q := by
  rw [vecWhile, whileStarts]
  split
  · rename_i hc
    simp only [List.flatMap_cons, C102_positions_while a1 a2 o w pEnd (p + w)]
  · rfl
termination_by pEnd - p
decreasing_by omega

/-- Case: two steps of eight lanes. -/
example : whileStarts 8 16 0 = [0, 8] := by simp [whileStarts]

/-- The same for `do … while` loops. -/
theorem C102_positions_do (a1 a2 o : Nat → Int) (w pEnd p : Nat) :
    (vecDo a1 a2 o w pEnd p).1 = (doStarts w pEnd p).flatMap fun q => vecStep a1 a2 o w q := by
  rw [vecDo, doStarts]
  split
  · rename_i hc
    simp only [List.flatMap_cons, C102_positions_do a1 a2 o w pEnd (p + w)]
  · simp
termination_by pEnd - p
decreasing_by omega

/-- Case: two steps of eight lanes. -/
example : doStarts 8 16 0 = [0, 8] := by simp [doStarts]

/-- The positions used for a reduction are those at which its loop reads its two registers. -/
theorem C102_positions_reduce {α : Type} (op : α → α → α) (xs : List α) (w pEnd p : Nat) (m : List α × List α) :
    (Reduce.reduceLoop op xs w pEnd p m.1 m.2).map (fun r => (r.1, r.2.1)) =
      (whileStarts (2 * w) pEnd p).foldlM (fun m q => do
        let a ← Reduce.loadVec xs w q
        let b ← Reduce.loadVec xs w (q + w)
        some (List.zipWith op m.1 a, List.zipWith op m.2 b)) m := by
  rw [Reduce.reduceLoop, whileStarts]
  by_cases hc : p < pEnd ∧ 0 < w
  · have hc' : p < pEnd ∧ 0 < 2 * w := ⟨hc.1, by omega⟩
    rw [if_pos hc, if_pos hc', List.foldlM_cons]
    cases ha : Reduce.loadVec xs w p with
    | none => simp
    | some a =>
      cases hb : Reduce.loadVec xs w (p + w) with
      | none => simp
      | some b =>
        simp only [Option.bind_eq_bind, Option.bind_some]
        exact C102_positions_reduce op xs w pEnd (p + 2 * w) (List.zipWith op m.1 a, List.zipWith op m.2 b)
  · have hc' : ¬ (p < pEnd ∧ 0 < 2 * w) := by omega
    rw [if_neg hc, if_neg hc']; rfl
termination_by pEnd - p
decreasing_by omega

/-- Case: four registers of four lanes. -/
example : whileStarts (2 * 4) 24 8 = [8, 16] := by simp [whileStarts]

theorem size_mul_width {size : Nat} (hs : size = 1 ∨ size = 2 ∨ size = 4 ∨ size = 8) : (size : Int) * ((32 / size : Nat) : Int) = 32 := by
  rcases hs with rfl | rfl | rfl | rfl <;> rfl

theorem width_pos {size : Nat} (hs : size = 1 ∨ size = 2 ∨ size = 4 ∨ size = 8) : 0 < 32 / size := by
  rcases hs with rfl | rfl | rfl | rfl <;> decide

theorem inplace_met {size : Nat} (hs : size = 1 ∨ size = 2 ∨ size = 4 ∨ size = 8) (addr : Int) (ha : addr % size = 0) (n : Nat) :
    Met (inplaceDemands size addr n) := by
  intro d hd
  unfold inplaceDemands at hd
  simp only at hd
  split at hd
  · rename_i hv
    obtain ⟨q, hq, rfl⟩ := List.mem_map.1 hd
    obtain ⟨k, rfl, -⟩ := mem_whileStarts hq
    have h := C07_aligned_access size hs addr ha n hv
    simp only
    push_cast
    have e : addr + (size : Int) * ((inplacePre size addr n : Int) + ((32 / size : Nat) : Int) * (k : Int))
        = (addr + size * (inplacePre size addr n : Int)) + 32 * k := by
      rw [← size_mul_width hs]; grind
    have e' : (32 : Int) / (size : Int) = ((32 / size : Nat) : Int) := by norm_cast
    rw [e', e]
    omega
  · cases hd

/-- **C102** (two-input operations and comparisons, and the unary tests with a boolean result).  If the first operand's address is a
multiple of the element size, which numpy guarantees for the arrays it passes to a loop, then no access of the kernel demands more
than that, for every length, all strides, in place or not, and for every part of the array given to a thread. -/
theorem C102_elementwise_partial (k : Kernel) (hv : k.Valid) (hk : ∀ s, k ≠ .unaryFast s) (hd : ∀ s, k ≠ .fastDouble s) (A : Args)
    (ha : ∀ s, k = .fast s ∨ k = .symmetric s → A.p1 % (s : Int) = 0) (first n : Nat) : Met (demands k (A.at first) n) := by
  have key : ∀ s : Nat, (s = 1 ∨ s = 2 ∨ s = 4 ∨ s = 8) → A.p1 % (s : Int) = 0 → A.s1 = s →
      Met (inplaceDemands s (A.at first).p1 n) := by
    intro s hs h1 h2
    refine inplace_met hs _ ?_ n
    simp only [Args.at, h2]
    rw [Int.add_mul_emod_self_left]; exact h1
  cases k with
  | fast s =>
    have h1 := ha s (Or.inl rfl)
    intro d h
    simp only [demands] at h
    split at h
    · split at h
      · cases h
      · split at h
        · cases h
        · split at h
          · rename_i hc; exact key s hv h1 hc.2.1 d h
          · cases h
    · cases h
  | symmetric s =>
    have h1 := ha s (Or.inr rfl)
    intro d h
    simp only [demands] at h
    split at h
    · split at h
      · cases h
      · split at h
        · cases h
        · split at h
          · rename_i hc; exact key s hv h1 hc.2.1 d h
          · cases h
    · cases h
  | unaryFast s => exact absurd rfl (hk s)
  | fastDouble s => exact absurd rfl (hd s)
  | _ => intro d h; cases h

/-- Case: `a += 1` for 100 doubles at address 1008 (16 modulo 32): the second block of the loop does make aligned accesses. -/
example : demands (.fast 8) ⟨1008, 8, 5000, 0, 1008, 8⟩ 10 = [⟨1024, 32⟩, ⟨1056, 32⟩] ∧ (1008 : Int) % 8 = 0 := by
  constructor
  · simp [demands, inplaceDemands, inplacePre, whileStarts]
  · rfl

/-- **C102 violated** (`abs`, `negative`, `floor`, `ceil`, `trunc`, `sqrt`).  The vector loop reads its input by plain dereference:
with at least one register of contiguous elements the demands are met exactly if the array starts at a multiple of 32, which numpy
does not guarantee. -/
theorem C102_unary_violated (size : Nat) (hs : size = 1 ∨ size = 2 ∨ size = 4 ∨ size = 8) (A : Args) (h1 : A.s1 = size)
    (ho : A.so = size) (n : Nat) (hn : n ≥ 32 / size) : Met (demands (.unaryFast size) A n) ↔ A.p1 % 32 = 0 := by
  have hd : demands (.unaryFast size) A n =
      (doStarts (32 / size) (32 / size * (n / (32 / size))) 0).map fun p => ⟨A.p1 + size * (p : Nat), 32⟩ := by
    simp only [demands]; rw [if_pos ⟨ho.symm, h1.symm, hn⟩]
  rw [hd]
  constructor
  · intro h
    have := h ⟨A.p1 + size * ((0 : Nat) : Int), 32⟩ (List.mem_map.2 ⟨0, doStarts_head, rfl⟩)
    simpa using this
  · intro h d hd
    obtain ⟨q, hq, rfl⟩ := List.mem_map.1 hd
    obtain ⟨k, rfl⟩ := mem_doStarts hq
    have e : A.p1 + (size : Int) * ((0 + 32 / size * k : Nat) : Int) = A.p1 + 32 * k := by
      rw [← size_mul_width hs]; push_cast; grind
    simp only [e]; omega

/-- Case: 8 doubles at an address that is a multiple of 16 only. -/
example : ¬ Met (demands (.unaryFast 8) ⟨1008, 8, 1008, 8, 4000, 8⟩ 8) :=
  fun h => absurd ((C102_unary_violated 8 (by simp) ⟨1008, 8, 1008, 8, 4000, 8⟩ rfl rfl 8 (by decide)).1 h) (by decide)

/-- **C102** (sums, products, minima, maxima).  A reduction demands no alignment if it is strided or has less than two blocks of two
registers; otherwise its demands are met exactly if the array starts at a multiple of 32. -/
theorem C102_reduce_partial (size : Nat) (hs : size = 1 ∨ size = 2 ∨ size = 4 ∨ size = 8) (addr stride : Int) (n : Nat) :
    Met (reduceDemands size addr stride n) ↔ (stride = size → n ≥ 2 * (2 * (32 / size)) → addr % 32 = 0) := by
  have hw := width_pos hs
  unfold reduceDemands
  simp only
  split
  · rename_i hc
    obtain ⟨hc1, hc2⟩ := hc
    constructor
    · intro h _ hn
      have hlt : 2 * (32 / size) < 2 * (32 / size) * (n / (2 * (32 / size))) := by
        have : 2 ≤ n / (2 * (32 / size)) := (Nat.le_div_iff_mul_le (by omega)).2 hn
        calc 2 * (32 / size) < 2 * (32 / size) * 2 := by omega
          _ ≤ _ := Nat.mul_le_mul_left _ this
      have := h ⟨addr + size * ((2 * (32 / size) : Nat) : Int), 32⟩
        (List.mem_flatMap.2 ⟨_, whileStarts_head hlt (by omega), List.mem_cons_self⟩)
      simp only at this
      have e : addr + (size : Int) * ((2 * (32 / size) : Nat) : Int) = addr + 64 := by
        have h2 := size_mul_width hs
        have : (size : Int) * ((2 * (32 / size) : Nat) : Int) = 2 * ((size : Int) * ((32 / size : Nat) : Int)) := by push_cast; grind
        rw [this, h2]; rfl
      rw [e] at this
      omega
    · intro h d hd
      obtain ⟨q, hq, hd⟩ := List.mem_flatMap.1 hd
      obtain ⟨k, rfl, hl⟩ := mem_whileStarts hq
      have hge : n ≥ 2 * (2 * (32 / size)) := by
        by_contra hlt
        have : n / (2 * (32 / size)) ≤ 1 := by
          have := (Nat.div_lt_iff_lt_mul (x := n) (y := 2) (k := 2 * (32 / size)) (by omega)).2 (by omega)
          omega
        have := Nat.mul_le_mul_left (2 * (32 / size)) this
        omega
      have ha := h hc1 hge
      have h2 := size_mul_width hs
      have e1 : (size : Int) * ((2 * (32 / size) + 2 * (32 / size) * k : Nat) : Int)
          = 2 * ((size : Int) * ((32 / size : Nat) : Int)) + 2 * ((size : Int) * ((32 / size : Nat) : Int)) * k := by push_cast; grind
      have e2 : (size : Int) * ((2 * (32 / size) + 2 * (32 / size) * k + 32 / size : Nat) : Int)
          = 3 * ((size : Int) * ((32 / size : Nat) : Int)) + 2 * ((size : Int) * ((32 / size : Nat) : Int)) * k := by push_cast; grind
      rw [h2] at e1 e2
      rcases List.mem_cons.1 hd with rfl | hd
      · simp only [e1]; omega
      · rcases List.mem_cons.1 hd with rfl | hd
        · simp only [e2]; omega
        · cases hd
  · rename_i hc
    constructor
    · intro _ h1 hn
      exact absurd ⟨h1, by omega⟩ hc
    · intro _ d hd; cases hd

/-- Cases: 16 doubles at 16 modulo 32 are two blocks, and their sum is reached through aligned loads; 15 are not. -/
example : ¬ Met (reduceDemands 8 1008 8 16) ∧ Met (reduceDemands 8 1008 8 15) :=
  ⟨fun h => absurd ((C102_reduce_partial 8 (by simp) 1008 8 16).1 h rfl (by decide)) (by decide),
   (C102_reduce_partial 8 (by simp) 1008 8 15).2 fun _ h => absurd h (by decide)⟩

/-- **C102 violated** (product of unsigned 64-bit integers).  `MUL_OP_256u64` uses its memory operand twice (low and high halves), so
it is loaded into a register first.  The operation is in the dispatch table, and for every array aligned to 8 but not to 32 bytes
and of at least 16 elements an access with an unmet demand is made. -/
theorem C102_reduce_violated (F : Spec.FloatUnit) (addr : Int) (h32 : addr % 32 ≠ 0) (n : Nat) (hn : n ≥ 16) :
    (∃ r, OpTables.reduceOpFast F .MUL .u64 = some r ∧ r.bits = 64) ∧
      ∃ d ∈ reduceDemands 8 addr 8 n, d.addr % (d.align : Int) ≠ 0 := by
  refine ⟨⟨_, rfl, rfl⟩, ?_⟩
  by_contra hc
  refine h32 ((C102_reduce_partial 8 (by simp) addr 8 n).1 ?_ rfl (by simpa using hn))
  intro d hd
  by_contra h
  exact hc ⟨d, hd, h⟩

/-- Case: an ordinary allocation of 16 elements. -/
example : (1008 : Int) % 8 = 0 ∧ (1008 : Int) % 32 ≠ 0 := by decide

/-- **C102** (indexing arrays of 16-byte items: complex128, S16, U4, V16): the demands are met exactly if the default value, the output (when
something is selected) and every selected element are at multiples of 16. -/
theorem C102_getitem_partial (values stride dflt out : Int) (n : Nat) (idx : List Int) :
    Met (getItem16Demands values stride dflt out n idx) ↔
      dflt % 16 = 0 ∧ (idx ≠ [] → out % 16 = 0) ∧
      ∀ ix ∈ idx, -(n : Int) ≤ ix → ix < n → (values + stride * (if ix ≥ 0 then ix else ix + n)) % 16 = 0 := by
  unfold getItem16Demands
  constructor
  · intro h
    refine ⟨h ⟨dflt, 16⟩ List.mem_cons_self, ?_, ?_⟩
    · intro hne
      obtain ⟨x, l, rfl⟩ := List.exists_cons_of_ne_nil hne
      have := h ⟨out + 16 * ((0 : Nat) : Int), 16⟩ (List.mem_cons_of_mem _ (List.mem_flatMap.2 ⟨(x, 0), by simp, by simp⟩))
      simpa using this
    · intro ix hix h1 h2
      obtain ⟨i, hi, rfl⟩ := List.getElem_of_mem hix
      have hm : (idx[i], i) ∈ idx.zipIdx := by
        rw [List.mem_zipIdx_iff_getElem?]; simp [hi]
      have := h ⟨values + stride * (if idx[i] ≥ 0 then idx[i] else idx[i] + n), 16⟩ (List.mem_cons_of_mem _
        (List.mem_flatMap.2 ⟨_, hm, by simp only [source, if_pos (And.intro h1 h2)]; exact List.mem_cons_self⟩))
      exact this
  · rintro ⟨h1, h2, h3⟩ d hd
    rcases List.mem_cons.1 hd with rfl | hd
    · exact h1
    · obtain ⟨⟨ix, i⟩, hm, hd⟩ := List.mem_flatMap.1 hd
      have hix : ix ∈ idx := by
        rw [List.mem_zipIdx_iff_getElem?] at hm
        exact List.mem_of_getElem? hm
      simp only [List.mem_append] at hd
      rcases hd with hd | hd
      · unfold source at hd
        split at hd
        · rename_i a ha
          split at ha
          · rename_i hr
            cases List.mem_singleton.1 hd
            cases ha
            exact h3 ix hix hr.1 hr.2
          · cases ha
        · cases hd
      · cases List.mem_singleton.1 hd
        have := h2 (List.ne_nil_of_mem hix)
        simp only; omega

/-- Case: contiguous complex numbers in a fresh allocation, default at a multiple of 16. -/
example : Met (getItem16Demands 4096 16 64 8192 10 [3, -1, 100]) := by
  rw [C102_getitem_partial]; refine ⟨by decide, by decide, ?_⟩; decide

/-- **C102 violated** (indexing): complex numbers need 8-byte alignment only; for a contiguous array that starts at 8 modulo 16 every
index in range is read through an access with an unmet demand. -/
theorem C102_getitem_violated (values dflt out : Int) (h8 : values % 16 = 8) (n : Nat) (idx : List Int) (ix : Int) (hix : ix ∈ idx)
    (h1 : 0 ≤ ix) (h2 : ix < n) : ∃ d ∈ getItem16Demands values 16 dflt out n idx, d.addr = values + 16 * ix ∧ d.addr % (d.align : Int) ≠ 0 := by
  obtain ⟨i, hi, rfl⟩ := List.getElem_of_mem hix
  have hm : (idx[i], i) ∈ idx.zipIdx := by
    rw [List.mem_zipIdx_iff_getElem?]; simp [hi]
  have hr : source values 16 n idx[i] = some (values + 16 * idx[i]) := by
    unfold source
    rw [if_pos ⟨by omega, h2⟩, if_pos h1]
  refine ⟨⟨values + 16 * idx[i], 16⟩, List.mem_cons_of_mem _ (List.mem_flatMap.2 ⟨_, hm, ?_⟩), rfl, ?_⟩
  · simp only [hr]; exact List.mem_cons_self
  · simp only; omega

/-- Case: `np.zeros(21)[1:].view(complex)` in an allocation at a multiple of 16. -/
example : (4096 + 8 : Int) % 16 = 8 := by decide

end Pnumpy.Props
