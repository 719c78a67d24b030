import Verif.Proofs.ElementwiseKernels
import Verif.Props.Work
/-
Property theorems C06, C07, C08: element-wise kernels.
-/
namespace Pnumpy.Props
open Pnumpy.Spec Pnumpy.Elem
variable {α : Type}

theorem outDistinct_of_safe {n : Nat} {p1 s1 p2 s2 po so : Int}
    (h : SafeOverlap n p1 s1 p2 s2 po so) :
    ∀ i j : Nat, i < n → j < n → i ≠ j → po + so * i ≠ po + so * j :=
  fun i j hi hj hne => (h i j hi hj hne).1

theorem outDistinct_of_no {n : Nat} {p1 s1 p2 s2 po so : Int}
    (h : NoOverlap n p1 s1 p2 s2 po so) :
    ∀ i j : Nat, i < n → j < n → i ≠ j → po + so * i ≠ po + so * j :=
  fun i j hi hj hne => (h i j hi hj).1 hne

/-- **C07**: every modelled kernel except the 8-bit comparison writes exactly
`out[i] = f(in1[i], in2[i])` for all `i < n` and changes nothing else, for every length, every
combination of strides and scalar operands, and for an output that is separate from or exactly
aliases an input. -/
theorem C07_kernel_correct (k : Kernel) (hv : k.Valid) (f : α → α → α) (A : Args)
    (hc : k.Callable f A) (h8 : k ≠ .cmpInt8) (n : Nat) (m : Int → α)
    (hs : SafeOverlap n A.p1 A.s1 A.p2 A.s2 A.po A.so) :
    ∃ m', runKernel f m (k.prog A n) = some m' ∧
      ElementwiseResult f n A.p1 A.s1 A.p2 A.s2 A.po A.so m m' :=
  exec_single m (kernel_cover k hv A hc n) (outDistinct_of_safe hs)
    (Or.inl ⟨kernel_seg k hv A hc h8 n, hs⟩)

/-- Case: a[i] -= b[i] for 37 32-bit elements, in place. -/
example (m : Int → Int) := C07_kernel_correct (.fast 4) (by simp [Kernel.Valid]) (fun x y : Int => x - y) ⟨0, 4, 1000, 4, 0, 4⟩
  ⟨by simp [Kernel.isUnary], by rintro ⟨s, h⟩; cases h⟩ (by simp) 37 m (by intro i j hi hj hne; simp only; omega)

/-- **C07** for all kernels (the 8-bit comparison included) when the output does not touch the
inputs. -/
theorem C07_kernel_correct_separate (k : Kernel) (hv : k.Valid) (f : α → α → α) (A : Args)
    (hc : k.Callable f A) (n : Nat) (m : Int → α)
    (hs : NoOverlap n A.p1 A.s1 A.p2 A.s2 A.po A.so) :
    ∃ m', runKernel f m (k.prog A n) = some m' ∧
      ElementwiseResult f n A.p1 A.s1 A.p2 A.s2 A.po A.so m m' :=
  exec_single m (kernel_cover k hv A hc n) (outDistinct_of_no hs) (Or.inr hs)

/-- Case: the 8-bit comparison into a separate array. -/
example (m : Int → Int) := C07_kernel_correct_separate .cmpInt8 (by simp [Kernel.Valid]) (fun x y : Int => if x = y then 1 else 0) ⟨0, 1, 1000, 1, 2000, 1⟩
  ⟨by simp [Kernel.isUnary], by rintro ⟨s, h⟩; cases h⟩ 37 m (by intro i j hi hj; simp only; omega)

/-- **C07**: no kernel reads or writes any element outside `0 .. n-1`, overlap or not. -/
theorem C07_in_bounds (k : Kernel) (hv : k.Valid) (f : α → α → α) (A : Args)
    (hc : k.Callable f A) (n : Nat) :
    (∀ l x y, Acc.load l x y ∈ k.prog A n → ∃ i : Nat, i < n ∧
      (x = A.p1 + A.s1 * i ∨ x = A.p2 + A.s2 * i) ∧ (y = A.p1 + A.s1 * i ∨ y = A.p2 + A.s2 * i)) ∧
    (∀ l a, Acc.store l a ∈ k.prog A n → ∃ i : Nat, i < n ∧ a = A.po + A.so * i) := by
  have h := kernel_cover (f := f) k hv A hc n
  constructor
  · intro l x y hin
    obtain ⟨_, h2, h3⟩ := h.loads l x y hin
    exact ⟨l, (h.bound _ hin).2, h2, h3⟩
  · intro l a hin
    exact ⟨l, (h.bound _ hin).2, h.stores l a hin⟩

/-- **C07**: whenever the in-place scalar branch starts its 32-byte-aligned vector loop, the address
really is a multiple of 32 (for arrays aligned to their element size, which numpy guarantees to
inner loops). -/
theorem C07_aligned_access (size : Nat) (hs : size = 1 ∨ size = 2 ∨ size = 4 ∨ size = 8) (addr : Int)
    (ha : addr % size = 0) (n : Nat) (hv : n - inplacePre size addr n ≥ 32 / size) :
    (addr + size * (inplacePre size addr n : Int)) % 32 = 0 := by
  unfold inplacePre at *
  simp only at *
  split at hv
  · rename_i h
    rw [if_pos h]
    rcases hs with rfl | rfl | rfl | rfl <;> omega
  · rename_i h
    rw [if_neg h]
    rcases hs with rfl | rfl | rfl | rfl <;> omega

/-- Without element alignment the claim is false: a 4-byte array at address 2. -/
example : (2 + 4 * (inplacePre 4 2 100 : Int)) % 32 ≠ 0 := by decide

/-- Non-vacuity of C07: 37 32-bit elements added in place to a second array, contiguous. -/
example : SafeOverlap 37 0 4 1000 4 0 4 ∧ (Kernel.fast 4).Valid ∧
    (Kernel.fast 4).Callable (fun x y : Int => x - y) ⟨0, 4, 1000, 4, 0, 4⟩ := by
  refine ⟨?_, ?_, ?_, ?_⟩
  · intro i j hi hj hne; omega
  · simp [Kernel.Valid]
  · intro h; simp [Kernel.isUnary] at h
  · rintro ⟨s, h⟩; cases h

theorem elementwise_unique {f : α → α → α} {n : Nat} {p1 s1 p2 s2 po so : Int} {m a b : Int → α}
    (ha : ElementwiseResult f n p1 s1 p2 s2 po so m a)
    (hb : ElementwiseResult f n p1 s1 p2 s2 po so m b) : a = b := by
  funext x
  by_cases h : ∃ i : Nat, i < n ∧ x = po + so * i
  · obtain ⟨i, hi, rfl⟩ := h
    rw [ha.1 i hi, hb.1 i hi]
  · have h' : ∀ i : Nat, i < n → x ≠ po + so * i := fun i hi he => h ⟨i, hi, he⟩
    rw [ha.2 x h', hb.2 x h']

/-- The kernel programs of a threaded call: one kernel call per executed block, in the order the
blocks were taken. -/
def threadedPrograms (k : Kernel) (A : Args) (calls : List (Nat × Nat)) : List (List Acc) :=
  calls.map fun c => k.prog (A.at c.1) c.2

/-- **C06**: for every length, worker count, schedule of the block distribution and every interleaving
of the memory accesses of the kernel calls, the memory after the threaded call equals the memory
after the single serial kernel call. -/
theorem C06_threaded_equals_serial (k : Kernel) (hv : k.Valid) (f : α → α → α) (A : Args)
    (hc : k.Callable f A) (n : Nat) (m : Int → α)
    (hs : k ≠ .cmpInt8 ∧ SafeOverlap n A.p1 A.s1 A.p2 A.s2 A.po A.so ∨
          NoOverlap n A.p1 A.s1 A.p2 A.s2 A.po A.so)
    (req : Int) (maxWakeup zz : Nat) (sched : List Nat)
    (hret : (Work.exec (ufuncItem n req maxWakeup zz) sched).pc 0 = .returned)
    (evs : List (Nat × Acc))
    (hint : Interleaving (threadedPrograms k A
      (Work.kernelCalls (ufuncItem n req maxWakeup zz)
        (Work.exec (ufuncItem n req maxWakeup zz) sched))) evs) :
    runMem f m evs = runKernel f m (k.prog A n) ∧ runKernel f m (k.prog A n) ≠ none := by
  have honce := C01_exactly_once n req maxWakeup zz sched hret
  generalize Work.kernelCalls (ufuncItem n req maxWakeup zz)
    (Work.exec (ufuncItem n req maxWakeup zz) sched) = calls at honce hint
  have hout : ∀ i j : Nat, i < n → j < n → i ≠ j → A.po + A.so * i ≠ A.po + A.so * j := by
    rcases hs with ⟨_, h⟩ | h
    · exact outDistinct_of_safe h
    · exact outDistinct_of_no h
  obtain ⟨m1, r1, e1⟩ := exec_calls (prog := fun c => k.prog (A.at c.1) c.2) m honce
    (fun c _ => kernel_cover k hv _ (callable_at hc c.1) c.2) hint hout (by
      rcases hs with ⟨h8, h⟩ | h
      · exact Or.inl ⟨fun c _ => kernel_seg k hv _ (callable_at hc c.1) h8 c.2, h⟩
      · exact Or.inr h)
  obtain ⟨m2, r2, e2⟩ := exec_single m (kernel_cover k hv A hc n) hout (by
      rcases hs with ⟨h8, h⟩ | h
      · exact Or.inl ⟨kernel_seg k hv A hc h8 n, h⟩
      · exact Or.inr h)
  rw [r1, r2, elementwise_unique e1 e2]
  exact ⟨rfl, by simp⟩

/-- Non-vacuity of C06: programs executed one after the other are an interleaving. -/
theorem sequential_interleaving (progs : List (List Acc)) :
    Interleaving progs ((progs.zipIdx).flatMap fun p => p.1.map fun e => (p.2, e)) := by
  suffices h : ∀ (k c : Nat), ((((progs.zipIdx k).flatMap fun p => p.1.map fun e => (p.2, e)).filter
      (fun e => e.1 == c)).map (fun e => e.2)) = if k ≤ c then progs.getD (c - k) [] else [] by
    intro c
    have := h 0 c
    simpa using this
  induction progs with
  | nil => intro k c; simp
  | cons p ps ih =>
    intro k c
    rw [List.zipIdx_cons, List.flatMap_cons, List.filter_append, List.map_append, ih (k + 1) c]
    by_cases hk : k = c
    · subst hk
      rw [if_neg (by omega), if_pos (Nat.le_refl _)]
      rw [List.filter_eq_self.mpr]
      · simp [Function.comp_def]
      · intro a ha
        obtain ⟨e, _, rfl⟩ := List.mem_map.mp ha
        simp
    · rw [List.filter_eq_nil_iff.mpr]
      · by_cases hlt : k ≤ c
        · rw [if_pos (by omega), if_pos hlt, show c - k = (c - (k + 1)) + 1 by omega]
          simp
        · rw [if_neg (by omega), if_neg hlt]; rfl
      · intro a ha
        obtain ⟨e, _, rfl⟩ := List.mem_map.mp ha
        simp [hk]

/-- **C08**: an in-place call (output exactly on the first input) leaves in the array the values that
the same call would put into a fresh output array, for every kernel except the 8-bit comparison. -/
theorem C08_inplace_equals_fresh_partial (k : Kernel) (hv : k.Valid) (f : α → α → α) (A : Args)
    (hc : k.Callable f A) (h8 : k ≠ .cmpInt8) (n : Nat) (m : Int → α)
    (hin : A.po = A.p1 ∧ A.so = A.s1)
    (hs : SafeOverlap n A.p1 A.s1 A.p2 A.s2 A.po A.so)
    (fresh fs : Int) (hfs : fs ≠ 0) (hno : NoOverlap n A.p1 A.s1 A.p2 A.s2 fresh fs) :
    ∃ m1 m2, runKernel f m (k.prog A n) = some m1 ∧
      runKernel f m (k.prog { A with po := fresh, so := fs } n) = some m2 ∧
      (∀ i : Nat, i < n → m1 (A.p1 + A.s1 * i) = m2 (fresh + fs * i)) := by
  obtain ⟨m1, r1, e1⟩ := C07_kernel_correct k hv f A hc h8 n m hs
  have hc' : k.Callable f { A with po := fresh, so := fs } :=
    ⟨fun hu => ⟨hfs, (hc.1 hu).2⟩, hc.2⟩
  obtain ⟨m2, r2, e2⟩ := C07_kernel_correct_separate k hv f { A with po := fresh, so := fs } hc' n m hno
  refine ⟨m1, m2, r1, r2, fun i hi => ?_⟩
  rw [e2.1 i hi, ← hin.1, ← hin.2, e1.1 i hi, hin.1, hin.2]

/-- Non-vacuity of C08: `a -= 7` on 37 64-bit elements at address 8 (not 32-byte aligned). -/
example : SafeOverlap 37 8 8 4000 0 8 8 ∧ NoOverlap 37 8 8 4000 0 8000 8 := by
  constructor <;> intro i j hi hj <;> omega

/-- **C08 violated** for the 8-bit comparison: `np.equal(a, b, out=a)` on 33 false/false booleans.
Element 0 should become 1 (true) but the missing `return` makes it be compared again with `b[0]`. -/
theorem C08_compareInt8_violated :
    ∃ (f : Nat → Nat → Nat) (A : Args) (n : Nat) (m m' : Int → Nat),
      A.po = A.p1 ∧ A.so = A.s1 ∧ SafeOverlap n A.p1 A.s1 A.p2 A.s2 A.po A.so ∧
      runKernel f m (Kernel.cmpInt8.prog A n) = some m' ∧
      m' (A.po + A.so * (0 : Nat)) ≠ f (m (A.p1 + A.s1 * (0 : Nat))) (m (A.p2 + A.s2 * (0 : Nat))) := by
  let f : Nat → Nat → Nat := fun x y => if x = y then 1 else 0
  let A : Args := ⟨0, 1, 100, 1, 0, 1⟩
  have hrun : ((runKernel f (fun _ => 0) (Kernel.cmpInt8.prog A 33)).map fun m => m 0) = some 0 := by
    decide +kernel
  cases hr : runKernel f (fun _ => 0) (Kernel.cmpInt8.prog A 33) with
  | none => rw [hr] at hrun; simp at hrun
  | some m' =>
    rw [hr] at hrun
    refine ⟨f, A, 33, fun _ => 0, m', rfl, rfl, ?_, hr, ?_⟩
    · intro i j hi hj hne
      show (0 : Int) + 1 * i ≠ 0 + 1 * j ∧ (0 : Int) + 1 * i ≠ 0 + 1 * j ∧ (0 : Int) + 1 * i ≠ 100 + 1 * j
      omega
    · have : m' 0 = 0 := by simpa using hrun
      show m' (0 + 1 * ((0 : Nat) : Int)) ≠ _
      simp [this, f]

/-- **C08, partial overlap**: given directly overlapping operands (output two vectors ahead of the
input) a kernel call does *not* compute the fresh-output values; correctness for such views relies on
numpy copying the operand first (outside this model).  Output 64 bytes after the input is also
outside pnumpy's own overlap guard. -/
theorem C08_partial_overlap_needs_copy :
    ∃ (f : Int → Int → Int) (A : Args) (n : Nat) (m m' : Int → Int),
      A.po = A.p1 + 64 ∧ runKernel f m ((Kernel.fast 8).prog A n) = some m' ∧
      m' (A.po + A.so * (8 : Nat)) ≠ f (m (A.p1 + A.s1 * (8 : Nat))) (m (A.p2 + A.s2 * (8 : Nat))) := by
  let f : Int → Int → Int := fun x _ => x + 1
  let A : Args := ⟨0, 8, 4000, 8, 64, 8⟩
  have hrun : ((runKernel f (fun _ => 0) ((Kernel.fast 8).prog A 12)).map fun m => m 128) = some 2 := by
    decide +kernel
  cases hr : runKernel f (fun _ => 0) ((Kernel.fast 8).prog A 12) with
  | none => rw [hr] at hrun; simp at hrun
  | some m' =>
    rw [hr] at hrun
    refine ⟨f, A, 12, fun _ => 0, m', rfl, hr, ?_⟩
    have : m' 128 = 2 := by simpa using hrun
    show m' (64 + 8 * ((8 : Nat) : Int)) ≠ _
    simp [this, f]

/-- Case: the in-place subtraction of 70000 32-bit elements, the blocks executed by the caller alone. -/
example (m : Int → Int) : ∃ (sched : List Nat) (evs : List (Nat × Acc)), runMem (fun x y => x - y) m evs = runKernel (fun x y => x - y) m ((Kernel.fast 4).prog ⟨0, 4, 1000000, 4, 0, 4⟩ 70000) := by
  obtain ⟨l, hret⟩ := returns_alone 70000 3 7 0
  exact ⟨l, _, (C06_threaded_equals_serial (.fast 4) (by simp [Kernel.Valid]) (fun x y : Int => x - y) ⟨0, 4, 1000000, 4, 0, 4⟩
    ⟨by simp [Kernel.isUnary], by rintro ⟨s, h⟩; cases h⟩ 70000 m (Or.inl ⟨by simp, by intro i j hi hj hne; simp only; omega⟩) 3 7 0 l hret _
    (sequential_interleaving _)).1⟩

end Pnumpy.Props
