import Verif.Model.BoolTables
import Verif.Props.Compare
import Verif.Props.Classify
import Verif.Props.Dispatch
/-
Property theorems C57 and C58: comparison and classification ufuncs end to end.
-/
namespace Pnumpy.Props
open Pnumpy.Spec Pnumpy.Elem Pnumpy.Dispatch Pnumpy.BoolTables Pnumpy.Simd
open Pnumpy.Compare (boolByte)
open Pnumpy.Classify (ClsOp UKernel clsDispatch)

/-- numpy's function object of a comparison. -/
def objOfCmp : CmpOp → Hooks.Obj
  | .eq => .equal | .ne => .notEqual | .gt => .greater | .ge => .greaterEqual | .lt => .less | .le => .lessEqual

/-- `k` with the bytes `(dispatch t op').out` is what pnumpy installs for the comparison `op` of elements of type `t`. -/
def CompareKernel (op : CmpOp) (t : DT) (op' : CmpOp) (k : Kernel) : Prop :=
  ∃ code, ⟨.compare, objOfCmp op, code⟩ ∈ Hooks.compareMapping ∧ cmpOf code = some op' ∧ k = cmpTemplate t op'

theorem compareKernel_op {op op' : CmpOp} {t : DT} {k : Kernel} (h : CompareKernel op t op' k) : op' = op ∧ k = cmpTemplate t op := by
  obtain ⟨code, hm, hc, rfl⟩ := h
  have : op' = op := by
    cases op <;> simp [objOfCmp, Hooks.compareMapping] at hm <;> subst hm <;> simp [cmpOf] at hc <;> exact hc.symm
  exact ⟨this, by rw [this]⟩

/-- The scalar operation on memory cells: a cell holds the bits of the element that starts at its address. -/
def cmpCell (t : DT) (op : CmpOp) (a b : Nat) : Nat :=
  (boolByte (scalarOf (Compare.dispatch t op) (BitVec.ofNat _ a) (BitVec.ofNat _ b))).toNat

theorem cmpTemplate_valid (t : DT) (op : CmpOp) : (cmpTemplate t op).Valid ∧ (cmpTemplate t op).isUnary = false ∧
    ∀ size, cmpTemplate t op ≠ .symmetric size := by
  cases t <;> cases op <;> simp [cmpTemplate, Kernel.Valid, Kernel.isUnary]

/-- Elements per vector step of the bytes' description. -/
def stepLen {k : Nat} : Compare.Kernel k → Nat
  | .any _ => 0
  | .vec L _ _ => L
def ustepLen {k : Nat} : UKernel k → Nat
  | .vec L _ _ _ => L
  | _ => 0

theorem cmp_width (t : DT) (op : CmpOp) : width (cmpTemplate t op) = stepLen (Compare.dispatch t op) := by
  cases t <;> cases op <;> rfl

/-- **C57**: the contiguous branches of every entry step by the size of the elements they compare. -/
theorem C57_element_size (t : DT) (op : CmpOp) : elemBytes (cmpTemplate t op) = some (t.bits / 8) := by
  cases t <;> cases op <;> rfl

/-- **C57**: one vector step of an entry handles as many elements as its loop template says, and stores for each of
them the byte of the scalar operation. -/
theorem C57_lanes (t : DT) (op : CmpOp) (L : Nat) (step) (sca)
    (hk : Compare.dispatch t op = .vec L step sca) :
    width (cmpTemplate t op) = L ∧ ∀ xs ys p j, j < L → step xs ys p j = boolByte (sca (xs (p + j)) (ys (p + j))) := by
  have h := dispatch_step t op
  rw [hk] at h
  refine ⟨?_, h.2⟩
  rw [cmp_width, hk]; rfl

/-- **C57**: `==`, `!=`, `<`, `<=`, `>`, `>=` of every element type: whatever the length, the pointers and strides
(with the output not on an input), the settings, the schedule and the interleaving of the memory accesses, output byte `i` is 1 when the relation
holds of the numbers at position `i` and 0 otherwise, and nothing else changes. -/
theorem C57_compare (op op' : CmpOp) (t : DT) (k : Kernel) (hk : CompareKernel op t op' k) (mt : Int) (w : World)
    (hw : w.atop = true) (A : Args) (n : Nat) (m : Int → Nat) (x y : Nat → BitVec t.bits)
    (hx : ∀ i : Nat, i < n → m (A.p1 + A.s1 * i) = (x i).toNat) (hy : ∀ i : Nat, i < n → m (A.p2 + A.s2 * i) = (y i).toNat)
    (hs : k ≠ .cmpInt8 ∧ SafeOverlap n A.p1 A.s1 A.p2 A.s2 A.po A.so ∨ NoOverlap n A.p1 A.s1 A.p2 A.s2 A.po A.so)
    (evs : List (Nat × Acc)) (hex : Exec .compare ⟨some k, mt⟩ A n w evs) :
    ∃ m', runMem (cmpCell t op') m evs = some m' ∧
      (∀ i : Nat, i < n → m' (A.po + A.so * i) = if op.holds (value t (x i)) (value t (y i)) then 1 else 0) ∧
      (∀ a, (∀ i : Nat, i < n → a ≠ A.po + A.so * i) → m' a = m a) := by
  obtain ⟨rfl, rfl⟩ := compareKernel_op hk
  obtain ⟨hv, hu, hsy⟩ := cmpTemplate_valid t op'
  obtain ⟨m', r1, r2⟩ := C51_enabled_is_kernel .compare ⟨some (cmpTemplate t op'), mt⟩ w hw A n m (cmpCell t op')
    ⟨by simp, by rintro k' hk'; cases hk'; exact ⟨hv, by simp [hu], fun ⟨s, h⟩ => absurd h (hsy s)⟩⟩ _ rfl (by simp) (by simp)
    hs evs hex
  refine ⟨m', r1, fun i hi => ?_, r2.2⟩
  rw [r2.1 i hi, hx i hi, hy i hi]
  unfold cmpCell
  rw [BitVec.ofNat_toNat, BitVec.setWidth_eq, BitVec.ofNat_toNat, BitVec.setWidth_eq]
  have := dispatch_scalar t op' (x i) (y i)
  by_cases h : op'.holds (value t (x i)) (value t (y i))
  · rw [this.mpr h, if_pos h]; rfl
  · rw [if_neg h, Bool.eq_false_iff.mpr fun h' => h (this.mp h')]; rfl

/-- Non-vacuity: every comparison of every type has a kernel; a fresh output for 100 000 doubles split over threads. -/
example (op : CmpOp) (t : DT) : CompareKernel op t op (cmpTemplate t op) := by
  cases op
  · exact ⟨.CMP_EQ, by decide, rfl, rfl⟩
  · exact ⟨.CMP_NE, by decide, rfl, rfl⟩
  · exact ⟨.CMP_GT, by decide, rfl, rfl⟩
  · exact ⟨.CMP_GTE, by decide, rfl, rfl⟩
  · exact ⟨.CMP_LT, by decide, rfl, rfl⟩
  · exact ⟨.CMP_LTE, by decide, rfl, rfl⟩
example : NoOverlap 100000 0 8 1000000 8 2000000 1 ∧ (⟨true, false, false, false, 3, 0⟩ : World).getsItem 100000 = true ∧
    CmpOp.lt.holds (value .f64 (0xbff0000000000000 : BitVec 64)) (value .f64 (0 : BitVec 64)) :=
  ⟨by intro i j hi hj; omega, by decide, by decide +kernel⟩

/-! ### Classification -/

/-- numpy's function object of a classification. -/
def objOfCls : ClsOp → Hooks.Obj
  | .isnan => .isnan | .isinf => .isinf | .isfinite => .isfinite | .signbit => .signbit

/-- What pnumpy installs for the classification `op` of elements of type `t`: loop template `k`, bytes `K`. -/
def ClassifyKernel (op : ClsOp) (t : DT) (k : Kernel) (K : UKernel t.bits) : Prop :=
  ∃ code op', ⟨.unary, objOfCls op, code⟩ ∈ Hooks.unaryMapping ∧ clsOf code = some op' ∧ clsTemplate t op' = some k ∧
    clsDispatch t op' = some K

/-- The operation of the element loop for strided data. -/
def stridedOf {k : Nat} : UKernel k → BitVec k → Bool
  | .fill b, _ => b
  | .slow s, x => s x
  | .vec _ _ _ s, x => s x

/-- **C58**: for every entry: one vector step handles as many elements as the loop template says, and the vector
step, the tail and the strided loop agree on every element. -/
theorem C58_lanes (t : DT) (op : ClsOp) (k : Kernel) (K : UKernel t.bits) (hk : clsTemplate t op = some k)
    (hK : clsDispatch t op = some K) :
    (∀ L step tail str, K = .vec L step tail str → width k = L) ∧
    (∀ contig blocks xs i, K.out contig blocks xs i = boolByte (stridedOf K (xs i))) := by
  constructor
  · intro L step tail str h
    rw [show L = ustepLen K by rw [h]; rfl]
    clear h
    cases t <;> cases op <;> first | (cases hk; cases hK; rfl) | cases hk
  · intro contig blocks xs i
    have h0 := C15_classify_correct t op K hK contig blocks xs i
    have h1 := C15_classify_correct t op K hK false 0 xs i
    have h2 : K.out false 0 xs i = boolByte (stridedOf K (xs i)) := by cases K <;> rfl
    rw [← h2]
    by_cases h : clsHolds t op (xs i)
    · rw [h0.1 h, h1.1 h]
    · rw [h0.2 h, h1.2 h]

/-- Case: isnan of doubles. -/
example : ∃ k K, clsTemplate .f64 .isnan = some k ∧ clsDispatch .f64 .isnan = some K := ⟨_, _, rfl, rfl⟩

/-- **C58**: the contiguous branches of every entry that has some step by the size of the elements they read. -/
theorem C58_element_size (t : DT) (op : ClsOp) (k : Kernel) (hk : clsTemplate t op = some k) (s : Nat)
    (h : elemBytes k = some s) : s = t.bits / 8 := by
  cases t <;> cases op <;> first | (cases hk; cases h; done) | (cases hk; cases h; rfl) | cases hk

/-- Case: isnan of doubles reads 8-byte elements. -/
example : ∃ k, clsTemplate .f64 .isnan = some k ∧ elemBytes k = some 8 := ⟨_, rfl, rfl⟩

theorem cls_scalar {t : DT} {op : ClsOp} {K : UKernel t.bits} (hK : clsDispatch t op = some K) (x : BitVec t.bits) :
    (clsHolds t op x → boolByte (stridedOf K x) = 1) ∧ (¬ clsHolds t op x → boolByte (stridedOf K x) = 0) := by
  have h1 := C15_classify_correct t op K hK false 0 (fun _ => x) 0
  have h2 : K.out false 0 (fun _ => x) 0 = boolByte (stridedOf K x) := by cases K <;> rfl
  rw [h2] at h1; exact h1

/-- The scalar operation on memory cells. -/
def clsCell {k : Nat} (K : UKernel k) (a _b : Nat) : Nat := (boolByte (stridedOf K (BitVec.ofNat _ a))).toNat

theorem classifyKernel_op {op : ClsOp} {t : DT} {k : Kernel} {K : UKernel t.bits} (h : ClassifyKernel op t k K) :
    clsTemplate t op = some k ∧ clsDispatch t op = some K := by
  obtain ⟨code, op', hm, hc, h1, h2⟩ := h
  have : op' = op := by
    cases op <;> simp [objOfCls, Hooks.unaryMapping] at hm <;> subst hm <;> simp [clsOf] at hc <;> exact hc.symm
  subst this; exact ⟨h1, h2⟩

/-- **C58**: `isnan`, `isinf`, `isfinite`, `signbit`: whatever the length, pointers, strides, settings, schedule and
interleaving of memory accesses, output byte `i` is 1 when the class holds of the element at position `i` and 0 otherwise, and nothing
else changes. -/
theorem C58_classify (op : ClsOp) (t : DT) (k : Kernel) (K : UKernel t.bits) (hk : ClassifyKernel op t k K) (mt : Int)
    (w : World) (hw : w.atop = true) (p s po so : Int) (hso : so ≠ 0) (n : Nat) (m : Int → Nat) (x : Nat → BitVec t.bits)
    (hx : ∀ i : Nat, i < n → m (p + s * i) = (x i).toNat) (hs : SafeOverlap n p s p s po so)
    (evs : List (Nat × Acc)) (hex : Exec .unary ⟨some k, mt⟩ ⟨p, s, p, s, po, so⟩ n w evs) :
    ∃ m', runMem (clsCell K) m evs = some m' ∧
      (∀ i : Nat, i < n → (clsHolds t op (x i) → m' (po + so * i) = 1) ∧ (¬ clsHolds t op (x i) → m' (po + so * i) = 0)) ∧
      (∀ a, (∀ i : Nat, i < n → a ≠ po + so * i) → m' a = m a) := by
  obtain ⟨h1, h2⟩ := classifyKernel_op hk
  have hv : k.Valid ∧ k ≠ .cmpInt8 ∧ ∀ size, k ≠ .symmetric size := by
    cases t <;> cases op <;> simp only [clsTemplate, Option.some.injEq, reduceCtorEq] at h1 <;> subst h1 <;> simp [Kernel.Valid]
  obtain ⟨m', r1, r2⟩ := C51_enabled_is_kernel .unary ⟨some k, mt⟩ w hw ⟨p, s, p, s, po, so⟩ n m (clsCell K)
    ⟨fun _ => ⟨rfl, rfl⟩, by rintro k' hk'; cases hk'; exact ⟨hv.1, fun _ => rfl, fun ⟨s, h⟩ => absurd h (hv.2.2 s)⟩⟩ _ rfl
    (by simp) (fun _ => hso) (Or.inl ⟨hv.2.1, hs⟩) evs hex
  refine ⟨m', r1, fun i hi => ?_, r2.2⟩
  have hc := cls_scalar h2 (x i)
  have e : m' (po + so * i) = (boolByte (stridedOf K (x i))).toNat := by
    rw [r2.1 i hi]
    show clsCell K (m (p + s * i)) _ = _
    rw [hx i hi]
    unfold clsCell
    rw [BitVec.ofNat_toNat, BitVec.setWidth_eq]
  rw [e]
  exact ⟨fun h => by rw [hc.1 h]; rfl, fun h => by rw [hc.2 h]; rfl⟩

/-- Non-vacuity: isnan, isinf, isfinite have a kernel for every type, signbit for floats. -/
example (op : ClsOp) (t : DT) (h : op ≠ .signbit ∨ t = .f64) : ∃ k K, ClassifyKernel op t k K := by
  cases op
  · cases t <;> exact ⟨_, _, .ISNAN, .isnan, by decide, rfl, rfl, rfl⟩
  · cases t <;> exact ⟨_, _, .ISINF, .isinf, by decide, rfl, rfl, rfl⟩
  · cases t <;> exact ⟨_, _, .ISFINITE, .isfinite, by decide, rfl, rfl, rfl⟩
  · obtain rfl : t = .f64 := h.resolve_left (by simp)
    exact ⟨_, _, .SIGNBIT, .signbit, by decide, rfl, rfl, rfl⟩

end Pnumpy.Props
