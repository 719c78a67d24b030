import Verif.Proofs.OpTables
import Verif.Props.FloatOps
/-
Property theorems C53: which arithmetic a hooked two-input function performs, end to end: the numpy function, the
operation code it is mapped to, the kernel in the table, the split over threads, the values in memory.
-/
namespace Pnumpy.Props
open Pnumpy.Spec Pnumpy.Elem Pnumpy.Dispatch Pnumpy.OpTables Pnumpy.Simd Pnumpy.Ieee Pnumpy.FloatOps Pnumpy.IntOps

/-- numpy's function object of a two-input function. -/
def objOf : BinFn → Hooks.Obj
  | .add => .add | .subtract => .subtract | .multiply => .multiply | .trueDivide => .trueDivide
  | .floorDivide => .floorDivide | .minimum => .minimum | .maximum => .maximum | .logicalAnd => .logicalAnd
  | .logicalOr => .logicalOr | .bitwiseAnd => .bitwiseAnd | .bitwiseOr => .bitwiseOr | .bitwiseXor => .bitwiseXor
  | .leftShift => .leftShift | .rightShift => .rightShift

/-- `e` is the kernel pnumpy has for the numpy function `fn` on elements of type `t`. -/
def BinaryKernel (F : FloatUnit) (fn : BinFn) (t : DT) (e : TwoFunc) : Prop :=
  ∃ op, ⟨.binary, objOf fn, op⟩ ∈ Hooks.binaryMapping ∧ (mathOpFast F op t).func = some e

/-- The kernel's scalar operation on elements of `k` bits. -/
def _root_.Pnumpy.OpTables.TwoFunc.at {k : Nat} (e : TwoFunc) (h : e.bits = k) (x y : BitVec k) : BitVec k :=
  (e.op (x.cast h.symm) (y.cast h.symm)).cast h

theorem opOf {fn : BinFn} {op : Hooks.Op} (h : ⟨.binary, objOf fn, op⟩ ∈ Hooks.binaryMapping) :
    op = match fn with
      | .add => .ADD | .subtract => .SUB | .multiply => .MUL | .trueDivide => .DIV | .floorDivide => .FLOORDIV
      | .minimum => .MIN | .maximum => .MAX | .logicalAnd => .LOGICAL_AND | .logicalOr => .LOGICAL_OR
      | .bitwiseAnd => .BITWISE_AND | .bitwiseOr => .BITWISE_OR | .bitwiseXor => .BITWISE_XOR
      | .leftShift => .BITWISE_LSHIFT | .rightShift => .BITWISE_RSHIFT := by
  cases fn <;> simpa [objOf, Hooks.binaryMapping] using h

theorem sminLane (w : Nat) (a b : BitVec w) : (if a.toInt < b.toInt then a else b) = sminOp a b := by
  unfold sminOp; rw [BitVec.slt_eq_decide]; simp
theorem smaxLane (w : Nat) (a b : BitVec w) : (if b.toInt < a.toInt then a else b) = smaxOp a b := by
  unfold smaxOp; rw [BitVec.slt_eq_decide]; simp
theorem uminLane (w : Nat) (a b : BitVec w) : (if a.toNat < b.toNat then a else b) = uminOp a b := by
  unfold uminOp; rw [BitVec.ult_eq_decide]; simp
theorem umaxLane (w : Nat) (a b : BitVec w) : (if b.toNat < a.toNat then a else b) = umaxOp a b := by
  unfold umaxOp; rw [BitVec.ult_eq_decide]; simp

/-- **C53**: every lane of a kernel's vector operation is its scalar operation, for every entry of the table. -/
theorem C53_lanes (F : FloatUnit) (op : Hooks.Op) (t : DT) (e : TwoFunc) (he : (mathOpFast F op t).func = some e)
    (v : Reg2) (hv : e.vec = some v) (x y : BitVec 256) (d : Nat) (hd : e.bits * d + e.bits ≤ 256) :
    lane e.bits (v x y) d = e.op (lane e.bits x d) (lane e.bits y d) := by
  cases op <;> cases t <;> simp only [mathOpFast, reduceCtorEq, Option.some.injEq] at he <;> subst he <;>
    simp only [symmOf, fastOf, slowOf, Option.some.injEq, reduceCtorEq] at hv hd ⊢ <;> subst hv <;>
    first
    | with_reducible exact lane_MUL256u64 _ _ hd
    | exact lane_and _ _ _ _
    | exact lane_or _ _ _ _
    | exact lane_xor _ _ _ _
    | exact lane_lanes2 _ _ _ hd
    | exact (lane_lanes2 _ _ _ hd).trans (sminLane _ _ _)
    | exact (lane_lanes2 _ _ _ hd).trans (smaxLane _ _ _)

/-- Shape of a table entry. -/
theorem table_shape {F : FloatUnit} {op : Hooks.Op} {t : DT} {e : TwoFunc} (he : (mathOpFast F op t).func = some e) :
    e.bits = t.bits ∧ e.kernel.Valid ∧ e.kernel.isUnary = false ∧ e.kernel ≠ .cmpInt8 := by
  cases op <;> cases t <;> simp only [mathOpFast, reduceCtorEq, Option.some.injEq] at he <;> subst he <;>
    simp [symmOf, fastOf, slowOf, DT.bits, Kernel.Valid, Kernel.isUnary]

/-- **C53**: the element size of the kernel is that of the numpy type, and the type pnumpy announces for the output is it too. -/
theorem C53_types (F : FloatUnit) (op : Hooks.Op) (t : DT) (e : TwoFunc) (he : (mathOpFast F op t).func = some e) :
    e.bits = t.bits ∧ (mathOpFast F op t).wanted = some t := by
  refine ⟨(table_shape he).1, ?_⟩
  cases op <;> cases t <;> simp only [mathOpFast, reduceCtorEq] at he ⊢

/-- **C53**: the contiguous branches of every entry step by the size of the elements. -/
theorem C53_element_size (F : FloatUnit) (op : Hooks.Op) (t : DT) (e : TwoFunc) (he : (mathOpFast F op t).func = some e) :
    elemBytes e.kernel = some (t.bits / 8) := by
  cases op <;> cases t <;> simp only [mathOpFast, reduceCtorEq, Option.some.injEq] at he <;> subst he <;> rfl

theorem wraps_bmod (t : DT) (v : Int) (r : BitVec t.bits) (h : intVal t r = v.bmod (2 ^ t.bits)) : Wraps t v r := by
  refine ⟨-(v.bdiv (2 ^ t.bits)), ?_⟩
  have := Int.bdiv_add_bmod v (2 ^ t.bits)
  rw [h, Int.neg_mul]
  push_cast at this ⊢
  generalize v.bdiv (2 ^ t.bits) = q at *
  have e : (2 : Int) ^ t.bits * q = q * 2 ^ t.bits := Int.mul_comm _ _
  omega
theorem wraps_mod (t : DT) (v : Int) (r : BitVec t.bits) (h : intVal t r = v % (2 ^ t.bits)) : Wraps t v r := by
  refine ⟨-(v / (2 ^ t.bits)), ?_⟩
  have := Int.mul_ediv_add_emod v (2 ^ t.bits)
  rw [h, Int.neg_mul]
  have e : (2 : Int) ^ t.bits * (v / 2 ^ t.bits) = (v / 2 ^ t.bits) * 2 ^ t.bits := Int.mul_comm _ _
  omega

/-- The scalar operation of every integer entry is numpy's. -/
theorem int_entry {F : FloatUnit} {fn : BinFn} {t : DT} {e : TwoFunc} (ht : t.isInt = true)
    (he : BinaryKernel F fn t e) (hb : e.bits = t.bits) (x y : BitVec t.bits) :
    IntResult t x y (e.at hb x y) fn := by
  obtain ⟨op, hm, he⟩ := he
  rw [opOf hm] at he
  cases fn <;> cases t <;> simp only [DT.isInt, Bool.false_eq_true] at ht <;>
    simp only [mathOpFast, reduceCtorEq, Option.some.injEq] at he <;> subst he <;>
    simp only [IntResult, TwoFunc.at, symmOf, fastOf, slowOf, BitVec.cast_eq] <;>
    first
    | exact wraps_bmod _ _ _ (C16_add _ x y)
    | exact wraps_bmod _ _ _ (C16_sub _ x y)
    | exact wraps_bmod _ _ _ (C16_mul _ x y)
    | exact wraps_mod .u64 _ _ (by
        show ((mulOp x y).toNat : Int) = (x.toNat * y.toNat : Int) % _
        rw [C16_mul_unsigned]; rfl)
    | exact (C16_minmax _ x y).1
    | exact (C16_minmax _ x y).2.1
    | exact fun i hi => (C16_bitwise _ x y i hi).1
    | exact fun i hi => (C16_bitwise _ x y i hi).2.1
    | exact fun i hi => (C16_bitwise _ x y i hi).2.2.1

/-- The symmetric template is only used for operations with `op x y = op y x` (the float ones apart). -/
theorem symm_comm {F : FloatUnit} {op : Hooks.Op} {t : DT} {e : TwoFunc} (hf : t ≠ .f32 ∧ t ≠ .f64)
    (he : (mathOpFast F op t).func = some e) (hs : ∃ size, e.kernel = .symmetric size) (x y : BitVec e.bits) :
    e.op x y = e.op y x := by
  cases op <;> cases t <;> simp only [mathOpFast, reduceCtorEq, Option.some.injEq] at he <;>
    first | exact absurd rfl hf.1 | exact absurd rfl hf.2 | skip
  all_goals
    subst he
    first
    | exact BitVec.add_comm _ _
    | exact BitVec.mul_comm _ _
    | exact BitVec.and_comm _ _
    | exact BitVec.or_comm _ _
    | exact BitVec.xor_comm _ _
    | (obtain ⟨_, hs⟩ := hs; simp [fastOf] at hs)

theorem at_comm {k : Nat} {e : TwoFunc} (hb : e.bits = k) (h : ∀ x y, e.op x y = e.op y x) (x y : BitVec k) :
    e.at hb x y = e.at hb y x := by
  unfold TwoFunc.at; rw [h]

theorem fits_table {F : FloatUnit} {op : Hooks.Op} {t : DT} {e : TwoFunc} {α : Type} (f : α → α → α) (mt : Int) (A : Args)
    (he : (mathOpFast F op t).func = some e) (hc : (∃ size, e.kernel = .symmetric size) → ∀ x y, f x y = f y x) :
    Fits .binary ⟨some e.kernel, mt⟩ f A := by
  obtain ⟨_, h2, h3, _⟩ := table_shape he
  refine ⟨by simp, ?_⟩
  rintro k hk
  cases hk
  exact ⟨h2, by simp [h3], hc⟩

/-- **C53**: for every integer type and every two-input function pnumpy has a kernel for: whatever the length, the
pointers and strides (no output element sits on an input element of a later position), the thread limits, the schedule and
the interleaving of the memory accesses, the call leaves in every output element numpy's result for the two input elements,
and changes no other element. -/
theorem C53_integers (F : FloatUnit) (fn : BinFn) (t : DT) (ht : t.isInt = true) (e : TwoFunc) (he : BinaryKernel F fn t e)
    (mt : Int) (w : World) (hw : w.atop = true) (A : Args) (n : Nat) (m : Int → BitVec t.bits)
    (hguard : ¬ (A.p1 < A.po ∧ A.po < A.p1 + 64) ∧ ¬ (A.p2 < A.po ∧ A.po < A.p2 + 64))
    (hs : SafeOverlap n A.p1 A.s1 A.p2 A.s2 A.po A.so)
    (evs : List (Nat × Acc)) (hex : Exec .binary ⟨some e.kernel, mt⟩ A n w evs) :
    ∃ (hb : e.bits = t.bits) (m' : Int → BitVec t.bits), runMem (e.at hb) m evs = some m' ∧
      (∀ i : Nat, i < n → IntResult t (m (A.p1 + A.s1 * i)) (m (A.p2 + A.s2 * i)) (m' (A.po + A.so * i)) fn) ∧
      (∀ a, (∀ i : Nat, i < n → a ≠ A.po + A.so * i) → m' a = m a) := by
  have hbk := he
  obtain ⟨op, hm, hf⟩ := he
  obtain ⟨hb, _, _, h8⟩ := table_shape hf
  have hnf : t ≠ .f32 ∧ t ≠ .f64 := by constructor <;> rintro rfl <;> simp [DT.isInt] at ht
  obtain ⟨m', h1, h2⟩ := C51_enabled_is_kernel .binary ⟨some e.kernel, mt⟩ w hw A n m (e.at hb)
    (fits_table _ mt A hf fun hsy => at_comm hb (symm_comm hnf hf hsy)) _ rfl (fun _ => hguard) (by simp)
    (Or.inl ⟨h8, hs⟩) evs hex
  refine ⟨hb, m', h1, fun i hi => ?_, h2.2⟩
  rw [h2.1 i hi]
  exact int_entry ht hbk hb _ _

/-! ### Booleans -/

theorem at_mk {k : Nat} (K : Kernel) (op : BitVec k → BitVec k → BitVec k) (v : Option Reg2) (hb : k = k) (x y : BitVec k) :
    (⟨K, k, op, v⟩ : TwoFunc).at hb x y = op x y := rfl

theorem bool_entry {F : FloatUnit} {fn : BinFn} {e : TwoFunc} (he : BinaryKernel F fn .bool e) (hb : e.bits = 8) (x y : Bool) :
    ∃ r, boolFn x y fn = some r ∧ e.at hb (boolElem x) (boolElem y) = boolElem r := by
  obtain ⟨op, hm, he⟩ := he
  rw [opOf hm] at he
  cases fn <;> simp only [mathOpFast, reduceCtorEq, Option.some.injEq] at he <;> subst he <;>
    refine ⟨_, rfl, ?_⟩ <;> simp only [symmOf, at_mk] <;> cases x <;> cases y <;> decide

/-- **C53** for booleans stored the way numpy stores them (bytes 0 and 1). -/
theorem C53_booleans_partial (F : FloatUnit) (fn : BinFn) (e : TwoFunc) (he : BinaryKernel F fn .bool e)
    (mt : Int) (w : World) (hw : w.atop = true) (A : Args) (n : Nat) (m : Int → BitVec 8) (x y : Nat → Bool)
    (hx : ∀ i : Nat, i < n → m (A.p1 + A.s1 * i) = boolElem (x i)) (hy : ∀ i : Nat, i < n → m (A.p2 + A.s2 * i) = boolElem (y i))
    (hguard : ¬ (A.p1 < A.po ∧ A.po < A.p1 + 64) ∧ ¬ (A.p2 < A.po ∧ A.po < A.p2 + 64))
    (hs : SafeOverlap n A.p1 A.s1 A.p2 A.s2 A.po A.so)
    (evs : List (Nat × Acc)) (hex : Exec .binary ⟨some e.kernel, mt⟩ A n w evs) :
    ∃ (hb : e.bits = 8) (m' : Int → BitVec 8), runMem (e.at hb) m evs = some m' ∧
      (∀ i : Nat, i < n → ∃ r, boolFn (x i) (y i) fn = some r ∧ m' (A.po + A.so * i) = boolElem r) ∧
      (∀ a, (∀ i : Nat, i < n → a ≠ A.po + A.so * i) → m' a = m a) := by
  have hbk := he
  obtain ⟨op, hm, hf⟩ := he
  obtain ⟨hb, _, _, h8⟩ := table_shape hf
  obtain ⟨m', h1, h2⟩ := C51_enabled_is_kernel .binary ⟨some e.kernel, mt⟩ w hw A n m (e.at hb)
    (fits_table _ mt A hf fun hsy => at_comm hb (symm_comm (by simp) hf hsy)) _ rfl (fun _ => hguard) (by simp)
    (Or.inl ⟨h8, hs⟩) evs hex
  refine ⟨hb, m', h1, fun i hi => ?_, h2.2⟩
  obtain ⟨r, hr, he'⟩ := bool_entry hbk hb (x i) (y i)
  exact ⟨r, hr, by rw [h2.1 i hi, hx i hi, hy i hi]; exact he'⟩

/-- **C53 violated** for boolean bytes other than 0 and 1 (a boolean view of a byte array): the kernel combines the raw bits, so
`True and True` (bytes 2 and 1) gives the byte 0, `False`. -/
theorem C53_raw_bool_violated (F : FloatUnit) : ∃ e, BinaryKernel F .logicalAnd .bool e ∧ ∃ hb : e.bits = 8,
    e.at hb 2 1 = 0 ∧ value .bool (2 : BitVec 8) = .fin 1 ∧ value .bool (1 : BitVec 8) = .fin 1 ∧
    boolFn true true .logicalAnd = some true :=
  ⟨_, ⟨.LOGICAL_AND, by decide, rfl⟩, rfl, by decide, by decide, by decide, rfl⟩

/-! ### Floats -/

/-- What is used of the machine's float addition and multiplication: a NaN operand gives a NaN, and exchanging the operands
changes at most which NaN comes out. -/
structure LawfulUnit (F : FloatUnit) (t : DT) : Prop where
  nanAdd : ∀ x y, value t x = .nan ∨ value t y = .nan → value t (F.add t.bits x y) = .nan
  nanMul : ∀ x y, value t x = .nan ∨ value t y = .nan → value t (F.mul t.bits x y) = .nan
  commAdd : ∀ x y, SameFloat t (F.add t.bits x y) (F.add t.bits y x)
  commMul : ∀ x y, SameFloat t (F.mul t.bits x y) (F.mul t.bits y x)

/-- Forget which NaN. -/
noncomputable def canon (t : DT) (x : BitVec t.bits) : Option (BitVec t.bits) :=
  if value t x = .nan then none else some x

theorem canon_same {t : DT} {x y : BitVec t.bits} : canon t x = canon t y ↔ SameFloat t x y := by
  unfold canon SameFloat
  constructor
  · intro h
    by_cases hx : value t x = .nan <;> by_cases hy : value t y = .nan <;> simp_all
  · rintro (rfl | ⟨h1, h2⟩)
    · rfl
    · simp [h1, h2]

/-- An operation that only depends on its operands up to NaNs. -/
def NanSafe (t : DT) (f : BitVec t.bits → BitVec t.bits → BitVec t.bits) : Prop :=
  ∀ x y, value t x = .nan ∨ value t y = .nan → value t (f x y) = .nan

/-- `f` on elements up to NaNs. -/
noncomputable def lift2 (t : DT) (f : BitVec t.bits → BitVec t.bits → BitVec t.bits) :
    Option (BitVec t.bits) → Option (BitVec t.bits) → Option (BitVec t.bits)
  | some x, some y => canon t (f x y)
  | _, _ => none

theorem lift2_hom {t : DT} {f : BitVec t.bits → BitVec t.bits → BitVec t.bits} (hn : NanSafe t f) (x y : BitVec t.bits) :
    canon t (f x y) = lift2 t f (canon t x) (canon t y) := by
  by_cases hx : value t x = .nan
  · simp [canon, hx, hn x y (Or.inl hx), lift2]
  · by_cases hy : value t y = .nan
    · simp [canon, hx, hy, hn x y (Or.inr hy), lift2]
    · rw [show canon t x = some x by simp [canon, hx], show canon t y = some y by simp [canon, hy]]; rfl

theorem lift2_comm {t : DT} {f : BitVec t.bits → BitVec t.bits → BitVec t.bits}
    (hc : ∀ x y, SameFloat t (f x y) (f y x)) (x y) : lift2 t f x y = lift2 t f y x := by
  cases x <;> cases y <;> try rfl
  exact canon_same.mpr (hc _ _)

/-- Calls with a symmetric kernel and an operation that is symmetric up to NaNs. -/
theorem call_upto_nan {e : TwoFunc} {F : FloatUnit} {op : Hooks.Op} {t : DT} (hf : (mathOpFast F op t).func = some e)
    (f : BitVec t.bits → BitVec t.bits → BitVec t.bits) (hn : NanSafe t f) (hc : ∀ x y, SameFloat t (f x y) (f y x))
    (mt : Int) (w : World) (hw : w.atop = true) (A : Args) (n : Nat) (m : Int → BitVec t.bits)
    (hguard : ¬ (A.p1 < A.po ∧ A.po < A.p1 + 64) ∧ ¬ (A.p2 < A.po ∧ A.po < A.p2 + 64))
    (hs : SafeOverlap n A.p1 A.s1 A.p2 A.s2 A.po A.so)
    (evs : List (Nat × Acc)) (hex : Exec .binary ⟨some e.kernel, mt⟩ A n w evs) :
    ∃ m' : Int → BitVec t.bits, runMem f m evs = some m' ∧
      (∀ i : Nat, i < n → SameFloat t (m' (A.po + A.so * i)) (f (m (A.p1 + A.s1 * i)) (m (A.p2 + A.s2 * i)))) ∧
      (∀ a, (∀ i : Nat, i < n → a ≠ A.po + A.so * i) → m' a = m a) := by
  obtain ⟨_, _, _, h8⟩ := table_shape hf
  obtain ⟨m2, h1, h2⟩ := C51_enabled_is_kernel .binary ⟨some e.kernel, mt⟩ w hw A n (canon t ∘ m) (lift2 t f)
    (fits_table _ mt A hf fun _ => lift2_comm hc) _ rfl (fun _ => hguard) (by simp) (Or.inl ⟨h8, hs⟩) evs hex
  rw [runMem_hom (lift2_hom hn)] at h1
  cases hr : runMem f m evs with
  | none => simp [hr] at h1
  | some m' =>
    simp only [hr, Option.map_some, Option.some.injEq] at h1
    refine ⟨m', rfl, fun i hi => ?_, fun a ha => ?_⟩
    · rw [← canon_same, lift2_hom hn]
      have := h2.1 i hi
      rw [← h1] at this
      exact this
    · obtain ⟨mb, b1, b2⟩ := C51_enabled_is_kernel .binary ⟨some e.kernel, mt⟩ w hw A n (fun _ => false) (fun _ _ => true)
        (fits_table _ mt A hf fun _ _ _ => rfl) _ rfl (fun _ => hguard) (by simp) (Or.inl ⟨h8, hs⟩) evs hex
      unfold runMem at b1 hr
      cases hb : run (fun _ _ => true) ⟨fun _ => false, fun _ _ => none⟩ evs with
      | none => simp [hb] at b1
      | some sb =>
        cases hr' : run f ⟨m, fun _ _ => none⟩ evs with
        | none => simp [hr'] at hr
        | some sf =>
          simp only [hb, Option.map_some, Option.some.injEq] at b1
          simp only [hr', Option.map_some, Option.some.injEq] at hr
          rw [← hr]
          refine run_frame evs _ _ hr' fun c l hcl => ?_
          have := run_marks (a := a) evs _ _ hb (by simp) (Or.inr ⟨c, l, hcl⟩)
          rw [b1, b2.2 a ha] at this
          cases this

/-- **C53** for float32 and float64: add, subtract, multiply and true_divide give, in every output element, the machine's
result for the two input elements (a NaN for a NaN), minimum and maximum the documented minimum and maximum provided
the first operand is not NaN (see C43), and no other element changes. -/
theorem C53_floats (F : FloatUnit) (fn : BinFn) (t : DT) (ht : t = .f32 ∨ t = .f64) (hF : LawfulUnit F t)
    (hfn : fn ≠ .floorDivide) (e : TwoFunc) (he : BinaryKernel F fn t e)
    (mt : Int) (w : World) (hw : w.atop = true) (A : Args) (n : Nat) (m : Int → BitVec t.bits)
    (hguard : ¬ (A.p1 < A.po ∧ A.po < A.p1 + 64) ∧ ¬ (A.p2 < A.po ∧ A.po < A.p2 + 64))
    (hs : SafeOverlap n A.p1 A.s1 A.p2 A.s2 A.po A.so)
    (evs : List (Nat × Acc)) (hex : Exec .binary ⟨some e.kernel, mt⟩ A n w evs) :
    ∃ (hb : e.bits = t.bits) (m' : Int → BitVec t.bits), runMem (e.at hb) m evs = some m' ∧
      (∀ i : Nat, i < n → ((fn = .minimum ∨ fn = .maximum) → value t (m (A.p1 + A.s1 * i)) ≠ .nan) →
        FloatResult F t (m (A.p1 + A.s1 * i)) (m (A.p2 + A.s2 * i)) (m' (A.po + A.so * i)) fn) ∧
      (∀ a, (∀ i : Nat, i < n → a ≠ A.po + A.so * i) → m' a = m a) := by
  obtain ⟨op, hm, hf⟩ := he
  rw [opOf hm] at hf
  obtain ⟨hb, _, _, h8⟩ := table_shape hf
  refine ⟨hb, ?_⟩
  have key := fun hfit => C51_enabled_is_kernel .binary ⟨some e.kernel, mt⟩ w hw A n m (e.at hb) hfit _ rfl
    (fun _ => hguard) (by simp) (Or.inl ⟨h8, hs⟩) evs hex
  have keyF := fun hc => key (fits_table _ mt A hf hc)
  have keyN := fun hn hc => call_upto_nan hf (e.at hb) hn hc mt w hw A n m hguard hs evs hex
  rcases ht with rfl | rfl <;> cases fn <;>
    simp only [mathOpFast, reduceCtorEq, Option.some.injEq, ne_eq, not_true_eq_false] at hf hfn <;> subst hf
  all_goals first
    | exact (keyN hF.nanAdd hF.commAdd).imp fun m' h => ⟨h.1, fun i hi _ => h.2.1 i hi, h.2.2⟩
    | exact (keyN hF.nanMul hF.commMul).imp fun m' h => ⟨h.1, fun i hi _ => h.2.1 i hi, h.2.2⟩
    | obtain ⟨m', h1, h2⟩ := keyF (by rintro ⟨_, h⟩; simp [fastOf] at h)
      refine ⟨m', h1, fun i hi hnan => ?_, h2.2⟩
      rw [h2.1 i hi]
      first
      | exact Or.inl rfl
      | exact C43_minimum_partial .f32 _ _ (hnan (by simp))
      | exact C43_maximum_partial .f32 _ _ (hnan (by simp))
      | exact C43_minimum_partial .f64 _ _ (hnan (by simp))
      | exact C43_maximum_partial .f64 _ _ (hnan (by simp))

/-- Non-vacuity of the three theorems: `a += b` on 100 000 int32, `a & b` on booleans, `minimum` on doubles; the float
hypotheses hold of a unit whose operations always give NaN on a NaN and are symmetric. -/
example (F : FloatUnit) : (∃ e, BinaryKernel F .add .i32 e) ∧ (∃ e, BinaryKernel F .bitwiseAnd .bool e) ∧
    (∃ e, BinaryKernel F .minimum .f64 e) ∧ SafeOverlap 100000 0 4 1000000 4 0 4 ∧
    (⟨true, false, false, false, 3, 0⟩ : World).getsItem 100000 = true :=
  ⟨⟨_, .ADD, by decide, rfl⟩, ⟨_, .BITWISE_AND, by decide, rfl⟩, ⟨_, .MIN, by decide, rfl⟩,
    by intro i j hi hj hne; omega, by decide⟩
example : LawfulUnit ⟨fun k _ _ => BitVec.allOnes k, fun _ x _ => x, fun k _ _ => BitVec.allOnes k, fun _ x _ => x, fun _ x => x,
    fun _ x => x, fun _ x => x, fun _ x => x, fun _ x => x⟩ .f64 := by
  constructor <;> intros <;> first | exact Or.inl rfl | (show value .f64 (BitVec.allOnes 64) = .nan; decide)
example : intVal .i32 (2147483648#32) = -2147483648 ∧ Wraps .i32 2147483648 (2147483648#32) :=
  ⟨by decide, -1, by decide⟩

/-- Cases: lane 3 of an int32 addition; the element size of float64 minimum. -/
example (F : FloatUnit) (e : TwoFunc) (he : (mathOpFast F .ADD .i32).func = some e) (v : Reg2) (hv : e.vec = some v) (x y : BitVec 256) :
    lane e.bits (v x y) 3 = e.op (lane e.bits x 3) (lane e.bits y 3) :=
  C53_lanes F .ADD .i32 e he v hv x y 3 (by rw [(C53_types F .ADD .i32 e he).1]; decide)

example (F : FloatUnit) : ∃ e, (mathOpFast F .MIN .f64).func = some e ∧ e.vec.isSome = true ∧ e.bits = 64 ∧ elemBytes e.kernel = some 8 :=
  ⟨_, rfl, rfl, (C53_types F .MIN .f64 _ rfl).1, C53_element_size F .MIN .f64 _ rfl⟩

/-- Case: `a += b` on 100000 int32, threaded. -/
example (F : FloatUnit) (m : Int → BitVec 32) : ∃ (e : TwoFunc) (evs : List (Nat × Acc)) (hb : e.bits = 32) (m' : Int → BitVec 32),
    Exec .binary ⟨some e.kernel, 3⟩ ⟨0, 4, 1000000, 4, 0, 4⟩ 100000 ⟨true, false, false, false, 3, 0⟩ evs ∧
    runMem (e.at hb) m evs = some m' ∧ IntResult .i32 (m 4) (m 1000004) (m' 4) .add := by
  obtain ⟨e, he⟩ : ∃ e, BinaryKernel F .add .i32 e := ⟨_, .ADD, by decide, rfl⟩
  obtain ⟨evs, hex⟩ := exec_exists .binary ⟨some e.kernel, 3⟩ ⟨true, false, false, false, 3, 0⟩ ⟨0, 4, 1000000, 4, 0, 4⟩ 100000
  obtain ⟨hb, m', h1, h2, _⟩ := C53_integers F .add .i32 rfl e he 3 _ rfl _ 100000 m (by decide) (by intro i j hi hj hne; simp only; omega) evs hex
  exact ⟨e, evs, hb, m', hex, h1, h2 1 (by decide)⟩

/-- Case: `a &= b` on 100 booleans that are all True. -/
example (F : FloatUnit) : ∃ (e : TwoFunc) (evs : List (Nat × Acc)) (hb : e.bits = 8) (m' : Int → BitVec 8),
    Exec .binary ⟨some e.kernel, 3⟩ ⟨0, 1, 1000, 1, 0, 1⟩ 100 ⟨true, false, false, false, 3, 0⟩ evs ∧
    runMem (e.at hb) (fun _ => boolElem true) evs = some m' ∧ m' 7 = boolElem true := by
  obtain ⟨e, he⟩ : ∃ e, BinaryKernel F .bitwiseAnd .bool e := ⟨_, .BITWISE_AND, by decide, rfl⟩
  obtain ⟨evs, hex⟩ := exec_exists .binary ⟨some e.kernel, 3⟩ ⟨true, false, false, false, 3, 0⟩ ⟨0, 1, 1000, 1, 0, 1⟩ 100
  obtain ⟨hb, m', h1, h2, _⟩ := C53_booleans_partial F .bitwiseAnd e he 3 _ rfl _ 100 (fun _ => boolElem true) (fun _ => true) (fun _ => true)
    (fun _ _ => rfl) (fun _ _ => rfl) (by decide) (by intro i j hi hj hne; simp only; omega) evs hex
  obtain ⟨r, hr, h3⟩ := h2 7 (by decide)
  cases hr
  exact ⟨e, evs, hb, m', hex, h1, h3⟩

end Pnumpy.Props
