import Verif.Props.OpTables
import Verif.Props.Reduce
/-
Property theorem C54: what a reduction with a pnumpy kernel computes, end to end.
-/
namespace Pnumpy.Props
open Pnumpy.Spec Pnumpy.Elem Pnumpy.OpTables Pnumpy.Simd Pnumpy.Reduce Pnumpy.IntOps

/-- `e` is the reduce kernel pnumpy has for `np.<fn>.reduce` on elements of type `t`, `start` the start value of the blocks. -/
def ReduceKernel (F : FloatUnit) (fn : BinFn) (t : DT) (e : RedFunc) (start : Option (BitVec e.bits)) : Prop :=
  ∃ op, ⟨.binary, objOf fn, op⟩ ∈ Hooks.binaryMapping ∧ reduceOpFast F op t = some e ∧ start = reduceStartVal op t e.bits

/-- The kernel's scalar operation on elements of `k` bits. -/
def _root_.Pnumpy.OpTables.RedFunc.at {k : Nat} (e : RedFunc) (h : e.bits = k) (x y : BitVec k) : BitVec k :=
  (e.op (x.cast h.symm) (y.cast h.symm)).cast h

/-- **C54**: every lane of a reduce kernel's vector operation is its scalar operation. -/
theorem C54_lanes (F : FloatUnit) (op : Hooks.Op) (t : DT) (e : RedFunc) (he : reduceOpFast F op t = some e)
    (x y : BitVec 256) (d : Nat) (hd : e.bits * d + e.bits ≤ 256) :
    lane e.bits (e.vec x y) d = e.op (lane e.bits x d) (lane e.bits y d) := by
  cases op <;> cases t <;> simp only [reduceOpFast, reduceCtorEq, Option.some.injEq] at he <;> subst he <;>
    simp only at hd ⊢ <;>
    first
    | with_reducible exact lane_MUL256u64 _ _ hd
    | exact lane_and _ _ _ _
    | exact lane_or _ _ _ _
    | exact lane_lanes2 _ _ _ hd
    | exact (lane_lanes2 _ _ _ hd).trans (sminLane _ _ _)
    | exact (lane_lanes2 _ _ _ hd).trans (smaxLane _ _ _)
    | exact (lane_lanes2 _ _ _ hd).trans (uminLane _ _ _)
    | exact (lane_lanes2 _ _ _ hd).trans (umaxLane _ _ _)

theorem red_shape {F : FloatUnit} {op : Hooks.Op} {t : DT} {e : RedFunc} (he : reduceOpFast F op t = some e) :
    e.bits = t.bits ∧ 0 < 256 / e.bits := by
  cases op <;> cases t <;> simp only [reduceOpFast, reduceCtorEq, Option.some.injEq] at he <;> subst he <;> exact ⟨rfl, by simp only; decide⟩

/-- Folds of operations that wrap. -/
theorem fold_wraps (t : DT) (f : BitVec t.bits → BitVec t.bits → BitVec t.bits) (g : Int → Int → Int)
    (hg : ∀ v x y, Wraps t v x → Wraps t (g v (intVal t y)) (f x y)) (xs : List (BitVec t.bits)) (v : Int)
    (s : BitVec t.bits) (hv : Wraps t v s) : Wraps t ((xs.map (intVal t)).foldl g v) (xs.foldl f s) := by
  induction xs generalizing v s with
  | nil => exact hv
  | cons x xs ih => exact ih _ _ (hg _ _ _ hv)

theorem wraps_add {t : DT} {v : Int} {x y r : BitVec t.bits} (h : Wraps t v x) (hr : Wraps t (intVal t x + intVal t y) r) :
    Wraps t (v + intVal t y) r := by
  obtain ⟨a, ha⟩ := h
  obtain ⟨b, hb⟩ := hr
  refine ⟨a + b, ?_⟩
  rw [hb, ha]; ring
theorem wraps_mul {t : DT} {v : Int} {x y r : BitVec t.bits} (h : Wraps t v x) (hr : Wraps t (intVal t x * intVal t y) r) :
    Wraps t (v * intVal t y) r := by
  obtain ⟨a, ha⟩ := h
  obtain ⟨b, hb⟩ := hr
  refine ⟨a * intVal t y + b, ?_⟩
  rw [hb, ha]; ring

theorem foldl_add (l : List Int) (v : Int) : l.foldl (· + ·) v = v + l.sum := by
  induction l generalizing v with
  | nil => simp
  | cons x l ih => rw [List.foldl_cons, ih, List.sum_cons]; ring
theorem foldl_mul (l : List Int) (v : Int) : l.foldl (· * ·) v = v * l.prod := by
  induction l generalizing v with
  | nil => simp
  | cons x l ih => rw [List.foldl_cons, ih, List.prod_cons]; ring

theorem wraps_self (t : DT) (x : BitVec t.bits) : Wraps t (intVal t x) x := ⟨0, by simp⟩

theorem fold_min (t : DT) (f : BitVec t.bits → BitVec t.bits → BitVec t.bits) (hsel : ∀ x y, f x y = x ∨ f x y = y)
    (hle : ∀ x y, intVal t (f x y) ≤ intVal t x ∧ intVal t (f x y) ≤ intVal t y) (xs : List (BitVec t.bits)) (s : BitVec t.bits) :
    xs.foldl f s ∈ s :: xs ∧ ∀ x ∈ s :: xs, intVal t (xs.foldl f s) ≤ intVal t x := by
  induction xs generalizing s with
  | nil => simp
  | cons y xs ih =>
    obtain ⟨h1, h2⟩ := ih (f s y)
    have h3 := h2 (f s y) (by simp)
    have h4 := hle s y
    rw [List.foldl_cons]
    refine ⟨?_, ?_⟩
    · rcases List.mem_cons.mp h1 with h | h
      · rw [h]; rcases hsel s y with h' | h' <;> rw [h'] <;> simp
      · simp [h]
    · intro x hx
      rcases List.mem_cons.mp hx with rfl | hx
      · omega
      · rcases List.mem_cons.mp hx with rfl | hx
        · omega
        · exact h2 x (by simp [hx])
theorem fold_max (t : DT) (f : BitVec t.bits → BitVec t.bits → BitVec t.bits) (hsel : ∀ x y, f x y = x ∨ f x y = y)
    (hle : ∀ x y, intVal t x ≤ intVal t (f x y) ∧ intVal t y ≤ intVal t (f x y)) (xs : List (BitVec t.bits)) (s : BitVec t.bits) :
    xs.foldl f s ∈ s :: xs ∧ ∀ x ∈ s :: xs, intVal t x ≤ intVal t (xs.foldl f s) := by
  induction xs generalizing s with
  | nil => simp
  | cons y xs ih =>
    obtain ⟨h1, h2⟩ := ih (f s y)
    have h3 := h2 (f s y) (by simp)
    have h4 := hle s y
    rw [List.foldl_cons]
    refine ⟨?_, ?_⟩
    · rcases List.mem_cons.mp h1 with h | h
      · rw [h]; rcases hsel s y with h' | h' <;> rw [h'] <;> simp
      · simp [h]
    · intro x hx
      rcases List.mem_cons.mp hx with rfl | hx
      · omega
      · rcases List.mem_cons.mp hx with rfl | hx
        · omega
        · exact h2 x (by simp [hx])

theorem smin_sel {k : Nat} (x y : BitVec k) : sminOp x y = x ∨ sminOp x y = y := by unfold sminOp; split <;> simp
theorem smax_sel {k : Nat} (x y : BitVec k) : smaxOp x y = x ∨ smaxOp x y = y := by unfold smaxOp; split <;> simp
theorem umin_sel {k : Nat} (x y : BitVec k) : uminOp x y = x ∨ uminOp x y = y := by unfold uminOp; split <;> simp
theorem umax_sel {k : Nat} (x y : BitVec k) : umaxOp x y = x ∨ umaxOp x y = y := by unfold umaxOp; split <;> simp

theorem redAt_mk {k : Nat} (op : BitVec k → BitVec k → BitVec k) (v : Reg2) (hb : k = k) :
    (⟨k, op, v⟩ : RedFunc).at hb = op := rfl

theorem int_add_wraps (t : DT) (ht : t.isInt = true) (x y : BitVec t.bits) : Wraps t (intVal t x + intVal t y) (addOp x y) := by
  cases t <;> simp only [DT.isInt, Bool.false_eq_true] at ht
  all_goals first
    | exact wraps_bmod _ _ _ (C16_add _ x y)
    | exact wraps_mod _ _ _ (by
        show ((addOp x y).toNat : Int) = (x.toNat + y.toNat : Int) % _
        rw [C16_add_unsigned]; rfl)
theorem int_mul_wraps (t : DT) (ht : t.isInt = true) (x y : BitVec t.bits) : Wraps t (intVal t x * intVal t y) (mulOp x y) := by
  cases t <;> simp only [DT.isInt, Bool.false_eq_true] at ht
  all_goals first
    | exact wraps_bmod _ _ _ (C16_mul _ x y)
    | exact wraps_mod _ _ _ (by
        show ((mulOp x y).toNat : Int) = (x.toNat * y.toNat : Int) % _
        rw [C16_mul_unsigned]; rfl)

theorem smin_le {k : Nat} (x y : BitVec k) : (sminOp x y).toInt ≤ x.toInt ∧ (sminOp x y).toInt ≤ y.toInt := by
  rw [sminOp_toInt]; omega
theorem smax_le {k : Nat} (x y : BitVec k) : x.toInt ≤ (smaxOp x y).toInt ∧ y.toInt ≤ (smaxOp x y).toInt := by
  rw [smaxOp_toInt]; omega
theorem umin_le {k : Nat} (x y : BitVec k) : ((uminOp x y).toNat : Int) ≤ x.toNat ∧ ((uminOp x y).toNat : Int) ≤ y.toNat := by
  rw [uminOp_toNat]; omega
theorem umax_le {k : Nat} (x y : BitVec k) : (x.toNat : Int) ≤ (umaxOp x y).toNat ∧ (y.toNat : Int) ≤ (umaxOp x y).toNat := by
  rw [umaxOp_toNat]; omega

/-- What the integer entries have in common. -/
theorem int_red_entry {F : FloatUnit} {fn : BinFn} {t : DT} (ht : t.isInt = true) {e : RedFunc} {start : Option (BitVec e.bits)}
    (he : ReduceKernel F fn t e start) (hb : e.bits = t.bits) :
    AssocComm (e.at hb) ∧ (∀ init, GoodStart (e.at hb) (start.map (BitVec.cast hb)) init) ∧
    ∀ init xs, IntReduction t init xs (reduceSpec (e.at hb) init xs) fn := by
  obtain ⟨op, hm, he, rfl⟩ := he
  rw [opOf hm] at he ⊢
  cases fn <;> cases t <;> simp only [DT.isInt, Bool.false_eq_true] at ht <;>
    simp only [reduceOpFast, reduceCtorEq, Option.some.injEq] at he <;> subst he <;>
    simp only [redAt_mk, reduceStartVal, Option.map_some, Option.map_none, IntReduction, reduceSpec]
  all_goals first
    | exact ⟨assocComm_add _, fun i => BitVec.add_zero i, fun init xs => by
        rw [← foldl_add]
        exact fold_wraps _ _ _ (fun v x y h => wraps_add h (int_add_wraps _ rfl x y)) _ _ _ (wraps_self _ _)⟩
    | exact ⟨assocComm_mul _, fun i => BitVec.mul_one i, fun init xs => by
        rw [← foldl_mul]
        exact fold_wraps _ _ _ (fun v x y h => wraps_mul h (int_mul_wraps _ rfl x y)) _ _ _ (wraps_self _ _)⟩
    | exact ⟨assocComm_smin _, fun i => (smin_sel i i).elim id id, fun init xs => fold_min _ _ smin_sel smin_le _ _⟩
    | exact ⟨assocComm_smax _, fun i => (smax_sel i i).elim id id, fun init xs => fold_max _ _ smax_sel smax_le _ _⟩
    | exact ⟨assocComm_umin _, fun i => (umin_sel i i).elim id id, fun init xs => fold_min _ _ umin_sel umin_le _ _⟩
    | exact ⟨assocComm_umax _, fun i => (umax_sel i i).elim id id, fun init xs => fold_max _ _ umax_sel umax_le _ _⟩

/-- **C54**: for every integer type and reduction pnumpy has a kernel for, the serial call and the threaded call (any thread
limits, any schedule) return numpy's result. -/
theorem C54_integers (F : FloatUnit) (fn : BinFn) (t : DT) (ht : t.isInt = true) (e : RedFunc) (start : Option (BitVec e.bits))
    (he : ReduceKernel F fn t e start) (lay : Layout) (xs : List (BitVec t.bits)) (init : BitVec t.bits) (hn : 0 < xs.length)
    (hz : lay = .zero → ∀ x ∈ xs, ∀ y ∈ xs, x = y) (req : Int) (mw zz : Nat) (sched : List Nat)
    (hret : (Work.exec (ufuncItem xs.length req mw zz) sched).pc 0 = .returned) :
    ∃ (hb : e.bits = t.bits) (r : BitVec t.bits),
      reduceFast (e.at hb) (256 / e.bits) lay xs init = some r ∧
      threadedFast (e.at hb) (256 / e.bits) lay (start.map (BitVec.cast hb)) xs init
        (Work.kernelCalls (ufuncItem xs.length req mw zz) (Work.exec (ufuncItem xs.length req mw zz) sched)) = some r ∧
      IntReduction t init xs r fn := by
  have hk := he
  obtain ⟨op, _, he', _⟩ := he
  obtain ⟨hb, hw⟩ := red_shape he'
  obtain ⟨h1, h2, h3⟩ := int_red_entry ht hk hb
  obtain ⟨h4, h5⟩ := C09_threaded_equals_serial (e.at hb) h1 (256 / e.bits) hw lay (start.map (BitVec.cast hb)) xs init
    (h2 init) hn hz req mw zz sched hret
  exact ⟨hb, _, h5, h4.trans h5, h3 init xs⟩

theorem foldl_or (xs : List Bool) (b : Bool) : xs.foldl (· || ·) b = (b || xs.any id) := by
  induction xs generalizing b with
  | nil => simp
  | cons x xs ih => rw [List.foldl_cons, ih]; simp [Bool.or_assoc]
theorem foldl_and (xs : List Bool) (b : Bool) : xs.foldl (· && ·) b = (b && xs.all id) := by
  induction xs generalizing b with
  | nil => simp
  | cons x xs ih => rw [List.foldl_cons, ih]; simp [Bool.and_assoc]
theorem foldl_elem (f : BitVec 8 → BitVec 8 → BitVec 8) (g : Bool → Bool → Bool)
    (h : ∀ x y, f (boolElem x) (boolElem y) = boolElem (g x y)) (xs : List Bool) (b : Bool) :
    (xs.map boolElem).foldl f (boolElem b) = boolElem (xs.foldl g b) := by
  induction xs generalizing b with
  | nil => rfl
  | cons x xs ih => rw [List.map_cons, List.foldl_cons, h, ih, List.foldl_cons]

theorem bool_red_entry {F : FloatUnit} {fn : BinFn} {e : RedFunc} {start : Option (BitVec e.bits)}
    (he : ReduceKernel F fn .bool e start) (hb : e.bits = 8) :
    AssocComm (e.at hb) ∧ (∀ b, GoodStart (e.at hb) (start.map (BitVec.cast hb)) (boolElem b)) ∧
    ∀ init xs, ∃ r, boolReduction init xs fn = some r ∧ reduceSpec (e.at hb) (boolElem init) (xs.map boolElem) = boolElem r := by
  obtain ⟨op, hm, he, rfl⟩ := he
  rw [opOf hm] at he ⊢
  cases fn <;> simp only [reduceOpFast, reduceCtorEq, Option.some.injEq] at he <;> subst he <;>
    simp only [reduceStartVal, Option.map_some, Option.map_none, boolReduction, reduceSpec]
  · exact ⟨assocComm_or _, fun b => BitVec.or_zero, fun init xs => ⟨_, rfl, by
      rw [← foldl_or]; exact foldl_elem (orOp (k := 8)) _ (by decide) _ _⟩⟩
  · exact ⟨assocComm_and _, fun b => by
      show andOp (boolElem b) (1 : BitVec 8) = boolElem b
      cases b <;> decide, fun init xs => ⟨_, rfl, by
      rw [← foldl_and]; exact foldl_elem (andOp (k := 8)) _ (by decide) _ _⟩⟩
  · exact ⟨assocComm_smin _, fun b => (smin_sel _ _).elim id id, fun init xs => ⟨_, rfl, by
      rw [← foldl_and]; exact foldl_elem (sminOp (k := 8)) _ (by decide) _ _⟩⟩
  · exact ⟨assocComm_smax _, fun b => (smax_sel _ _).elim id id, fun init xs => ⟨_, rfl, by
      rw [← foldl_or]; exact foldl_elem (smaxOp (k := 8)) _ (by decide) _ _⟩⟩

/-- **C54** for booleans stored as bytes 0 and 1: the sum is `any`, the product `all`, the minimum `all`, the maximum `any`. -/
theorem C54_booleans (F : FloatUnit) (fn : BinFn) (e : RedFunc) (start : Option (BitVec e.bits))
    (he : ReduceKernel F fn .bool e start) (lay : Layout) (xs : List Bool) (init : Bool) (hn : 0 < xs.length)
    (hz : lay = .zero → ∀ x ∈ xs, ∀ y ∈ xs, x = y) (req : Int) (mw zz : Nat) (sched : List Nat)
    (hret : (Work.exec (ufuncItem xs.length req mw zz) sched).pc 0 = .returned) :
    ∃ (hb : e.bits = 8) (r : Bool), boolReduction init xs fn = some r ∧
      reduceFast (e.at hb) (256 / e.bits) lay (xs.map boolElem) (boolElem init) = some (boolElem r) ∧
      threadedFast (e.at hb) (256 / e.bits) lay (start.map (BitVec.cast hb)) (xs.map boolElem) (boolElem init)
        (Work.kernelCalls (ufuncItem xs.length req mw zz) (Work.exec (ufuncItem xs.length req mw zz) sched)) =
          some (boolElem r) := by
  have hk := he
  obtain ⟨op, _, he', _⟩ := he
  obtain ⟨hb, hw⟩ : e.bits = 8 ∧ 0 < 256 / e.bits := red_shape he'
  obtain ⟨h1, h2, h3⟩ := bool_red_entry hk hb
  obtain ⟨r, hr, h6⟩ := h3 init xs
  have hl : (xs.map boolElem).length = xs.length := List.length_map _
  obtain ⟨h4, h5⟩ := C09_threaded_equals_serial (e.at hb) h1 (256 / e.bits) hw lay (start.map (BitVec.cast hb))
    (xs.map boolElem) (boolElem init) (h2 init) (by rw [hl]; exact hn) (by
      intro hlay x hx y hy
      obtain ⟨a, ha, rfl⟩ := List.mem_map.mp hx
      obtain ⟨b, hb, rfl⟩ := List.mem_map.mp hy
      rw [hz hlay a ha b hb]) req mw zz sched (by rw [hl]; exact hret)
  rw [h6] at h5
  refine ⟨hb, r, hr, h5, ?_⟩
  rw [h5, hl] at h4
  exact h4

/-- Non-vacuity: the kernels exist, and every length has a schedule under which the threaded call returns. -/
example (F : FloatUnit) : (∃ e s, ReduceKernel F .add .i64 e s) ∧ (∃ e s, ReduceKernel F .minimum .u16 e s) ∧
    (∃ e s, ReduceKernel F .multiply .bool e s) ∧
    ∃ sched, (Work.exec (ufuncItem 100000 3 3 0) sched).pc 0 = .returned :=
  ⟨⟨_, _, .ADD, by decide, rfl, rfl⟩, ⟨_, _, .MIN, by decide, rfl, rfl⟩, ⟨_, _, .MUL, by decide, rfl, rfl⟩,
    reduce_returns 100000 3 3 0⟩
example : IntReduction .i8 (100 : BitVec 8) [(100 : BitVec 8)] (200 : BitVec 8) .add := ⟨-1, by decide⟩

/-- Case: lane 1 of the uint16 minimum; the sum of 100000 int64. -/
example (F : FloatUnit) (x y : BitVec 256) : ∃ e, reduceOpFast F .MIN .u16 = some e ∧ lane e.bits (e.vec x y) 1 = e.op (lane e.bits x 1) (lane e.bits y 1) :=
  ⟨_, rfl, C54_lanes F .MIN .u16 _ rfl x y 1 (by decide)⟩

example (F : FloatUnit) (xs : List (BitVec 64)) (h : xs.length = 100000) : ∃ r, IntReduction .i64 (5 : BitVec 64) xs r .add := by
  obtain ⟨e, s, he⟩ : ∃ e s, ReduceKernel F .add .i64 e s := ⟨_, _, .ADD, by decide, rfl, rfl⟩
  have hpos : 0 < xs.length := by omega
  obtain ⟨sched, hret⟩ := returns_alone xs.length 3 3 0
  obtain ⟨_, r, _, _, hr⟩ := C54_integers F .add .i64 rfl e s he .contiguous xs 5 hpos (by simp) 3 3 0 sched hret
  exact ⟨r, hr⟩

/-- **C54**: the values a thread's own reduction starts from, for every type with two-input loops: 0 for sums, 1 (1.0 for
floats) for products, none (the first element) for minimum and maximum. -/
theorem C54_start_values (t : DT) :
    (∃ z, reduceStartVal .ADD t t.bits = some z ∧ value t z = .fin 0) ∧
    (∃ o, reduceStartVal .MUL t t.bits = some o ∧ value t o = oneVal t) ∧
    reduceStartVal .MIN t t.bits = none ∧ reduceStartVal .MAX t t.bits = none := by
  refine ⟨⟨_, rfl, ?_⟩, ?_, rfl, rfl⟩
  · cases t <;> decide +kernel
  · cases t
    all_goals exact ⟨_, rfl, by decide +kernel⟩

/-- Case: float products start from 1.0. -/
example : ∃ o, reduceStartVal .MUL .f32 32 = some o ∧ value .f32 o = .fin (2 ^ 149) := (C54_start_values .f32).2.1

end Pnumpy.Props
