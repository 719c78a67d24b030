import Verif.Props.OpTables
/-
Property theorem C55: what a hooked one-input function computes, end to end.
-/
namespace Pnumpy.Props
open Pnumpy.Spec Pnumpy.Elem Pnumpy.Dispatch Pnumpy.OpTables Pnumpy.Simd Pnumpy.IntOps Pnumpy.FloatOps Pnumpy.Ieee

/-- numpy's function object of a one-input function. -/
def objOf1 : UnFn → Hooks.Obj
  | .absolute => .absolute | .sign => .sign | .negative => .negative | .logicalNot => .logicalNot | .invert => .invert
  | .floor => .floor | .ceil => .ceil | .trunc => .trunc | .rint => .rint | .sqrt => .sqrt

/-- `e` is a kernel pnumpy installs for the numpy function `fn` on elements of type `t`. -/
def UnaryKernel (F : FloatUnit) (fn : UnFn) (t : DT) (e : OneFunc) : Prop :=
  ∃ op, ⟨.unary, objOf1 fn, op⟩ ∈ Hooks.unaryMapping ∧ (unaryOp F op t).func = some e

/-- The kernel's scalar operation from `k`-bit to `j`-bit elements. -/
def _root_.Pnumpy.OpTables.OneFunc.at {k j : Nat} (e : OneFunc) (h : e.inBits = k) (h' : e.outBits = j) (x : BitVec k) : BitVec j :=
  (e.op (x.cast h.symm)).cast h'

theorem opOf1 {fn : UnFn} {op : Hooks.Op} (h : ⟨.unary, objOf1 fn, op⟩ ∈ Hooks.unaryMapping) :
    match fn with
      | .absolute => op = .ABS | .sign => op = .SIGN | .negative => op = .NEGATIVE | .logicalNot => op = .LOGICAL_NOT
      | .invert => op = .INVERT ∨ op = .BITWISE_NOT | .floor => op = .FLOOR | .ceil => op = .CEIL | .trunc => op = .TRUNC
      | .rint => op = .ROUND ∨ op = .RINT | .sqrt => op = .SQRT := by
  cases fn <;> simpa [objOf1, Hooks.unaryMapping] using h

theorem absLane (w : Nat) (a : BitVec w) : (if a.toInt < 0 then -a else a) = absOp a := by
  unfold absOp; rw [BitVec.slt_eq_decide]; simp

theorem lane_NEG256 (w : Nat) (x : BitVec 256) (d : Nat) (hd : w * d + w ≤ 256) : lane w (NEG256 w x) d = negOp (lane w x d) := by
  unfold NEG256
  rw [lane_lanes2 _ _ _ hd, lane_zero]
  exact BitVec.zero_sub _

/-- Every lane of the vector operation, if there is one, is the scalar operation. -/
def LanesAgree (e : OneFunc) : Prop :=
  ∀ v, e.vec = some v → ∀ (h : e.outBits = e.inBits) (x : BitVec 256) (d : Nat), e.inBits * d + e.inBits ≤ 256 →
    lane e.inBits (v x) d = e.at rfl h (lane e.inBits x d)

theorem agree_fast (bits : Nat) (op : BitVec bits → BitVec bits) (vec : BitVec 256 → BitVec 256)
    (hl : ∀ x d, bits * d + bits ≤ 256 → lane bits (vec x) d = op (lane bits x d)) : LanesAgree (ufast bits op vec) := by
  intro v hv h x d hd
  obtain rfl := Option.some.inj hv
  exact hl x d hd
theorem agree_lanes (bits : Nat) (op : BitVec bits → BitVec bits) : LanesAgree (ufast bits op (lanes1 bits op)) :=
  agree_fast _ _ _ fun x _ hd => lane_lanes1 op x hd
theorem agree_abs (bits : Nat) : LanesAgree (ufast bits absOp (ABS256 bits)) :=
  agree_fast _ _ _ fun x _ hd => (lane_lanes1 _ x hd).trans (absLane _ _)
theorem agree_neg (bits : Nat) : LanesAgree (ufast bits negOp (NEG256 bits)) :=
  agree_fast _ _ _ fun x d hd => lane_NEG256 bits x d hd
theorem agree_slow (bits : Nat) (op : BitVec bits → BitVec bits) : LanesAgree (uslow bits op) := by
  intro v hv; cases hv
theorem agree_slowBool (bits : Nat) (op : BitVec bits → Bool) : LanesAgree (uslowBool bits op) := by
  intro v hv; cases hv

/-- **C55**: every lane of a kernel's vector operation is its scalar operation, except for float absolute and negative, whose
lanes differ from the scalar operation on zeros and NaNs (C44). -/
theorem C55_lanes (F : FloatUnit) (op : Hooks.Op) (t : DT) (hx : (op = .ABS ∨ op = .NEGATIVE) → t ≠ .f32 ∧ t ≠ .f64)
    (e : OneFunc) (he : (unaryOp F op t).func = some e) : LanesAgree e := by
  cases op <;> cases t <;> simp only [unaryOp, reduceCtorEq, Option.some.injEq] at he <;>
    first
    | exact absurd rfl (hx (Or.inl rfl)).1
    | exact absurd rfl (hx (Or.inl rfl)).2
    | exact absurd rfl (hx (Or.inr rfl)).1
    | exact absurd rfl (hx (Or.inr rfl)).2
    | (subst he; with_reducible first
        | exact agree_slow _ _ | exact agree_slowBool _ _ | exact agree_abs _ | exact agree_neg _ | exact agree_lanes _ _)

theorem un_shape {F : FloatUnit} {op : Hooks.Op} {t : DT} {e : OneFunc} (he : (unaryOp F op t).func = some e) :
    e.inBits = t.bits ∧ e.kernel.Valid ∧ e.kernel ≠ .cmpInt8 ∧ (∀ size, e.kernel ≠ .symmetric size) ∧
    e.outBits = if op = .LOGICAL_NOT then 8 else t.bits := by
  cases op <;> cases t <;> simp only [unaryOp, reduceCtorEq, Option.some.injEq] at he <;> subst he <;>
    simp [ufast, uslow, uslowBool, DT.bits, Kernel.Valid]

/-- **C55**: the contiguous branches of every entry that has some step by the size of the elements, which is then
also that of the results. -/
theorem C55_element_size (F : FloatUnit) (op : Hooks.Op) (t : DT) (e : OneFunc) (he : (unaryOp F op t).func = some e)
    (s : Nat) (hs : elemBytes e.kernel = some s) : s = t.bits / 8 ∧ e.outBits = t.bits := by
  cases op <;> cases t <;> simp only [unaryOp, reduceCtorEq, Option.some.injEq] at he <;> subst he <;>
    first | (cases hs; done) | (cases hs; exact ⟨rfl, rfl⟩)

theorem fits_un {F : FloatUnit} {op : Hooks.Op} {t : DT} {e : OneFunc} {α : Type} (f : α → α → α) (mt : Int) (p s po so : Int)
    (he : (unaryOp F op t).func = some e) : Fits .unary ⟨some e.kernel, mt⟩ f ⟨p, s, p, s, po, so⟩ := by
  obtain ⟨_, h2, _, h4, _⟩ := un_shape he
  refine ⟨fun _ => ⟨rfl, rfl⟩, ?_⟩
  rintro k hk
  cases hk
  exact ⟨h2, fun _ => rfl, fun ⟨s, h⟩ => absurd h (h4 s)⟩

/-- The scalar operation of every integer entry is numpy's. -/
theorem int_entry1 {F : FloatUnit} {fn : UnFn} {t : DT} {e : OneFunc} (ht : t.isInt = true) (hfn : fn ≠ .logicalNot)
    (he : UnaryKernel F fn t e) (h : e.inBits = t.bits) (h' : e.outBits = t.bits) (x : BitVec t.bits) :
    IntResult1 t x (e.at h h' x) fn := by
  obtain ⟨op, hm, he⟩ := he
  have hop := opOf1 hm
  cases fn <;> simp only [ne_eq, not_true_eq_false] at hfn <;> simp only at hop <;>
    first | subst hop | (rcases hop with rfl | rfl)
  all_goals
    cases t <;> simp only [DT.isInt, Bool.false_eq_true] at ht <;>
    simp only [unaryOp, reduceCtorEq, Option.some.injEq] at he <;> subst he <;>
    simp only [IntResult1, ufast, uslow]
  all_goals first
    | exact wraps_bmod _ _ _ (C16_abs _ x)
    | exact wraps_bmod _ _ _ (C16_neg _ x).1
    | exact C16_sign _ (by decide) x
    | exact fun i hi => (C16_bitwise _ x x i hi).2.2.2.2

/-- **C55**: absolute, sign, negative and invert of integers. -/
theorem C55_integers (F : FloatUnit) (fn : UnFn) (hfn : fn ≠ .logicalNot) (t : DT) (ht : t.isInt = true) (e : OneFunc)
    (he : UnaryKernel F fn t e) (mt : Int) (w : World) (hw : w.atop = true) (p s po so : Int) (hso : so ≠ 0) (n : Nat)
    (m : Int → BitVec t.bits) (hs : SafeOverlap n p s p s po so)
    (evs : List (Nat × Acc)) (hex : Exec .unary ⟨some e.kernel, mt⟩ ⟨p, s, p, s, po, so⟩ n w evs) :
    ∃ (h : e.inBits = t.bits) (h' : e.outBits = t.bits) (m' : Int → BitVec t.bits),
      runMem (fun x _ => e.at h h' x) m evs = some m' ∧
      (∀ i : Nat, i < n → IntResult1 t (m (p + s * i)) (m' (po + so * i)) fn) ∧
      (∀ a, (∀ i : Nat, i < n → a ≠ po + so * i) → m' a = m a) := by
  have hk := he
  obtain ⟨op, hm, he⟩ := he
  obtain ⟨h1, _, h3, _, h5⟩ := un_shape he
  have hop : op ≠ .LOGICAL_NOT := by
    rintro rfl
    have := opOf1 hm
    cases fn <;> simp_all
  rw [if_neg hop] at h5
  obtain ⟨m', r1, r2⟩ := C51_enabled_is_kernel .unary ⟨some e.kernel, mt⟩ w hw ⟨p, s, p, s, po, so⟩ n m
    (fun x _ => e.at h1 h5 x) (fits_un _ mt p s po so he) _ rfl (by simp) (fun _ => hso) (Or.inl ⟨h3, hs⟩) evs hex
  refine ⟨h1, h5, m', r1, fun i hi => ?_, r2.2⟩
  rw [r2.1 i hi]
  exact int_entry1 ht hfn hk h1 h5 _

theorem feq_zero {E M k : Nat} (h : Fmt E M k) (x : BitVec k) : fnotOp E M x = decide (floatValue E M x = .fin 0) := by
  unfold fnotOp
  rw [Bool.eq_iff_iff, feq_iff E M h.pos, value_zero h.pos _ (mag_zero E M k), decide_eq_true_eq]
  cases floatValue E M x <;> simp [Value.eq]

/-- The scalar operation of logical_not, for every type. -/
theorem not_entry {F : FloatUnit} {t : DT} {e : OneFunc} (he : UnaryKernel F .logicalNot t e) (h : e.inBits = t.bits)
    (h' : e.outBits = 8) (x : BitVec t.bits) : e.at h h' x = boolElem (decide (value t x = .fin 0)) := by
  obtain ⟨op, hm, he⟩ := he
  have hop : op = .LOGICAL_NOT := opOf1 hm
  subst hop
  have key : ∀ (b c : Bool), (b = true ↔ c = true) → (if b then (1 : BitVec 8) else 0) = boolElem c := by decide
  have hn : ∀ {k : Nat} (y : BitVec k), notOp y = true ↔ y = 0 := by intro k y; unfold notOp; exact beq_iff_eq
  have hi : ∀ {k : Nat} (y : BitVec k), y = 0 ↔ y.toInt = 0 := by
    intro k y
    constructor
    · rintro rfl; simp
    · intro h; apply BitVec.eq_of_toInt_eq; simpa using h
  have hu : ∀ {k : Nat} (y : BitVec k), y = 0 ↔ (y.toNat : Int) = 0 := by
    intro k y
    constructor
    · rintro rfl; simp
    · intro h; apply BitVec.eq_of_toNat_eq; simpa using h
  have hd : ∀ v : Int, decide (Value.fin v = .fin 0) = true ↔ v = 0 := by intro v; simp
  cases t <;> simp only [unaryOp, Option.some.injEq] at he <;> subst he
  · exact key _ _ ((hn x).trans (by
      show x = 0 ↔ decide (Value.fin (if x = 0 then 0 else 1) = .fin 0) = true
      by_cases hx : x = 0 <;> simp [hx]))
  all_goals first
    | exact key _ _ ((hn x).trans ((hi x).trans (hd x.toInt).symm))
    | exact key _ _ ((hn x).trans ((hu x).trans (hd x.toNat).symm))
    | exact key _ _ (Bool.eq_iff_iff.mp (feq_zero .f32 x))
    | exact key _ _ (Bool.eq_iff_iff.mp (feq_zero .f64 x))

/-- **C55**: logical_not, for every element type; a cell of memory holds the bits of the element at that address, inputs and
outputs do not overlap (they have different sizes). -/
theorem C55_logical_not (F : FloatUnit) (t : DT) (e : OneFunc) (he : UnaryKernel F .logicalNot t e) (mt : Int) (w : World)
    (hw : w.atop = true) (p s po so : Int) (hso : so ≠ 0) (n : Nat) (m : Int → Nat) (x : Nat → BitVec t.bits)
    (hx : ∀ i : Nat, i < n → m (p + s * i) = (x i).toNat) (hs : NoOverlap n p s p s po so)
    (evs : List (Nat × Acc)) (hex : Exec .unary ⟨some e.kernel, mt⟩ ⟨p, s, p, s, po, so⟩ n w evs) :
    ∃ (h : e.inBits = t.bits) (h' : e.outBits = 8) (m' : Int → Nat),
      runMem (fun a _ => (e.at h h' (BitVec.ofNat _ a)).toNat) m evs = some m' ∧
      (∀ i : Nat, i < n → m' (po + so * i) = if value t (x i) = .fin 0 then 1 else 0) ∧
      (∀ a, (∀ i : Nat, i < n → a ≠ po + so * i) → m' a = m a) := by
  have hk := he
  obtain ⟨op, hm, he⟩ := he
  obtain ⟨h1, _, h3, _, h5⟩ := un_shape he
  have hop : op = .LOGICAL_NOT := opOf1 hm
  rw [if_pos hop] at h5
  obtain ⟨m', r1, r2⟩ := C51_enabled_is_kernel .unary ⟨some e.kernel, mt⟩ w hw ⟨p, s, p, s, po, so⟩ n m
    (fun a _ => (e.at h1 h5 (BitVec.ofNat _ a)).toNat) (fits_un _ mt p s po so he) _ rfl (by simp) (fun _ => hso) (Or.inr hs) evs hex
  refine ⟨h1, h5, m', r1, fun i hi => ?_, r2.2⟩
  rw [r2.1 i hi]
  simp only
  rw [hx i hi, BitVec.ofNat_toNat, BitVec.setWidth_eq, not_entry hk]
  by_cases hv : value t (x i) = .fin 0 <;> simp [hv, boolElem]

/-- **C55**: invert of booleans stored as 0 and 1. -/
theorem C55_invert_bool_partial (F : FloatUnit) (e : OneFunc) (he : UnaryKernel F .invert .bool e) (mt : Int) (w : World)
    (hw : w.atop = true) (p s po so : Int) (hso : so ≠ 0) (n : Nat) (m : Int → BitVec 8) (x : Nat → Bool)
    (hx : ∀ i : Nat, i < n → m (p + s * i) = boolElem (x i)) (hs : SafeOverlap n p s p s po so)
    (evs : List (Nat × Acc)) (hex : Exec .unary ⟨some e.kernel, mt⟩ ⟨p, s, p, s, po, so⟩ n w evs) :
    ∃ (h : e.inBits = 8) (h' : e.outBits = 8) (m' : Int → BitVec 8), runMem (fun a _ => e.at h h' a) m evs = some m' ∧
      (∀ i : Nat, i < n → m' (po + so * i) = boolElem (!x i)) ∧
      (∀ a, (∀ i : Nat, i < n → a ≠ po + so * i) → m' a = m a) := by
  obtain ⟨op, hm, he⟩ := he
  obtain ⟨h1, _, h3, _, h5⟩ := un_shape he
  have hop : op = .INVERT ∨ op = .BITWISE_NOT := opOf1 hm
  have h5' : e.outBits = 8 := by rcases hop with rfl | rfl <;> exact h5
  have h1' : e.inBits = 8 := h1
  obtain ⟨m', r1, r2⟩ := C51_enabled_is_kernel .unary ⟨some e.kernel, mt⟩ w hw ⟨p, s, p, s, po, so⟩ n m
    (fun a _ => e.at h1' h5' a) (fits_un _ mt p s po so he) _ rfl (by simp) (fun _ => hso) (Or.inl ⟨h3, hs⟩) evs hex
  refine ⟨h1', h5', m', r1, fun i hi => ?_, r2.2⟩
  rw [r2.1 i hi]
  simp only
  rw [hx i hi]
  have he' : e = uslow 8 invertBoolOp := by
    rcases hop with rfl | rfl <;> (simp only [unaryOp, Option.some.injEq] at he; exact he.symm)
  subst he'
  show invertBoolOp (boolElem (x i)) = _
  cases x i <;> decide

/-- **C55 violated** for boolean bytes other than 0 and 1: invert of the byte 2 (`True`) gives 3 (`True`). -/
theorem C55_raw_bool_violated (F : FloatUnit) : ∃ e, UnaryKernel F .invert .bool e ∧ ∃ (h : e.inBits = 8) (h' : e.outBits = 8),
    e.at h h' 2 = 3 ∧ value .bool (2 : BitVec 8) = .fin 1 ∧ value .bool (3 : BitVec 8) = .fin 1 :=
  ⟨_, ⟨.INVERT, by decide, rfl⟩, rfl, rfl, by decide, by decide, by decide⟩

theorem fone_val32 : floatValue 8 23 (fone 8 23 32) = .fin (2 ^ 149) := by decide
theorem fone_val64 : floatValue 11 52 (fone 11 52 64) = .fin (2 ^ 1074) := by decide +kernel

theorem sign_entry {E M k : Nat} (h : Fmt E M k) (one : Value) (h1 : floatValue E M (fone E M k) = one) (x : BitVec k) :
    (floatValue E M x = .nan → floatSign E M x = x) ∧
    (Value.lt (.fin 0) (floatValue E M x) → floatValue E M (floatSign E M x) = one) ∧
    (Value.lt (floatValue E M x) (.fin 0) → floatValue E M (floatSign E M x) = one.neg) ∧
    (floatValue E M x = .fin 0 → floatValue E M (floatSign E M x) = .fin 0) := by
  obtain ⟨a, b, c, d⟩ := C44_sign h x
  refine ⟨a, fun hp => by rw [b hp, h1], fun hp => ?_, fun hp => ?_⟩
  · rw [c hp, (C44_values_partial h _).1, h1]
  · rw [d hp, value_zero h.pos _ (mag_zero E M k)]

theorem float_entry1 {F : FloatUnit} {fn : UnFn} {t : DT} (ht : t = .f32 ∨ t = .f64)
    (hfn : fn ∈ [UnFn.floor, .ceil, .trunc, .sqrt, .sign]) {e : OneFunc} (he : UnaryKernel F fn t e)
    (h : e.inBits = t.bits) (h' : e.outBits = t.bits) (x : BitVec t.bits) : FloatResult1 F t x (e.at h h' x) fn := by
  obtain ⟨op, hm, he⟩ := he
  have hop := opOf1 hm
  rcases ht with rfl | rfl <;> cases fn <;> simp at hfn <;> simp only at hop <;> subst hop <;>
    simp only [unaryOp, Option.some.injEq] at he <;> subst he <;>
    first
    | exact rfl
    | exact sign_entry .f32 _ fone_val32 x
    | exact sign_entry .f64 _ fone_val64 x

/-- **C55** for floats: floor, ceil, trunc, sqrt are the machine's, sign has numpy's value. absolute and negative: C44; rint:
C45. -/
theorem C55_floats (F : FloatUnit) (fn : UnFn) (hfn : fn ∈ [UnFn.floor, .ceil, .trunc, .sqrt, .sign]) (t : DT)
    (ht : t = .f32 ∨ t = .f64) (e : OneFunc)
    (he : UnaryKernel F fn t e) (mt : Int) (w : World) (hw : w.atop = true) (p s po so : Int) (hso : so ≠ 0) (n : Nat)
    (m : Int → BitVec t.bits) (hs : SafeOverlap n p s p s po so)
    (evs : List (Nat × Acc)) (hex : Exec .unary ⟨some e.kernel, mt⟩ ⟨p, s, p, s, po, so⟩ n w evs) :
    ∃ (h : e.inBits = t.bits) (h' : e.outBits = t.bits) (m' : Int → BitVec t.bits),
      runMem (fun x _ => e.at h h' x) m evs = some m' ∧
      (∀ i : Nat, i < n → FloatResult1 F t (m (p + s * i)) (m' (po + so * i)) fn) ∧
      (∀ a, (∀ i : Nat, i < n → a ≠ po + so * i) → m' a = m a) := by
  have hk := he
  obtain ⟨op, hm, he⟩ := he
  obtain ⟨h1, _, h3, _, h5⟩ := un_shape he
  have hop : op ≠ .LOGICAL_NOT := by
    rintro rfl
    have := opOf1 hm
    cases fn <;> simp_all
  rw [if_neg hop] at h5
  obtain ⟨m', r1, r2⟩ := C51_enabled_is_kernel .unary ⟨some e.kernel, mt⟩ w hw ⟨p, s, p, s, po, so⟩ n m
    (fun x _ => e.at h1 h5 x) (fits_un _ mt p s po so he) _ rfl (by simp) (fun _ => hso) (Or.inl ⟨h3, hs⟩) evs hex
  refine ⟨h1, h5, m', r1, fun i hi => ?_, r2.2⟩
  rw [r2.1 i hi]
  exact float_entry1 ht hfn hk h1 h5 _

/-- Non-vacuity: such kernels exist. -/
example (F : FloatUnit) : (∃ e, UnaryKernel F .absolute .i16 e) ∧ (∃ e, UnaryKernel F .logicalNot .f64 e) ∧
    (∃ e, UnaryKernel F .invert .bool e) ∧ (∃ e, UnaryKernel F .sign .f32 e) ∧ SafeOverlap 100000 0 4 0 4 0 4 ∧
    NoOverlap 100000 0 8 0 8 1000000 1 :=
  ⟨⟨_, .ABS, by decide, rfl⟩, ⟨_, .LOGICAL_NOT, by decide, rfl⟩, ⟨_, .BITWISE_NOT, by decide, rfl⟩,
    ⟨_, .SIGN, by decide, rfl⟩, by intro i j hi hj hne; omega, by intro i j hi hj; omega⟩

end Pnumpy.Props
