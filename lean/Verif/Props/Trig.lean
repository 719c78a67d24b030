import Verif.Proofs.Trig
import Verif.Props.FloatOps
/-
Property theorems C59, C60, C61: np.sin, np.cos, np.exp, np.log of float32 and float64 arrays.
-/
namespace Pnumpy.Props
open Pnumpy.Spec Pnumpy.Elem Pnumpy.Dispatch Pnumpy.Ieee Pnumpy.FloatOps Pnumpy.Trig

/-- numpy's function object. -/
def objOfT : TFn → Hooks.Obj
  | .sin => .sin | .cos => .cos | .exp => .exp | .log => .log

/-- `e` is the kernel pnumpy installs for the numpy function `fn` on elements of type `t`. -/
def TrigKernel (F : FloatUnit) (L : Libm) (cv : Cvt) (fn : TFn) (t : DT) (e : TrigFunc) : Prop :=
  ∃ op, ⟨.trig, objOfT fn, op⟩ ∈ Hooks.trigMapping ∧ trigOpFast F L cv op t = some e

theorem opOfT {fn : TFn} {op : Hooks.Op} (h : ⟨.trig, objOfT fn, op⟩ ∈ Hooks.trigMapping) : tfnOf op = some fn := by
  cases fn <;> simp [objOfT, Hooks.trigMapping] at h <;> subst h <;> rfl

theorem kernelT {F : FloatUnit} {L : Libm} {cv : Cvt} {fn : TFn} {t : DT} {e : TrigFunc} (h : TrigKernel F L cv fn t e) :
    (t = .f32 ∧ e = ⟨32, vecFn F (ps cv.tt cv.epi) fn, L.fn fn 32⟩) ∨ (t = .f64 ∧ e = ⟨64, vecFn F (pd F) fn, L.fn fn 64⟩) := by
  obtain ⟨op, hm, he⟩ := h
  unfold trigOpFast at he
  rw [opOfT hm] at he
  cases t <;> simp at he
  · exact Or.inl ⟨rfl, he.symm⟩
  · exact Or.inr ⟨rfl, he.symm⟩

/-- Non-vacuity: all four functions have a kernel for float32 and float64. -/
example (F : FloatUnit) (L : Libm) (cv : Cvt) (fn : TFn) : (∃ e, TrigKernel F L cv fn .f32 e) ∧ ∃ e, TrigKernel F L cv fn .f64 e := by
  cases fn <;>
    first
    | exact ⟨⟨_, .SIN, by decide, rfl⟩, ⟨_, .SIN, by decide, rfl⟩⟩
    | exact ⟨⟨_, .COS, by decide, rfl⟩, ⟨_, .COS, by decide, rfl⟩⟩
    | exact ⟨⟨_, .EXP, by decide, rfl⟩, ⟨_, .EXP, by decide, rfl⟩⟩
    | exact ⟨⟨_, .LOG, by decide, rfl⟩, ⟨_, .LOG, by decide, rfl⟩⟩

theorem bytes4or8 {F : FloatUnit} {L : Libm} {cv : Cvt} {fn : TFn} {t : DT} {e : TrigFunc} (h : TrigKernel F L cv fn t e) :
    e.bits / 8 = 4 ∨ e.bits / 8 = 8 := by
  rcases kernelT h with ⟨_, rfl⟩ | ⟨_, rfl⟩
  · exact Or.inl (by show 32 / 8 = 4; decide)
  · exact Or.inr (by show 64 / 8 = 8; decide)

/-! ### C59: which function is applied where -/

theorem block_positions {size : Nat} (hs : size = 4 ∨ size = 8) (s so : Int) (n : Nat) (req : Int) (mw zz b l : Nat)
    (hb : b < (n + 16383) / 16384) (hl : l < (ufuncItem n req mw zz).blockLen b) :
    VectorPosition size s so ((ufuncItem n req mw zz).blockLen b) l ↔ VectorPosition size s so n (16384 * b + l) := by
  have hbl := Work.blockLen_generic n req mw zz b (by rw [Work.blockLast_generic]; exact hb)
  rw [hbl.1] at hl ⊢
  unfold VectorPosition
  have : l < min 16384 (n - 16384 * b) - min 16384 (n - 16384 * b) % (32 / size) ↔ 16384 * b + l < n - n % (32 / size) := by
    rcases hs with rfl | rfl
    · simp only [show 32 / 4 = 8 from rfl]
      omega
    · simp only [show 32 / 8 = 4 from rfl]
      omega
  rw [this]

/-- **C59**: a call of a sin/cos/exp/log kernel, threaded or not, on any length, addresses and strides (the output may be the input),
under every setting, schedule and interleaving, applies the vector routine to exactly the elements in whole 32-byte vectors of contiguous operands
and the library function to all others, reading the original inputs, and changes nothing else. -/
theorem C59_call_result {α : Type} (size : Nat) (hs : size = 4 ∨ size = 8) (f : Bool → α → α) (w : World) (p s po so : Int) (hso : so ≠ 0)
    (n : Nat) (m : Int → α) (hsafe : SafeOverlap n p s p s po so)
    (evs : List (Nat × MAcc)) (hex : TrigExec size p s po so n w evs) :
    ∃ m', runMemM f m evs = some m' ∧
      MapResult (fun i => f (decide (VectorPosition size s so n i))) n p s po so m m' := by
  induction hex with
  | ledgered _ _ ih => exact ih
  | serial hl h =>
    refine calls_result hs f p s po so hso n [(0, n)] ?_ ?_ hsafe m _ ?_
    · intro i; unfold timesProcessed covers; simp [List.countP_cons]
    · intro c hc l _
      simp only [List.mem_singleton] at hc
      subst hc
      rw [Nat.zero_add]
    · intro c
      simp only [List.map_cons, List.map_nil, Int.mul_zero, Int.add_zero, Nat.cast_zero]
      cases c with
      | zero =>
        rw [List.filter_eq_self.mpr]
        · simp [Function.comp_def]
        · intro a ha
          obtain ⟨e, _, rfl⟩ := List.mem_map.mp ha
          rfl
      | succ c =>
        rw [List.filter_eq_nil_iff.mpr]
        · rfl
        · intro a ha
          obtain ⟨e, _, rfl⟩ := List.mem_map.mp ha
          simp
  | @threaded w' hl h sched hret evs hint =>
    refine calls_result hs f p s po so hso n _ (C01_exactly_once n 7 w'.maxWakeup w'.zigzag sched hret) ?_ hsafe m evs hint
    intro c hc l hlt
    unfold Work.kernelCalls at hc
    obtain ⟨b, hb, rfl⟩ := List.mem_map.mp hc
    exact block_positions hs s so n 7 w'.maxWakeup w'.zigzag b l (mem_log_lt hb) hlt

/-- **C59** for the installed kernels. -/
theorem C59_kernel (F : FloatUnit) (L : Libm) (cv : Cvt) (fn : TFn) (t : DT) (e : TrigFunc) (he : TrigKernel F L cv fn t e)
    (w : World) (p s po so : Int) (hso : so ≠ 0) (n : Nat) (m : Int → BitVec e.bits) (hsafe : SafeOverlap n p s p s po so)
    (evs : List (Nat × MAcc)) (hex : TrigExec (e.bits / 8) p s po so n w evs) :
    ∃ m', runMemM e.f m evs = some m' ∧
      MapResult (fun i => if VectorPosition (e.bits / 8) s so n i then e.vec else e.sca) n p s po so m m' := by
  obtain ⟨m', r1, r2⟩ := C59_call_result (e.bits / 8) (bytes4or8 he) e.f w p s po so hso n m hsafe evs hex
  refine ⟨m', r1, ?_⟩
  have : (fun i => e.f (decide (VectorPosition (e.bits / 8) s so n i))) =
      fun i => if VectorPosition (e.bits / 8) s so n i then e.vec else e.sca := by
    funext i
    unfold TrigFunc.f
    by_cases h : VectorPosition (e.bits / 8) s so n i <;> simp [h]
  rwa [this] at r2

/-- **C59**: so settings, thread counts, schedules and interleavings never change a result. -/
theorem C59_same_result {α : Type} (size : Nat) (hs : size = 4 ∨ size = 8) (f : Bool → α → α) (w w' : World) (p s po so : Int) (hso : so ≠ 0)
    (n : Nat) (m : Int → α) (hsafe : SafeOverlap n p s p s po so)
    (evs evs' : List (Nat × MAcc)) (hex : TrigExec size p s po so n w evs) (hex' : TrigExec size p s po so n w' evs') :
    runMemM f m evs = runMemM f m evs' := by
  obtain ⟨m1, r1, a1, b1⟩ := C59_call_result size hs f w p s po so hso n m hsafe evs hex
  obtain ⟨m2, r2, a2, b2⟩ := C59_call_result size hs f w' p s po so hso n m hsafe evs' hex'
  rw [r1, r2]
  congr 1
  funext a
  by_cases h : ∃ i : Nat, i < n ∧ a = po + so * i
  · obtain ⟨i, hi, rfl⟩ := h
    rw [a1 i hi, a2 i hi]
  · have h' : ∀ i : Nat, i < n → a ≠ po + so * i := fun i hi he => h ⟨i, hi, he⟩
    rw [b1 a h', b2 a h']

theorem sequential_interleavingM (progs : List (List MAcc)) :
    InterleavingM progs ((progs.zipIdx).flatMap fun p => p.1.map fun e => (p.2, e)) := by
  suffices h : ∀ (k c : Nat), ((((progs.zipIdx k).flatMap fun p => p.1.map fun e => (p.2, e)).filter
      (fun e => e.1 == c)).map (fun e => e.2)) = if k ≤ c then progs.getD (c - k) [] else [] by
    intro c
    have := h 0 c
    simpa using this
  induction progs with
  | nil => intro k c; simp
  | cons p ps ih =>
    intro k c
    rw [List.zipIdx_cons, List.flatMap_cons, List.filter_append, List.map_append, ih (k + 1) c]
    by_cases hk : k = c
    · subst hk
      rw [if_neg (by omega), if_pos (Nat.le_refl _)]
      rw [List.filter_eq_self.mpr]
      · simp [Function.comp_def]
      · intro a ha
        obtain ⟨e, _, rfl⟩ := List.mem_map.mp ha
        simp
    · rw [List.filter_eq_nil_iff.mpr]
      · by_cases hlt : k ≤ c
        · rw [if_pos (by omega), if_pos hlt, show c - k = (c - (k + 1)) + 1 by omega]
          simp
        · rw [if_neg (by omega), if_neg hlt]; rfl
      · intro a ha
        obtain ⟨e, _, rfl⟩ := List.mem_map.mp ha
        simp [hk]

/-- **C59**: every call can be carried out, for every setting and length. -/
theorem C59_call_finishes (size : Nat) (p s po so : Int) (n : Nat) (w : World) : ∃ evs, TrigExec size p s po so n w evs := by
  suffices h : ∀ w : World, w.ledger = false → ∃ evs, TrigExec size p s po so n w evs by
    by_cases hl : w.ledger = true
    · obtain ⟨evs, hr⟩ := h { w with ledger := false } rfl
      exact ⟨evs, .ledgered hl hr⟩
    · exact h w (by simpa using hl)
  intro w hl
  by_cases hg : w.getsItem n = true
  · obtain ⟨t, ht⟩ := C03_caller_alone n 7 w.maxWakeup w.zigzag
    rw [← exec_eq_trace] at ht
    exact ⟨_, .threaded hl hg _ ht _ (sequential_interleavingM _)⟩
  · exact ⟨_, .serial hl (by simpa using hg)⟩

/-- Non-vacuity of C59: 70001 contiguous floats in place, threaded: all but the last element are in vector positions. -/
example : SafeOverlap 70001 0 4 0 4 0 4 ∧ VectorPosition 4 4 4 70001 69999 ∧ ¬ VectorPosition 4 4 4 70001 70000 ∧
    (⟨true, false, false, false, 3, 1⟩ : World).getsItem 70001 = true := by
  refine ⟨fun i j hi hj hne => by omega, by decide, by decide, by decide⟩

/-! ### C60: symmetry -/

theorem and_compl_xor {k : Nat} (x s : BitVec k) : (x ^^^ s) &&& ~~~s = x &&& ~~~s := by
  ext i hi
  simp only [BitVec.getElem_and, BitVec.getElem_xor, BitVec.getElem_not]
  cases x[i] <;> cases s[i] <;> rfl

theorem and_xor_self {k : Nat} (x s : BitVec k) : (x ^^^ s) &&& s = (x &&& s) ^^^ s := by
  ext i hi
  simp only [BitVec.getElem_and, BitVec.getElem_xor]
  cases x[i] <;> cases s[i] <;> rfl

theorem sin_odd (F : FloatUnit) {k : Nat} (c : MathC k) (x : BitVec k) :
    sinLane F c (x ^^^ c.signMask) = sinLane F c x ^^^ c.signMask := by
  unfold sinLane
  simp only [and_compl_xor, and_xor_self]
  generalize sincosPoly F c _ _ _ = a
  generalize (_ : BitVec k) <<< (k - 3) = b
  rw [BitVec.xor_assoc, BitVec.xor_assoc, BitVec.xor_assoc, BitVec.xor_comm c.signMask]

theorem cos_even (F : FloatUnit) {k : Nat} (c : MathC k) (x : BitVec k) :
    cosLane F c (x ^^^ c.signMask) = cosLane F c x := by
  unfold cosLane
  simp only [and_compl_xor]

/-- The same bits with the sign inverted. -/
def flipSign {k : Nat} (x : BitVec k) : BitVec k := x ^^^ BitVec.twoPow k (k - 1)

/-- Flipping the sign bit negates the value (so `flipSign` is negation), for every float and double. -/
theorem flipSign_value {E M k : Nat} (h : Fmt E M k) (x : BitVec k) : floatValue E M (flipSign x) = (floatValue E M x).neg := by
  have hk := (signMask_toNat h).2
  have hx : (flipSign x).toNat = x.toNat ^^^ 2 ^ (E + M) := by
    unfold flipSign
    rw [BitVec.toNat_xor, BitVec.toNat_twoPow, Nat.mod_eq_of_lt (Nat.pow_lt_pow_right (by decide) (by omega)),
      show k - 1 = E + M by omega]
  refine value_neg E M x (flipSign x) ?_ ?_
  · unfold mag
    rw [hx]
    apply Nat.eq_of_testBit_eq
    intro i
    simp only [Nat.testBit_mod_two_pow, Nat.testBit_xor, Nat.testBit_two_pow]
    by_cases hi : i < E + M
    · have : ¬ E + M = i := by omega
      simp [this]
    · simp [hi]
  · unfold neg
    rw [hx, Nat.testBit_xor, Nat.testBit_two_pow]
    simp

theorem signMask_ps (a b : BitVec 32 → BitVec 32) : (ps a b).signMask = BitVec.twoPow 32 31 := by
  show 0x80000000#32 = _; decide
theorem signMask_pd (F : FloatUnit) : (pd F).signMask = BitVec.twoPow 64 63 := by
  show 0x8000000000000000#64 = _; decide

/-- **C60**: in the vector part `sin(-x) = -sin(x)` and `cos(-x) = cos(x)`, bit for bit, for every bit pattern `x`
(also zeros, infinities, NaNs and arguments too large for the range reduction), whatever the rounding of the arithmetic. -/
theorem C60_symmetry (F : FloatUnit) (L : Libm) (cv : Cvt) (t : DT) (e : TrigFunc) (x : BitVec e.bits) :
    (TrigKernel F L cv .sin t e → e.vec (flipSign x) = flipSign (e.vec x)) ∧
    (TrigKernel F L cv .cos t e → e.vec (flipSign x) = e.vec x) := by
  constructor
  · intro he
    rcases kernelT he with ⟨_, rfl⟩ | ⟨_, rfl⟩
    · have := sin_odd F (ps cv.tt cv.epi) x
      rwa [signMask_ps] at this
    · have := sin_odd F (pd F) x
      rwa [signMask_pd] at this
  · intro he
    rcases kernelT he with ⟨_, rfl⟩ | ⟨_, rfl⟩
    · have := cos_even F (ps cv.tt cv.epi) x
      rwa [signMask_ps] at this
    · have := cos_even F (pd F) x
      rwa [signMask_pd] at this

/-- **C60** for calls: if the library's sine is odd and its cosine even, then negating every input element negates (sin) or keeps (cos) every
output element, for all lengths, strides, settings and schedules of the two calls. -/
theorem C60_calls (F : FloatUnit) (L : Libm) (cv : Cvt) (fn : TFn) (g : (k : Nat) → BitVec k → BitVec k)
    (hfn : (fn = .sin ∧ g = fun _ x => flipSign x) ∨ (fn = .cos ∧ g = fun _ x => x))
    (hL : ∀ k x, L.fn fn k (flipSign x) = g k (L.fn fn k x))
    (t : DT) (e : TrigFunc) (he : TrigKernel F L cv fn t e)
    (w w' : World) (p s po so : Int) (hso : so ≠ 0) (n : Nat) (m1 m2 : Int → BitVec e.bits)
    (hneg : ∀ i : Nat, i < n → m2 (p + s * i) = flipSign (m1 (p + s * i)))
    (hsafe : SafeOverlap n p s p s po so)
    (evs evs' : List (Nat × MAcc)) (hex : TrigExec (e.bits / 8) p s po so n w evs) (hex' : TrigExec (e.bits / 8) p s po so n w' evs') :
    ∃ r1 r2, runMemM e.f m1 evs = some r1 ∧ runMemM e.f m2 evs' = some r2 ∧
      ∀ i : Nat, i < n → r2 (po + so * i) = g e.bits (r1 (po + so * i)) := by
  obtain ⟨r1, h1, a1, _⟩ := C59_kernel F L cv fn t e he w p s po so hso n m1 hsafe evs hex
  obtain ⟨r2, h2, a2, _⟩ := C59_kernel F L cv fn t e he w' p s po so hso n m2 hsafe evs' hex'
  refine ⟨r1, r2, h1, h2, fun i hi => ?_⟩
  rw [a1 i hi, a2 i hi, hneg i hi]
  have hsca : e.sca = L.fn fn e.bits := by
    rcases kernelT he with ⟨_, rfl⟩ | ⟨_, rfl⟩ <;> rfl
  by_cases hv : VectorPosition (e.bits / 8) s so n i
  · simp only [if_pos hv]
    rcases hfn with ⟨rfl, rfl⟩ | ⟨rfl, rfl⟩
    · exact (C60_symmetry F L cv t e _).1 he
    · exact (C60_symmetry F L cv t e _).2 he
  · simp only [if_neg hv, hsca]
    exact hL _ _

/-- Non-vacuity of C60: a library with an odd sine (the identity). -/
example : ∃ L : Libm, ∀ k x, L.fn .sin k (flipSign x) = flipSign (L.fn .sin k x) := ⟨⟨fun _ _ x => x⟩, fun _ _ => rfl⟩

/-! ### C61: special values -/

theorem fle_zero {E M k : Nat} (h : Fmt E M k) (x : BitVec k) : fle E M x 0 = true ↔
    (floatValue E M x = .ninf ∨ ∃ v ≤ 0, floatValue E M x = .fin v) := by
  have hz : floatValue E M (0 : BitVec k) = .fin 0 := by cases h <;> decide
  have : fle E M x 0 = true ↔ (flt E M x 0 = true ∨ feq E M x 0 = true) := by
    unfold fle flt feq
    simp only [Bool.and_eq_true, decide_eq_true_eq, beq_iff_eq]
    constructor
    · rintro ⟨h1, h2⟩
      rcases Int.lt_or_eq_of_le h2 with h | h
      · exact Or.inl ⟨h1, h⟩
      · exact Or.inr ⟨h1, h⟩
    · rintro (⟨h1, h2⟩ | ⟨h1, h2⟩)
      · exact ⟨h1, Int.le_of_lt h2⟩
      · exact ⟨h1, Int.le_of_eq h2⟩
  rw [this, flt_iff E M h.pos, feq_iff E M h.pos, hz]
  cases floatValue E M x with
  | nan => simp [Value.lt, Value.eq]
  | ninf => simp [Value.lt]
  | pinf => simp [Value.lt, Value.eq]
  | fin v =>
    simp only [Value.lt, Value.eq, Value.fin.injEq, reduceCtorEq, false_or]
    constructor
    · rintro (h | h) <;> exact ⟨v, by omega, rfl⟩
    · rintro ⟨u, hu, rfl⟩; omega

/-- The log of anything not above zero. -/
theorem log_nonpos (F : FloatUnit) {k : Nat} (c : MathC k) (x : BitVec k) (h : fle c.E c.M x 0 = true) :
    logLane F c x = BitVec.allOnes k := by
  unfold logLane
  simp only [h, maskOf, if_true]
  simp

theorem allOnes_nan {E M k : Nat} (h : Fmt E M k) : floatValue E M (BitVec.allOnes k) = .nan := by
  cases h <;> decide

/-- Sign, exponent and fraction widths of the type. -/
def fmtOf : DT → Nat × Nat
  | .f64 => (11, 52)
  | _ => (8, 23)

/-- **C61**: in the vector part, log of every number that is negative, zero or minus infinity is NaN, for float and double. -/
theorem C61_log_nonpositive (F : FloatUnit) (L : Libm) (cv : Cvt) (t : DT) (e : TrigFunc) (he : TrigKernel F L cv .log t e) (x : BitVec e.bits)
    (hx : floatValue (fmtOf t).1 (fmtOf t).2 x = .ninf ∨ ∃ v ≤ 0, floatValue (fmtOf t).1 (fmtOf t).2 x = .fin v) :
    floatValue (fmtOf t).1 (fmtOf t).2 (e.vec x) = .nan := by
  rcases kernelT he with ⟨rfl, rfl⟩ | ⟨rfl, rfl⟩
  · exact (congrArg _ (log_nonpos F (ps cv.tt cv.epi) x ((fle_zero Fmt.f32 x).mpr hx))).trans (allOnes_nan Fmt.f32)
  · exact (congrArg _ (log_nonpos F (pd F) x ((fle_zero Fmt.f64 x).mpr hx))).trans (allOnes_nan Fmt.f64)

/-- **C61, violated**: numpy's log of zero is minus infinity; in the vector part it is NaN. -/
theorem C61_log_zero_violated (F : FloatUnit) (L : Libm) (cv : Cvt) (t : DT) (e : TrigFunc) (he : TrigKernel F L cv .log t e) (x : BitVec e.bits)
    (hx : floatValue (fmtOf t).1 (fmtOf t).2 x = .fin 0) :
    NumpySpecial .log (floatValue (fmtOf t).1 (fmtOf t).2 x) (floatValue (fmtOf t).1 (fmtOf t).2 (e.vec x)) → False := by
  intro h
  rw [C61_log_nonpositive F L cv t e he x (Or.inr ⟨0, Int.le_refl _, hx⟩), hx] at h
  exact absurd h (by decide)

theorem exp_high (F : FloatUnit) {k : Nat} (c : MathC k) (x : BitVec k) (h : flt c.E c.M x c.expHi = false) :
    expLane F c x = expLane F c c.expHi := by
  have h' : flt c.E c.M c.expHi c.expHi = false := by unfold flt; simp
  unfold expLane
  simp only [minI, h, h', Bool.false_eq_true, if_false]

theorem exp_low (F : FloatUnit) {k : Nat} (c : MathC k) (hc : flt c.E c.M c.expLo c.expHi = true) (x : BitVec k)
    (h : flt c.E c.M x c.expHi = true) (h2 : flt c.E c.M c.expLo x = false) :
    expLane F c x = expLane F c c.expLo := by
  have h' : flt c.E c.M c.expLo c.expLo = false := by unfold flt; simp
  unfold expLane
  simp only [minI, maxI, h, h2, hc, h', Bool.false_eq_true, if_false, if_true]

theorem nlt_of {E M k : Nat} (h : Fmt E M k) {x y : BitVec k} (hx : floatValue E M x = .nan ∨ floatValue E M x = .pinf) :
    flt E M x y = false := by
  cases hf : flt E M x y with
  | false => rfl
  | true =>
    rw [flt_iff E M h.pos] at hf
    rcases hx with hx | hx <;> rw [hx] at hf <;> cases hv : floatValue E M y <;> rw [hv] at hf <;> exact hf.elim

/-- **C61, violated**: in the vector part, exp of NaN and exp of plus infinity are the same bits as exp of the clamping bound
88.376..., so exp cannot be right on both: numpy gives NaN and plus infinity. -/
theorem C61_exp_nan_violated (F : FloatUnit) (L : Libm) (cv : Cvt) (t : DT) (e : TrigFunc) (he : TrigKernel F L cv .exp t e) (x y : BitVec e.bits)
    (hx : floatValue (fmtOf t).1 (fmtOf t).2 x = .nan) (hy : floatValue (fmtOf t).1 (fmtOf t).2 y = .pinf) :
    e.vec x = e.vec y ∧
    ¬ (NumpySpecial .exp .nan (floatValue (fmtOf t).1 (fmtOf t).2 (e.vec x)) ∧
       NumpySpecial .exp .pinf (floatValue (fmtOf t).1 (fmtOf t).2 (e.vec y))) := by
  have heq : e.vec x = e.vec y := by
    rcases kernelT he with ⟨rfl, rfl⟩ | ⟨rfl, rfl⟩
    · exact (exp_high F (ps cv.tt cv.epi) x (nlt_of Fmt.f32 (Or.inl hx))).trans
        (exp_high F (ps cv.tt cv.epi) y (nlt_of Fmt.f32 (Or.inr hy))).symm
    · exact (exp_high F (pd F) x (nlt_of Fmt.f64 (Or.inl hx))).trans (exp_high F (pd F) y (nlt_of Fmt.f64 (Or.inr hy))).symm
  refine ⟨heq, ?_⟩
  rintro ⟨h1, h2⟩
  rw [heq] at h1
  simp only [NumpySpecial] at h1 h2
  rw [h1] at h2
  cases h2

/-- **C61**: exp in the vector part is constant above and below the clamping bounds. -/
theorem C61_exp_clamped (F : FloatUnit) (L : Libm) (cv : Cvt) (t : DT) (e : TrigFunc) (he : TrigKernel F L cv .exp t e) :
    ∃ hi lo : BitVec e.bits,
      (∀ x, (floatValue (fmtOf t).1 (fmtOf t).2 hi).lt (floatValue (fmtOf t).1 (fmtOf t).2 x) → e.vec x = e.vec hi) ∧
      (∀ x, (floatValue (fmtOf t).1 (fmtOf t).2 x).lt (floatValue (fmtOf t).1 (fmtOf t).2 lo) → e.vec x = e.vec lo) := by
  have gen : ∀ {E M k : Nat} (h : Fmt E M k) (c : MathC k), c.E = E → c.M = M → flt c.E c.M c.expLo c.expHi = true →
      (∀ x, (floatValue E M c.expHi).lt (floatValue E M x) → expLane F c x = expLane F c c.expHi) ∧
      (∀ x, (floatValue E M x).lt (floatValue E M c.expLo) → expLane F c x = expLane F c c.expLo) := by
    rintro E M k h c rfl rfl hc
    have hc' := (flt_iff c.E c.M h.pos _ _).mp hc
    constructor
    · intro x hx
      refine exp_high F c x ?_
      cases hf : flt c.E c.M x c.expHi with
      | false => rfl
      | true =>
        rw [flt_iff c.E c.M h.pos] at hf
        revert hx hf
        cases floatValue c.E c.M x <;> cases floatValue c.E c.M c.expHi <;> simp only [Value.lt] <;> (try exact fun h => h.elim) <;>
          intro a b <;> first | exact b.elim | omega
    · intro x hx
      refine exp_low F c hc x ?_ ?_
      · rw [flt_iff c.E c.M h.pos]
        revert hx hc'
        cases floatValue c.E c.M x <;> cases floatValue c.E c.M c.expHi <;> cases floatValue c.E c.M c.expLo <;>
          simp only [Value.lt] <;> intro a b <;> first | exact a.elim | exact b.elim | trivial | omega
      · cases hf : flt c.E c.M c.expLo x with
        | false => rfl
        | true =>
          rw [flt_iff c.E c.M h.pos] at hf
          revert hx hf
          cases floatValue c.E c.M x <;> cases floatValue c.E c.M c.expLo <;> simp only [Value.lt] <;> (try exact fun h => h.elim) <;>
            intro a b <;> first | exact b.elim | omega
  rcases kernelT he with ⟨rfl, rfl⟩ | ⟨rfl, rfl⟩
  · exact ⟨_, _, gen Fmt.f32 (ps cv.tt cv.epi) rfl rfl (by show flt 8 23 0xc2b0c0a5#32 0x42b0c0a5#32 = true; decide)⟩
  · exact ⟨_, _, gen Fmt.f64 (pd F) rfl rfl (by show flt 11 52 0xc0561814affffffe#64 0x40561814affffffe#64 = true; decide +kernel)⟩

theorem log_tiny (F : FloatUnit) {k : Nat} (c : MathC k) (x : BitVec k) (h : fle c.E c.M x 0 = false)
    (h' : fle c.E c.M c.minNorm 0 = false) (h2 : flt c.E c.M c.minNorm x = false) :
    logLane F c x = logLane F c c.minNorm := by
  have h3 : flt c.E c.M c.minNorm c.minNorm = false := by unfold flt; simp
  unfold logLane
  simp only [maxI, h, h', h2, h3, Bool.false_eq_true, if_false]

theorem fle_nan {E M k : Nat} (h : Fmt E M k) {x : BitVec k} (hx : floatValue E M x = .nan) : fle E M x 0 = false := by
  cases hf : fle E M x 0 with
  | false => rfl
  | true =>
    rw [fle_zero h, hx] at hf
    rcases hf with h | ⟨_, _, h⟩ <;> cases h

theorem nlt_nan {E M k : Nat} (h : Fmt E M k) {x y : BitVec k} (hx : floatValue E M x = .nan) : flt E M y x = false := by
  cases hf : flt E M y x with
  | false => rfl
  | true =>
    rw [flt_iff E M h.pos, hx] at hf
    cases hv : floatValue E M y <;> rw [hv] at hf <;> exact hf.elim

/-- **C61, violated**: in the vector part, log of NaN has the same bits as log of the smallest normal number, so it is not the case
that log is NaN exactly where it should be. -/
theorem C61_log_nan_violated (F : FloatUnit) (L : Libm) (cv : Cvt) (t : DT) (e : TrigFunc) (he : TrigKernel F L cv .log t e) (x : BitVec e.bits)
    (hx : floatValue (fmtOf t).1 (fmtOf t).2 x = .nan) :
    ∃ y : BitVec e.bits, floatValue (fmtOf t).1 (fmtOf t).2 y = .fin (2 ^ (fmtOf t).2) ∧ e.vec x = e.vec y ∧
      ¬ (NumpySpecial .log .nan (floatValue (fmtOf t).1 (fmtOf t).2 (e.vec x)) ∧
         floatValue (fmtOf t).1 (fmtOf t).2 (e.vec y) ≠ .nan) := by
  have fin : ∀ {y : BitVec e.bits}, floatValue (fmtOf t).1 (fmtOf t).2 y = .fin (2 ^ (fmtOf t).2) → e.vec x = e.vec y →
      ∃ y : BitVec e.bits, floatValue (fmtOf t).1 (fmtOf t).2 y = .fin (2 ^ (fmtOf t).2) ∧ e.vec x = e.vec y ∧
      ¬ (NumpySpecial .log .nan (floatValue (fmtOf t).1 (fmtOf t).2 (e.vec x)) ∧
         floatValue (fmtOf t).1 (fmtOf t).2 (e.vec y) ≠ .nan) := by
    intro y h1 h2
    refine ⟨y, h1, h2, ?_⟩
    rintro ⟨h3, h4⟩
    rw [h2] at h3
    exact h4 h3
  rcases kernelT he with ⟨rfl, rfl⟩ | ⟨rfl, rfl⟩
  · refine fin (y := (0x00800000#32 : BitVec 32)) (by show floatValue 8 23 0x00800000#32 = .fin (2 ^ 23); decide) ?_
    exact log_tiny F (ps cv.tt cv.epi) x (fle_nan Fmt.f32 hx) (by show fle 8 23 0x00800000#32 0 = false; decide) (nlt_nan Fmt.f32 hx)
  · refine fin (y := (0x0010000000000000#64 : BitVec 64))
      (by show floatValue 11 52 0x0010000000000000#64 = .fin (2 ^ 52); decide +kernel) ?_
    exact log_tiny F (pd F) x (fle_nan Fmt.f64 hx) (by show fle 11 52 0x0010000000000000#64 0 = false; decide +kernel) (nlt_nan Fmt.f64 hx)


/-- Addition, subtraction and multiplication treat NaNs and infinities as IEEE-754 says. -/
structure IeeeSpecial (F : FloatUnit) (E M k : Nat) : Prop where
  add : ∀ x y v, addSpecial (floatValue E M x) (floatValue E M y) = some v → floatValue E M (F.add k x y) = v
  sub : ∀ x y v, addSpecial (floatValue E M x) (floatValue E M y).neg = some v → floatValue E M (F.sub k x y) = v
  mul : ∀ x y v, mulSpecial (floatValue E M x) (floatValue E M y) = some v → floatValue E M (F.mul k x y) = v

/-- Both polynomials of sin and cos are NaN when the reduced argument is NaN or plus infinity. -/
theorem sincos_special {E M k : Nat} (hE : Fmt E M k) (F : FloatUnit) (hF : IeeeSpecial F E M k) (c : MathC k)
    (hc : (∃ v > 0, floatValue E M c.cosP.1 = .fin v) ∧ (∃ v, floatValue E M c.cosP.2.1 = .fin v) ∧ (∃ v, floatValue E M c.cosP.2.2 = .fin v) ∧
      (∃ v < 0, floatValue E M c.sinP.1 = .fin v) ∧ (∃ v, floatValue E M c.sinP.2.1 = .fin v) ∧ (∃ v, floatValue E M c.sinP.2.2 = .fin v) ∧
      (∃ v > 0, floatValue E M c.half = .fin v) ∧ (∃ v, floatValue E M c.one = .fin v))
    (x y : BitVec k) (b : Bool) (hx : floatValue E M x = .nan ∨ floatValue E M x = .pinf) :
    floatValue E M (sincosPoly F c x y (maskOf b)) = .nan := by
  obtain ⟨⟨a0, ha0, e0⟩, ⟨a1, e1⟩, ⟨a2, e2⟩, ⟨b0, hb0, f0⟩, ⟨b1, f1⟩, ⟨b2, f2⟩, ⟨ah, hah, eh⟩, ⟨ao, eo⟩⟩ := hc
  -- adding anything to NaN or +inf gives NaN, +inf or (for -inf) NaN
  have keep : ∀ u v : BitVec k, (floatValue E M u = .nan ∨ floatValue E M u = .pinf) →
      (floatValue E M (F.add k u v) = .nan ∨ floatValue E M (F.add k u v) = .pinf) := by
    intro u v hu
    rcases hu with hu | hu
    · exact Or.inl (hF.add u v _ (by rw [hu]; rfl))
    · cases hv : floatValue E M v with
      | nan => exact Or.inl (hF.add u v _ (by rw [hu, hv]; rfl))
      | ninf => exact Or.inl (hF.add u v _ (by rw [hu, hv]; rfl))
      | pinf => exact Or.inr (hF.add u v _ (by rw [hu, hv]; rfl))
      | fin w => exact Or.inr (hF.add u v _ (by rw [hu, hv]; rfl))
  unfold sincosPoly
  have hx' := keep _ (F.mul k y c.dp3) (keep _ (F.mul k y c.dp2) (keep x (F.mul k y c.dp1) hx))
  revert hx'
  simp only
  generalize F.add k (F.add k (F.add k x (F.mul k y c.dp1)) (F.mul k y c.dp2)) (F.mul k y c.dp3) = q
  intro hq
  -- rules in the form used below
  have nanL : ∀ u v : BitVec k, floatValue E M u = .nan → floatValue E M (F.add k u v) = .nan :=
    fun u v h => hF.add u v _ (by rw [h]; rfl)
  have nanR : ∀ u v : BitVec k, floatValue E M v = .nan → floatValue E M (F.add k u v) = .nan := by
    intro u v h; refine hF.add u v _ ?_; rw [h]; cases floatValue E M u <;> rfl
  have nanS : ∀ u v : BitVec k, floatValue E M u = .nan → floatValue E M (F.sub k u v) = .nan :=
    fun u v h => hF.sub u v _ (by rw [h]; rfl)
  have nanM : ∀ u v : BitVec k, floatValue E M u = .nan → floatValue E M (F.mul k u v) = .nan :=
    fun u v h => hF.mul u v _ (by rw [h]; rfl)
  have nanM' : ∀ u v : BitVec k, floatValue E M v = .nan → floatValue E M (F.mul k u v) = .nan := by
    intro u v h; refine hF.mul u v _ ?_; rw [h]; cases floatValue E M u <;> rfl
  have main : floatValue E M (F.add k (F.sub k
        (F.mul k (F.mul k (F.add k (F.mul k (F.add k (F.mul k c.cosP.1 (F.mul k q q)) c.cosP.2.1) (F.mul k q q)) c.cosP.2.2) (F.mul k q q)) (F.mul k q q))
        (F.mul k (F.mul k q q) c.half)) c.one) = .nan ∧
      floatValue E M (F.add k (F.mul k (F.mul k (F.add k (F.mul k (F.add k (F.mul k c.sinP.1 (F.mul k q q)) c.sinP.2.1) (F.mul k q q)) c.sinP.2.2)
        (F.mul k q q)) q) q) = .nan := by
    rcases hq with hq | hq
    · have hz := nanM q q hq
      refine ⟨nanL _ _ (nanS _ _ (nanM' _ _ hz)), nanR _ _ hq⟩
    · have hz : floatValue E M (F.mul k q q) = .pinf := hF.mul q q _ (by rw [hq]; rfl)
      generalize F.mul k q q = z at hz
      have p0 : floatValue E M (F.mul k c.cosP.1 z) = .pinf := hF.mul _ _ _ (by
        rw [e0, hz]; simp only [mulSpecial]; rw [if_neg (by omega), if_neg (by omega)])
      have p1 : floatValue E M (F.add k (F.mul k c.cosP.1 z) c.cosP.2.1) = .pinf := hF.add _ _ _ (by rw [p0, e1]; rfl)
      have p2 := hF.mul (F.add k (F.mul k c.cosP.1 z) c.cosP.2.1) z .pinf (by rw [p1, hz]; rfl)
      have p3 := hF.add (F.mul k (F.add k (F.mul k c.cosP.1 z) c.cosP.2.1) z) c.cosP.2.2 .pinf (by rw [p2, e2]; rfl)
      have p4 := hF.mul (F.add k (F.mul k (F.add k (F.mul k c.cosP.1 z) c.cosP.2.1) z) c.cosP.2.2) z .pinf (by rw [p3, hz]; rfl)
      have p5 := hF.mul (F.mul k (F.add k (F.mul k (F.add k (F.mul k c.cosP.1 z) c.cosP.2.1) z) c.cosP.2.2) z) z .pinf (by rw [p4, hz]; rfl)
      have ph : floatValue E M (F.mul k z c.half) = .pinf := hF.mul _ _ _ (by
        rw [eh, hz]; simp only [mulSpecial]; rw [if_neg (by omega), if_neg (by omega)])
      have s0 : floatValue E M (F.mul k c.sinP.1 z) = .ninf := hF.mul _ _ _ (by
        rw [f0, hz]; simp only [mulSpecial]; rw [if_neg (by omega), if_pos (by omega)])
      have s1 : floatValue E M (F.add k (F.mul k c.sinP.1 z) c.sinP.2.1) = .ninf := hF.add _ _ _ (by rw [s0, f1]; rfl)
      have s2 := hF.mul (F.add k (F.mul k c.sinP.1 z) c.sinP.2.1) z .ninf (by rw [s1, hz]; rfl)
      have s3 := hF.add (F.mul k (F.add k (F.mul k c.sinP.1 z) c.sinP.2.1) z) c.sinP.2.2 .ninf (by rw [s2, f2]; rfl)
      have s4 := hF.mul (F.add k (F.mul k (F.add k (F.mul k c.sinP.1 z) c.sinP.2.1) z) c.sinP.2.2) z .ninf (by rw [s3, hz]; rfl)
      have s5 := hF.mul (F.mul k (F.add k (F.mul k (F.add k (F.mul k c.sinP.1 z) c.sinP.2.1) z) c.sinP.2.2) z) q .ninf (by rw [s4, hq]; rfl)
      exact ⟨nanL _ _ (hF.sub _ _ _ (by rw [p5, ph]; rfl)), hF.add _ _ _ (by rw [s5, hq]; rfl)⟩
  cases b with
  | false =>
    refine nanL _ _ ?_
    simp only [maskOf, Bool.false_eq_true, if_false]
    rw [show (~~~(0 : BitVec k)) = BitVec.allOnes k by simp, BitVec.allOnes_and]
    exact main.1
  | true =>
    refine nanR _ _ ?_
    simp only [maskOf, if_true, BitVec.allOnes_and]
    exact main.2

/-- Changing the sign bit of a NaN leaves a NaN; adding the shifted quadrant bits changes at most the sign bit. -/
theorem quadrant_sign {k : Nat} (hk : 3 ≤ k) (j : BitVec k) : (j &&& 4) <<< (k - 3) = 0 ∨ (j &&& 4) <<< (k - 3) = BitVec.twoPow k (k - 1) := by
  have key : ∀ i, (h : i < k) → ((j &&& 4) <<< (k - 3))[i] = (decide (i = k - 1) && j.getLsbD 2) := by
    intro i h
    rw [BitVec.getElem_shiftLeft]
    by_cases h1 : i < k - 3
    · have : i ≠ k - 1 := by omega
      simp [h1, this]
    · have h4 : (4 : BitVec k).getLsbD (i - (k - 3)) = decide (i = k - 1) := by
        rw [show (4 : BitVec k) = BitVec.ofNat k 4 from rfl, BitVec.getLsbD_ofNat]
        have : i - (k - 3) = 0 ∨ i - (k - 3) = 1 ∨ i - (k - 3) = 2 := by omega
        rcases this with h' | h' | h' <;> rw [h']
        · rw [decide_eq_false (show ¬ i = k - 1 by omega)]; cases decide (0 < k) <;> rfl
        · rw [decide_eq_false (show ¬ i = k - 1 by omega)]; cases decide (1 < k) <;> rfl
        · rw [decide_eq_true (show i = k - 1 by omega), decide_eq_true (show 2 < k by omega)]; rfl
      simp only [h1, decide_false, Bool.not_false, Bool.true_and]
      rw [← BitVec.getLsbD_eq_getElem, BitVec.getLsbD_and, h4]
      by_cases h5 : i = k - 1
      · rw [show i - (k - 3) = 2 by omega]; simp [h5]
      · simp [h5]
  cases hj : j.getLsbD 2 with
  | false =>
    left
    ext i hi
    rw [key i hi, hj]; simp
  | true =>
    right
    ext i hi
    rw [key i hi, hj]
    simp [BitVec.getElem_twoPow]

theorem flip_nan {E M k : Nat} (h : Fmt E M k) (x : BitVec k) (hx : floatValue E M x = .nan) : floatValue E M (flipSign x) = .nan := by
  rw [flipSign_value h, hx]; rfl

theorem xor_sign_nan {E M k : Nat} (h : Fmt E M k) (x s : BitVec k) (hx : floatValue E M x = .nan) (hs : s = 0 ∨ s = BitVec.twoPow k (k - 1)) :
    floatValue E M (x ^^^ s) = .nan := by
  rcases hs with rfl | rfl
  · simpa using hx
  · exact flip_nan h x hx

theorem and_sign {k : Nat} (x : BitVec k) (i : Nat) : x &&& BitVec.twoPow k i = 0 ∨ x &&& BitVec.twoPow k i = BitVec.twoPow k i := by
  rw [BitVec.and_twoPow]
  split
  · exact Or.inr rfl
  · exact Or.inl rfl

/-- |x| of a NaN or an infinity. -/
theorem abs_special {E M k : Nat} (h : Fmt E M k) (x : BitVec k)
    (hx : floatValue E M x = .nan ∨ floatValue E M x = .pinf ∨ floatValue E M x = .ninf) :
    floatValue E M (x &&& ~~~BitVec.twoPow k (k - 1)) = .nan ∨ floatValue E M (x &&& ~~~BitVec.twoPow k (k - 1)) = .pinf := by
  have hk := (signMask_toNat h).2
  have hb : ∀ i, (h : i < k) → (x &&& ~~~BitVec.twoPow k (k - 1))[i] = (x[i] && !decide (i = k - 1)) := by
    intro i hi
    rw [BitVec.getElem_and, BitVec.getElem_not, BitVec.getElem_twoPow]
  by_cases hn : x.getLsbD (k - 1) = true
  · -- clearing the sign bit = flipping it
    have he : x &&& ~~~BitVec.twoPow k (k - 1) = flipSign x := by
      unfold flipSign
      ext i hi
      rw [hb i hi, BitVec.getElem_xor, BitVec.getElem_twoPow]
      by_cases hi' : i = k - 1
      · subst hi'
        rw [BitVec.getLsbD_eq_getElem hi] at hn
        simp [hn]
      · simp [hi']
    rw [he, flipSign_value h]
    have hneg : neg E M x = true := by
      unfold neg
      rw [show E + M = k - 1 by omega]
      exact hn
    rcases hx with hx | hx | hx
    · left; rw [hx]; rfl
    · exfalso
      rw [floatValue_eq, hneg] at hx
      split at hx
      · cases hx
      · split at hx <;> cases hx
    · right; rw [hx]; rfl
  · have he : x &&& ~~~BitVec.twoPow k (k - 1) = x := by
      ext i hi
      rw [hb i hi]
      by_cases hi' : i = k - 1
      · subst hi'
        rw [BitVec.getLsbD_eq_getElem hi] at hn
        simpa using hn
      · simp [hi']
    rw [he]
    have hneg : neg E M x = false := by
      unfold neg
      rw [show E + M = k - 1 by omega]
      exact (Bool.not_eq_true _).mp hn
    rcases hx with hx | hx | hx
    · exact Or.inl hx
    · exact Or.inr hx
    · exfalso
      rw [floatValue_eq, hneg] at hx
      split at hx
      · cases hx
      · split at hx <;> cases hx

/-- What the constants must satisfy for `sincos_special`. -/
def GoodTrigC (E M : Nat) {k : Nat} (c : MathC k) : Prop :=
  (∃ v > 0, floatValue E M c.cosP.1 = .fin v) ∧ (∃ v, floatValue E M c.cosP.2.1 = .fin v) ∧ (∃ v, floatValue E M c.cosP.2.2 = .fin v) ∧
  (∃ v < 0, floatValue E M c.sinP.1 = .fin v) ∧ (∃ v, floatValue E M c.sinP.2.1 = .fin v) ∧ (∃ v, floatValue E M c.sinP.2.2 = .fin v) ∧
  (∃ v > 0, floatValue E M c.half = .fin v) ∧ (∃ v, floatValue E M c.one = .fin v)

theorem lane_special {E M k : Nat} (h : Fmt E M k) (hk : 3 ≤ k) (F : FloatUnit) (hF : IeeeSpecial F E M k) (c : MathC k) (hc : GoodTrigC E M c)
    (hm : c.signMask = BitVec.twoPow k (k - 1)) (x : BitVec k)
    (hx : floatValue E M x = .nan ∨ floatValue E M x = .pinf ∨ floatValue E M x = .ninf) :
    floatValue E M (sinLane F c x) = .nan ∧ floatValue E M (cosLane F c x) = .nan := by
  have ha := abs_special h x hx
  rw [← hm] at ha
  constructor
  · unfold sinLane
    simp only
    rw [← BitVec.xor_assoc]
    refine xor_sign_nan h _ _ (xor_sign_nan h _ _ (sincos_special h F hF c hc _ _ _ ha) ?_) (quadrant_sign hk _)
    rw [hm]
    exact and_sign x (k - 1)
  · unfold cosLane
    simp only
    exact xor_sign_nan h _ _ (sincos_special h F hF c hc _ _ _ ha) (quadrant_sign hk _)

theorem good_ps (a b : BitVec 32 → BitVec 32) : GoodTrigC 8 23 (ps a b) := by
  have e (x : BitVec 32) (v : Int) (h : floatValue 8 23 x = .fin v) : ∃ v, floatValue 8 23 x = .fin v := ⟨v, h⟩
  refine ⟨⟨_, ?_, show floatValue 8 23 0x37ccf5ce#32 = .fin _ from rfl⟩, ⟨_, show floatValue 8 23 0xbab6061a#32 = .fin _ from rfl⟩,
    ⟨_, show floatValue 8 23 0x3d2aaaa5#32 = .fin _ from rfl⟩,
    ⟨_, ?_, show floatValue 8 23 0xb94ca1f9#32 = .fin _ from rfl⟩, ⟨_, show floatValue 8 23 0x3c08839e#32 = .fin _ from rfl⟩,
    ⟨_, show floatValue 8 23 0xbe2aaaa3#32 = .fin _ from rfl⟩, ⟨_, ?_, show floatValue 8 23 0x3f000000#32 = .fin _ from rfl⟩,
    ⟨_, show floatValue 8 23 0x3f800000#32 = .fin _ from rfl⟩⟩ <;> decide +kernel


theorem good_pd (F : FloatUnit) : GoodTrigC 11 52 (pd F) := by
  have val : ∀ x : BitVec 64, mag 11 52 x < infMag 11 52 → ∃ v, floatValue 11 52 x = .fin v ∧
      (neg 11 52 x = false → mag 11 52 x ≠ 0 → v > 0) ∧ (neg 11 52 x = true → mag 11 52 x ≠ 0 → v < 0) := by
    intro x hx
    rw [floatValue_eq, if_neg (by omega), if_neg (by omega)]
    refine ⟨_, rfl, ?_, ?_⟩
    · intro h1 h2
      rw [h1]
      have : smag 52 0 < smag 52 (mag 11 52 x) := smag_mono 52 (by omega)
      simp only [Bool.false_eq_true, if_false]; omega
    · intro h1 h2
      rw [h1]
      have : smag 52 0 < smag 52 (mag 11 52 x) := smag_mono 52 (by omega)
      simp only [if_true]; omega
  have any : ∀ x : BitVec 64, mag 11 52 x < infMag 11 52 → ∃ v, floatValue 11 52 x = .fin v := fun x h => (val x h).imp fun _ h => h.1
  have pos : ∀ x : BitVec 64, mag 11 52 x < infMag 11 52 → neg 11 52 x = false → mag 11 52 x ≠ 0 → ∃ v > 0, floatValue 11 52 x = .fin v :=
    fun x h h1 h2 => (val x h).imp fun _ h => ⟨h.2.1 h1 h2, h.1⟩
  have neg' : ∀ x : BitVec 64, mag 11 52 x < infMag 11 52 → neg 11 52 x = true → mag 11 52 x ≠ 0 → ∃ v < 0, floatValue 11 52 x = .fin v :=
    fun x h h1 h2 => (val x h).imp fun _ h => ⟨h.2.2 h1 h2, h.1⟩
  refine ⟨pos 0x3ef99eb9c5ac8ebf#64 ?_ ?_ ?_, any 0xbf56c0c33a85cd5f#64 ?_, any 0x3fa55554a115bc8f#64 ?_,
    neg' 0xbf29943f27086a6c#64 ?_ ?_ ?_, any 0x3f811073b3a82ffe#64 ?_, any 0xbfc5555452709add#64 ?_,
    pos 0x3fe0000000000000#64 ?_ ?_ ?_, any 0x3ff0000000000000#64 ?_⟩ <;> decide +kernel

/-- **C61**: in the vector part, sin and cos of NaN and of the infinities are NaN, for float and double, if the arithmetic treats NaNs and
infinities as IEEE-754 says. -/
theorem C61_sin_cos_special_partial (F : FloatUnit) (L : Libm) (cv : Cvt) (fn : TFn) (hfn : fn = .sin ∨ fn = .cos) (t : DT) (e : TrigFunc)
    (he : TrigKernel F L cv fn t e) (hF : IeeeSpecial F (fmtOf t).1 (fmtOf t).2 e.bits) (x : BitVec e.bits)
    (hx : floatValue (fmtOf t).1 (fmtOf t).2 x = .nan ∨ floatValue (fmtOf t).1 (fmtOf t).2 x = .pinf ∨
      floatValue (fmtOf t).1 (fmtOf t).2 x = .ninf) :
    floatValue (fmtOf t).1 (fmtOf t).2 (e.vec x) = .nan ∧
    NumpySpecial fn (floatValue (fmtOf t).1 (fmtOf t).2 x) (floatValue (fmtOf t).1 (fmtOf t).2 (e.vec x)) := by
  have main : floatValue (fmtOf t).1 (fmtOf t).2 (e.vec x) = .nan := by
    rcases kernelT he with ⟨rfl, rfl⟩ | ⟨rfl, rfl⟩
    · have := lane_special Fmt.f32 (by decide) F hF (ps cv.tt cv.epi) (good_ps _ _) (signMask_ps _ _) x hx
      rcases hfn with rfl | rfl
      · exact this.1
      · exact this.2
    · have := lane_special Fmt.f64 (by decide) F hF (pd F) (good_pd F) (signMask_pd F) x hx
      rcases hfn with rfl | rfl
      · exact this.1
      · exact this.2
  refine ⟨main, ?_⟩
  rw [main]
  rcases hfn with rfl | rfl <;> rcases hx with h | h | h <;> rw [h] <;> rfl

/-- **C59, consequence**: the result for an element depends on its position. With a correct library logarithm, `np.log` of nine float32 zeros
is NaN in the first eight elements and minus infinity in the ninth, under every setting. -/
theorem C59_position_dependent_violated (F : FloatUnit) (L : Libm) (cv : Cvt) (hL : floatValue 8 23 (L.fn .log 32 0) = .ninf)
    (w : World) (evs : List (Nat × MAcc)) (hex : TrigExec 4 0 4 1000 4 9 w evs) :
    ∃ e, TrigKernel F L cv .log .f32 e ∧ ∃ (he : e.bits = 32) (m' : Int → BitVec e.bits),
      runMemM e.f (fun _ => 0) evs = some m' ∧
      (∀ i : Nat, i < 8 → floatValue 8 23 (m' (1000 + 4 * i)) = .nan) ∧ floatValue 8 23 (m' (1000 + 4 * (8 : Nat))) = .ninf := by
  have hk : TrigKernel F L cv .log .f32 ⟨32, vecFn F (ps cv.tt cv.epi) .log, L.fn .log 32⟩ := ⟨.LOG, by decide, rfl⟩
  refine ⟨_, hk, rfl, ?_⟩
  obtain ⟨m', r1, r2, _⟩ := C59_call_result 4 (Or.inl rfl)
    (TrigFunc.f ⟨32, vecFn F (ps cv.tt cv.epi) .log, L.fn .log 32⟩) w 0 4 1000 4 (by decide) 9 (fun _ => 0)
    (fun i j hi hj hne => by omega) evs hex
  refine ⟨m', r1, ?_, ?_⟩
  · intro i hi
    rw [r2 i (by omega)]
    simp only
    rw [decide_eq_true (show VectorPosition 4 4 4 9 i from ⟨rfl, rfl, hi⟩)]
    exact C61_log_nonpositive F L cv .f32 _ hk 0 (Or.inr ⟨0, Int.le_refl _, by show floatValue 8 23 (0 : BitVec 32) = _; decide⟩)
  · rw [r2 8 (by decide)]
    simp only
    rw [decide_eq_false (show ¬ VectorPosition 4 4 4 9 8 by decide)]
    exact hL

end Pnumpy.Props
