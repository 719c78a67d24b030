import Verif.Proofs.Simd
import Verif.Proofs.Ieee
/-
Property theorems C13, C14: comparison ufuncs.
-/
namespace Pnumpy.Props
open Pnumpy.Spec Pnumpy.Simd Pnumpy.Ieee Pnumpy.Compare

/-! ### Scalar predicates are the numeric relations -/

theorem fpred_iff (E M : Nat) (hE : 0 < E) {k : Nat} (op : CmpOp) (x y : BitVec k) :
    fpred E M op x y = true ↔ op.holds (floatValue E M x) (floatValue E M y) := by
  cases op <;> simp only [fpred, CmpOp.holds]
  · exact feq_iff E M hE x y
  · rw [← feq_iff E M hE, fne]; simp
  · exact flt_iff E M hE y x
  · rw [fle_iff E M hE]
    apply or_congr Iff.rfl
    rw [← feq_iff E M hE, ← feq_iff E M hE]
    unfold feq
    simp only [Bool.and_eq_true, beq_iff_eq]
    constructor <;> rintro ⟨⟨a, b⟩, c⟩ <;> exact ⟨⟨b, a⟩, c.symm⟩
  · exact flt_iff E M hE x y
  · exact fle_iff E M hE x y

theorem spred_iff {k : Nat} (op : CmpOp) (x y : BitVec k) :
    spred op x y = true ↔ op.holds (.fin x.toInt) (.fin y.toInt) := by
  cases op <;> simp only [spred, CmpOp.holds, Value.eq, Value.lt, Value.fin.injEq, beq_iff_eq, bne_iff_ne, ne_eq,
    BitVec.slt_iff_toInt_lt, BitVec.sle_iff_toInt_le, BitVec.toInt_inj] <;>
    (try rw [← BitVec.toInt_inj]) <;> omega

theorem upred_iff {k : Nat} (op : CmpOp) (x y : BitVec k) :
    upred op x y = true ↔ op.holds (.fin x.toNat) (.fin y.toNat) := by
  cases op <;> simp only [upred, CmpOp.holds, Value.eq, Value.lt, Value.fin.injEq, beq_iff_eq, bne_iff_ne, ne_eq,
    BitVec.ult_iff_toNat_lt, BitVec.ule_iff_toNat_le, Int.natCast_inj, BitVec.toNat_inj, Int.ofNat_lt] <;>
    (try rw [← BitVec.toNat_inj]) <;> omega

theorem bpred_iff (op : CmpOp) (x y : BitVec 8) :
    bpred op x y = true ↔ op.holds (value .bool x) (value .bool y) := by
  have hv : ∀ z : BitVec 8, value .bool z = .fin (if (z != 0) = true then 1 else 0) := by
    intro z
    by_cases hz : z = 0
    · subst hz; rfl
    · have h1 : (z != 0) = true := by rw [bne_iff_ne]; exact hz
      rw [h1, if_pos rfl]
      show Value.fin (if z = (0 : BitVec 8) then 0 else 1) = _
      rw [if_neg hz]
  rw [hv, hv]
  simp only [bpred]
  generalize (x != 0) = X
  generalize (y != 0) = Y
  revert X Y
  cases op <;> decide

/-! ### The vector steps -/

theorem sel_cmp {k N : Nat} (p : BitVec k → BitVec k → Bool) (xs ys : Nat → BitVec k) (a : Nat) :
    IsSel k (cmpLanes k p (load N xs a) (load N ys a)) (BitVec.allOnes k) (fun d => p (xs (a + d)) (ys (a + d))) := by
  refine (isSel_cmpLanes p _ _).congr fun d hd => ?_
  rw [lane_load _ _ hd, lane_load _ _ hd]

theorem sle_eq_not_slt {k : Nat} (x y : BitVec k) : x.sle y = !y.slt x := by
  rw [Bool.eq_iff_iff, Bool.not_eq_true', Bool.eq_false_iff, ne_eq, BitVec.slt_iff_toInt_lt, BitVec.sle_iff_toInt_le]
  omega

/-- What is stored for one vector step: byte `j` is the scalar predicate of elements `p+j`. -/
def StepOk {k : Nat} : Kernel k → Prop
  | .any _ => True
  | .vec L step sca => 0 < L ∧ ∀ xs ys p j, j < L → step xs ys p j = boolByte (sca (xs (p + j)) (ys (p + j)))

theorem compareFloat_step (op : CmpOp) : StepOk (compareFloat op) := by
  refine ⟨by decide, fun xs ys p j hj => ?_⟩
  refine combFloat_byte (c := fun i => cmpLanes 32 (fpred 8 23 op) (load 256 xs (p + 8 * i)) (load 256 ys (p + 8 * i)))
    (e := fun i => fpred 8 23 op (xs (p + i)) (ys (p + i))) (fun t _ => ?_) hj
  refine (sel_cmp _ _ _ _).congr fun d _ => ?_
  simp only [Nat.add_assoc]

theorem compareDouble_step (op : CmpOp) : StepOk (compareDouble op) := by
  refine ⟨by decide, fun xs ys p j hj => ?_⟩
  refine combDouble_byte (c := fun i => cmpLanes 64 (fpred 11 52 op) (load 128 xs (p + 2 * i)) (load 128 ys (p + 2 * i)))
    (e := fun i => fpred 11 52 op (xs (p + i)) (ys (p + i))) (fun t _ => ?_) hj
  refine (sel_cmp _ _ _ _).congr fun d _ => ?_
  simp only [Nat.add_assoc]

theorem compareInt32S_step : StepOk compareInt32S := by
  refine ⟨by decide, fun xs ys p j hj => ?_⟩
  refine comb32S_byte (c := fun i => cmpeq 32 (load 256 xs (p + 8 * i)) (load 256 ys (p + 8 * i)))
    (e := fun i => spred .eq (xs (p + i)) (ys (p + i))) (fun t _ => ?_) hj
  refine (sel_cmp _ _ _ _).congr fun d _ => ?_
  simp only [Nat.add_assoc, spred]

theorem comb64_step (q : BitVec 64 → BitVec 64 → Bool) (xs ys : Nat → BitVec 64) (p : Nat) {j : Nat} (hj : j < 16) :
    lane 8 (comb64 (cmpLanes 64 q (load 256 xs (p + 4 * 0)) (load 256 ys (p + 4 * 0)))
      (cmpLanes 64 q (load 256 xs (p + 4 * 1)) (load 256 ys (p + 4 * 1)))
      (cmpLanes 64 q (load 256 xs (p + 4 * 2)) (load 256 ys (p + 4 * 2)))
      (cmpLanes 64 q (load 256 xs (p + 4 * 3)) (load 256 ys (p + 4 * 3)))) j =
    boolByte (q (xs (p + j)) (ys (p + j))) := by
  refine comb64_byte (c := fun i => cmpLanes 64 q (load 256 xs (p + 4 * i)) (load 256 ys (p + 4 * i)))
    (e := fun i => q (xs (p + i)) (ys (p + i))) (fun t _ => ?_) hj
  refine (sel_cmp _ _ _ _).congr fun d _ => ?_
  simp only [Nat.add_assoc]

theorem boolByte_xor_one (b : Bool) : boolByte b ^^^ 1 = boolByte (!b) := by cases b <;> rfl

theorem compareInt64_step (op : CmpOp) : StepOk (compareInt64 op) := by
  refine ⟨by decide, fun xs ys p j hj => ?_⟩
  have h0 : 16 * 0 + j = j := by omega
  cases op <;> simp only [comp64i, cmpeq, cmpgt] <;> rw [lane_extract128 _ _ hj, h0] <;>
    (try rw [lane_xor, g_ones, lane_set1 _ (by omega)]) <;> rw [comb64_step _ _ _ _ hj] <;>
    (try rw [boolByte_xor_one]) <;> simp only [spred, sle_eq_not_slt] <;> (try rfl)

theorem movemask_cmp (q : BitVec 32 → BitVec 32 → Bool) (xs ys : Nat → BitVec 32) (p : Nat) {j : Nat} (hj : j < 8) :
    (movemask 32 8 (cmpLanes 32 q (load 256 xs p) (load 256 ys p))).getLsbD j = q (xs (p + j)) (ys (p + j)) := by
  rw [getLsbD_movemask _ hj, sel_cmp q xs ys p j (by omega), msb_sel (by decide)]

theorem compareInt32_step (op : CmpOp) : StepOk (compareInt32 op) := by
  refine ⟨by decide, fun xs ys p j hj => ?_⟩
  cases op <;> simp only [comp32i, cmpeq, cmpgt] <;>
    first | rw [lut64_byte _ hj] | rw [lut64Inverse_byte _ hj]
  all_goals rw [movemask_cmp _ _ _ _ hj]; simp only [spred, sle_eq_not_slt] <;> (try rfl)

theorem ones16_lane (d : Nat) (hd : 16 * d + 16 ≤ 256) : lane 16 ones16 d = 1 := by
  rw [ones16, lane_set1 _ hd]

theorem compareInt16_step (op : CmpOp) : StepOk (compareInt16 op) := by
  refine ⟨by decide, fun xs ys p j hj => ?_⟩
  have hm : ∀ (q : BitVec 16 → BitVec 16 → Bool) (xs ys : Nat → BitVec 16),
      IsSel 16 (cmpLanes 16 q (load 256 xs p) (load 256 ys p) &&& ones16) 1 (fun d => q (xs (p + d)) (ys (p + d))) :=
    fun q xs ys => (sel_cmp q xs ys p).and ones16_lane
  cases op <;> simp only [comp16i, cmpeq, cmpgt, spred, sle_eq_not_slt]
  · exact comb16_byte (hm (fun a b => a == b) xs ys) hj
  · exact comb16_byte ((hm (fun a b => a == b) xs ys).xorSelf ones16_lane) hj
  · exact comb16_byte (hm (fun a b => b.slt a) xs ys) hj
  · exact comb16_byte ((hm (fun a b => b.slt a) ys xs).xorSelf ones16_lane) hj
  · exact comb16_byte (hm (fun a b => b.slt a) ys xs) hj
  · exact comb16_byte ((hm (fun a b => b.slt a) xs ys).xorSelf ones16_lane) hj

theorem ones8_lane (d : Nat) (hd : 8 * d + 8 ≤ 256) : lane 8 (g_ones 256) d = 1 := by
  rw [g_ones, lane_set1 _ hd]

theorem comp8i_byte (op : CmpOp) (x y : BitVec 256) {j : Nat} (hj : j < 32) :
    lane 8 (comp8i op x y) j = boolByte (spred op (lane 8 x j) (lane 8 y j)) := by
  have hm : ∀ (q : BitVec 8 → BitVec 8 → Bool) (x y : BitVec 256),
      IsSel 8 (cmpLanes 8 q x y &&& g_ones 256) 1 (fun d => q (lane 8 x d) (lane 8 y d)) :=
    fun q x y => (isSel_cmpLanes q x y).and ones8_lane
  cases op <;> simp only [comp8i, cmpeq, cmpgt, spred, sle_eq_not_slt]
  · exact hm (fun a b => a == b) x y j (by omega)
  · exact (hm (fun a b => a == b) x y).xorSelf ones8_lane j (by omega)
  · exact hm (fun a b => b.slt a) x y j (by omega)
  · exact (hm (fun a b => b.slt a) y x).xorSelf ones8_lane j (by omega)
  · exact hm (fun a b => b.slt a) y x j (by omega)
  · exact (hm (fun a b => b.slt a) x y).xorSelf ones8_lane j (by omega)

theorem compareInt8_step (op : CmpOp) : StepOk (compareInt8 op) := by
  refine ⟨by decide, fun xs ys p j hj => ?_⟩
  show lane 8 (comp8i op (load 256 xs p) (load 256 ys p)) j = _
  rw [comp8i_byte op _ _ hj, lane_load _ _ (by omega), lane_load _ _ (by omega)]

/-- `min_epu8` with 1 of a boolean byte. -/
theorem clamp_eq (x : BitVec 8) : (if x.ult 1 then x else 1) = if x = 0 then 0 else 1 := by
  by_cases h : x = 0
  · subst h; rfl
  · have : x.ult 1 = false := by
      have : x.toNat ≠ 0 := fun h' => h (BitVec.eq_of_toNat_eq h')
      rw [Bool.eq_false_iff]; intro hc
      rw [BitVec.ult_iff_toNat_lt] at hc
      simp at hc; omega
    rw [this, if_neg h]; rfl

theorem compareBool_step (op : CmpOp) : StepOk (compareBool op) := by
  refine ⟨by decide, fun xs ys p j hj => ?_⟩
  show lane 8 (compBool op (load 256 xs p) (load 256 ys p)) j = _
  have hmin : ∀ x : BitVec 256, lane 8 (minEpu8 x (g_ones 256)) j = if lane 8 x j = 0 then 0 else 1 := by
    intro x
    rw [minEpu8, lane_ofLanes _ (by omega), ones8_lane _ (by omega), clamp_eq]
  rw [compBool, comp8i_byte op _ _ hj, hmin, hmin, lane_load _ _ (by omega), lane_load _ _ (by omega)]
  have hb : ∀ z : BitVec 8, (if z = 0 then (0 : BitVec 8) else 1) = if (z != 0) = true then 1 else 0 := by
    intro z
    by_cases hz : z = 0
    · subst hz; rfl
    · have h1 : (z != 0) = true := by rw [bne_iff_ne]; exact hz
      rw [h1, if_pos rfl, if_neg hz]
  rw [hb, hb]
  simp only [bpred]
  generalize (xs (p + j) != 0) = X
  generalize (ys (p + j) != 0) = Y
  revert X Y
  cases op <;> decide

theorem dispatch_step (t : DT) (op : CmpOp) : StepOk (dispatch t op) := by
  cases t
  case f32 => exact compareFloat_step op
  case f64 => exact compareDouble_step op
  case bool => exact compareBool_step op
  case i8 => exact compareInt8_step op
  case i16 => exact compareInt16_step op
  case i64 => exact compareInt64_step op
  case i32 =>
    cases op
    case eq => exact compareInt32S_step
    all_goals exact compareInt32_step _
  case u8 => cases op <;> first | exact compareInt8_step _ | trivial
  case u16 => cases op <;> first | exact compareInt16_step _ | trivial
  case u32 => cases op <;> first | exact compareInt32_step _ | trivial
  case u64 => cases op <;> first | exact compareInt64_step _ | trivial

/-- Scalar predicate of a kernel. -/
def scalarOf {k : Nat} : Kernel k → BitVec k → BitVec k → Bool
  | .any s => s
  | .vec _ _ s => s

theorem dispatch_scalar (t : DT) (op : CmpOp) (x y : BitVec t.bits) :
    scalarOf (dispatch t op) x y = true ↔ op.holds (value t x) (value t y) := by
  have eqU : ∀ {k : Nat} (x y : BitVec k), spred .eq x y = upred .eq x y := fun _ _ => rfl
  have neU : ∀ {k : Nat} (x y : BitVec k), spred .ne x y = upred .ne x y := fun _ _ => rfl
  cases t
  case f32 => exact fpred_iff 8 23 (by decide) op x y
  case f64 => exact fpred_iff 11 52 (by decide) op x y
  case bool => exact bpred_iff op x y
  case i8 => exact spred_iff op x y
  case i16 => exact spred_iff op x y
  case i64 => exact spred_iff op x y
  case i32 =>
    cases op with
    | eq => exact spred_iff .eq x y
    | ne => exact spred_iff .ne x y
    | gt => exact spred_iff .gt x y
    | ge => exact spred_iff .ge x y
    | lt => exact spred_iff .lt x y
    | le => exact spred_iff .le x y
  case u8 =>
    cases op with
    | eq => exact upred_iff .eq x y
    | ne => exact upred_iff .ne x y
    | gt => exact upred_iff .gt x y
    | ge => exact upred_iff .ge x y
    | lt => exact upred_iff .lt x y
    | le => exact upred_iff .le x y
  case u16 =>
    cases op with
    | eq => exact upred_iff .eq x y
    | ne => exact upred_iff .ne x y
    | gt => exact upred_iff .gt x y
    | ge => exact upred_iff .ge x y
    | lt => exact upred_iff .lt x y
    | le => exact upred_iff .le x y
  case u32 =>
    cases op with
    | eq => exact upred_iff .eq x y
    | ne => exact upred_iff .ne x y
    | gt => exact upred_iff .gt x y
    | ge => exact upred_iff .ge x y
    | lt => exact upred_iff .lt x y
    | le => exact upred_iff .le x y
  case u64 =>
    cases op with
    | eq => exact upred_iff .eq x y
    | ne => exact upred_iff .ne x y
    | gt => exact upred_iff .gt x y
    | ge => exact upred_iff .ge x y
    | lt => exact upred_iff .lt x y
    | le => exact upred_iff .le x y

/-- **C13**: for every element type, every comparison, all element values (scalars are constant
arrays), any number of vector steps followed by the scalar tail and every position `i`, output
byte `i` is 1 if the relation holds of the numeric values of elements `i`, and 0 otherwise. -/
theorem C13_compare_correct (t : DT) (op : CmpOp) (blocks : Nat) (xs ys : Nat → BitVec t.bits) (i : Nat) :
    (dispatch t op).out blocks xs ys i =
      if op.holds (value t (xs i)) (value t (ys i)) then 1 else 0 := by
  have hsc := dispatch_scalar t op (xs i) (ys i)
  have hst := dispatch_step t op
  have key : ∀ b : Bool, (b = true ↔ op.holds (value t (xs i)) (value t (ys i))) →
      boolByte b = if op.holds (value t (xs i)) (value t (ys i)) then 1 else 0 := by
    intro b hb
    unfold boolByte
    by_cases h : op.holds (value t (xs i)) (value t (ys i))
    · rw [if_pos h, if_pos (hb.mpr h)]
    · rw [if_neg h, if_neg (fun h' => h (hb.mp h'))]
  cases hk : dispatch t op with
  | any sca =>
    rw [hk] at hsc
    exact key _ hsc
  | vec L step sca =>
    rw [hk] at hsc hst
    obtain ⟨hL, hst⟩ := hst
    show (if i < L * blocks then step xs ys (L * (i / L)) (i % L) else boolByte (sca (xs i) (ys i))) = _
    split
    · rw [hst xs ys _ _ (Nat.mod_lt _ hL), Nat.div_add_mod]
      exact key _ hsc
    · exact key _ hsc

/-- Non-vacuity: -0.0 == +0.0 is true, NaN != NaN is true, 1.0f < 2.0f. -/
example : CmpOp.eq.holds (value .f32 0x80000000) (value .f32 0) ∧
    CmpOp.ne.holds (value .f32 0x7fc00000) (value .f32 0x7fc00000) ∧
    CmpOp.lt.holds (value .f32 0x3f800000) (value .f32 0x40000000) ∧
    ¬ CmpOp.lt.holds (value .i8 5) (value .i8 0x80) ∧ CmpOp.lt.holds (value .u8 5) (value .u8 0x80) := by
  decide

/-! ### C14: int64 against uint64 -/

theorem signSet_iff (x y : BitVec 64) : signSet x y = (x.msb || y.msb) := by
  unfold signSet
  rw [Bool.eq_iff_iff]
  simp only [bne_iff_ne, ne_eq, Bool.or_eq_true]
  have h : ((x ||| y) &&& 0x8000000000000000#64) = if (x.msb || y.msb) then 0x8000000000000000#64 else 0 := by
    apply BitVec.eq_of_getLsbD_eq
    intro i hi
    have hc : (0x8000000000000000#64).getLsbD i = decide (i = 63) := by
      have : ∀ i : Fin 64, (0x8000000000000000#64).getLsbD i = decide (i.val = 63) := by decide
      exact this ⟨i, hi⟩
    rw [BitVec.getLsbD_and, BitVec.getLsbD_or, hc]
    by_cases h63 : i = 63
    · subst h63
      have hx : x.msb = x.getLsbD 63 := by simp [BitVec.msb_eq_getLsbD_last]
      have hy : y.msb = y.getLsbD 63 := by simp [BitVec.msb_eq_getLsbD_last]
      rw [hx, hy]
      cases x.getLsbD 63 <;> cases y.getLsbD 63 <;> decide
    · split <;> simp [h63, hc]
  rw [h]
  cases x.msb <;> cases y.msb <;> decide

/-- **C14** (int64 first): all six relations equal the relation of the mathematical integers. -/
theorem C14_int64_uint64 (op : CmpOp) (x y : BitVec 64) :
    mixedIU op x y = true ↔ op.holds (.fin x.toInt) (.fin y.toNat) := by
  have hx := BitVec.toInt_eq_msb_cond x
  have hy := BitVec.toInt_eq_msb_cond y
  have hxl := x.isLt
  have hyl := y.isLt
  have hxm := BitVec.msb_eq_decide x
  have hym := BitVec.msb_eq_decide y
  cases hmx : x.msb <;> cases hmy : y.msb <;> rw [hmx] at hx hxm <;> rw [hmy] at hy hym <;>
    simp only [Bool.false_eq_true, if_false, if_true] at hx hy <;>
    simp only [eq_comm (a := false), eq_comm (a := true), decide_eq_true_eq, decide_eq_false_iff_not] at hxm hym <;>
    cases op <;> simp only [mixedIU, signSet_iff, hmx, hmy, Bool.or_false, Bool.or_true, Bool.false_or, Bool.true_or,
      Bool.false_eq_true, if_false, if_true, CmpOp.holds, Value.eq, Value.lt, Value.fin.injEq, beq_iff_eq,
      bne_iff_ne, ne_eq, BitVec.slt_iff_toInt_lt, BitVec.sle_iff_toInt_le, true_iff, false_iff] <;>
    (try rw [← BitVec.toNat_inj]) <;> omega

/-- **C14** (uint64 first): the four order relations equal the relation of the integers; missing:
`==` and `!=`, which are wrong (`C14_uint64_eq_violated`). -/
theorem C14_uint64_int64_partial (op : CmpOp) (hop : op ≠ .eq ∧ op ≠ .ne) (x y : BitVec 64) :
    mixedUI op x y = true ↔ op.holds (.fin x.toNat) (.fin y.toInt) := by
  have hx := BitVec.toInt_eq_msb_cond x
  have hy := BitVec.toInt_eq_msb_cond y
  have hxl := x.isLt
  have hyl := y.isLt
  have hxm := BitVec.msb_eq_decide x
  have hym := BitVec.msb_eq_decide y
  cases hmx : x.msb <;> cases hmy : y.msb <;> rw [hmx] at hx hxm <;> rw [hmy] at hy hym <;>
    simp only [Bool.false_eq_true, if_false, if_true] at hx hy <;>
    simp only [eq_comm (a := false), eq_comm (a := true), decide_eq_true_eq, decide_eq_false_iff_not] at hxm hym <;>
    cases op <;> simp only [ne_eq, not_true, false_and, and_false] at hop <;>
    simp only [mixedUI, signSet_iff, hmx, hmy, Bool.or_false, Bool.or_true, Bool.false_or, Bool.true_or,
      Bool.false_eq_true, if_false, if_true, CmpOp.holds, Value.eq, Value.lt, Value.fin.injEq,
      BitVec.ult_iff_toNat_lt, BitVec.ule_iff_toNat_le, true_iff, false_iff] <;> omega

/-- **C14 violated** for `uint64 == int64` (and `!=`): exactly the operands that agree as bit patterns
with the sign bit set are compared wrongly, e.g. 2^64-1 == -1. -/
theorem C14_uint64_eq_violated (x y : BitVec 64) :
    (mixedUI .eq x y = true ∧ ¬ CmpOp.eq.holds (.fin x.toNat) (.fin y.toInt)) ↔ (x = y ∧ x.msb = true) := by
  have hy := BitVec.toInt_eq_msb_cond y
  have hyl := y.isLt
  simp only [mixedUI, CmpOp.holds, Value.eq, Value.fin.injEq, beq_iff_eq]
  constructor
  · rintro ⟨rfl, h⟩
    refine ⟨rfl, ?_⟩
    cases hm : x.msb
    · rw [hm] at hy; simp only [Bool.false_eq_true, if_false] at hy; omega
    · rfl
  · rintro ⟨rfl, hm⟩
    refine ⟨rfl, ?_⟩
    rw [hm] at hy; simp only [if_true] at hy; omega

example : mixedUI .eq (-1) (-1) = true ∧ ¬ CmpOp.eq.holds (.fin (-1 : BitVec 64).toNat) (.fin (-1 : BitVec 64).toInt) := by
  decide

end Pnumpy.Props
