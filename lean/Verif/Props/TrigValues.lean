import Verif.Props.Trig
import Verif.Props.FloorDiv
/-
Property theorem C62: reference points of exp, log, sin and cos.
-/
namespace Pnumpy.Props
open Pnumpy.Spec Pnumpy.Elem Pnumpy.Dispatch Pnumpy.Ieee Pnumpy.FloatOps Pnumpy.Trig

/-- Addition, subtraction, multiplication and `floor` of finite numbers are those of IEEE-754: an exact result not larger than some float is
rounded to a nearest float (in any direction on ties). -/
structure IeeeArith (F : FloatUnit) (E M k : Nat) : Prop where
  add : ∀ (x y s : BitVec k) (vx vy vs : Int), floatValue E M x = .fin vx → floatValue E M y = .fin vy → floatValue E M s = .fin vs →
    (vx + vy).natAbs ≤ vs.natAbs → ∃ r, floatValue E M (F.add k x y) = .fin r ∧ NearestTo E M k (vx + vy) 1 r
  sub : ∀ (x y s : BitVec k) (vx vy vs : Int), floatValue E M x = .fin vx → floatValue E M y = .fin vy → floatValue E M s = .fin vs →
    (vx - vy).natAbs ≤ vs.natAbs → ∃ r, floatValue E M (F.sub k x y) = .fin r ∧ NearestTo E M k (vx - vy) 1 r
  mul : ∀ (x y s : BitVec k) (vx vy vs : Int), floatValue E M x = .fin vx → floatValue E M y = .fin vy → floatValue E M s = .fin vs →
    (vx * vy).natAbs ≤ (vs * floatUnit E M).natAbs →
    ∃ r, floatValue E M (F.mul k x y) = .fin r ∧ NearestTo E M k (vx * vy) (floatUnit E M) r
  floor : ∀ (x : BitVec k) (v : Int), floatValue E M x = .fin v →
    floatValue E M (F.floor k x) = .fin (floatUnit E M * (v / floatUnit E M))

theorem _root_.Pnumpy.Spec.NearestTo.between {E M k : Nat} {num den r va vb : Int} (hd : 0 < den) (h : NearestTo E M k num den r) {a b : BitVec k}
    (ha : floatValue E M a = .fin va) (hb : floatValue E M b = .fin vb) (h1 : va * den ≤ num) (h2 : num ≤ vb * den) : va ≤ r ∧ r ≤ vb := by
  have d1 := h a va ha
  have d2 := h b vb hb
  constructor
  · by_contra hc
    have : r * den < va * den := Int.mul_lt_mul_of_pos_right (by omega) hd
    omega
  · by_contra hc
    have : vb * den < r * den := Int.mul_lt_mul_of_pos_right (by omega) hd
    omega

set_option linter.unusedSectionVars false

theorem value_zeroPattern {E M k : Nat} (h : Fmt E M k) : floatValue E M (0 : BitVec k) = .fin 0 := by cases h <;> decide

section
variable {F : FloatUnit} {E M k : Nat} (hF : IeeeArith F E M k)
include hF

theorem add_between {x y a b : BitVec k} {vx vy va vb : Int} (hx : floatValue E M x = .fin vx) (hy : floatValue E M y = .fin vy)
    (ha : floatValue E M a = .fin va) (hb : floatValue E M b = .fin vb) (h1 : va ≤ vx + vy) (h2 : vx + vy ≤ vb) :
    ∃ r, floatValue E M (F.add k x y) = .fin r ∧ va ≤ r ∧ r ≤ vb := by
  have : (vx + vy).natAbs ≤ va.natAbs ∨ (vx + vy).natAbs ≤ vb.natAbs := by omega
  rcases this with h | h
  · obtain ⟨r, e, n⟩ := hF.add x y a vx vy va hx hy ha h
    exact ⟨r, e, n.between (by decide) ha hb (by omega) (by omega)⟩
  · obtain ⟨r, e, n⟩ := hF.add x y b vx vy vb hx hy hb h
    exact ⟨r, e, n.between (by decide) ha hb (by omega) (by omega)⟩

theorem add_exact {x y s : BitVec k} {vx vy v : Int} (hx : floatValue E M x = .fin vx) (hy : floatValue E M y = .fin vy)
    (hs : floatValue E M s = .fin v) (h : vx + vy = v) : floatValue E M (F.add k x y) = .fin v := by
  obtain ⟨r, e, a, b⟩ := add_between hF hx hy hs hs (by omega) (by omega)
  rw [e]; congr 1; omega

theorem sub_exact {x y s : BitVec k} {vx vy v : Int} (hx : floatValue E M x = .fin vx) (hy : floatValue E M y = .fin vy)
    (hs : floatValue E M s = .fin v) (h : vx - vy = v) : floatValue E M (F.sub k x y) = .fin v := by
  obtain ⟨r, e, n⟩ := hF.sub x y s vx vy v hx hy hs (by omega)
  have := n.between (by decide) hs hs (by omega) (by omega)
  rw [e]; congr 1; omega

theorem mul_between {x y a b : BitVec k} {vx vy va vb : Int} (hx : floatValue E M x = .fin vx) (hy : floatValue E M y = .fin vy)
    (ha : floatValue E M a = .fin va) (hb : floatValue E M b = .fin vb) (h1 : va * floatUnit E M ≤ vx * vy) (h2 : vx * vy ≤ vb * floatUnit E M) :
    ∃ r, floatValue E M (F.mul k x y) = .fin r ∧ va ≤ r ∧ r ≤ vb := by
  have hu := unit_pos E M
  have : (vx * vy).natAbs ≤ (va * floatUnit E M).natAbs ∨ (vx * vy).natAbs ≤ (vb * floatUnit E M).natAbs := by omega
  rcases this with h | h
  · obtain ⟨r, e, n⟩ := hF.mul x y a vx vy va hx hy ha h
    exact ⟨r, e, n.between hu ha hb h1 h2⟩
  · obtain ⟨r, e, n⟩ := hF.mul x y b vx vy vb hx hy hb h
    exact ⟨r, e, n.between hu ha hb h1 h2⟩

theorem mul_exact {x y s : BitVec k} {vx vy v : Int} (hx : floatValue E M x = .fin vx) (hy : floatValue E M y = .fin vy)
    (hs : floatValue E M s = .fin v) (h : vx * vy = v * floatUnit E M) : floatValue E M (F.mul k x y) = .fin v := by
  obtain ⟨r, e, a, b⟩ := mul_between hF hx hy hs hs (by omega) (by omega)
  rw [e]; congr 1; omega

variable (hfmt : Fmt E M k)
include hfmt

theorem mul_zeroR {x y : BitVec k} {vx : Int} (hx : floatValue E M x = .fin vx) (hy : floatValue E M y = .fin 0) :
    floatValue E M (F.mul k x y) = .fin 0 := mul_exact hF hx hy hy (by simp)
theorem mul_zeroL {x y : BitVec k} {vy : Int} (hx : floatValue E M x = .fin 0) (hy : floatValue E M y = .fin vy) :
    floatValue E M (F.mul k x y) = .fin 0 := mul_exact hF hx hy hx (by simp)
theorem add_zeroR {x y : BitVec k} {vx : Int} (hx : floatValue E M x = .fin vx) (hy : floatValue E M y = .fin 0) :
    floatValue E M (F.add k x y) = .fin vx := add_exact hF hx hy hx (by simp)
theorem add_zeroL {x y : BitVec k} {vy : Int} (hx : floatValue E M x = .fin 0) (hy : floatValue E M y = .fin vy) :
    floatValue E M (F.add k x y) = .fin vy := add_exact hF hx hy hy (by simp)
theorem sub_zeroR {x y : BitVec k} {vx : Int} (hx : floatValue E M x = .fin vx) (hy : floatValue E M y = .fin 0) :
    floatValue E M (F.sub k x y) = .fin vx := sub_exact hF hx hy hx (by simp)

/-- A Horner chain at zero is finite. -/
theorem horner_zero {x : BitVec k} (hx : floatValue E M x = .fin 0) : ∀ (ps : List (BitVec k)), (∀ p ∈ ps, ∃ v, floatValue E M p = .fin v) →
    ∀ y, (∃ v, floatValue E M y = .fin v) → ∃ v, floatValue E M (horner F k x y ps) = .fin v
  | [], _, y, hy => hy
  | p :: ps, hps, y, ⟨vy, hy⟩ => by
    obtain ⟨vp, hp⟩ := hps p (by simp)
    exact horner_zero hx ps (fun q hq => hps q (by simp [hq])) _ ⟨vp, add_zeroL hF hfmt (mul_zeroR hF hfmt hy hx) hp⟩

theorem poly_zero {x : BitVec k} (hx : floatValue E M x = .fin 0) (ps : List (BitVec k)) (hps : ∀ p ∈ ps, ∃ v, floatValue E M p = .fin v) :
    ∃ v, floatValue E M (poly F k x ps) = .fin v := by
  cases ps with
  | nil => exact ⟨0, value_zeroPattern hfmt⟩
  | cons p ps => exact horner_zero hF hfmt hx ps (fun q hq => hps q (by simp [hq])) p (hps p (by simp))

end

/-! ### log of powers of two -/

theorem log_pow2 {F : FloatUnit} {E M k : Nat} (hfmt : Fmt E M k) (hF : IeeeArith F E M k) (c : MathC k) (hE : c.E = E) (hM : c.M = M)
    (x0 : BitVec k) (n h q1 q2 a1 b1 a2 b2 : Int)
    (h0 : fle E M x0 0 = false) (h1 : maxI E M x0 c.minNorm = x0) (h2 : (x0 &&& c.invMant) ||| c.half = c.half)
    (hn : floatValue E M (c.ofInt ((x0 >>> M) - c.bias)) = .fin (floatUnit E M * n)) (hnb : n.natAbs + 1 ≤ 2 ^ M)
    (hone : floatValue E M c.one = .fin (floatUnit E M)) (hhalf : floatValue E M c.half = .fin h) (hh : 2 * h = floatUnit E M)
    (hsq : flt E M c.half c.sqrthf = true) (hp : ∀ p ∈ c.logP, ∃ v, floatValue E M p = .fin v)
    (hq1 : floatValue E M c.logQ1 = .fin q1) (hq2 : floatValue E M c.logQ2 = .fin q2)
    (ha1 : floatUnit E M * a1 ≤ n * q1) (hb1 : n * q1 ≤ floatUnit E M * b1)
    (ha2 : floatUnit E M * a2 ≤ n * q2) (hb2 : n * q2 ≤ floatUnit E M * b2)
    (hr : a1.natAbs + a2.natAbs ≤ 2 ^ M ∧ b1.natAbs + b2.natAbs ≤ 2 ^ M) :
    ∃ r, floatValue E M (logLane F c x0) = .fin r ∧ floatUnit E M * (a1 + a2) ≤ r ∧ r ≤ floatUnit E M * (b1 + b2) := by
  subst hE hM
  have hu := unit_pos c.E c.M
  unfold logLane
  simp only [h0, h1, h2, hsq, maskOf, if_true, Bool.false_eq_true, if_false, BitVec.and_allOnes]
  rw [show (0 : BitVec k) = 0#k from rfl, BitVec.or_zero]
  obtain ⟨s1, es1⟩ := integer_is_float hfmt (n + 1) (by omega)
  obtain ⟨s0, es0⟩ := integer_is_float hfmt n (by omega)
  have e1 : floatValue c.E c.M (F.add k (c.ofInt ((x0 >>> c.M) - c.bias)) c.one) = .fin (floatUnit c.E c.M * (n + 1)) :=
    add_exact hF hn hone es1 (by rw [Int.mul_add, Int.mul_one])
  have e2 : floatValue c.E c.M (F.sub k (F.add k (c.ofInt ((x0 >>> c.M) - c.bias)) c.one) c.one) = .fin (floatUnit c.E c.M * n) :=
    sub_exact hF e1 hone es0 (by rw [Int.mul_add, Int.mul_one]; omega)
  generalize F.sub k (F.add k (c.ofInt ((x0 >>> c.M) - c.bias)) c.one) c.one = e at e2
  have hmh : floatValue c.E c.M (flipSign c.half) = .fin (-h) := by rw [flipSign_value hfmt, hhalf]; rfl
  have x1 : floatValue c.E c.M (F.sub k c.half c.one) = .fin (-h) := sub_exact hF hhalf hone hmh (by omega)
  have hz : floatValue c.E c.M (0 : BitVec k) = .fin 0 := by
    rw [floatValue_eq, mag_zero, if_neg (by omega), if_neg (by have := infMag_pos c.M hfmt.pos; omega), smag_zero]; simp
  have x2 : floatValue c.E c.M (F.add k (F.sub k c.half c.one) c.half) = .fin 0 := add_exact hF x1 hhalf hz (by omega)
  generalize F.add k (F.sub k c.half c.one) c.half = x at x2
  have z0 : floatValue c.E c.M (F.mul k x x) = .fin 0 := mul_zeroL hF hfmt x2 x2
  obtain ⟨vp, ep⟩ := poly_zero hF hfmt x2 c.logP hp
  have y0 := mul_zeroR hF hfmt (mul_zeroR hF hfmt ep x2) z0
  -- e * q1, e * q2
  have hsplit : ∀ a : Int, floatUnit c.E c.M * a * floatUnit c.E c.M = floatUnit c.E c.M * (floatUnit c.E c.M * a) := by
    intro a; rw [Int.mul_comm]
  obtain ⟨sa1, esa1⟩ := integer_is_float hfmt a1 (by omega)
  obtain ⟨sb1, esb1⟩ := integer_is_float hfmt b1 (by omega)
  obtain ⟨sa2, esa2⟩ := integer_is_float hfmt a2 (by omega)
  obtain ⟨sb2, esb2⟩ := integer_is_float hfmt b2 (by omega)
  obtain ⟨r1, er1, l1, u1⟩ := mul_between hF e2 hq1 esa1 esb1
    (by rw [hsplit, Int.mul_assoc]; exact Int.mul_le_mul_of_nonneg_left ha1 (Int.le_of_lt hu))
    (by rw [hsplit, Int.mul_assoc]; exact Int.mul_le_mul_of_nonneg_left hb1 (Int.le_of_lt hu))
  obtain ⟨r2, er2, l2, u2⟩ := mul_between hF e2 hq2 esa2 esb2
    (by rw [hsplit, Int.mul_assoc]; exact Int.mul_le_mul_of_nonneg_left ha2 (Int.le_of_lt hu))
    (by rw [hsplit, Int.mul_assoc]; exact Int.mul_le_mul_of_nonneg_left hb2 (Int.le_of_lt hu))
  have y1 := add_zeroL hF hfmt y0 er1
  have y2 := sub_zeroR hF hfmt y1 (mul_zeroL hF hfmt z0 hhalf)
  have y3 := add_zeroL hF hfmt x2 y2
  obtain ⟨sa, esa⟩ := integer_is_float hfmt (a1 + a2) (by omega)
  obtain ⟨sb, esb⟩ := integer_is_float hfmt (b1 + b2) (by omega)
  exact add_between hF y3 er2 esa esb (by rw [Int.mul_add]; omega) (by rw [Int.mul_add]; omega)

/-! ### exp, sin and cos of zero -/

theorem zero_patterns {E M k : Nat} (h : Fmt E M k) (x : BitVec k) (hx : floatValue E M x = .fin 0) : x = 0 ∨ x = BitVec.twoPow k (k - 1) := by
  have hk := (signMask_toNat h).2
  have hm : mag E M x = 0 := by
    by_contra hc
    rw [floatValue_eq] at hx
    have : smag M 0 < smag M (mag E M x) := smag_mono M (by omega)
    split at hx
    · cases hx
    · split at hx
      · split at hx <;> cases hx
      · have hx := Value.fin.inj hx
        split at hx <;> omega
  have hs := toNat_split h x
  rw [hm] at hs
  cases hn : neg E M x with
  | false =>
    left
    apply BitVec.eq_of_toNat_eq
    rw [hs, hn]; simp
  | true =>
    right
    apply BitVec.eq_of_toNat_eq
    rw [hs, hn, BitVec.toNat_twoPow, Nat.mod_eq_of_lt (Nat.pow_lt_pow_right (by decide) (by omega)), show k - 1 = E + M by omega]
    simp

theorem exp_zero {F : FloatUnit} {E M k : Nat} (hfmt : Fmt E M k) (hF : IeeeArith F E M k) (c : MathC k) (hE : c.E = E) (hM : c.M = M)
    (x0 : BitVec k) (h p : Int) (hx : floatValue E M x0 = .fin 0) (h1 : flt E M x0 c.expHi = true) (h2 : flt E M c.expLo x0 = true)
    (hone : floatValue E M c.one = .fin (floatUnit E M)) (hhalf : floatValue E M c.half = .fin h) (hh : 2 * h = floatUnit E M)
    (hc1 : ∃ v, floatValue E M c.log2ef = .fin v) (hc2 : ∃ v, floatValue E M c.expC1 = .fin v) (hc3 : ∃ v, floatValue E M c.expC2 = .fin v)
    (hp : ∀ p ∈ c.expP, ∃ v, floatValue E M p = .fin v) (hint : ∀ x, floatValue E M x = .fin 0 → c.toInt x = 0)
    (hpow : floatValue E M (c.bias <<< M) = .fin p) : floatValue E M (expLane F c x0) = .fin p := by
  subst hE hM
  have hu := unit_pos c.E c.M
  have hz := value_zeroPattern hfmt
  obtain ⟨_, v1⟩ := hc1
  obtain ⟨_, v2⟩ := hc2
  obtain ⟨_, v3⟩ := hc3
  unfold expLane
  simp only [minI, maxI, h1, h2, if_true]
  have fx : floatValue c.E c.M (F.add k (F.mul k x0 c.log2ef) c.half) = .fin h := add_zeroL hF hfmt (mul_zeroL hF hfmt hx v1) hhalf
  generalize F.add k (F.mul k x0 c.log2ef) c.half = f at fx
  have fl := hF.floor f h fx
  rw [Int.ediv_eq_zero_of_lt (by omega) (by omega), Int.mul_zero] at fl
  generalize F.floor k f = t at fl
  have hno : flt c.E c.M f t = false := by
    cases hc : flt c.E c.M f t with
    | false => rfl
    | true =>
      rw [flt_iff c.E c.M hfmt.pos, fx, fl] at hc
      simp only [Value.lt] at hc
      omega
  rw [hno]
  simp only [maskOf, Bool.false_eq_true, if_false]
  rw [show (0 : BitVec k) &&& c.one = 0 by simp]
  have t0 : floatValue c.E c.M (F.sub k t 0) = .fin 0 := sub_zeroR hF hfmt fl hz
  generalize F.sub k t 0 = g at t0
  have x1 := sub_zeroR hF hfmt hx (mul_zeroL hF hfmt t0 v2)
  have x2 := sub_zeroR hF hfmt x1 (mul_zeroL hF hfmt t0 v3)
  generalize F.sub k (F.sub k x0 (F.mul k g c.expC1)) (F.mul k g c.expC2) = x at x2
  have z0 := mul_zeroL hF hfmt x2 x2
  obtain ⟨_, ep⟩ := poly_zero hF hfmt x2 c.expP hp
  have y1 := add_zeroL hF hfmt (add_zeroL hF hfmt (mul_zeroR hF hfmt ep z0) x2) hone
  rw [hint g t0, show (0 : BitVec k) + c.bias = c.bias by simp]
  exact mul_exact hF y1 hpow hpow (Int.mul_comm _ _)

theorem sincos_zero {F : FloatUnit} {E M k : Nat} (hfmt : Fmt E M k) (hk : 3 ≤ k) (hF : IeeeArith F E M k) (c : MathC k)
    (hm : c.signMask = BitVec.twoPow k (k - 1)) (hc : GoodTrigC E M c) (hone : floatValue E M c.one = .fin (floatUnit E M))
    (hd : (∃ v, floatValue E M c.dp1 = .fin v) ∧ (∃ v, floatValue E M c.dp2 = .fin v) ∧ (∃ v, floatValue E M c.dp3 = .fin v) ∧
      ∃ v, floatValue E M c.fopi = .fin v)
    (hint : ∀ x, floatValue E M x = .fin 0 → c.toInt x = 0) (hof : floatValue E M (c.ofInt 0) = .fin 0)
    (x0 : BitVec k) (hx : floatValue E M x0 = .fin 0) :
    floatValue E M (sinLane F c x0) = .fin 0 ∧ floatValue E M (cosLane F c x0) = .fin (floatUnit E M) := by
  obtain ⟨⟨_, _, e0⟩, ⟨_, e1⟩, ⟨_, e2⟩, ⟨_, _, f0⟩, ⟨_, f1⟩, ⟨_, f2⟩, ⟨_, _, eh⟩, _⟩ := hc
  obtain ⟨⟨_, d1⟩, ⟨_, d2⟩, ⟨_, d3⟩, ⟨_, d4⟩⟩ := hd
  have hz := value_zeroPattern hfmt
  have hzp := zero_patterns hfmt x0 hx
  have hk' := (signMask_toNat hfmt).2
  have habs : x0 &&& ~~~c.signMask = 0 := by
    rw [hm]
    rcases hzp with rfl | rfl
    · simp
    · ext i hi; simp
  have hsgn : x0 &&& c.signMask = 0 ∨ x0 &&& c.signMask = BitVec.twoPow k (k - 1) := by rw [hm]; exact and_sign x0 (k - 1)
  have hj : (c.toInt (F.mul k 0 c.fopi) + 1) &&& ~~~(1 : BitVec k) = 0 := by
    rw [hint _ (mul_zeroL hF hfmt hz d4), show (0 : BitVec k) + 1 = 1 by simp]
    ext i hi; simp
  -- the two polynomials at zero
  have hq : ∀ b : Bool, floatValue E M (sincosPoly F c 0 (c.ofInt 0) (maskOf b)) = .fin (if b then 0 else floatUnit E M) := by
    intro b
    unfold sincosPoly
    have q1 := add_zeroL hF hfmt (add_zeroL hF hfmt (add_zeroL hF hfmt hz (mul_zeroL hF hfmt hof d1)) (mul_zeroL hF hfmt hof d2))
      (mul_zeroL hF hfmt hof d3)
    revert q1
    simp only
    generalize F.add k (F.add k (F.add k (0 : BitVec k) (F.mul k (c.ofInt 0) c.dp1)) (F.mul k (c.ofInt 0) c.dp2)) (F.mul k (c.ofInt 0) c.dp3) = q
    intro q1
    have z0 := mul_zeroL hF hfmt q1 q1
    generalize F.mul k q q = z at z0
    have c1 := add_zeroL hF hfmt (mul_zeroR hF hfmt e0 z0) e1
    have c2 := add_zeroL hF hfmt (mul_zeroR hF hfmt c1 z0) e2
    have c3 := mul_zeroR hF hfmt (mul_zeroR hF hfmt c2 z0) z0
    have c4 := sub_zeroR hF hfmt c3 (mul_zeroL hF hfmt z0 eh)
    have c5 := add_zeroL hF hfmt c4 hone
    have g1 := add_zeroL hF hfmt (mul_zeroR hF hfmt f0 z0) f1
    have g2 := add_zeroL hF hfmt (mul_zeroR hF hfmt g1 z0) f2
    have g3 := mul_zeroR hF hfmt (mul_zeroR hF hfmt g2 z0) q1
    have g4 := add_zeroR hF hfmt g3 q1
    cases b with
    | false =>
      simp only [maskOf, Bool.false_eq_true, if_false]
      rw [show (~~~(0 : BitVec k)) = BitVec.allOnes k by simp, BitVec.allOnes_and, show ∀ a : BitVec k, 0 &&& a = 0 by simp]
      exact add_zeroR hF hfmt c5 hz
    | true =>
      simp only [maskOf, if_true, BitVec.allOnes_and]
      rw [show (~~~(BitVec.allOnes k)) = 0 by simp, show ∀ a : BitVec k, 0 &&& a = 0 by simp]
      exact add_zeroL hF hfmt hz g4
  have flip0 : ∀ x s : BitVec k, floatValue E M x = .fin 0 → (s = 0 ∨ s = BitVec.twoPow k (k - 1)) → floatValue E M (x ^^^ s) = .fin 0 := by
    rintro x s hx (rfl | rfl)
    · simpa using hx
    · have := flipSign_value hfmt x
      rw [hx] at this
      exact this
  constructor
  · unfold sinLane
    simp only [habs, hj]
    rw [← BitVec.xor_assoc]
    refine flip0 _ _ (flip0 _ _ ?_ hsgn) (quadrant_sign hk 0)
    rw [show ((0 : BitVec k) &&& 2 == 0) = true by simp]
    exact hq true
  · unfold cosLane
    simp only [habs, hj]
    have h2 : ((0 : BitVec k) - 2) &&& 2 = 2 := by cases hfmt <;> decide
    have h4 : (~~~((0 : BitVec k) - 2) &&& 4) <<< (k - 3) = 0 := by cases hfmt <;> decide
    rw [h2, h4, show ((2 : BitVec k) == 0) = false by cases hfmt <;> decide]
    have := hq false
    simpa using this


/-! ### Machines satisfying the hypotheses -/

theorem nearestTo_exists {E M k : Nat} (h : Fmt E M k) (num den : Int) :
    ∃ (s : BitVec k) (r : Int), floatValue E M s = .fin r ∧ NearestTo E M k num den r := by
  classical
  have hex : ∃ d, ∃ (s : BitVec k) (r : Int), floatValue E M s = .fin r ∧ (num - r * den).natAbs = d :=
    ⟨_, 0, _, value_zeroPattern h, rfl⟩
  obtain ⟨s, r, hr, hd⟩ := Nat.find_spec hex
  refine ⟨s, r, hr, fun s' v hv => ?_⟩
  rw [hd]
  exact Nat.find_min' hex ⟨s', v, hv, rfl⟩

theorem pattern_of_special {E M k : Nat} (h : Fmt E M k) : (∃ s : BitVec k, floatValue E M s = .nan) ∧ (∃ s : BitVec k, floatValue E M s = .pinf) ∧
    ∃ s : BitVec k, floatValue E M s = .ninf := by
  cases h
  · exact ⟨⟨0x7fc00000#32, by decide⟩, ⟨0x7f800000#32, by decide⟩, ⟨0xff800000#32, by decide⟩⟩
  · exact ⟨⟨0x7ff8000000000000#64, by decide⟩, ⟨0x7ff0000000000000#64, by decide⟩, ⟨0xfff0000000000000#64, by decide⟩⟩

theorem special_not_fin {a b : Value} {v : Int} : addSpecial a b ≠ some (.fin v) ∧ mulSpecial a b ≠ some (.fin v) := by
  constructor
  · cases a <;> cases b <;> simp [addSpecial]
  · cases a <;> cases b <;> simp only [mulSpecial, ne_eq, reduceCtorEq, not_false_eq_true, Option.some.injEq]
    all_goals (intro h; split at h <;> first | cases h | (split at h <;> cases h))

/-- A machine with IEEE-754 arithmetic exists, for each format. -/
theorem ieeeArith_exists {E M k : Nat} (h : Fmt E M k) : ∃ F : FloatUnit, IeeeArith F E M k ∧ IeeeSpecial F E M k := by
  classical
  -- the required result of an operation with exact finite result num/den or special result sp
  let Good (k' : Nat) (x y : BitVec k') (num : Int → Int → Int) (den : Int) (sp : Value → Value → Option Value) (s : BitVec k') : Prop :=
    (∀ vx vy, floatValue E M x = .fin vx → floatValue E M y = .fin vy → ∃ r, floatValue E M s = .fin r ∧ NearestTo E M k' (num vx vy) den r) ∧
    (∀ v, sp (floatValue E M x) (floatValue E M y) = some v → floatValue E M s = v)
  have hgood : ∀ (x y : BitVec k) num den (sp : Value → Value → Option Value), (∀ a b v, sp a b ≠ some (.fin v)) →
      (∀ a b, sp (.fin a) (.fin b) = none) → ∃ s, Good k x y num den sp s := by
    intro x y num den sp hsp hff
    obtain ⟨⟨p1, e1⟩, ⟨p2, e2⟩, ⟨p3, e3⟩⟩ := pattern_of_special h
    cases hv : sp (floatValue E M x) (floatValue E M y) with
    | some v =>
      have hs : ∃ s : BitVec k, floatValue E M s = v := by
        cases v with
        | nan => exact ⟨p1, e1⟩
        | pinf => exact ⟨p2, e2⟩
        | ninf => exact ⟨p3, e3⟩
        | fin u => exact absurd hv (hsp _ _ _)
      obtain ⟨s, hs⟩ := hs
      refine ⟨s, fun vx vy hx hy => ?_, fun u hu => ?_⟩
      · rw [hx, hy, hff] at hv; cases hv
      · rw [hv] at hu; rw [hs]; exact Option.some.inj hu
    | none =>
      by_cases hb : ∃ vx vy, floatValue E M x = .fin vx ∧ floatValue E M y = .fin vy
      · obtain ⟨vx, vy, hx, hy⟩ := hb
        obtain ⟨s, r, hr, hn⟩ := nearestTo_exists (k := k) h (num vx vy) den
        refine ⟨s, fun a b ha hb => ?_, fun u hu => ?_⟩
        · rw [hx] at ha; rw [hy] at hb
          rw [← Value.fin.inj ha, ← Value.fin.inj hb]
          exact ⟨r, hr, hn⟩
        · rw [hv] at hu; cases hu
      · exact ⟨0, fun a b ha hb' => absurd ⟨a, b, ha, hb'⟩ hb, fun u hu => by rw [hv] at hu; cases hu⟩
  let Fl (k' : Nat) (x s : BitVec k') : Prop := ∀ v, floatValue E M x = .fin v → floatValue E M s = .fin (floatUnit E M * (v / floatUnit E M))
  let F : FloatUnit :=
    { div := fun _ x _ => x, ceil := fun _ x => x, trunc := fun _ x => x, sqrt := fun _ x => x, round := fun _ x => x
      add := fun k' x y => Classical.epsilon (h := ⟨x⟩) (Good k' x y (· + ·) 1 addSpecial)
      sub := fun k' x y => Classical.epsilon (h := ⟨x⟩) (Good k' x y (· - ·) 1 (fun a b => addSpecial a b.neg))
      mul := fun k' x y => Classical.epsilon (h := ⟨x⟩) (Good k' x y (· * ·) (floatUnit E M) mulSpecial)
      floor := fun k' x => Classical.epsilon (h := ⟨x⟩) (Fl k' x) }
  have ga : ∀ x y : BitVec k, Good k x y (· + ·) 1 addSpecial (F.add k x y) := fun x y =>
    Classical.epsilon_spec_aux ⟨x⟩ _ (hgood x y _ _ _ (fun _ _ _ => special_not_fin.1) (fun _ _ => rfl))
  have gs : ∀ x y : BitVec k, Good k x y (· - ·) 1 (fun a b => addSpecial a b.neg) (F.sub k x y) := fun x y =>
    Classical.epsilon_spec_aux ⟨x⟩ _ (hgood x y (· - ·) 1 (fun a b => addSpecial a b.neg) (fun _ _ _ => special_not_fin.1) (fun _ _ => rfl))
  have gm : ∀ x y : BitVec k, Good k x y (· * ·) (floatUnit E M) mulSpecial (F.mul k x y) := fun x y =>
    Classical.epsilon_spec_aux ⟨x⟩ _ (hgood x y _ _ _ (fun _ _ _ => special_not_fin.2) (fun _ _ => rfl))
  have gf : ∀ x : BitVec k, Fl k x (F.floor k x) := fun x => by
    refine Classical.epsilon_spec_aux ⟨x⟩ _ ?_
    by_cases hv : ∃ v, floatValue E M x = .fin v
    · obtain ⟨v, hv⟩ := hv
      obtain ⟨s, hs⟩ := floor_is_float h x v hv
      exact ⟨s, fun a ha => by rw [hv] at ha; rw [← Value.fin.inj ha]; exact hs⟩
    · exact ⟨x, fun v h => absurd ⟨v, h⟩ hv⟩
  exact ⟨F, ⟨fun x y s vx vy vs hx hy _ _ => (ga x y).1 vx vy hx hy, fun x y s vx vy vs hx hy _ _ => (gs x y).1 vx vy hx hy,
    fun x y s vx vy vs hx hy _ _ => (gm x y).1 vx vy hx hy, fun x v hv => gf x v hv⟩,
    ⟨fun x y v hv => (ga x y).2 v hv, fun x y v hv => (gs x y).2 v hv, fun x y v hv => (gm x y).2 v hv⟩⟩


/-! ### The constants -/

/-- The float conversion instructions: truncation towards zero when the result is in the int32 range; exact from integers up to 2^23. -/
structure IeeeCvt (cv : Cvt) : Prop where
  tt : ∀ (x : BitVec 32) (v : Int), floatValue 8 23 x = .fin v → (v.tdiv (floatUnit 8 23)).natAbs < 2 ^ 31 → cv.tt x = BitVec.ofInt 32 (v.tdiv (floatUnit 8 23))
  epi : ∀ j : BitVec 32, j.toInt.natAbs ≤ 2 ^ 23 → floatValue 8 23 (cv.epi j) = .fin (floatUnit 8 23 * j.toInt)

theorem fin_ps (x : BitVec 32) (h : mag 8 23 x < infMag 8 23) : ∃ v, floatValue 8 23 x = .fin v := ⟨_, value_of_mag x h⟩
theorem fin_pd (x : BitVec 64) (h : mag 11 52 x < infMag 11 52) : ∃ v, floatValue 11 52 x = .fin v := ⟨_, value_of_mag x h⟩

theorem all_ps (l : List (BitVec 32)) (h : l.all (fun x => decide (mag 8 23 x < infMag 8 23)) = true) : ∀ p ∈ l, ∃ v, floatValue 8 23 p = .fin v := by
  intro p hp
  exact fin_ps p (by simpa using List.all_eq_true.mp h p hp)
theorem all_pd (l : List (BitVec 64)) (h : l.all (fun x => decide (mag 11 52 x < infMag 11 52)) = true) : ∀ p ∈ l, ∃ v, floatValue 11 52 p = .fin v := by
  intro p hp
  exact fin_pd p (by simpa using List.all_eq_true.mp h p hp)

theorem unit_ps : floatUnit 8 23 = 2 ^ 149 := by decide +kernel
theorem unit_pd : floatUnit 11 52 = 2 ^ 1074 := by decide +kernel

theorem val_ps {x : BitVec 32} {v : Int} (h : decide (mag 8 23 x < infMag 8 23) = true)
    (h' : (if neg 8 23 x then -(smag 23 (mag 8 23 x) : Int) else (smag 23 (mag 8 23 x) : Int)) = v) : floatValue 8 23 x = .fin v := by
  rw [value_of_mag x (by simpa using h), h']
theorem val_pd {x : BitVec 64} {v : Int} (h : decide (mag 11 52 x < infMag 11 52) = true)
    (h' : (if neg 11 52 x then -(smag 52 (mag 11 52 x) : Int) else (smag 52 (mag 11 52 x) : Int)) = v) : floatValue 11 52 x = .fin v := by
  rw [value_of_mag x (by simpa using h), h']

theorem finite_unique {E M k : Nat} (h : Fmt E M k) {x y : BitVec k} {v : Int} (hx : floatValue E M x = .fin v) (hy : floatValue E M y = .fin v)
    (hv : v ≠ 0) : x = y := by
  have key : ∀ z : BitVec k, floatValue E M z = .fin v → (neg E M z = decide (v < 0)) ∧ smag M (mag E M z) = v.natAbs := by
    intro z hz
    rw [floatValue_eq] at hz
    split at hz
    · cases hz
    · split at hz
      · split at hz <;> cases hz
      · have hz := Value.fin.inj hz
        cases hn : neg E M z <;> rw [hn] at hz <;> simp at hz <;> refine ⟨?_, by omega⟩
        · simp; omega
        · simp; omega
  obtain ⟨a1, a2⟩ := key x hx
  obtain ⟨b1, b2⟩ := key y hy
  have hm : mag E M x = mag E M y := by
    rcases Nat.lt_trichotomy (mag E M x) (mag E M y) with h' | h' | h'
    · have := smag_mono M h'; omega
    · exact h'
    · have := smag_mono M h'; omega
  apply BitVec.eq_of_toNat_eq
  rw [toNat_split h x, toNat_split h y, hm, a1, b1]

theorem magic_value : floatValue 11 52 magic = .fin (2 ^ 1074 * (3 * 2 ^ 51)) := val_pd (by decide +kernel) (by decide +kernel)

theorem toInt_pd {F : FloatUnit} (hF : IeeeArith F 11 52 64) (x : BitVec 64) (hx : floatValue 11 52 x = .fin 0) : (pd F).toInt x = 0 := by
  show F.add 64 x magic - magic = 0
  have := finite_unique Fmt.f64 (add_zeroL hF Fmt.f64 hx magic_value) magic_value (by decide +kernel)
  rw [this]; simp

theorem toInt_ps {cv : Cvt} (hcv : IeeeCvt cv) (x : BitVec 32) (hx : floatValue 8 23 x = .fin 0) : (ps cv.tt cv.epi).toInt x = 0 :=
  (hcv.tt x 0 hx (by rw [Int.zero_tdiv]; decide)).trans (by rw [Int.zero_tdiv]; rfl)

/-- **C62**: in the vector part, exp of a float32 zero (of either sign) is 1. -/
theorem C62_exp_zero_float_partial (F : FloatUnit) (hF : IeeeArith F 8 23 32) (cv : Cvt) (hcv : IeeeCvt cv) (x : BitVec 32)
    (hx : floatValue 8 23 x = .fin 0) : floatValue 8 23 (vecFn F (ps cv.tt cv.epi) .exp x) = .fin (floatUnit 8 23) := by
  rw [unit_ps]
  refine exp_zero Fmt.f32 hF (ps cv.tt cv.epi) rfl rfl x (2 ^ 148) (2 ^ 149) hx ?_ ?_ ?_ ?_ ?_ ?_ ?_ ?_ ?_ (toInt_ps hcv) ?_
  · rw [flt_iff 8 23 (by decide), hx]
    rw [show floatValue 8 23 (ps cv.tt cv.epi).expHi = .fin (0xb0c0a5 * 2 ^ 132) from val_ps (x := 0x42b0c0a5#32) (by decide +kernel) (by decide +kernel)]
    show (0 : Int) < _; decide
  · rw [flt_iff 8 23 (by decide), hx]
    rw [show floatValue 8 23 (ps cv.tt cv.epi).expLo = .fin (-(0xb0c0a5 * 2 ^ 132)) from val_ps (x := 0xc2b0c0a5#32) (by decide +kernel) (by decide +kernel)]
    show _ < (0 : Int); decide
  · rw [unit_ps]; exact val_ps (x := 0x3f800000#32) (by decide +kernel) (by decide +kernel)
  · exact val_ps (x := 0x3f000000#32) (by decide +kernel) (by decide +kernel)
  · rw [unit_ps]; decide
  · exact fin_ps 0x3fb8aa3b#32 (by decide +kernel)
  · exact fin_ps 0x3f318000#32 (by decide +kernel)
  · exact fin_ps 0xb95e8083#32 (by decide +kernel)
  · exact all_ps [0x39506967#32, 0x3ab743ce#32, 0x3c088908#32, 0x3d2aa9c1#32, 0x3e2aaaaa#32, 0x3f000000#32] (by decide +kernel)
  · rw [show (ps cv.tt cv.epi).bias <<< 23 = 0x3f800000#32 by show 0x7f#32 <<< 23 = _; decide]
    exact val_ps (x := 0x3f800000#32) (by decide +kernel) (by decide +kernel)

/-- **C62, violated**: in the vector part, exp of a float64 zero is 2^1023 instead of 1: the exponent bias constant of the double version is
0x7fe instead of 0x3ff. -/
theorem C62_exp_zero_double_violated (F : FloatUnit) (hF : IeeeArith F 11 52 64) (x : BitVec 64)
    (hx : floatValue 11 52 x = .fin 0) : floatValue 11 52 (vecFn F (pd F) .exp x) = .fin (floatUnit 11 52 * 2 ^ 1023) := by
  rw [unit_pd]
  refine exp_zero Fmt.f64 hF (pd F) rfl rfl x (2 ^ 1073) (2 ^ 1074 * 2 ^ 1023) hx ?_ ?_ ?_ ?_ ?_ ?_ ?_ ?_ ?_ (toInt_pd hF) ?_
  · rw [flt_iff 11 52 (by decide), hx]
    rw [show floatValue 11 52 (pd F).expHi = .fin (0x161814affffffe * 2 ^ 1028) from
      val_pd (x := 0x40561814affffffe#64) (by decide +kernel) (by decide +kernel)]
    show (0 : Int) < _; decide +kernel
  · rw [flt_iff 11 52 (by decide), hx]
    rw [show floatValue 11 52 (pd F).expLo = .fin (-(0x161814affffffe * 2 ^ 1028)) from
      val_pd (x := 0xc0561814affffffe#64) (by decide +kernel) (by decide +kernel)]
    show _ < (0 : Int); decide +kernel
  · rw [unit_pd]; exact val_pd (x := 0x3ff0000000000000#64) (by decide +kernel) (by decide +kernel)
  · exact val_pd (x := 0x3fe0000000000000#64) (by decide +kernel) (by decide +kernel)
  · rw [unit_pd]; decide +kernel
  · exact fin_pd 0x3ff71547652b82fe#64 (by decide +kernel)
  · exact fin_pd 0x3fe6300000000000#64 (by decide +kernel)
  · exact fin_pd 0xbf2bd0105c4242ea#64 (by decide +kernel)
  · exact all_pd [0x3f2a0d2ce64969e6#64, 0x3f56e879c3f007dd#64, 0x3f811120fb3cb51d#64, 0x3fa555381d73fd31#64, 0x3fc555553b661d99#64,
      0x3fe000000672a44f#64] (by decide +kernel)
  · rw [show (pd F).bias <<< 52 = 0x7fe0000000000000#64 by show 0x7fe#64 <<< 52 = _; decide]
    exact val_pd (x := 0x7fe0000000000000#64) (by decide +kernel) (by decide +kernel)

/-- **C62**: in the vector part, sin of a zero is a zero and cos of a zero is 1, for float and double. -/
theorem C62_sin_cos_zero (F : FloatUnit) (cv : Cvt) :
    (IeeeArith F 8 23 32 → IeeeCvt cv → ∀ x : BitVec 32, floatValue 8 23 x = .fin 0 →
      floatValue 8 23 (vecFn F (ps cv.tt cv.epi) .sin x) = .fin 0 ∧ floatValue 8 23 (vecFn F (ps cv.tt cv.epi) .cos x) = .fin (floatUnit 8 23)) ∧
    (IeeeArith F 11 52 64 → ∀ x : BitVec 64, floatValue 11 52 x = .fin 0 →
      floatValue 11 52 (vecFn F (pd F) .sin x) = .fin 0 ∧ floatValue 11 52 (vecFn F (pd F) .cos x) = .fin (floatUnit 11 52)) := by
  constructor
  · intro hF hcv x hx
    refine sincos_zero Fmt.f32 (by decide) hF (ps cv.tt cv.epi) (signMask_ps _ _) (good_ps _ _) ?_ ⟨?_, ?_, ?_, ?_⟩ (toInt_ps hcv) ?_ x hx
    · rw [unit_ps]; exact val_ps (x := 0x3f800000#32) (by decide +kernel) (by decide +kernel)
    · exact fin_ps 0xbf490000#32 (by decide +kernel)
    · exact fin_ps 0xb97da000#32 (by decide +kernel)
    · exact fin_ps 0xb3222169#32 (by decide +kernel)
    · exact fin_ps 0x3fa2f983#32 (by decide +kernel)
    · have := hcv.epi 0 (by decide)
      exact this.trans (by simp)
  · intro hF x hx
    refine sincos_zero Fmt.f64 (by decide) hF (pd F) (signMask_pd _) (good_pd _) ?_ ⟨?_, ?_, ?_, ?_⟩ (toInt_pd hF) ?_ x hx
    · rw [unit_pd]; exact val_pd (x := 0x3ff0000000000000#64) (by decide +kernel) (by decide +kernel)
    · exact fin_pd 0xbfe9200000000000#64 (by decide +kernel)
    · exact fin_pd 0xbf2fb40000000000#64 (by decide +kernel)
    · exact fin_pd 0xbe64442d18469899#64 (by decide +kernel)
    · exact fin_pd 0x3ff45f306dc9c877#64 (by decide +kernel)
    · show floatValue 11 52 (F.sub 64 (0 + magic) magic) = .fin 0
      rw [show (0 : BitVec 64) + magic = magic by simp]
      exact sub_exact hF magic_value magic_value (value_zeroPattern Fmt.f64) (by omega)

/-- The power of two with exponent field `j` (2^(j - bias)); infinity for the largest `j`. -/
def pow2Pattern (M k j : Nat) : BitVec k := BitVec.ofNat k (j * 2 ^ M)

theorem pow2_facts_ps : ∀ j : Fin 256, 1 ≤ j.val → fle 8 23 (pow2Pattern 23 32 j) 0 = false ∧
    maxI 8 23 (pow2Pattern 23 32 j) 0x00800000#32 = pow2Pattern 23 32 j ∧ (pow2Pattern 23 32 j &&& 0x807fffff#32) ||| 0x3f000000#32 = 0x3f000000#32 ∧
    (pow2Pattern 23 32 j >>> 23 - 0x7f#32).toInt = (j.val : Int) - 127 := by decide +kernel

theorem pow2_facts_pd : ∀ j : Fin 2048, 1 ≤ j.val → fle 11 52 (pow2Pattern 52 64 j) 0 = false ∧
    maxI 11 52 (pow2Pattern 52 64 j) 0x0010000000000000#64 = pow2Pattern 52 64 j ∧
    (pow2Pattern 52 64 j &&& 0x800fffffffffffff#64) ||| 0x3fe0000000000000#64 = 0x3fe0000000000000#64 ∧
    floatValue 11 52 (pow2Pattern 52 64 j >>> 52 - 0x7fe#64 + magic) = .fin (2 ^ 1074 * (3 * 2 ^ 51 + ((j.val : Int) - 2046))) := by decide +kernel

/-- The two halves of ln 2 used, times integers. -/
theorem ln2_bounds (U g q1 n lo hi : Int) (hg : 0 < g) (hU : U = 512 * g) (hq : q1 ≤ 0) (hq' : -U ≤ 2048 * q1) (h1 : -2048 ≤ n) (h2 : n ≤ 2048)
    (hlo : lo = if n ≤ 0 then 0 else -1) (hhi : hi = if n ≤ 0 then 1 else 0) :
    U * lo ≤ n * q1 ∧ n * q1 ≤ U * hi ∧ U * (n * 355 / 512) ≤ n * (355 * g) ∧ n * (355 * g) ≤ U * (n * 355 / 512 + 1) := by
  have e : n * (355 * g) = (n * 355) * g := by rw [Int.mul_assoc]
  have d1 := Int.mul_ediv_add_emod (n * 355) 512
  have d2 := Int.emod_lt_of_pos (n * 355) (show (0 : Int) < 512 by decide)
  have d3 := Int.emod_nonneg (n * 355) (show (512 : Int) ≠ 0 by decide)
  have u1 : U * (n * 355 / 512) = (512 * (n * 355 / 512)) * g := by rw [hU]; ring
  have u2 : U * (n * 355 / 512 + 1) = (512 * (n * 355 / 512) + 512) * g := by rw [hU]; ring
  refine ⟨?_, ?_, ?_, ?_⟩
  · split at hlo
    · rw [hlo, Int.mul_zero]
      have : 0 ≤ (-n) * (-q1) := Int.mul_nonneg (by omega) (by omega)
      rw [Int.neg_mul_neg] at this; exact this
    · rw [hlo]
      have : n * (-q1) ≤ 2048 * (-q1) := Int.mul_le_mul_of_nonneg_right h2 (by omega)
      rw [Int.mul_neg, Int.mul_neg] at this
      omega
  · split at hhi
    · rw [hhi]
      have : (-n) * (-q1) ≤ 2048 * (-q1) := Int.mul_le_mul_of_nonneg_right (by omega) (by omega)
      rw [Int.neg_mul_neg, Int.mul_neg] at this
      omega
    · rw [hhi, Int.mul_zero]
      have : 0 ≤ n * (-q1) := Int.mul_nonneg (by omega) (by omega)
      rw [Int.mul_neg] at this; omega
  · rw [e, u1]; exact Int.mul_le_mul_of_nonneg_right (by omega) (by omega)
  · rw [e, u2]; exact Int.mul_le_mul_of_nonneg_right (by omega) (by omega)

/-- **C62** for float32 powers of two (and, for `j = 255`, plus infinity): the vector log of 2^n lies within one below and two above
n * 355/512, the leading part of n * ln 2. -/
theorem C62_log_pow2_float_partial (F : FloatUnit) (hF : IeeeArith F 8 23 32) (cv : Cvt) (hcv : IeeeCvt cv) (j : Nat) (h1 : 1 ≤ j) (h2 : j ≤ 255)
    (n : Int) (hn : n = j - 127) :
    ∃ r, floatValue 8 23 (vecFn F (ps cv.tt cv.epi) .log (pow2Pattern 23 32 j)) = .fin r ∧
      floatUnit 8 23 * (n * 355 / 512 - 1) ≤ r ∧ r ≤ floatUnit 8 23 * (n * 355 / 512 + 2) := by
  obtain ⟨f1, f2, f3, f4⟩ := pow2_facts_ps ⟨j, by omega⟩ h1
  simp only at f1 f2 f3 f4
  obtain ⟨b1, b2, b3, b4⟩ := ln2_bounds (2 ^ 149) (2 ^ 140) (-(0xde8083 * 2 ^ 113)) n _ _ (by decide) (by decide) (by decide) (by decide)
    (by omega) (by omega) rfl rfl
  have hu := unit_ps
  obtain ⟨r, e, l, u⟩ := log_pow2 Fmt.f32 hF (ps cv.tt cv.epi) rfl rfl (pow2Pattern 23 32 j) n (2 ^ 148) (-(0xde8083 * 2 ^ 113)) (355 * 2 ^ 140)
    (if n ≤ 0 then 0 else -1) (if n ≤ 0 then 1 else 0) (n * 355 / 512) (n * 355 / 512 + 1)
    f1 f2 f3
    (by
      show floatValue 8 23 (cv.epi (pow2Pattern 23 32 j >>> 23 - 0x7f#32)) = _
      rw [hcv.epi _ (by rw [f4]; omega), f4, hn])
    (by omega)
    (by rw [hu]; exact val_ps (x := 0x3f800000#32) (by decide +kernel) (by decide +kernel))
    (val_ps (x := 0x3f000000#32) (by decide +kernel) (by decide +kernel)) (by rw [hu]; decide)
    (by show flt 8 23 0x3f000000#32 0x3f3504f3#32 = true; decide +kernel)
    (all_ps [0x3d9021bb#32, 0xbdebd1b8#32, 0x3def251a#32, 0xbdfe5d4f#32, 0x3e11e9bf#32, 0xbe2aae50#32, 0x3e4cceac#32, 0xbe7ffffc#32, 0x3eaaaaaa#32]
      (by decide +kernel))
    (val_ps (x := 0xb95e8083#32) (by decide +kernel) (by decide +kernel))
    (val_ps (x := 0x3f318000#32) (by decide +kernel) (by decide +kernel))
    (by rw [hu]; exact b1) (by rw [hu]; exact b2) (by rw [hu]; exact b3) (by rw [hu]; exact b4)
    (by constructor <;> split <;> omega)
  have hup := unit_pos 8 23
  refine ⟨r, e, Int.le_trans (Int.mul_le_mul_of_nonneg_left ?_ (Int.le_of_lt hup)) l,
    Int.le_trans u (Int.mul_le_mul_of_nonneg_left ?_ (Int.le_of_lt hup))⟩
  · split <;> omega
  · split <;> omega

/-- **C62, violated** for float64 powers of two 2^(j-1023) (and, for `j = 2047`, plus infinity): the vector log is that of 2^(j-2046), about 709 too small. -/
theorem C62_log_pow2_double_violated (F : FloatUnit) (hF : IeeeArith F 11 52 64) (j : Nat) (h1 : 1 ≤ j) (h2 : j ≤ 2047)
    (n : Int) (hn : n = j - 2046) :
    ∃ r, floatValue 11 52 (vecFn F (pd F) .log (pow2Pattern 52 64 j)) = .fin r ∧
      floatUnit 11 52 * (n * 355 / 512 - 1) ≤ r ∧ r ≤ floatUnit 11 52 * (n * 355 / 512 + 2) := by
  obtain ⟨f1, f2, f3, f4⟩ := pow2_facts_pd ⟨j, by omega⟩ h1
  simp only at f1 f2 f3 f4
  obtain ⟨b1, b2, b3, b4⟩ := ln2_bounds (2 ^ 1074) (2 ^ 1065) (-(0x1bd0105c4242ea * 2 ^ 1009)) n _ _ (by decide +kernel) (by decide +kernel)
    (by decide +kernel) (by decide +kernel) (by omega) (by omega) rfl rfl
  have hu := unit_pd
  obtain ⟨s, es⟩ := integer_is_float Fmt.f64 n (by omega)
  obtain ⟨r, e, l, u⟩ := log_pow2 Fmt.f64 hF (pd F) rfl rfl (pow2Pattern 52 64 j) n (2 ^ 1073) (-(0x1bd0105c4242ea * 2 ^ 1009)) (355 * 2 ^ 1065)
    (if n ≤ 0 then 0 else -1) (if n ≤ 0 then 1 else 0) (n * 355 / 512) (n * 355 / 512 + 1)
    f1 f2 f3
    (by
      show floatValue 11 52 (F.sub 64 (pow2Pattern 52 64 j >>> 52 - 0x7fe#64 + magic) magic) = _
      rw [← hn] at f4
      refine sub_exact hF f4 magic_value es ?_
      rw [hu, ← Int.mul_sub]; congr 1; omega)
    (by omega)
    (by rw [hu]; exact val_pd (x := 0x3ff0000000000000#64) (by decide +kernel) (by decide +kernel))
    (val_pd (x := 0x3fe0000000000000#64) (by decide +kernel) (by decide +kernel)) (by rw [hu]; decide +kernel)
    (by show flt 11 52 0x3fe0000000000000#64 0x3fe6a09e667f3bcd#64 = true; decide +kernel)
    (all_pd [0x3fb204376245245a#64, 0xbfbd7a370b138b4b#64, 0x3fbde4a34d098e98#64, 0xbfbfcba9db73ed2c#64, 0x3fc23d37d4cd3339#64,
      0xbfc555ca04cb8abb#64, 0x3fc999d58f0fbe3e#64, 0xbfcfffff7f002b13#64, 0x3fd555553e25cd96#64] (by decide +kernel))
    (val_pd (x := 0xbf2bd0105c4242ea#64) (by decide +kernel) (by decide +kernel))
    (val_pd (x := 0x3fe6300000000000#64) (by decide +kernel) (by decide +kernel))
    (by rw [hu]; exact b1) (by rw [hu]; exact b2) (by rw [hu]; exact b3) (by rw [hu]; exact b4)
    (by constructor <;> split <;> omega)
  have hup := unit_pos 11 52
  refine ⟨r, e, Int.le_trans (Int.mul_le_mul_of_nonneg_left ?_ (Int.le_of_lt hup)) l,
    Int.le_trans u (Int.mul_le_mul_of_nonneg_left ?_ (Int.le_of_lt hup))⟩
  · split <;> omega
  · split <;> omega

/-- **C62, violated**: so the vector log of the double 1.0 is below -700, and of plus infinity is at most 2. -/
theorem C62_log_one_violated (F : FloatUnit) (hF : IeeeArith F 11 52 64) :
    (∃ r, floatValue 11 52 (vecFn F (pd F) .log 0x3ff0000000000000#64) = .fin r ∧ r ≤ floatUnit 11 52 * (-700)) ∧
    (∃ r, floatValue 11 52 (vecFn F (pd F) .log 0x7ff0000000000000#64) = .fin r ∧ r ≤ floatUnit 11 52 * 2) := by
  have hup := unit_pos 11 52
  obtain ⟨r, e, _, u⟩ := C62_log_pow2_double_violated F hF 1023 (by decide) (by decide) (-1023) (by decide)
  obtain ⟨r', e', _, u'⟩ := C62_log_pow2_double_violated F hF 2047 (by decide) (by decide) 1 (by decide)
  exact ⟨⟨r, e, Int.le_trans u (Int.mul_le_mul_of_nonneg_left (by decide) (Int.le_of_lt hup))⟩,
    ⟨r', e', Int.le_trans u' (Int.mul_le_mul_of_nonneg_left (by decide) (Int.le_of_lt hup))⟩⟩

/-- Machines and conversions as assumed above exist. -/
theorem ieeeCvt_exists : ∃ cv : Cvt, IeeeCvt cv := by
  classical
  refine ⟨⟨fun x => match floatValue 8 23 x with | .fin v => BitVec.ofInt 32 (v.tdiv (floatUnit 8 23)) | _ => 0,
    fun j => Classical.epsilon (h := ⟨j⟩) (fun s : BitVec 32 => floatValue 8 23 s = .fin (floatUnit 8 23 * j.toInt))⟩, ?_, ?_⟩
  · intro x v hx _
    show (match floatValue 8 23 x with | .fin v => BitVec.ofInt 32 (v.tdiv (floatUnit 8 23)) | _ => 0) = _
    rw [hx]
  · intro j hj
    exact Classical.epsilon_spec_aux ⟨j⟩ (fun s : BitVec 32 => floatValue 8 23 s = .fin (floatUnit 8 23 * j.toInt))
      (integer_is_float Fmt.f32 j.toInt hj)

/-- **C62, violated**, for calls: `np.exp` of a contiguous float64 array puts 2^1023 wherever a zero stands in a whole vector of four elements,
under every setting and schedule. -/
theorem C62_exp_call_violated (F : FloatUnit) (hF : IeeeArith F 11 52 64) (L : Libm) (w : World) (p po : Int) (n : Nat) (m : Int → BitVec 64)
    (hsafe : SafeOverlap n p 8 p 8 po 8) (evs : List (Nat × MAcc)) (hex : TrigExec 8 p 8 po 8 n w evs) :
    ∃ m', runMemM (TrigFunc.f ⟨64, vecFn F (pd F) .exp, L.fn .exp 64⟩) m evs = some m' ∧
      ∀ i : Nat, i < n - n % 4 → floatValue 11 52 (m (p + 8 * i)) = .fin 0 → floatValue 11 52 (m' (po + 8 * i)) = .fin (floatUnit 11 52 * 2 ^ 1023) := by
  obtain ⟨m', r1, r2, _⟩ := C59_call_result 8 (Or.inr rfl) (TrigFunc.f ⟨64, vecFn F (pd F) .exp, L.fn .exp 64⟩) w p 8 po 8 (by decide) n m hsafe evs hex
  refine ⟨m', r1, fun i hi hz => ?_⟩
  rw [r2 i (by omega)]
  simp only
  rw [decide_eq_true (show VectorPosition 8 8 8 n i from ⟨rfl, rfl, hi⟩)]
  exact C62_exp_zero_double_violated F hF _ hz

/-- Non-vacuity of C62: IEEE-754 machines exist, and a call on 8 doubles has whole vectors. -/
example : (∃ F : FloatUnit, IeeeArith F 11 52 64) ∧ (∃ F : FloatUnit, IeeeArith F 8 23 32) ∧ SafeOverlap 8 0 8 0 8 0 8 ∧ 7 < 8 - 8 % 4 :=
  ⟨(ieeeArith_exists Fmt.f64).imp fun _ h => h.1, (ieeeArith_exists Fmt.f32).imp fun _ h => h.1, fun i j hi hj hne => by omega, by decide⟩

end Pnumpy.Props
