import Verif.Proofs.LogPoly
import Verif.Props.ExpAcc
/-
Rounding errors of log256_ps. (The error bounds are generated: each is the bound of the rounding lemma, rounded up.)
-/
namespace Pnumpy.Props
open Spec Ieee Trig LogPoly

/-- The inner polynomial of log256 over the reals. -/
noncomputable def logQ (r : ℝ) : ℝ := (((((((7.0376836292E-2 * r + -1.1514610310E-1) * r + 1.1676998740E-1) * r + -1.2420140846E-1) * r + 1.4249322787E-1) * r + -1.6668057665E-1) * r + 2.0000714765E-1) * r + -2.4999993993E-1) * r + 3.3333331174E-1

theorem logP_eq (r : ℝ) : logP r = r + (logQ r * r * (r * r) - r * r * (1/2)) := by unfold logP logQ; ring

theorem log_c0 : Closeb 8 23 0x3d9021bb#32 (7.0376836292E-2) (70377/16777216000000) (70377/1000000) := ⟨close_ps (x := 0x3d9021bb#32) (9445819) 122 27 (by decide +kernel) (by decide +kernel) rfl (by norm_num [abs_le]), by norm_num [abs_le]⟩
theorem log_c1 : Closeb 8 23 0xbdebd1b8#32 (-1.1514610310E-1) (2303/335544320000) (2303/20000) := ⟨close_ps (x := 0xbdebd1b8#32) (-1931831) 125 24 (by decide +kernel) (by decide +kernel) rfl (by norm_num [abs_le]), by norm_num [abs_le]⟩
theorem log_c2 : Closeb 8 23 0x3def251a#32 (1.1676998740E-1) (11677/1677721600000) (11677/100000) := ⟨close_ps (x := 0x3def251a#32) (7836301) 123 26 (by decide +kernel) (by decide +kernel) rfl (by norm_num [abs_le]), by norm_num [abs_le]⟩
theorem log_c3 : Closeb 8 23 0xbdfe5d4f#32 (-1.2420140846E-1) (12421/1677721600000) (12421/100000) := ⟨close_ps (x := 0xbdfe5d4f#32) (-16670031) 122 27 (by decide +kernel) (by decide +kernel) rfl (by norm_num [abs_le]), by norm_num [abs_le]⟩
theorem log_c4 : Closeb 8 23 0x3e11e9bf#32 (1.4249322787E-1) (57/6710886400) (57/400) := ⟨close_ps (x := 0x3e11e9bf#32) (9562559) 123 26 (by decide +kernel) (by decide +kernel) rfl (by norm_num [abs_le]), by norm_num [abs_le]⟩
theorem log_c5 : Closeb 8 23 0xbe2aae50#32 (-1.6668057665E-1) (16669/1677721600000) (16669/100000) := ⟨close_ps (x := 0xbe2aae50#32) (-699109) 127 22 (by decide +kernel) (by decide +kernel) rfl (by norm_num [abs_le]), by norm_num [abs_le]⟩
theorem log_c6 : Closeb 8 23 0x3e4cceac#32 (2.0000714765E-1) (20001/1677721600000) (20001/100000) := ⟨close_ps (x := 0x3e4cceac#32) (3355563) 125 24 (by decide +kernel) (by decide +kernel) rfl (by norm_num [abs_le]), by norm_num [abs_le]⟩
theorem log_c7 : Closeb 8 23 0xbe7ffffc#32 (-2.4999993993E-1) (1/67108864) (1/4) := ⟨close_ps (x := 0xbe7ffffc#32) (-4194303) 125 24 (by decide +kernel) (by decide +kernel) rfl (by norm_num [abs_le]), by norm_num [abs_le]⟩
theorem log_c8 : Closeb 8 23 0x3eaaaaaa#32 (3.3333331174E-1) (16667/838860800000) (16667/50000) := ⟨close_ps (x := 0x3eaaaaaa#32) (5592405) 125 24 (by decide +kernel) (by decide +kernel) rfl (by norm_num [abs_le]), by norm_num [abs_le]⟩

theorem logQ_chain {F : FloatUnit} (hF : IeeeArith F 8 23 32) {x : BitVec 32} {r : ℝ} (hx : Close 8 23 x r 0) (hr : |r| ≤ (20711/50000)) :
    Closeb 8 23 (F.add 32 (F.mul 32 (F.add 32 (F.mul 32 (F.add 32 (F.mul 32 (F.add 32 (F.mul 32 (F.add 32 (F.mul 32 (F.add 32 (F.mul 32 (F.add 32 (F.mul 32 (F.add 32 (F.mul 32 0x3d9021bb#32 x) 0xbdebd1b8#32) x) 0x3def251a#32) x) 0xbdfe5d4f#32) x) 0x3e11e9bf#32) x) 0xbe2aae50#32) x) 0x3e4cceac#32) x) 0xbe7ffffc#32) x) 0x3eaaaaaa#32) (logQ r) (4337/50000000000) (489661/1000000) := by
  replace hx : Closeb 8 23 x r 0 (20711/50000) := ⟨hx, hr⟩
  have t1 := Closeb.mul (W := (72879/2500000)) (τ := (869/250000000000)) Fmt.f32 hF (p := 24) (by decide) log_c0 hx (by norm_num) (by norm_num) (by norm_num)
  have t2 := Closeb.add (W := (72151/500000)) (τ := (379/20000000000)) Fmt.f32 hF (p := 24) (by decide) t1 log_c1 (by norm_num) (by norm_num) (by norm_num)
  have t3 := Closeb.mul (W := (18679/312500)) (τ := (571/50000000000)) Fmt.f32 hF (p := 24) (by decide) t2 hx (by norm_num) (by norm_num) (by norm_num)
  have t4 := Closeb.add (W := (176543/1000000)) (τ := (2891/100000000000)) Fmt.f32 hF (p := 24) (by decide) t3 log_c2 (by norm_num) (by norm_num) (by norm_num)
  have t5 := Closeb.mul (W := (731277/10000000)) (τ := (817/50000000000)) Fmt.f32 hF (p := 24) (by decide) t4 hx (by norm_num) (by norm_num) (by norm_num)
  have t6 := Closeb.add (W := (98669/500000)) (τ := (3551/100000000000)) Fmt.f32 hF (p := 24) (by decide) t5 log_c3 (by norm_num) (by norm_num) (by norm_num)
  have t7 := Closeb.mul (W := (408707/5000000)) (τ := (1959/100000000000)) Fmt.f32 hF (p := 24) (by decide) t6 hx (by norm_num) (by norm_num) (by norm_num)
  have t8 := Closeb.add (W := (112121/500000)) (τ := (829/20000000000)) Fmt.f32 hF (p := 24) (by decide) t7 log_c4 (by norm_num) (by norm_num) (by norm_num)
  have t9 := Closeb.mul (W := (116107/1250000)) (τ := (2271/100000000000)) Fmt.f32 hF (p := 24) (by decide) t8 hx (by norm_num) (by norm_num) (by norm_num)
  have t10 := Closeb.add (W := (32447/125000)) (τ := (1203/25000000000)) Fmt.f32 hF (p := 24) (by decide) t9 log_c5 (by norm_num) (by norm_num) (by norm_num)
  have t11 := Closeb.mul (W := (53761/500000)) (τ := (527/20000000000)) Fmt.f32 hF (p := 24) (by decide) t10 hx (by norm_num) (by norm_num) (by norm_num)
  have t12 := Closeb.add (W := (76883/250000)) (τ := (5661/100000000000)) Fmt.f32 hF (p := 24) (by decide) t11 log_c6 (by norm_num) (by norm_num) (by norm_num)
  have t13 := Closeb.mul (W := (63693/500000)) (τ := (621/20000000000)) Fmt.f32 hF (p := 24) (by decide) t12 hx (by norm_num) (by norm_num) (by norm_num)
  have t14 := Closeb.add (W := (188693/500000)) (τ := (1369/20000000000)) Fmt.f32 hF (p := 24) (by decide) t13 log_c7 (by norm_num) (by norm_num) (by norm_num)
  have t15 := Closeb.mul (W := (156321/1000000)) (τ := (471/12500000000)) Fmt.f32 hF (p := 24) (by decide) t14 hx (by norm_num) (by norm_num) (by norm_num)
  have t16 := Closeb.add (W := (489661/1000000)) (τ := (4337/50000000000)) Fmt.f32 hF (p := 24) (by decide) t15 log_c8 (by norm_num) (by norm_num) (by norm_num)
  have e : logQ r = (((((((((((((((((7.0376836292E-2) * r) + (-1.1514610310E-1)) * r) + (1.1676998740E-1)) * r) + (-1.2420140846E-1)) * r) + (1.4249322787E-1)) * r) + (-1.6668057665E-1)) * r) + (2.0000714765E-1)) * r) + (-2.4999993993E-1)) * r) + (3.3333331174E-1)) := by unfold logQ; ring
  rw [e]; exact t16

/-- The sum without the multiple of the high part of log 2. -/
theorem log_chain {F : FloatUnit} (hF : IeeeArith F 8 23 32) {x p e : BitVec 32} {r : ℝ} {n : Int} (hx : Close 8 23 x r 0) (hr : |r| ≤ (20711/50000))
    (hP : Closeb 8 23 p (logQ r) (4337/50000000000) (489661/1000000)) (he : Closeb 8 23 e n 0 128) :
    Close 8 23 (F.add 32 x (F.sub 32 (F.add 32 (F.mul 32 (F.mul 32 p x) (F.mul 32 x x)) (F.mul 32 e 0xb95e8083#32)) (F.mul 32 (F.mul 32 x x) 0x3f000000#32)))
      (logP r + n * (Real.log 2 - 355/512)) (2141/25000000000) := by
  replace hx : Closeb 8 23 x r 0 (20711/50000) := ⟨hx, hr⟩
  have z := Closeb.mul (W := (171579/1000000)) (τ := (1023/100000000000)) Fmt.f32 hF (p := 24) (by decide) hx hx (by norm_num) (by norm_num) (by norm_num)
  have t1 := Closeb.mul (W := (50707/250000)) (τ := (2401/50000000000)) Fmt.f32 hF (p := 24) (by decide) hP hx (by norm_num) (by norm_num) (by norm_num)
  have t2 := Closeb.mul (W := (348011/10000000)) (τ := (1239/100000000000)) Fmt.f32 hF (p := 24) (by decide) t1 z (by norm_num) (by norm_num) (by norm_num)
  have eq := Closeb.mul (W := (426/15625)) (τ := (1699/100000000000)) Fmt.f32 hF (p := 24) (by decide) he c2_ps (by norm_num) (by norm_num) (by norm_num)
  have t3 := Closeb.add (W := (620651/10000000)) (τ := (827/25000000000)) Fmt.f32 hF (p := 24) (by decide) t2 eq (by norm_num) (by norm_num) (by norm_num)
  have h := Closeb.mul (W := (171579/2000000)) (τ := (1023/100000000000)) Fmt.f32 hF (p := 24) (by decide) z half32 (by norm_num) (by norm_num) (by norm_num)
  have t4 := Closeb.sub (W := (29571/200000)) (τ := (5213/100000000000)) Fmt.f32 hF (p := 24) (by decide) t3 h (by norm_num) (by norm_num) (by norm_num)
  have t5 := Closeb.add (W := (22483/40000)) (τ := (2141/25000000000)) Fmt.f32 hF (p := 24) (by decide) hx t4 (by norm_num) (by norm_num) (by norm_num)
  have e : logP r + n * (Real.log 2 - 355/512) = (r + ((((logQ r * r) * (r * r)) + ((n:ℝ) * (Real.log 2 - 355/512))) - ((r * r) * (1/2)))) := by rw [logP_eq]; ring
  rw [e]; exact t5.1

/-! ### Relative errors -/

/-- A float close to a real number, error and size measured in units of `s`. -/
def Closes (x : BitVec 32) (a ε S s : ℝ) : Prop := Close 8 23 x a (ε * s) ∧ |a| ≤ S * s

/-- A unit that is neither large nor very small. -/
structure Scale (s : ℝ) : Prop where
  pos : 0 < s
  le : s ≤ 1
  tiny : 1 / (floatUnit 8 23 : ℝ) ≤ 1 / 10 ^ 20 * s

theorem Closes.rescale {x : BitVec 32} {a ε S s s' c W τ : ℝ} (h : Closes x a ε S s) (hs : s ≤ c * s') (hp : 0 < s') (hW : S * c ≤ W) (hτ : ε * c ≤ τ) (hS : 0 ≤ S) (hε : 0 ≤ ε) :
    Closes x a τ W s' := by
  constructor
  · refine Close.weaken h.1 ?_
    have h1 := mul_le_mul_of_nonneg_left hs hε
    have h2 := mul_le_mul_of_nonneg_right hτ hp.le
    linarith
  · refine le_trans h.2 ?_
    have h1 := mul_le_mul_of_nonneg_left hs hS
    have h2 := mul_le_mul_of_nonneg_right hW hp.le
    linarith

section
variable {F : FloatUnit} (hF : IeeeArith F 8 23 32)
include hF

theorem Closes.add {x y : BitVec 32} {a b ε δ S T W τ s : ℝ} (hx : Closes x a ε S s) (hy : Closes y b δ T s) (hs : Scale s) (hW : S + T ≤ W)
    (h1 : W + ε + δ ≤ 2 ^ 100) (h2 : ε + δ + (W + ε + δ) / 2 ^ 24 + 1 / 10 ^ 20 ≤ τ) : Closes (F.add 32 x y) (a + b) τ W s := by
  have hs0 := hs.pos
  have hWs := mul_le_mul_of_nonneg_right hW hs0.le
  have hab : |a + b| ≤ W * s := le_trans (abs_add_le a b) (by linarith [hx.2, hy.2])
  refine ⟨Close.weaken (Close.add Fmt.f32 hF hx.1 hy.1 (B := (W + ε + δ) * s) (by linarith) ?_) ?_, hab⟩
  · have := mul_le_mul h1 hs.le hs0.le (by norm_num); linarith
  · have := mul_le_mul_of_nonneg_right h2 hs0.le
    have := hs.tiny
    have e : (W + ε + δ) * s / 2 ^ (23 + 1) = (W + ε + δ) / 2 ^ 24 * s := by ring
    rw [e]
    linarith

theorem Closes.sub {x y : BitVec 32} {a b ε δ S T W τ s : ℝ} (hx : Closes x a ε S s) (hy : Closes y b δ T s) (hs : Scale s) (hW : S + T ≤ W)
    (h1 : W + ε + δ ≤ 2 ^ 100) (h2 : ε + δ + (W + ε + δ) / 2 ^ 24 + 1 / 10 ^ 20 ≤ τ) : Closes (F.sub 32 x y) (a - b) τ W s := by
  have hs0 := hs.pos
  have hWs := mul_le_mul_of_nonneg_right hW hs0.le
  have hab : |a - b| ≤ W * s := le_trans (abs_sub a b) (by linarith [hx.2, hy.2])
  refine ⟨Close.weaken (Close.sub Fmt.f32 hF hx.1 hy.1 (B := (W + ε + δ) * s) (by linarith) ?_) ?_, hab⟩
  · have := mul_le_mul h1 hs.le hs0.le (by norm_num); linarith
  · have := mul_le_mul_of_nonneg_right h2 hs0.le
    have := hs.tiny
    have e : (W + ε + δ) * s / 2 ^ (23 + 1) = (W + ε + δ) / 2 ^ 24 * s := by ring
    rw [e]
    linarith

theorem Closes.mul {x y : BitVec 32} {a b ε δ S T W τ s t : ℝ} (hx : Closes x a ε S s) (hy : Closes y b δ T t) (hs : 0 < s) (ht : 0 < t) (hs1 : s ≤ 1) (ht1 : t ≤ 1)
    (hst : 1 / (floatUnit 8 23 : ℝ) ≤ 1 / 10 ^ 20 * (s * t)) (hW : S * T ≤ W)
    (h1 : (S + ε) * (T + δ) ≤ 2 ^ 100) (h2 : ε * (T + δ) + (S + ε) * δ + (S + ε) * (T + δ) / 2 ^ 24 + 1 / 10 ^ 20 ≤ τ) :
    Closes (F.mul 32 x y) (a * b) τ W (s * t) := by
  have hst0 := mul_pos hs ht
  have hSs : 0 ≤ S * s := le_trans (abs_nonneg _) hx.2
  have hab : |a * b| ≤ W * (s * t) := by
    rw [abs_mul]
    refine le_trans (mul_le_mul hx.2 hy.2 (abs_nonneg _) hSs) ?_
    have := mul_le_mul_of_nonneg_right hW hst0.le
    linarith
  refine ⟨Close.weaken (Close.mul Fmt.f32 hF hx.1 hy.1 (A := (S + ε) * s) (B := (T + δ) * t) (by linarith [hx.2]) (by linarith [hy.2]) ?_) ?_, hab⟩
  · have h3 : s * t ≤ 1 := by have := mul_le_mul hs1 ht1 ht.le (by norm_num); linarith
    have := mul_le_mul h1 h3 hst0.le (by norm_num)
    linarith
  · have := mul_le_mul_of_nonneg_right h2 hst0.le
    have e : (S + ε) * s * ((T + δ) * t) / 2 ^ (23 + 1) = (S + ε) * (T + δ) / 2 ^ 24 * (s * t) := by ring
    rw [e]
    linarith

end

theorem scale_of {s : ℝ} (h0 : 1 / 2 ^ 72 ≤ s) (h1 : s ≤ 1) : Scale s := by
  refine ⟨lt_of_lt_of_le (by positivity) h0, h1, ?_⟩
  have e : (floatUnit 8 23 : ℝ) = 2 ^ 149 := by norm_num [unit_ps]
  rw [e]
  norm_num at *
  linarith

/-- Arguments near 1: the error is proportional to `r`. -/
theorem log_chain_near {F : FloatUnit} (hF : IeeeArith F 8 23 32) {x p w1 w2 : BitVec 32} {r : ℝ} (hx : Close 8 23 x r 0) (hr : |r| ≤ (20711/50000)) (hr0 : 1 / 2 ^ 24 ≤ |r|)
    (hP : Closeb 8 23 p (logQ r) (4337/50000000000) (489661/1000000)) (hw1 : Close 8 23 w1 0 0) (hw2 : Close 8 23 w2 0 0) :
    Close 8 23 (F.add 32 (F.add 32 x (F.sub 32 (F.add 32 (F.mul 32 (F.mul 32 p x) (F.mul 32 x x)) w1) (F.mul 32 (F.mul 32 x x) 0x3f000000#32))) w2)
      (logP r) ((231/1000000000) * |r|) := by
  obtain ⟨ρ, hρ⟩ : ∃ ρ, ρ = |r| := ⟨_, rfl⟩
  have ρ0 : (1 : ℝ) / 2 ^ 24 ≤ ρ := by rw [hρ]; exact hr0
  have ρ1 : ρ ≤ (20711/50000) := by rw [hρ]; exact hr
  have ρp : 0 < ρ := lt_of_lt_of_le (by positivity) ρ0
  have q2 : (1 : ℝ) / 2 ^ 48 ≤ ρ * ρ := by have := mul_le_mul ρ0 ρ0 (by positivity) ρp.le; norm_num at *; linarith
  have q3 : (1 : ℝ) / 2 ^ 72 ≤ ρ * (ρ * ρ) := by have := mul_le_mul ρ0 q2 (by positivity) ρp.le; norm_num at *; linarith
  have le21 : ρ * ρ ≤ (20711/50000) * ρ := mul_le_mul_of_nonneg_right ρ1 ρp.le
  have le32 : (1 * ρ) * (ρ * ρ) ≤ (20711/50000) * (ρ * ρ) := by rw [one_mul]; exact mul_le_mul_of_nonneg_right ρ1 (by positivity)
  have sc0 : Scale 1 := scale_of (by norm_num) le_rfl
  have sc1 : Scale ρ := scale_of (le_trans (by norm_num) ρ0) (by norm_num at *; linarith)
  have sc1b : Scale (1 * ρ) := by rw [one_mul]; exact sc1
  have sc2 : Scale (ρ * ρ) := scale_of (le_trans (by norm_num) q2) (by norm_num at *; linarith)
  have sc2b : Scale (ρ * ρ * 1) := by rw [mul_one]; exact sc2
  have sc3 : Scale (1 * ρ * (ρ * ρ)) := scale_of (by rw [one_mul]; exact q3) (by norm_num at *; linarith)
  have hxs : Closes x r 0 1 ρ := ⟨by simpa using hx, by rw [hρ, one_mul]⟩
  have hPs : Closes p (logQ r) (4337/50000000000) (489661/1000000) 1 := ⟨by simpa using hP.1, by simpa using hP.2⟩
  have halfs : Closes 0x3f000000#32 (1/2) 0 (1/2) 1 := ⟨by simpa using half32.1, by simpa using half32.2⟩
  have z1 : Closes w2 0 0 0 ρ := ⟨by simpa using hw2, by simp⟩
  have z2 : Closes w1 0 0 0 (ρ * ρ) := ⟨by simpa using hw1, by simp⟩
  have z := Closes.mul (W := (1)) (τ := (5961/100000000000)) hF hxs hxs sc1.pos sc1.pos sc1.le sc1.le sc2.tiny (by norm_num) (by norm_num) (by norm_num)
  have t1 := Closes.mul (W := (489661/1000000)) (τ := (29/250000000)) hF hPs hxs sc0.pos sc1.pos sc0.le sc1.le sc1b.tiny (by norm_num) (by norm_num) (by norm_num)
  have t2 := Closes.mul (W := (489661/1000000)) (τ := (109/625000000)) hF t1 z sc1b.pos sc2.pos sc1b.le sc2.le sc3.tiny (by norm_num) (by norm_num) (by norm_num)
  have t3 := Closes.rescale (W := (50707/250000)) (τ := (903/12500000000)) t2 le32 sc2.pos (by norm_num) (by norm_num) (by norm_num) (by norm_num)
  have t4 := Closes.add (W := (50707/250000)) (τ := (8433/100000000000)) hF t3 z2 sc2 (by norm_num) (by norm_num) (by norm_num)
  have h0 := Closes.mul (W := (1/2)) (τ := (5961/100000000000)) hF z halfs sc2.pos sc0.pos sc2.le sc0.le sc2b.tiny (by norm_num) (by norm_num) (by norm_num)
  rw [mul_one] at h0; have h := h0
  have t5 := Closes.sub (W := (175707/250000)) (τ := (1859/10000000000)) hF t4 h sc2 (by norm_num) (by norm_num) (by norm_num)
  have t6 := Closes.rescale (W := (145563/500000)) (τ := (7701/100000000000)) t5 le21 sc1.pos (by norm_num) (by norm_num) (by norm_num) (by norm_num)
  have t7 := Closes.add (W := (129113/100000)) (τ := (77/500000000)) hF hxs t6 sc1 (by norm_num) (by norm_num) (by norm_num)
  have t8 := Closes.add (W := (129113/100000)) (τ := (231/1000000000)) hF t7 z1 sc1 (by norm_num) (by norm_num) (by norm_num)
  have e : logP r = r + (logQ r * r * (r * r) + 0 - r * r * (1/2)) + 0 := by rw [logP_eq]; ring
  rw [e, ← hρ]; exact t8.1

end Pnumpy.Props
