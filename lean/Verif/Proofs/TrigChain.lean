import Verif.Proofs.Round
import Verif.Proofs.TrigPoly
/-
Rounding errors along the sin/cos polynomials.
-/
namespace Pnumpy.Props
open Spec Ieee Trig TrigTaylor

/-- A float close to a real number of bounded size. -/
def Closeb (E M : Nat) {k : Nat} (x : BitVec k) (a ε S : ℝ) : Prop := Close E M x a ε ∧ |a| ≤ S

theorem tiny {E M k : Nat} (h : Fmt E M k) : 1 / (floatUnit E M : ℝ) ≤ 1 / 10 ^ 40 := by
  have : (10 : ℝ) ^ 40 ≤ floatUnit E M := by
    cases h
    · rw [unit_ps]; norm_num
    · rw [unit_pd]
      have h : (2 : ℝ) ^ 149 ≤ 2 ^ 1074 := pow_le_pow_right₀ (by norm_num) (by norm_num)
      push_cast
      exact le_trans (by norm_num) h
  exact one_div_le_one_div_of_le (by positivity) this

theorem Close.eps_nonneg {E M k : Nat} {x : BitVec k} {a ε : ℝ} (h : Close E M x a ε) : 0 ≤ ε := by
  obtain ⟨v, _, h⟩ := h
  exact le_trans (abs_nonneg _) h

section
variable {F : FloatUnit} {E M k : Nat} (hfmt : Fmt E M k) (hF : IeeeArith F E M k) {p : Nat} (hp : p ≤ M + 1)
include hfmt hF hp

theorem Closeb.add {x y : BitVec k} {a b ε δ S T W τ : ℝ} (hx : Closeb E M x a ε S) (hy : Closeb E M y b δ T) (hW : S + T ≤ W)
    (h1 : W + ε + δ ≤ 2 ^ 100) (h2 : ε + δ + (W + ε + δ) / 2 ^ p + 1 / 10 ^ 40 ≤ τ) : Closeb E M (F.add k x y) (a + b) τ W := by
  have hab : |a + b| ≤ W := le_trans (abs_add_le a b) (by linarith [hx.2, hy.2])
  refine ⟨Close.weaken (Close.add hfmt hF hx.1 hy.1 (B := W + ε + δ) (by linarith) h1) ?_, hab⟩
  have h3 : (W + ε + δ) / 2 ^ (M + 1) ≤ (W + ε + δ) / 2 ^ p := by
    refine div_le_div_of_nonneg_left ?_ (by positivity) (pow_le_pow_right₀ (by norm_num) hp)
    have := abs_nonneg (a + b); linarith [Close.eps_nonneg hx.1, Close.eps_nonneg hy.1]
  linarith [tiny hfmt]

theorem Closeb.sub {x y : BitVec k} {a b ε δ S T W τ : ℝ} (hx : Closeb E M x a ε S) (hy : Closeb E M y b δ T) (hW : S + T ≤ W)
    (h1 : W + ε + δ ≤ 2 ^ 100) (h2 : ε + δ + (W + ε + δ) / 2 ^ p + 1 / 10 ^ 40 ≤ τ) : Closeb E M (F.sub k x y) (a - b) τ W := by
  have hab : |a - b| ≤ W := le_trans (abs_sub a b) (by linarith [hx.2, hy.2])
  refine ⟨Close.weaken (Close.sub hfmt hF hx.1 hy.1 (B := W + ε + δ) (by linarith) h1) ?_, hab⟩
  have h3 : (W + ε + δ) / 2 ^ (M + 1) ≤ (W + ε + δ) / 2 ^ p := by
    refine div_le_div_of_nonneg_left ?_ (by positivity) (pow_le_pow_right₀ (by norm_num) hp)
    have := abs_nonneg (a - b); linarith [Close.eps_nonneg hx.1, Close.eps_nonneg hy.1]
  linarith [tiny hfmt]

theorem Closeb.mul {x y : BitVec k} {a b ε δ S T W τ : ℝ} (hx : Closeb E M x a ε S) (hy : Closeb E M y b δ T) (hW : S * T ≤ W)
    (h1 : (S + ε) * (T + δ) ≤ 2 ^ 100) (h2 : ε * (T + δ) + (S + ε) * δ + (S + ε) * (T + δ) / 2 ^ p + 1 / 10 ^ 40 ≤ τ) :
    Closeb E M (F.mul k x y) (a * b) τ W := by
  have hS : 0 ≤ S := le_trans (abs_nonneg _) hx.2
  have hT : 0 ≤ T := le_trans (abs_nonneg _) hy.2
  have hab : |a * b| ≤ W := by rw [abs_mul]; exact le_trans (mul_le_mul hx.2 hy.2 (abs_nonneg _) hS) hW
  refine ⟨Close.weaken (Close.mul hfmt hF hx.1 hy.1 (A := S + ε) (B := T + δ) (by linarith [hx.2]) (by linarith [hy.2]) h1) ?_, hab⟩
  have h3 : (S + ε) * (T + δ) / 2 ^ (M + 1) ≤ (S + ε) * (T + δ) / 2 ^ p := by
    refine div_le_div_of_nonneg_left ?_ (by positivity) (pow_le_pow_right₀ (by norm_num) hp)
    exact mul_nonneg (by linarith [Close.eps_nonneg hx.1]) (by linarith [Close.eps_nonneg hy.1])
  linarith [tiny hfmt]

end

/-- The constants of the sin/cos polynomials, up to relative error `2^-c`. -/
structure SinCosC (E M k c : Nat) (C : MathC k) : Prop where
  s0 : Close E M C.sinP.1 (-1.9515295891E-4) (1.9516E-4 / 2 ^ c)
  s1 : Close E M C.sinP.2.1 8.3321608736E-3 (8.3322E-3 / 2 ^ c)
  s2 : Close E M C.sinP.2.2 (-1.6666654611E-1) (1.6667E-1 / 2 ^ c)
  c0 : Close E M C.cosP.1 2.443315711809948E-5 (2.4434E-5 / 2 ^ c)
  c1 : Close E M C.cosP.2.1 (-1.388731625493765E-3) (1.3888E-3 / 2 ^ c)
  c2 : Close E M C.cosP.2.2 4.166664568298827E-2 (4.1667E-2 / 2 ^ c)
  half : Close E M C.half (1/2) 0
  one : Close E M C.one 1 0

theorem chain_small {F : FloatUnit} {E M k : Nat} (hfmt : Fmt E M k) (hF : IeeeArith F E M k) (hp : 24 ≤ M + 1) {C : MathC k} (hC : SinCosC E M k 24 C)
    {x : BitVec k} {r : ℝ} (hx : Close E M x r (89/200000000)) (hr : |r| ≤ (79/100)) :
    Close E M (F.add k (F.sub k (F.mul k (F.mul k (F.add k (F.mul k (F.add k (F.mul k C.cosP.1 (F.mul k x x)) C.cosP.2.1) (F.mul k x x)) C.cosP.2.2) (F.mul k x x)) (F.mul k x x))
      (F.mul k (F.mul k x x) C.half)) C.one) (cosP r) (2657/5000000000) ∧
    Close E M (F.add k (F.mul k (F.mul k (F.add k (F.mul k (F.add k (F.mul k C.sinP.1 (F.mul k x x)) C.sinP.2.1) (F.mul k x x)) C.sinP.2.2) (F.mul k x x)) x) x) (sinP r) (6693/10000000000) := by
  replace hx : Closeb E M x r (89/200000000) (79/100) := ⟨hx, hr⟩
  have s0 : Closeb E M _ _ _ (4879/25000000) := ⟨hC.s0, by norm_num [abs_le]⟩
  have s1 : Closeb E M _ _ _ (41661/5000000) := ⟨hC.s1, by norm_num [abs_le]⟩
  have s2 : Closeb E M _ _ _ (16667/100000) := ⟨hC.s2, by norm_num [abs_le]⟩
  have c0 : Closeb E M _ _ _ (12217/500000000) := ⟨hC.c0, by norm_num [abs_le]⟩
  have c1 : Closeb E M _ _ _ (217/156250) := ⟨hC.c1, by norm_num [abs_le]⟩
  have c2 : Closeb E M _ _ _ (41667/1000000) := ⟨hC.c2, by norm_num [abs_le]⟩
  have half : Closeb E M _ _ _ (1/2) := ⟨hC.half, by norm_num [abs_le]⟩
  have one : Closeb E M _ _ _ 1 := ⟨hC.one, by norm_num [abs_le]⟩
  have z := Closeb.mul (W := (6241/10000)) (τ := (7403/10000000000)) hfmt hF hp hx hx (by norm_num) (by norm_num) (by norm_num)
  have t1 := Closeb.mul (W := (152493/10000000000)) (τ := (1991/100000000000000)) hfmt hF hp c0 z (by norm_num) (by norm_num) (by norm_num)
  have t2 := Closeb.add (W := (28081/20000000)) (τ := (233/1250000000000)) hfmt hF hp t1 c1 (by norm_num) (by norm_num) (by norm_num)
  have t3 := Closeb.mul (W := (219067/250000000)) (τ := (151/125000000000)) hfmt hF hp t2 z (by norm_num) (by norm_num) (by norm_num)
  have t4 := Closeb.add (W := (425433/10000000)) (τ := (1557/250000000000)) hfmt hF hp t3 c2 (by norm_num) (by norm_num) (by norm_num)
  have t5 := Closeb.mul (W := (265513/10000000)) (τ := (3697/100000000000)) hfmt hF hp t4 z (by norm_num) (by norm_num) (by norm_num)
  have t6 := Closeb.mul (W := (165707/10000000)) (τ := (1093/25000000000)) hfmt hF hp t5 z (by norm_num) (by norm_num) (by norm_num)
  have h := Closeb.mul (W := (6241/20000)) (τ := (243/625000000)) hfmt hF hp z half (by norm_num) (by norm_num) (by norm_num)
  have t7 := Closeb.sub (W := (328621/1000000)) (τ := (2261/5000000000)) hfmt hF hp t6 h (by norm_num) (by norm_num) (by norm_num)
  have t8 := Closeb.add (W := (132863/100000)) (τ := (2657/5000000000)) hfmt hF hp t7 one (by norm_num) (by norm_num) (by norm_num)
  have u1 := Closeb.mul (W := (609/5000000)) (τ := (159/1000000000000)) hfmt hF hp s0 z (by norm_num) (by norm_num) (by norm_num)
  have u2 := Closeb.add (W := (4227/500000)) (τ := (29/25000000000)) hfmt hF hp u1 s1 (by norm_num) (by norm_num) (by norm_num)
  have u3 := Closeb.mul (W := (105523/20000000)) (τ := (7297/1000000000000)) hfmt hF hp u2 z (by norm_num) (by norm_num) (by norm_num)
  have u4 := Closeb.add (W := (171947/1000000)) (τ := (2749/100000000000)) hfmt hF hp u3 s2 (by norm_num) (by norm_num) (by norm_num)
  have u5 := Closeb.mul (W := (107313/1000000)) (τ := (1509/10000000000)) hfmt hF hp u4 z (by norm_num) (by norm_num) (by norm_num)
  have u6 := Closeb.mul (W := (847773/10000000)) (τ := (1721/10000000000)) hfmt hF hp u5 hx (by norm_num) (by norm_num) (by norm_num)
  have u7 := Closeb.add (W := (437389/500000)) (τ := (6693/10000000000)) hfmt hF hp u6 hx (by norm_num) (by norm_num) (by norm_num)
  constructor
  · have e : cosP r = ((((((((2.443315711809948E-5 * (r * r)) + (-1.388731625493765E-3)) * (r * r)) + 4.166664568298827E-2) * (r * r)) * (r * r)) - ((r * r) * (1/2))) + 1) := by unfold cosP; ring
    rw [e]; exact t8.1
  · have e : sinP r = ((((((((-1.9515295891E-4) * (r * r)) + 8.3321608736E-3) * (r * r)) + (-1.6666654611E-1)) * (r * r)) * r) + r) := by unfold sinP; ring
    rw [e]; exact u7.1

theorem chain_large {F : FloatUnit} {E M k : Nat} (hfmt : Fmt E M k) (hF : IeeeArith F E M k) (hp : 53 ≤ M + 1) {C : MathC k} (hC : SinCosC E M k 50 C)
    {x : BitVec k} {r : ℝ} (hx : Close E M x r (9/100000000000)) (hr : |r| ≤ (1179/1000)) :
    Close E M (F.add k (F.sub k (F.mul k (F.mul k (F.add k (F.mul k (F.add k (F.mul k C.cosP.1 (F.mul k x x)) C.cosP.2.1) (F.mul k x x)) C.cosP.2.2) (F.mul k x x)) (F.mul k x x))
      (F.mul k (F.mul k x x) C.half)) C.one) (cosP r) (1327/10000000000000) ∧
    Close E M (F.add k (F.mul k (F.mul k (F.add k (F.mul k (F.add k (F.mul k C.sinP.1 (F.mul k x x)) C.sinP.2.1) (F.mul k x x)) C.sinP.2.2) (F.mul k x x)) x) x) (sinP r) (801/5000000000000) := by
  replace hx : Closeb E M x r (9/100000000000) (1179/1000) := ⟨hx, hr⟩
  have s0 : Closeb E M _ _ _ (4879/25000000) := ⟨hC.s0, by norm_num [abs_le]⟩
  have s1 : Closeb E M _ _ _ (41661/5000000) := ⟨hC.s1, by norm_num [abs_le]⟩
  have s2 : Closeb E M _ _ _ (16667/100000) := ⟨hC.s2, by norm_num [abs_le]⟩
  have c0 : Closeb E M _ _ _ (12217/500000000) := ⟨hC.c0, by norm_num [abs_le]⟩
  have c1 : Closeb E M _ _ _ (217/156250) := ⟨hC.c1, by norm_num [abs_le]⟩
  have c2 : Closeb E M _ _ _ (41667/1000000) := ⟨hC.c2, by norm_num [abs_le]⟩
  have half : Closeb E M _ _ _ (1/2) := ⟨hC.half, by norm_num [abs_le]⟩
  have one : Closeb E M _ _ _ 1 := ⟨hC.one, by norm_num [abs_le]⟩
  have z := Closeb.mul (W := (27801/20000)) (τ := (2123/10000000000000)) hfmt hF hp hx hx (by norm_num) (by norm_num) (by norm_num)
  have t1 := Closeb.mul (W := (67929/2000000000)) (τ := (1297/250000000000000000)) hfmt hF hp c0 z (by norm_num) (by norm_num) (by norm_num)
  have t2 := Closeb.add (W := (142277/100000000)) (τ := (519/100000000000000000)) hfmt hF hp t1 c1 (by norm_num) (by norm_num) (by norm_num)
  have t3 := Closeb.mul (W := (197773/100000000)) (τ := (3093/10000000000000000)) hfmt hF hp t2 z (by norm_num) (by norm_num) (by norm_num)
  have t4 := Closeb.add (W := (13639/312500)) (τ := (1547/5000000000000000)) hfmt hF hp t3 c2 (by norm_num) (by norm_num) (by norm_num)
  have t5 := Closeb.mul (W := (121337/2000000)) (τ := (303/31250000000000)) hfmt hF hp t4 z (by norm_num) (by norm_num) (by norm_num)
  have t6 := Closeb.mul (W := (843323/10000000)) (τ := (659/25000000000000)) hfmt hF hp t5 z (by norm_num) (by norm_num) (by norm_num)
  have h := Closeb.mul (W := (27801/40000)) (τ := (531/5000000000000)) hfmt hF hp z half (by norm_num) (by norm_num) (by norm_num)
  have t7 := Closeb.sub (W := (389679/500000)) (τ := (663/5000000000000)) hfmt hF hp t6 h (by norm_num) (by norm_num) (by norm_num)
  have t8 := Closeb.add (W := (11121/6250)) (τ := (1327/10000000000000)) hfmt hF hp t7 one (by norm_num) (by norm_num) (by norm_num)
  have u1 := Closeb.mul (W := (271283/1000000000)) (τ := (259/6250000000000000)) hfmt hF hp s0 z (by norm_num) (by norm_num) (by norm_num)
  have u2 := Closeb.add (W := (860349/100000000)) (τ := (829/20000000000000000)) hfmt hF hp u1 s1 (by norm_num) (by norm_num) (by norm_num)
  have u3 := Closeb.mul (W := (119593/10000000)) (τ := (377/200000000000000)) hfmt hF hp u2 z (by norm_num) (by norm_num) (by norm_num)
  have u4 := Closeb.add (W := (17863/100000)) (τ := (943/500000000000000)) hfmt hF hp u3 s2 (by norm_num) (by norm_num) (by norm_num)
  have u5 := Closeb.mul (W := (49661/200000)) (τ := (811/20000000000000)) hfmt hF hp u4 z (by norm_num) (by norm_num) (by norm_num)
  have u6 := Closeb.mul (W := (18297/62500)) (τ := (877/12500000000000)) hfmt hF hp u5 hx (by norm_num) (by norm_num) (by norm_num)
  have u7 := Closeb.add (W := (18397/12500)) (τ := (801/5000000000000)) hfmt hF hp u6 hx (by norm_num) (by norm_num) (by norm_num)
  constructor
  · have e : cosP r = ((((((((2.443315711809948E-5 * (r * r)) + (-1.388731625493765E-3)) * (r * r)) + 4.166664568298827E-2) * (r * r)) * (r * r)) - ((r * r) * (1/2))) + 1) := by unfold cosP; ring
    rw [e]; exact t8.1
  · have e : sinP r = ((((((((-1.9515295891E-4) * (r * r)) + 8.3321608736E-3) * (r * r)) + (-1.6666654611E-1)) * (r * r)) * r) + r) := by unfold sinP; ring
    rw [e]; exact u7.1

end Pnumpy.Props
