import Verif.Proofs.TrigReduce
/-
The constants of sin256/cos256 as real numbers.
-/
namespace Pnumpy.Props
open Spec Ieee Trig

theorem close_dyadic {E M k L : Nat} (hU : floatUnit E M = 2 ^ L) {x : BitVec k} {m : Int} {t s : Nat} (hv : floatValue E M x = .fin (m * 2 ^ t)) (hs : t + s = L)
    {a ε : ℝ} (ha : |(m : ℝ) / 2 ^ s - a| ≤ ε) : Close E M x a ε := by
  refine ⟨_, hv, ?_⟩
  rw [hU, ← hs]
  push_cast
  rw [pow_add, mul_comm (m : ℝ), mul_div_mul_left _ _ (by positivity)]
  exact ha

theorem close_ps {x : BitVec 32} (m : Int) (t s : Nat) (h : decide (mag 8 23 x < infMag 8 23) = true)
    (h' : (if neg 8 23 x then -(smag 23 (mag 8 23 x) : Int) else (smag 23 (mag 8 23 x) : Int)) = m * 2 ^ t) (hs : t + s = 149)
    {a ε : ℝ} (ha : |(m : ℝ) / 2 ^ s - a| ≤ ε) : Close 8 23 x a ε := close_dyadic unit_ps (val_ps h h') hs ha

theorem close_pd {x : BitVec 64} (m : Int) (t s : Nat) (h : decide (mag 11 52 x < infMag 11 52) = true)
    (h' : (if neg 11 52 x then -(smag 52 (mag 11 52 x) : Int) else (smag 52 (mag 11 52 x) : Int)) = m * 2 ^ t) (hs : t + s = 1074)
    {a ε : ℝ} (ha : |(m : ℝ) / 2 ^ s - a| ≤ ε) : Close 11 52 x a ε := close_dyadic unit_pd (val_pd h h') hs ha

theorem sinCos_ps (a b : BitVec 32 → BitVec 32) : SinCosC 8 23 32 24 (ps a b) where
  s0 := close_ps (x := 0xb94ca1f9#32) (-13410809) 113 36 (by decide +kernel) (by decide +kernel) rfl (by norm_num [abs_le])
  s1 := close_ps (x := 0x3c08839e#32) (4473295) 120 29 (by decide +kernel) (by decide +kernel) rfl (by norm_num [abs_le])
  s2 := close_ps (x := 0xbe2aaaa3#32) (-11184803) 123 26 (by decide +kernel) (by decide +kernel) rfl (by norm_num [abs_le])
  c0 := close_ps (x := 0x37ccf5ce#32) (6716135) 111 38 (by decide +kernel) (by decide +kernel) rfl (by norm_num [abs_le])
  c1 := close_ps (x := 0xbab6061a#32) (-5964557) 117 32 (by decide +kernel) (by decide +kernel) rfl (by norm_num [abs_le])
  c2 := close_ps (x := 0x3d2aaaa5#32) (11184805) 121 28 (by decide +kernel) (by decide +kernel) rfl (by norm_num [abs_le])
  half := close_ps (x := 0x3f000000#32) (1) 148 1 (by decide +kernel) (by decide +kernel) rfl (by norm_num [abs_le])
  one := close_ps (x := 0x3f800000#32) (1) 149 0 (by decide +kernel) (by decide +kernel) rfl (by norm_num [abs_le])

theorem sinCos_pd (F : FloatUnit) : SinCosC 11 52 64 50 (pd F) where
  s0 := close_pd (x := 0xbf29943f27086a6c#64) (-1799968344119963) 1011 63 (by decide +kernel) (by decide +kernel) rfl (by norm_num [abs_le])
  s1 := close_pd (x := 0x3f811073b3a82ffe#64) (2401581862754303) 1016 58 (by decide +kernel) (by decide +kernel) rfl (by norm_num [abs_le])
  s2 := close_pd (x := 0xbfc5555452709add#64) (-6004795159648989) 1019 55 (by decide +kernel) (by decide +kernel) rfl (by norm_num [abs_le])
  c0 := close_pd (x := 0x3ef99eb9c5ac8ebf#64) (7211395140325055) 1006 68 (by decide +kernel) (by decide +kernel) rfl (by norm_num [abs_le])
  c1 := close_pd (x := 0xbf56c0c33a85cd5f#64) (-6404394220637535) 1012 62 (by decide +kernel) (by decide +kernel) rfl (by norm_num [abs_le])
  c2 := close_pd (x := 0x3fa55554a115bc8f#64) (6004796479093903) 1017 57 (by decide +kernel) (by decide +kernel) rfl (by norm_num [abs_le])
  half := close_pd (x := 0x3fe0000000000000#64) (1) 1073 1 (by decide +kernel) (by decide +kernel) rfl (by norm_num [abs_le])
  one := close_pd (x := 0x3ff0000000000000#64) (1) 1074 0 (by decide +kernel) (by decide +kernel) rfl (by norm_num [abs_le])

theorem reduce_ps (a b : BitVec 32 → BitVec 32) : ReduceC 8 23 32 (ps a b) (1/500000000000000) where
  dp1 := ⟨-201 * 2 ^ 141, val_ps (x := 0xbf490000#32) (by decide +kernel) (by decide +kernel), by rw [unit_ps]; decide +kernel⟩
  dp2 := close_ps (x := 0xb97da000#32) (-2029) 126 23 (by decide +kernel) (by decide +kernel) rfl (by norm_num [abs_le])
  dp3 := close_ps (x := 0xb3222169#32) (-10625385) 101 48 (by decide +kernel) (by decide +kernel) rfl (by
    have h1 := Real.pi_gt_d20
    have h2 := Real.pi_lt_d20
    rw [abs_le]; norm_num at *; constructor <;> linarith)

theorem reduce_pd (F : FloatUnit) : ReduceC 11 52 64 (pd F) (1/100000000000000000000) where
  dp1 := ⟨-201 * 2 ^ 1066, val_pd (x := 0xbfe9200000000000#64) (by decide +kernel) (by decide +kernel), by rw [unit_pd]; decide +kernel⟩
  dp2 := close_pd (x := 0xbf2fb40000000000#64) (-2029) 1051 23 (by decide +kernel) (by decide +kernel) rfl (by norm_num [abs_le])
  dp3 := close_pd (x := 0xbe64442d18469899#64) (-5704460005709977) 997 77 (by decide +kernel) (by decide +kernel) rfl (by
    have h1 := Real.pi_gt_d20
    have h2 := Real.pi_lt_d20
    rw [abs_le]; norm_num at *; constructor <;> linarith)

theorem fopi_ps (a b : BitVec 32 → BitVec 32) : Close 8 23 (ps a b).fopi (4 / Real.pi) (6/100000000) := by
  refine close_ps (x := 0x3fa2f983#32) (10680707) 126 23 (by decide +kernel) (by decide +kernel) rfl ?_
  have h1 := Real.pi_gt_d20
  have h2 := Real.pi_lt_d20
  have hp := Real.pi_pos
  rw [abs_le, neg_le_sub_iff_le_add, sub_le_iff_le_add, div_le_iff₀ hp, ← sub_le_iff_le_add', le_div_iff₀ hp]
  norm_num at *
  constructor <;> linarith

theorem fopi_pd (F : FloatUnit) : Close 11 52 (pd F).fopi (4 / Real.pi) (3/1000000000000000) := by
  refine close_pd (x := 0x3ff45f306dc9c877#64) (5734161139222647) 1022 52 (by decide +kernel) (by decide +kernel) rfl ?_
  have h1 := Real.pi_gt_d20
  have h2 := Real.pi_lt_d20
  have hp := Real.pi_pos
  rw [abs_le, neg_le_sub_iff_le_add, sub_le_iff_le_add, div_le_iff₀ hp, ← sub_le_iff_le_add', le_div_iff₀ hp]
  norm_num at *
  constructor <;> linarith

end Pnumpy.Props
