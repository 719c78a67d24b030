import Verif.Props.FloatSum
import Verif.Spec.FloatSum
/-
Property theorem C103: float64 sums with infinities.
-/
namespace Pnumpy.Props
open Pnumpy.Spec Pnumpy.Reduce Pnumpy.Elem Pnumpy.OpTables Pnumpy.Ieee

theorem sumSpecial_append (a b : List Value) : sumSpecial (a ++ b) =
    match sumSpecial a, sumSpecial b with
    | none, t => t
    | s, none => s
    | some s, some t => addSpecial s t := by
  by_cases n1 : Value.nan ∈ a <;> by_cases n2 : Value.nan ∈ b <;> by_cases p1 : Value.pinf ∈ a <;> by_cases p2 : Value.pinf ∈ b <;>
    by_cases m1 : Value.ninf ∈ a <;> by_cases m2 : Value.ninf ∈ b <;> simp [sumSpecial, n1, n2, p1, p2, m1, m2, addSpecial]

theorem sumSpecial_perm {a b : List Value} (h : a.Perm b) : sumSpecial a = sumSpecial b := by
  simp only [sumSpecial, h.mem_iff]

theorem sumSpecial_none {l : List (BitVec 64)} (h : sumSpecial (l.map (floatValue 11 52)) = none) :
    List.Forall₂ (IsReal 11 52) l (l.map realOf) := by
  have hn : ∀ x ∈ l, floatValue 11 52 x ≠ .nan ∧ floatValue 11 52 x ≠ .pinf ∧ floatValue 11 52 x ≠ .ninf := by
    simp only [sumSpecial] at h
    split at h
    · cases h
    · split at h
      · cases h
      · split at h
        · cases h
        · rename_i h1 h2 h3
          intro x hx
          refine ⟨fun e => h1 (Or.inl ?_), fun e => h2 ?_, fun e => h3 ?_⟩ <;> exact List.mem_map.mpr ⟨x, hx, e⟩
  clear h
  induction l with
  | nil => exact .nil
  | cons x l ih =>
    refine .cons ?_ (ih fun y hy => hn y (List.mem_cons_of_mem _ hy))
    obtain ⟨h1, h2, h3⟩ := hn x List.mem_cons_self
    unfold realOf
    cases hv : floatValue 11 52 x with
    | nan => exact absurd hv h1
    | pinf => exact absurd hv h2
    | ninf => exact absurd hv h3
    | fin v => exact ⟨v, hv, rfl⟩

theorem addSpecial_fin {s : Value} {v : Int} (hs : ∀ w, s ≠ .fin w) : addSpecial s (.fin v) = some s ∧ addSpecial (.fin v) s = some s := by
  cases s <;> simp_all [addSpecial]

theorem sumSpecial_not_fin {l : List Value} {s : Value} (h : sumSpecial l = some s) : ∀ w, s ≠ .fin w := by
  simp only [sumSpecial] at h
  split at h
  · cases h; intro w; simp
  · split at h
    · cases h; intro w; simp
    · split at h
      · cases h; intro w; simp
      · cases h

/-- What the combined number is. -/
theorem combines_special {F : FloatUnit} (hF : IeeeArith F 11 52 64) (hS : IeeeSpecial F 11 52 64) {d : Nat} {l : List (BitVec 64)}
    {r : BitVec 64} (h : Combines (F.add 64) d l r) (hb : (1 + 1 / 2 ^ 53) ^ d * ((l.map realOf).map abs).sum ≤ 2 ^ 1021) :
    ∀ v, sumSpecial (l.map (floatValue 11 52)) = some v → floatValue 11 52 r = v := by
  have hu : (1 : ℝ) ≤ (1 + 1 / 2 ^ 53) := by norm_num
  induction h with
  | item d x =>
    intro v hv
    rw [List.map_singleton, sumSpecial] at hv
    cases hx : floatValue 11 52 x <;> simp [hx] at hv <;> exact hv
  | @both d l l' x y h1 h2 ih1 ih2 =>
    intro v hv
    simp only [List.map_append, List.sum_append] at hb hv
    rw [sumSpecial_append] at hv
    have n1 := abs_sum_nonneg (l.map realOf)
    have n2 := abs_sum_nonneg (l'.map realOf)
    have hp1 : (1 : ℝ) ≤ (1 + 1 / 2 ^ 53) ^ d := one_le_pow₀ hu
    have hps : (1 + 1 / 2 ^ 53 : ℝ) ^ d ≤ (1 + 1 / 2 ^ 53) ^ (d + 1) := pow_le_pow_right₀ hu (Nat.le_succ d)
    have b1 : (1 + 1 / 2 ^ 53) ^ d * ((l.map realOf).map abs).sum ≤ (2 : ℝ) ^ 1021 := by
      refine le_trans (mul_le_mul hps ?_ n1 (by linarith)) hb
      linarith
    have b2 : (1 + 1 / 2 ^ 53) ^ d * ((l'.map realOf).map abs).sum ≤ (2 : ℝ) ^ 1021 := by
      refine le_trans (mul_le_mul hps ?_ n2 (by linarith)) hb
      linarith
    cases e1 : sumSpecial (l.map (floatValue 11 52)) with
    | none =>
      obtain ⟨_, ⟨w, hw, _⟩, _⟩ := combines_error hF h1 (sumSpecial_none e1) b1
      rw [e1] at hv
      simp only at hv
      have hy := ih2 b2 v hv
      apply hS.add
      rw [hw, hy]
      exact (addSpecial_fin (sumSpecial_not_fin hv)).2
    | some s =>
      have hx := ih1 b1 s e1
      cases e2 : sumSpecial (l'.map (floatValue 11 52)) with
      | none =>
        obtain ⟨_, ⟨w, hw, _⟩, _⟩ := combines_error hF h2 (sumSpecial_none e2) b2
        rw [e1, e2] at hv
        simp only [Option.some.injEq] at hv
        subst hv
        apply hS.add
        rw [hw, hx]
        exact (addSpecial_fin (sumSpecial_not_fin e1)).1
      | some t =>
        have hy := ih2 b2 t e2
        rw [e1, e2] at hv
        apply hS.add
        rw [hx, hy]
        exact hv
  | @reorder d l l' x hp _ ih =>
    intro v hv
    refine ih ?_ v ?_
    · have : ((l.map realOf).map abs).sum = ((l'.map realOf).map abs).sum := ((hp.map _).map _).sum_eq
      rw [this]; exact hb
    · rw [sumSpecial_perm (hp.map _)]; exact hv

theorem combines_special' {F : FloatUnit} (hF : IeeeArith F 11 52 64) (hS : IeeeSpecial F 11 52 64) {d : Nat} (hd : d ≤ 2 ^ 52)
    {l : List (BitVec 64)} {r : BitVec 64} (h : Combines (F.add 64) d l r) (hb : (l.map fun x => |realOf x|).sum ≤ 2 ^ 1020) :
    ∀ v, sumSpecial (l.map (floatValue 11 52)) = some v → floatValue 11 52 r = v := by
  refine combines_special hF hS h ?_
  rw [List.map_map]
  have hn : 0 ≤ (l.map fun x => |realOf x|).sum := by
    have := abs_sum_nonneg (l.map realOf)
    rw [List.map_map] at this; exact this
  have hp := pow_bound d hd
  have h2 : (d : ℝ) / 2 ^ 52 ≤ 1 := by rw [div_le_one (by positivity)]; exact_mod_cast hd
  have h3 : (2 : ℝ) ^ 1021 = 2 * 2 ^ 1020 := by rw [← pow_succ']
  rw [h3]
  change _ * (l.map fun x => |realOf x|).sum ≤ _
  generalize (l.map fun x => |realOf x|).sum = S at *
  generalize (2 : ℝ) ^ 1020 = K at *
  refine le_trans (mul_le_mul_of_nonneg_right (le_trans hp (by linarith : _ ≤ (2 : ℝ))) hn) ?_
  linarith

/-- **C103**: with NaNs or infinities among the numbers (or as start value), whose finite members cannot overflow, the float64 sum is what
IEEE-754 says of the whole array - NaN with a NaN or with infinities of both signs, else the infinity there is - on the calling
thread and threaded, for every order the blocks and additions are done in. -/
theorem C103_float64_infinities (F : FloatUnit) (hF : IeeeArith F 11 52 64) (hS : IeeeSpecial F 11 52 64) (e : RedFunc)
    (start : Option (BitVec e.bits)) (he : ReduceKernel F .add .f64 e start) (lay : Layout) (xs : List (BitVec 64)) (init : BitVec 64)
    (hn : 0 < xs.length) (hlen : xs.length ≤ 2 ^ 51) (hz : lay = .zero → ∀ x ∈ xs, ∀ y ∈ xs, x = y)
    (hover : |realOf init| + (xs.map fun x => |realOf x|).sum ≤ 2 ^ 1020)
    (v : Value) (hv : sumSpecial (floatValue 11 52 init :: xs.map (floatValue 11 52)) = some v) :
    ∃ hb : e.bits = 64,
      (∃ r, reduceFast (e.at hb) 4 lay xs init = some r ∧ floatValue 11 52 r = v) ∧
      ∃ r, (∀ (req : Int) (mw zz : Nat) (sched : List Nat), (Work.exec (ufuncItem xs.length req mw zz) sched).pc 0 = .returned →
          threadedFast (e.at hb) 4 lay (start.map (BitVec.cast hb)) xs init (Work.kernelCalls (ufuncItem xs.length req mw zz)
            (Work.exec (ufuncItem xs.length req mw zz) sched)) = some r) ∧ floatValue 11 52 r = v := by
  obtain ⟨hb, hop, hst⟩ := f64_add_kernel he
  refine ⟨hb, ?_, ?_⟩
  · rw [hop]
    have hz0 : lay = .zero → ∀ x ∈ xs, xs[0]? = some x := by
      intro hlay x hx
      cases xs with
      | nil => cases hx
      | cons y l => simp [hz hlay y (by simp) x hx]
    obtain ⟨r, h1, h2⟩ := C103_serial (F.add 64) 4 (by decide) lay xs init hz0
    refine ⟨r, h1, ?_⟩
    have hd := passes_le 4 (by decide) lay xs.length
    exact combines_special' hF hS (by omega) h2 (by simpa using hover) v (by simpa using hv)
  · rw [hop, hst]
    obtain ⟨r, h1, h2⟩ := C103_threaded (F.add 64) 4 (by decide) lay (some 0) xs init hn hz
    refine ⟨r, h1, ?_⟩
    have hd1 := passes_le 4 (by decide) lay 16384
    have hd2 := passes_le 4 (by decide) .contiguous (xs.length / 16384 + 1)
    have hr0 : realOf (0 : BitVec 64) = 0 := by
      unfold realOf; rw [show floatValue 11 52 (0 : BitVec 64) = .fin 0 from value_zeroPattern Fmt.f64]; simp
    refine combines_special' hF hS (by omega) h2 (by
      simp only [List.map_cons, List.map_append, List.map_replicate, List.sum_cons, List.sum_append, List.sum_replicate, Option.getD_some, hr0, abs_zero, smul_zero, zero_add]
      exact hover) v ?_
    have hrep : ∀ n, sumSpecial (List.replicate n (.fin 0)) = none := by
          intro n; simp [sumSpecial, List.mem_replicate]
    rw [List.map_cons, List.map_append, List.map_replicate, Option.getD_some,
      show floatValue 11 52 (0 : BitVec 64) = .fin 0 from value_zeroPattern Fmt.f64, ← List.singleton_append,
      sumSpecial_append, sumSpecial_append, hrep]
    rw [← List.singleton_append, sumSpecial_append] at hv
    exact hv

/-- Case: +inf among `n` ones sums to +inf. -/
example (n : Nat) (hn : n < 2 ^ 51) : ∃ F e s, ReduceKernel F .add .f64 e s ∧ ∃ hb : e.bits = 64, ∃ r,
    reduceFast (e.at hb) 4 .contiguous (0x7ff0000000000000 :: List.replicate n 0x3ff0000000000000) 0 = some r ∧
      floatValue 11 52 r = .pinf := by
  obtain ⟨F, hF, hS⟩ := ieeeArith_exists Fmt.f64
  have v0 : floatValue 11 52 (0 : BitVec 64) = .fin 0 := value_zeroPattern Fmt.f64
  have v1 : floatValue 11 52 (0x3ff0000000000000 : BitVec 64) = .fin (2 ^ 1074) := by decide +kernel
  have v2 : floatValue 11 52 (0x7ff0000000000000 : BitVec 64) = .pinf := by decide +kernel
  have hu : floatUnit 11 52 = 2 ^ 1074 := by unfold floatUnit; norm_num
  have r1 : realOf (0x3ff0000000000000 : BitVec 64) = 1 := by
    unfold realOf; rw [v1, hu]
    exact div_self (by exact_mod_cast (by positivity : (2 : ℝ) ^ 1074 ≠ 0))
  have hle : (n : ℝ) ≤ 2 ^ 1020 := by
    have : (n : ℝ) ≤ 2 ^ 51 := by exact_mod_cast hn.le
    exact le_trans this (pow_le_pow_right₀ (by norm_num) (by norm_num))
  obtain ⟨hb, h, _⟩ := C103_float64_infinities F hF hS _ _ ⟨.ADD, by decide, rfl, rfl⟩ .contiguous
    (0x7ff0000000000000 :: List.replicate n 0x3ff0000000000000) 0 (by rw [List.length_cons]; omega)
    (by rw [List.length_cons, List.length_replicate]; omega) (by intro h; cases h) (by
      simp only [List.map_cons, List.map_replicate, List.sum_cons, List.sum_replicate, r1]
      simp only [realOf, v0, v2, Int.cast_zero, zero_div, abs_zero, zero_add, abs_one, nsmul_eq_mul, mul_one]
      exact hle) .pinf (by
      simp only [List.map_cons, List.map_replicate, v0, v1, v2]
      generalize (2 : Int) ^ 1074 = z
      simp [sumSpecial, List.mem_replicate])
  exact ⟨F, _, _, ⟨.ADD, by decide, rfl, rfl⟩, hb, h⟩

/-- Case: infinities of both signs give NaN. -/
example : sumSpecial [.fin 0, .pinf, .fin 3, .ninf] = some .nan := by
  simp [sumSpecial]

end Pnumpy.Props
